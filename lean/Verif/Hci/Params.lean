import Verif.Basic
set_option autoImplicit false

/-!
# Model of the validation of connection and scan parameters

linux/hci/params.go:98-185. Called from `Init` (params.go:83-96, hci.go:175-178) for the parameters set with `SetConnParams` and `SetScanParams`.
-/

namespace Ble.Params

/-- `cmd.LECreateConnection`: cmd_gen.go; the fields that are validated. -/
structure Conn where
  scanInterval : UInt16
  scanWindow : UInt16
  filterPolicy : UInt8
  peerAddrType : UInt8
  ownAddrType : UInt8
  intervalMin : UInt16
  intervalMax : UInt16
  latency : UInt16
  timeout : UInt16
  ceMin : UInt16
  ceMax : UInt16

/-- `cmd.LESetScanParameters`. -/
structure Scan where
  scanType : UInt8
  interval : UInt16
  window : UInt16
  ownAddrType : UInt8
  filterPolicy : UInt8

/-- Sixteen times the `float64` expression `(1 + latency*1.25) * (intervalMax*1.25) * 2`, params.go:129. Every intermediate value is a multiple of 1/16 below 2^40, so the floating-point
computation is exact. -/
def minStoMs16 (latency intervalMax : Nat) : Nat := (4 + latency * 5) * (intervalMax * 5) * 2

/-- Sixteen times `float64(timeout) * 10`, params.go:130. -/
def stoMs16 (timeout : Nat) : Nat := timeout * 10 * 16

/-- `ValidateConnParams`: params.go:123-185. The switch takes the first case that holds; all cases are errors. -/
def validateConn (p : Conn) : Bool :=
  if p.scanInterval.toNat < 0x0004 || p.scanInterval.toNat > 0x4000 then false
  else if p.scanWindow.toNat < 0x0004 || p.scanWindow.toNat > 0x4000 then false
  else if p.scanWindow > p.scanInterval then false
  else if p.filterPolicy ≠ 0 && p.filterPolicy ≠ 1 then false
  else if p.ownAddrType ≠ 0 && p.ownAddrType ≠ 1 then false
  else if p.peerAddrType ≠ 0 && p.peerAddrType ≠ 1 then false
  else if p.intervalMax.toNat < 0x0006 || p.intervalMax.toNat > 0x0c80 then false
  else if p.intervalMin.toNat < 0x0006 || p.intervalMin.toNat > 0x0c80 then false
  else if p.intervalMin > p.intervalMax then false
  else if p.latency.toNat < 0x0000 || p.latency.toNat > 0x01f3 then false
  else if p.timeout.toNat < 0x000a || p.timeout.toNat > 0x0c80 then false
  else if stoMs16 p.timeout.toNat < minStoMs16 p.latency.toNat p.intervalMax.toNat then false
  else if p.ceMin.toNat < 0x0000 || p.ceMin.toNat > 0xffff then false
  else if p.ceMax.toNat < 0x0000 || p.ceMax.toNat > 0xffff then false
  else if p.ceMin > p.ceMax then false
  else true

/-- `ValidateScanParams`: params.go:98-121. -/
def validateScan (p : Scan) : Bool :=
  if p.scanType ≠ 1 && p.scanType ≠ 0 then false
  else if p.interval.toNat < 0x0004 || p.interval.toNat > 0x4000 then false
  else if p.window.toNat < 0x0004 || p.window.toNat > 0x4000 then false
  else if p.window > p.interval then false
  else if p.ownAddrType ≠ 0 && p.ownAddrType ≠ 1 then false
  else if p.filterPolicy ≠ 0 && p.filterPolicy ≠ 1 then false
  else true

/-- `params.init`: params.go:51-81. -/
def defaultConn : Conn :=
  { scanInterval := 0x40, scanWindow := 0x40, filterPolicy := 0, peerAddrType := 0, ownAddrType := 0, intervalMin := 6, intervalMax := 6, latency := 0, timeout := 0x400, ceMin := 0, ceMax := 0 }

def defaultScan : Scan := { scanType := 1, interval := 4, window := 4, ownAddrType := 0, filterPolicy := 0 }

end Ble.Params
