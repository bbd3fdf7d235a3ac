import Verif.Hci.CmdTable
import Verif.Smp.Machine
set_option autoImplicit false

/-!
# Model of `HCI.Init` and of the addresses a pairing starts from

linux/hci/hci.go:145-193 (`Init`), 262-309 (`init`), linux/hci/buffer.go:19-28 (`NewPool`), linux/hci/conn.go:256-268 (`initPairingContext`), 532-538. The controller is a function from
opcodes to replies; how commands and replies are matched is in `Hci/Cmd.lean`.
-/

namespace Ble.HciInit

open Ble.HciCmd

/-- What `send` returns for a command with this opcode: the reply, or `none` for an error (no reply, closed). -/
abbrev Ctl := Nat → Option Bytes

/-- The reply structs as they are after `Send`, whose error is dropped: hci.go:266-304. They are zero unless `Send` got to `Unmarshal` and that succeeded (cmd.go:28: `binary.Read` fills a struct from a
full-length buffer or not at all). -/
def fields (c : Ctl) (op : Nat) (r : Reply) : List Val :=
  match c op with
  | none => decodeAll r.tys (List.replicate (r.tys.map Ty.size).sum 0)
  | some b => match afterReply b (some r) with
    | .ok (some vs) => vs
    | _ => decodeAll r.tys (List.replicate (r.tys.map Ty.size).sum 0)

/-- cmd_gen.go:547-555. -/
def bdaddrRP : Reply := { name := "ReadBDADDRRP", fields := [("Status", .u8), ("BDADDR", .bytes 6)] }
/-- cmd_gen.go:514-525. -/
def bufRP : Reply :=
  { name := "ReadBufferSizeRP", fields := [("Status", .u8), ("HCACLDataPacketLength", .u16), ("HCSynchronousDataPacketLength", .u8), ("HCTotalNumACLDataPackets", .u16), ("HCTotalNumSynchronousDataPackets", .u16)] }
/-- cmd_gen.go:639-648. -/
def leBufRP : Reply := { name := "LEReadBufferSizeRP", fields := [("Status", .u8), ("HCLEDataPacketLength", .u16), ("HCTotalNumLEDataPackets", .u8)] }
/-- cmd_gen.go:767-775. -/
def txPowerRP : Reply := { name := "LEReadAdvertisingChannelTxPowerRP", fields := [("Status", .u8), ("TransmitPowerLevel", .u8)] }

/-- What `init` sets: hci.go:266-296. -/
structure Adapter where
  /-- `h.addr`, most significant byte first -/
  addr : Bytes
  bufSize : Nat
  bufCnt : Nat
  /-- `h.txPwrLv` -/
  txPower : Int
deriving DecidableEq, Repr

/-- `h.addr = []byte{a[5], a[4], a[3], a[2], a[1], a[0]}`: hci.go:270-271. -/
def addrOf : List Val → Bytes
  | [_, .bytes [a0, a1, a2, a3, a4, a5]] => [a5, a4, a3, a2, a1, a0]
  | _ => []

/-- hci.go:279-280. -/
def aclBuf : List Val → Nat × Nat
  | [_, .u16 len, _, .u16 cnt, _] => (len.toNat, cnt.toNat)
  | _ => (0, 0)

/-- hci.go:285-289. -/
def leBuf : List Val → Nat × Nat
  | [_, .u16 len, .u8 cnt] => (len.toNat, cnt.toNat)
  | _ => (0, 0)

/-- hci.go:294. -/
def powerOf : List Val → Int
  | [_, .u8 p] => (p.toNat : Int)
  | _ => 0

/-- `init`, without the commands whose replies are not used: hci.go:262-309. -/
def init (c : Ctl) : Adapter :=
  let acl := aclBuf (fields c 0x1005 bufRP)
  let le := leBuf (fields c 0x2002 leBufRP)
  { addr := addrOf (fields c 0x1009 bdaddrRP)
    bufSize := if le.2 ≠ 0 then le.1 else acl.1
    bufCnt := if le.2 ≠ 0 then le.2 else acl.2
    txPower := powerOf (fields c 0x2007 txPowerRP) }

/-- The pool of transmit buffers: how many, and how many bytes of an L2CAP PDU each takes. -/
structure PoolCfg where
  cnt : Nat
  room : Nat
deriving DecidableEq, Repr

/-- `NewPool(1+4+h.bufSize, h.bufCnt-1)`: hci.go:186, buffer.go:19-28. `none` is the error. -/
def newPool (a : Adapter) : Option PoolCfg := if (a.bufCnt : Int) - 1 ≤ 0 then none else some ⟨a.bufCnt - 1, a.bufSize⟩

/-- `Init` from the commands on: hci.go:181-193. -/
def start (c : Ctl) : Option (Adapter × PoolCfg) := (newPool (init c)).map fun p => (init c, p)

/-- What `initPairingContext` gives to the pairing: conn.go:256-268: the adapter's address, a type guessed from its two top bits (`Smp.localType`), the peer's address (conn.go:535-538: reversed, via a text
and back, see C48) and the peer's type from the connection event. -/
def pairingStart {P : Smp.Prims} (cfg : Smp.Config) (a : Adapter) (peer : Bytes) (peerType : UInt8) : Smp.Mgr P :=
  Smp.newMgr cfg a.addr peer.reverse (Smp.localType a.addr) peerType

end Ble.HciInit
