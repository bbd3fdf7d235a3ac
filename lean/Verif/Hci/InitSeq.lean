import Verif.Hci.Init
import Verif.Hci.Params
set_option autoImplicit false

/-!
# Model of the whole of `HCI.Init`: the commands it sends, in order, and when it fails

linux/hci/hci.go:145-193 (`Init`), 262-309 (`init`), 312-325 (`Send`), 353-443 (`send`). The transport and the controller behind it are arbitrary.
-/

namespace Ble.InitSeq

open Ble.HciCmd Ble.HciInit

/-- Transport and controller, with a state of their own. -/
structure Link (γ : Type) where
  /-- `h.err != nil`: hci.go:354. The reading goroutine and `send` set it, `cleanup` clears it. -/
  failed : γ → Bool
  /-- `getTxBuf`: hci.go:336-351: whether a command may be sent before the time-out (the controller allows it). -/
  ready : γ → γ × Bool
  /-- A packet is written; the reply of `send`, `none` if there is none in three seconds, the write failed or the device is closed: hci.go:406-442. -/
  xchg : γ → Bytes → γ × Option Bytes

variable {γ : Type}

/-- A command of the table, by name. -/
def named (n : String) : Command := (commands.find? (·.name == n)).getD { name := "", opCode := 0, len := 0, fields := [] }

/-- The packet of a command: `Command.packet`, which neither fails nor depends on the old contents of the buffer (`hci_cmd_packet`). -/
def octets (c : Command) (vs : List Val) : Bytes := match c.packet vs (List.replicate 64 0) with | .ok p => p | _ => []

/-- A state of the link, the packets written so far. -/
structure Run (γ : Type) where
  st : γ
  out : List Bytes

/-- `send`: hci.go:353-443, one call at a time (the opcode is free). -/
def send (l : Link γ) (r : Run γ) (c : Command) (vs : List Val) : Run γ × Option Bytes :=
  if l.failed r.st then (r, none)
  else
    let a := l.ready r.st
    if a.2 then
      let x := l.xchg a.1 (octets c vs)
      (⟨x.1, r.out ++ [octets c vs]⟩, x.2)
    else (⟨a.1, r.out⟩, none)

/-- The reply struct after a `Send` whose error is dropped, see `HciInit.fields`. -/
def fieldsOf (o : Option Bytes) (r : Reply) : List Val :=
  match o with
  | none => decodeAll r.tys (List.replicate (r.tys.map Ty.size).sum 0)
  | some b => match afterReply b (some r) with
    | .ok (some vs) => vs
    | _ => decodeAll r.tys (List.replicate (r.tys.map Ty.size).sum 0)

/-- `init`: hci.go:262-309, up to `return h.err`. -/
def init (l : Link γ) (s : γ) : Run γ × Adapter :=
  let r0 := send l ⟨s, []⟩ (named "Reset") []
  let r1 := send l r0.1 (named "ReadBDADDR") []
  let r2 := send l r1.1 (named "ReadBufferSize") []
  let r3 := send l r2.1 (named "LEReadBufferSize") []
  let r4 := send l r3.1 (named "LEReadAdvertisingChannelTxPower") []
  let r5 := send l r4.1 (named "LESetEventMask") [.u64 0x000000000000001F]
  let r6 := send l r5.1 (named "SetEventMask") [.u64 0x3dbff807fffbffff]
  let r7 := send l r6.1 (named "WriteLEHostSupport") [.u8 1, .u8 0]
  let r8 := send l r7.1 (named "LEWriteSuggestedDefaultDataLength") [.u16 251, .u16 2120]
  let acl := aclBuf (fieldsOf r2.2 bufRP)
  let le := leBuf (fieldsOf r3.2 leBufRP)
  (r8.1,
    { addr := addrOf (fieldsOf r1.2 bdaddrRP)
      bufSize := if le.2 ≠ 0 then le.1 else acl.1
      bufCnt := if le.2 ≠ 0 then le.2 else acl.2
      txPower := powerOf (fieldsOf r4.2 txPowerRP) })

/-- The parameters of a device that matter here: params.go:35-47. -/
structure Cfg where
  conn : Params.Conn
  scan : Params.Scan
  /-- `advParams`, in the order of its fields -/
  advIntervalMin : UInt16
  advIntervalMax : UInt16
  advType : UInt8
  advOwn : UInt8
  advDirectType : UInt8
  advDirect : Bytes
  advMap : UInt8
  advFilter : UInt8

def Cfg.advVals (c : Cfg) : List Val :=
  [.u16 c.advIntervalMin, .u16 c.advIntervalMax, .u8 c.advType, .u8 c.advOwn, .u8 c.advDirectType, .bytes c.advDirect, .u8 c.advMap, .u8 c.advFilter]

def Cfg.scanVals (c : Cfg) : List Val := [.u8 c.scan.scanType, .u16 c.scan.interval, .u16 c.scan.window, .u8 c.scan.ownAddrType, .u8 c.scan.filterPolicy]

/-- `params.init`: params.go:51-69. -/
def defaultCfg : Cfg :=
  { conn := Params.defaultConn, scan := Params.defaultScan, advIntervalMin := 0x20, advIntervalMax := 0x20, advType := 0, advOwn := 0, advDirectType := 0,
    advDirect := [0, 0, 0, 0, 0, 0], advMap := 7, advFilter := 0 }

/-- `Init`, once the transport is there: hci.go:172-193, params.go:83-96. The packets written and the state of the link, and the adapter and its pool of transmit buffers if it succeeds. -/
def start (l : Link γ) (s : γ) (c : Cfg) : Run γ × Option (Adapter × PoolCfg) :=
  if Params.validateConn c.conn && Params.validateScan c.scan then
    let r := init l s
    if l.failed r.1.st then (r.1, none)
    else match newPool r.2 with
      | none => (r.1, none)
      | some p =>
        let r1 := send l r.1 (named "LESetAdvertisingParameters") c.advVals
        let r2 := send l r1.1 (named "LESetScanParameters") c.scanVals
        (r2.1, some (r.2, p))
  else (⟨s, []⟩, none)

/-- The codes with an entry in `evth`, hci.go:146-151, and in `subh`, hci.go:153-161, where there is one under the code of an event too. -/
def handledEvents : List Nat := [0x3E, 0x0E, 0x0F, 0x05, 0x13, 0x08]
def handledSubevents : List Nat := [0x02, 0x01, 0x03, 0x05, 0x06, 0x30]

end Ble.InitSeq
