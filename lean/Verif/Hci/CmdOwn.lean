import Verif.Hci.Cmd
import Verif.Hci.CmdEnc
import Verif.Hci.CmdTable
import Verif.Trans
set_option autoImplicit false

/-!
# Whose answer a command gets, and `ReadRSSI`

The command flow of `Hci/Cmd` together with a controller that answers every command it has received once, with the answer to this command, in any order and as late as it likes. Each event is tagged with the call whose command it answers.
-/

namespace Ble.CmdOwn

open Ble.Cmd

/-- An ordinary opcode: not the "no operation" 0, not a vendor command (OGF 0x3f), and not the key under which `send` keeps vendor commands (hci.go:360-367). -/
def Ordinary (oc : Nat) : Prop := oc ≠ 0 ∧ oc / 1024 ≠ 0x3f ∧ oc ≠ 0x3f

instance (oc : Nat) : Decidable (Ordinary oc) := inferInstanceAs (Decidable (_ ∧ _ ∧ _))

/-- Host and controller. -/
structure Sys where
  host : St := init
  /-- calls whose commands the controller has and has not answered -/
  pend : List Nat := []
  /-- for every event raised so far, in order: the call whose command it answers -/
  tags : List (Option Nat) := []

inductive Ev where
  /-- an action of the host -/
  | host (a : Act)
  /-- the controller answers the command of call `j` -/
  | answer (j : Nat) (e : Evt)
  /-- an event that answers no command -/
  | event (e : Evt)

/-- A step of the host: hci.go:353-442, 739-788 (`Hci/Cmd`). -/
def hostStep (t : Sys) (a : Act) : Option Sys :=
  match a with
  | .raise _ => none
  | .write i => (step t.host (.write i)).map fun s => { t with host := s, pend := t.pend ++ [i] }
  | a => (step t.host a).map fun s => { t with host := s }

def sysStep (t : Sys) : Ev → Option Sys
  | .host a => hostStep t a
  | .answer j e =>
    match t.host.callers[j]? with
    | some (oc, _) =>
      if j ∈ t.pend ∧ Ordinary oc ∧ e.opcode = some oc then
        (step t.host (.raise e)).map fun s => { host := s, pend := t.pend.erase j, tags := t.tags ++ [some j] }
      else none
    | none => none
  | .event e =>
    if e = .vendor ∨ e.opcode = some 0 ∧ (evtEffect 0 e).2 = none then
      (step t.host (.raise e)).map fun s => { t with host := s, tags := t.tags ++ [none] }
    else none

def sysRun (t : Sys) (es : List Ev) : Option Sys := runT sysStep t es

/-- The opcode of Read RSSI: cmd_gen.go:558-575. -/
def rssiOp : Nat := 0x05 <<< 10 ||| 0x0005

/-- `ReadRSSIRP`: cmd_gen.go:578-587. -/
def rssiRP : HciCmd.Reply := { name := "ReadRSSIRP", fields := [("Status", .u8), ("ConnectionHandle", .u16), ("RSSI", .i8)] }

/-- The packet of `ReadRSSI` for a connection: conn.go:541-544, cmd_gen.go:558-575. `buf` is the command buffer. -/
def rssiPacket (handle : UInt16) (buf : Bytes) : Go HciCmd.Err Bytes :=
  HciCmd.Command.packet { name := "ReadRSSI", opCode := rssiOp, len := 2, fields := [("Handle", .u16)] } [.u16 handle] buf

/-- What `Conn.ReadRSSI` returns (conn.go:544-553), and with it the client's `ReadRSSI` (att/client.go:120-122, gatt/client.go:328-333), when `send` has returned this reply (`none`: an error): the value, and whether the error is nil. The
handle in the reply is not looked at. -/
def readRSSI (reply : Option Bytes) : Go Empty (Int8 × Bool) :=
  match reply with
  | none => .ok (127, false)
  | some b =>
    match HciCmd.afterReply b (some rssiRP) with
    | .panic => .panic
    | .err _ => .ok (127, false)
    | .ok (some [.u8 st, .u16 _, .i8 v]) => if st ≠ 0 then .ok (127, false) else .ok (v, true)
    | .ok _ => .ok (127, false)

end Ble.CmdOwn
