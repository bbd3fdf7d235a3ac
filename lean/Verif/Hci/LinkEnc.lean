import Verif.Hci.Links
set_option autoImplicit false

/-!
# Encryption events and commands of connections, over links that come and go

linux/hci/hci.go:911-923 (`handleEncryptionChange`), conn.go:157-183 (`StartEncryption`), 270-328 (`encrypt`, `stkEncrypt`), 458-481 (`handleEncryptionChanged`), 540-554 (`ReadRSSI`), linux/hci/smp/manager.go:142-148, signal.go:235-277 (`handleConnectionParameterUpdateRequest`), over the connections and links of
`Links`. An Encryption Change event waits among the other events until the host handles it; its place is the number of the other events that are ahead of it. Simplifications: those of `Links`; whether the channel of the application takes what
`handleEncryptionChanged` offers to it (475-480) is not modelled, nor is the removal of the bond if the status is not zero (462-466; `Encrypt` has it); a command is one step (its answer: `Cmd`, `Rssi`); of the packets a connection receives only parameter update requests in one fragment make
commands here, the others do not.
-/

namespace Ble.LinkEnc

open Ble.Conns

/-- What an Encryption Change event says: status and `Encryption_Enabled` [Vol 4, Part E, 7.7.8]. -/
structure Report where
  status : UInt8
  enabled : UInt8
deriving DecidableEq, Repr

/-- An Encryption Change event on its way to the host: the controller raised it for link `link`, it carries `handle`. -/
structure News where
  link : Nat
  handle : Nat
  report : Report
  /-- how many of the other events are ahead of it -/
  ahead : Nat
deriving DecidableEq

/-- The commands that name a connection and are made by its methods. -/
inductive Command where
  /-- LE Start Encryption -/
  | encrypt
  /-- Read RSSI -/
  | rssi
  /-- LE Connection Update -/
  | update
deriving DecidableEq

structure State where
  base : Links.State
  /-- Encryption Change events the host has not handled yet -/
  waiting : List News
  /-- `encryptionEnabled` of each connection: conn.go:71 -/
  enc : Nat → Bool
  /-- what was offered to the application on each connection, in order: conn.go:470-480 -/
  offered : List (Nat × Report)
  /-- what the controller has reported about each link, in order -/
  reported : List (Nat × Report)
  /-- the commands made, in order: the connection, the command, and the link the controller takes it for -/
  commands : List (Nat × Command × Option Nat)
  /-- how many of the packets received on each connection its reader has handled: conn.go:121-141 -/
  read : Nat → Nat

/-- The state after `Init`: hci.go:141-192; a new connection is not encrypted (conn.go:89-112). -/
def init (smp handler : Bool) (scan : AdvHist.Scan) : State := ⟨Links.init smp handler scan, [], fun _ => false, [], [], [], fun _ => 0⟩

inductive Ev where
  /-- a step of the links and connections -/
  | base (e : Links.Ev)
  /-- encryption of link `i` is switched on or off, or fails -/
  | change (i : Nat) (r : Report)
  /-- the host handles the next event, which is an Encryption Change event: hci.go:911-923 -/
  | handleNews
  /-- `StartEncryption` of connection `i`; `key`: there is a key for its peer: conn.go:157-183 -/
  | startEncryption (i : Nat) (key : Bool)
  /-- `ReadRSSI` of connection `i`: conn.go:540-543 -/
  | readRSSI (i : Nat)
  /-- the reader of connection `i` handles the next packet: conn.go:394-455 -/
  | reader (i : Nat)

/-- A Connection Parameter Update Request in one fragment: ACL header, L2CAP header with the signalling channel, code, identifier, length, four parameters (signal.go:251-254). -/
def isUpdateRequest (p : Bytes) : Bool :=
  match p with
  | _ :: _ :: _ :: _ :: _ :: _ :: c0 :: c1 :: code :: _ :: l0 :: l1 :: params => c0 == 0x05 && c1 == 0 && code == 0x12 && l0 == 8 && l1 == 0 && params.length == 8
  | _ => false

/-- The place of an event when one of the other events ahead of it has been handled. -/
def News.forward (n : News) : News := { n with ahead := n.ahead - 1 }

/-- `handleEncryptionChanged` of connection `k` (conn.go:458-481): without a security manager a failure status is a nil dereference (463). -/
def told (s : State) (k : Nat) (r : Report) : Option State :=
  match s.base.host.conns[k]? with
  | some c =>
    if r.status ≠ 0 ∧ c.smp = false then none
    else some { s with enc := fun x => if x = k then r.enabled == 1 else s.enc x, offered := s.offered ++ [(k, r)] }
  | none => none

def step (s : State) : Ev → Option State
  | .base .handle =>
    -- the events are handled in their order
    if (s.waiting.head?.map (·.ahead)) = some 0 then none
    else match Links.step s.base .handle with
      | some b => some { s with base := b, waiting := s.waiting.map News.forward }
      | none => none
  | .base e =>
    match Links.step s.base e with
    | some b => some { s with base := b }
    | none => none
  | .change i r =>
    match s.base.links[i]? with
    | some l => if l.up then some { s with waiting := s.waiting ++ [⟨i, l.handle, r, s.base.notes.length⟩], reported := s.reported ++ [(i, r)] } else none
    | none => none
  | .handleNews =>
    match s.waiting with
    | [] => none
    | n :: rest =>
      if n.ahead = 0 then
        match s.base.host.table n.handle with
        -- hci.go:915: unknown handle, logged
        | none => some { s with waiting := rest }
        | some k => told { s with waiting := rest } k n.report
      else none
  | .startEncryption i key =>
    match s.base.host.conns[i]? with
    | some c =>
      if s.enc i then some s
      else if c.smp = false then none
      else if key then some { s with commands := s.commands ++ [(i, .encrypt, Links.target s.base.links c.handle)] }
      else some s
    | none => none
  | .readRSSI i =>
    match s.base.host.conns[i]? with
    | some c => some { s with commands := s.commands ++ [(i, .rssi, Links.target s.base.links c.handle)] }
    | none => none
  | .reader i =>
    match s.base.host.conns[i]? with
    | some c =>
      match c.rx[s.read i]? with
      | some p =>
        let s' := { s with read := fun x => if x = i then s.read i + 1 else s.read x }
        -- signal.go:242: a slave rejects the request
        if isUpdateRequest p && !c.slave then some { s' with commands := s.commands ++ [(i, .update, Links.target s.base.links c.handle)] }
        else some s'
      | none => none
    | none => none

def run : State → List Ev → Option State := runT step

end Ble.LinkEnc
