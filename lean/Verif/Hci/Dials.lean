import Verif.Basic
import Verif.Trans
set_option autoImplicit false

/-!
# Model of calls of `Dial` from any number of goroutines

linux/hci/gap.go:201-268 (`Dial`, `cancelDial`), hci.go:790-817 (`handleLEConnectionComplete` as central) and the part of `send` (hci.go:353-442) that orders commands with the same operation code, with the controller's initiator.

The calls share the parameters of the command (`h.params.connParams`) without a lock: `Dial` writes the address type and then the address; `Send` waits for the opcode lock (hci.go:373) and only then marshals what is there by then
(hci.go:383). They also share the channel `chMasterConn` of capacity 1 (hci.go:52).

Simplifications: the address is copied in one step; the device stays open and commands are answered (Cmd.lean has the time-out); a controller announces a connection before it answers a later command (DialConn.lean has the other
case, for one call at a time); a `select` with the channel ready and a fresh 50 ms timer takes the channel; connections do not end while they wait to be taken.
-/

namespace Ble.Dials

/-- Who is dialled: the address type (random or not) and the address. -/
structure Target where
  random : Bool
  addr : Bytes
deriving DecidableEq, Repr

/-- Where a call is. -/
inductive Phase where
  /-- arguments checked, nothing written: gap.go:201-210 -/
  | called
  /-- the address type is written: gap.go:211-215 -/
  | typed
  /-- the address is written, before the opcode lock: gap.go:217-222 -/
  | ready
  /-- LE Create Connection is sent, the answer has not been handled: gap.go:222 -/
  | creating
  /-- in the select of gap.go:230-242 -/
  | waiting
  /-- before the opcode lock of the cancel command: gap.go:247 -/
  | wantCancel
  /-- LE Create Connection Cancel is sent -/
  | cancelling
  /-- in the select of gap.go:256-263 -/
  | grace
  /-- returned, with a client on this connection or with an error -/
  | done (r : Option Nat)
deriving DecidableEq, Repr

structure Call where
  want : Target
  phase : Phase
deriving DecidableEq, Repr

inductive Cmd where
  | create (t : Target)
  | cancel
deriving DecidableEq, Repr

/-- What the event loop reads from the controller, in order. -/
inductive In where
  /-- Command Status of LE Create Connection -/
  | created (ok : Bool)
  /-- Command Complete of LE Create Connection Cancel -/
  | cancelled (ok : Bool)
  /-- LE Connection Complete, role central, status 0, of the connection with this number -/
  | conn (c : Nat)
deriving DecidableEq, Repr

structure St where
  calls : List Call := []
  /-- `connParams.PeerAddressType` and `connParams.PeerAddress` -/
  shared : Target := ⟨false, List.replicate 6 0⟩
  /-- who holds the opcode lock of LE Create Connection -/
  createLock : Option Nat := none
  /-- who holds the opcode lock of LE Create Connection Cancel -/
  cancelLock : Option Nat := none
  /-- commands on their way to the controller -/
  cmds : List Cmd := []
  /-- whom the controller is trying to connect to -/
  ctl : Option Target := none
  evq : List In := []
  /-- `chMasterConn` -/
  chan : Option Nat := none
  /-- the connections the controller has made, numbered from 0 -/
  made : List Target := []
  /-- connections closed by the host because nobody took them: hci.go:811 -/
  dropped : List Nat := []
deriving DecidableEq, Repr

inductive Ev where
  | dial (t : Target)
  | setType (i : Nat)
  | setAddr (i : Nat)
  /-- call `i` gets the opcode lock, marshals and writes the command -/
  | sendCreate (i : Nat)
  | sendCancel (i : Nat)
  /-- the controller handles a command -/
  | ctlCmd
  /-- the controller connects -/
  | ctlConnect
  /-- the event loop handles an event -/
  | event
  /-- the event loop gives a connection up after 100 ms -/
  | drop
  /-- call `i` takes a connection from the channel: gap.go:237-241, 257-259 -/
  | take (i : Nat)
  /-- the context of call `i` ends or its time is up: gap.go:231-234 -/
  | interrupt (i : Nat)
  /-- 50 ms have passed: gap.go:260-262 -/
  | giveUp (i : Nat)
deriving DecidableEq, Repr

/-- Call `i` moves on. -/
def St.at (s : St) (i : Nat) (p : Phase) : St := { s with calls := s.calls.modify i fun c => { c with phase := p } }

/-- One step; `none` if it is not possible. -/
def step (s : St) : Ev → Option St
  | .dial t => some { s with calls := s.calls ++ [⟨t, .called⟩] }
  | .setType i =>
    match s.calls[i]? with
    | some c => if c.phase = .called then some ({ s with shared := { s.shared with random := c.want.random } }.at i .typed) else none
    | none => none
  | .setAddr i =>
    match s.calls[i]? with
    | some c => if c.phase = .typed then some ({ s with shared := { s.shared with addr := c.want.addr } }.at i .ready) else none
    | none => none
  | .sendCreate i =>
    match s.calls[i]?, s.createLock with
    | some c, none => if c.phase = .ready then some ({ s with createLock := some i, cmds := s.cmds ++ [Cmd.create s.shared] }.at i .creating) else none
    | _, _ => none
  | .sendCancel i =>
    match s.calls[i]?, s.cancelLock with
    | some c, none => if c.phase = .wantCancel then some ({ s with cancelLock := some i, cmds := s.cmds ++ [Cmd.cancel] }.at i .cancelling) else none
    | _, _ => none
  | .ctlCmd =>
    match s.cmds with
    | .create t :: r => if s.ctl = none then some { s with cmds := r, ctl := some t, evq := s.evq ++ [.created true] } else some { s with cmds := r, evq := s.evq ++ [.created false] }
    | .cancel :: r => some { s with cmds := r, ctl := none, evq := s.evq ++ [.cancelled s.ctl.isSome] }
    | [] => none
  | .ctlConnect =>
    match s.ctl with
    | some t => some { s with ctl := none, made := s.made ++ [t], evq := s.evq ++ [.conn s.made.length] }
    | none => none
  | .event =>
    match s.evq with
    | .created ok :: r =>
      match s.createLock with
      | some i => some ({ s with evq := r, createLock := none }.at i (if ok then .waiting else .done none))
      | none => none
    | .cancelled ok :: r =>
      match s.cancelLock with
      | some i => some ({ s with evq := r, cancelLock := none }.at i (if ok then .done none else .grace))
      | none => none
    | .conn c :: r => if s.chan = none then some { s with evq := r, chan := some c } else none
    | [] => none
  | .drop =>
    match s.evq, s.chan with
    | .conn c :: r, some _ => some { s with evq := r, dropped := s.dropped ++ [c] }
    | _, _ => none
  | .take i =>
    match s.calls[i]?, s.chan with
    | some c, some k => if c.phase = .waiting ∨ c.phase = .grace then some ({ s with chan := none }.at i (.done (some k))) else none
    | _, _ => none
  | .interrupt i =>
    match s.calls[i]? with
    | some c => if c.phase = .waiting then some (s.at i .wantCancel) else none
    | none => none
  | .giveUp i =>
    match s.calls[i]?, s.chan with
    | some c, none => if c.phase = .grace then some (s.at i (.done none)) else none
    | _, _ => none

/-- A device that has not dialled. -/
def init : St := {}

end Ble.Dials
