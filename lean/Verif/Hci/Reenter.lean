import Verif.Trans
import Verif.Hci.Cmd
set_option autoImplicit false

/-!
# Model of application functions that use the device they are called by

linux/hci/hci.go:353-442 (`send`), 444-472 (`sktProcessLoop`), 609-737 (the calls of the error handler and of a synchronous advertising handler in `handleLEAdvertisingReport`), 739-788, 987-1007 (handing a reply over), 1009-1019
(`dispatchError`), 1037-1071 (opcode locks).

The event loop calls functions of the application itself: the advertising handler if it was installed as synchronous (728-729), and the error handler (584-588 for every vendor event, 604 for every bad advertising report, 769). A call of
`send` that gets no answer within three seconds calls the error handler too, before it removes its entry of `h.sent` and while it holds the lock of its opcode (420-425, 372-380, 437-439).

A function of the application is a list of actions chosen when it is called. Simplifications: a command is registered and written as soon as it has the lock of its opcode (command buffers: Cmd.lean); what replies contain is not modelled
(Cmd.lean); functions do not call `Close` (another goroutine may).
-/

namespace Ble.Reenter

/-- Something a function of the application does. -/
inductive Act where
  /-- a method that sends a command with this opcode and waits for the reply -/
  | cmd (oc : Nat)
  /-- anything else that ends -/
  | other
deriving DecidableEq, Repr

/-- Who made a call of `send`. -/
inductive Who where
  /-- a goroutine of the application -/
  | app
  /-- a function of the application called by the event loop -/
  | loop
  /-- the error handler, called by call `i` -/
  | handler (i : Nat)
deriving DecidableEq, Repr

inductive Phase where
  /-- waits for the lock of the opcode: `LockOpCode`, hci.go:372, 1053 -/
  | want
  /-- the command is written; in the `select`: hci.go:420-432 -/
  | waiting
  /-- has the reply: hci.go:429-431 -/
  | replied
  /-- woken by `Close`: hci.go:426-428 -/
  | closed
  /-- after the time-out, in the error handler, which has this left to do: hci.go:421-424 -/
  | running (r : List Act)
  /-- the same, waiting for call `j` that the handler made -/
  | blocked (r : List Act) (j : Nat)
  /-- returned; whether with a reply -/
  | done (ok : Bool)
deriving DecidableEq, Repr

structure Call where
  who : Who
  oc : Nat
  ph : Phase
deriving DecidableEq, Repr

/-- The event loop. -/
inductive Loop where
  | idle
  /-- in `p.done <- …` for call `i`: hci.go:756-761, 782-787, 1000-1005 -/
  | handing (i : Nat)
  /-- in a function of the application -/
  | running (r : List Act)
  /-- the same, waiting for call `j` that the function made -/
  | blocked (r : List Act) (j : Nat)
deriving DecidableEq, Repr

/-- Events of the controller. -/
inductive Msg where
  /-- a reply, for the entry `k` of `h.sent` -/
  | reply (k : Nat)
  /-- anything that makes the event loop call a function of the application, and what that does -/
  | callback (f : List Act)
deriving DecidableEq, Repr

structure St where
  /-- `h.done` is not closed -/
  isOpen : Bool := true
  calls : List Call := []
  /-- the opcode locks: hci.go:1032-1071 -/
  lock : Nat → Option Nat := fun _ => none
  /-- `h.sent` -/
  sent : Nat → Option Nat := fun _ => none
  loop : Loop := .idle
  evq : List Msg := []

inductive Ev where
  /-- a goroutine of the application sends a command -/
  | call (oc : Nat)
  | lock (i : Nat)
  /-- three seconds have passed: hci.go:421; what the error handler does now -/
  | timeout (i : Nat) (f : List Act)
  /-- call `i` sees that the device is closed -/
  | wake (i : Nat)
  /-- the error handler in call `i` does its next action, or goes on after its command -/
  | act (i : Nat)
  | resume (i : Nat)
  /-- call `i` clears its entry, unlocks its opcode and returns -/
  | finish (i : Nat)
  | raise (m : Msg)
  /-- the event loop takes the next event -/
  | take
  /-- the reply is received -/
  | hand
  /-- the loop gives up handing it over because the device is closed -/
  | giveUp
  /-- the same three for a function called by the loop -/
  | loopAct
  | loopResume
  | loopReturn
  | close
deriving DecidableEq, Repr

def upd {α : Type} (f : Nat → α) (k : Nat) (v : α) : Nat → α := fun x => if x = k then v else f x

def St.at_ (s : St) (i : Nat) (p : Phase) : St := { s with calls := s.calls.modify i fun c => { c with ph := p } }

/-- The entry of `h.sent` and the opcode lock: hci.go:360-367. -/
abbrev key (oc : Nat) : Nat := Cmd.key oc

def step (s : St) : Ev → Option St
  | .call oc => some { s with calls := s.calls ++ [⟨.app, oc, .want⟩] }
  | .lock i =>
    match s.calls[i]? with
    | some ⟨_, oc, .want⟩ =>
      match s.lock (key oc) with
      | none =>
        -- hci.go:339-341, 407-408: a closed device refuses the command
        if s.isOpen then some ({ s with lock := upd s.lock (key oc) (some i), sent := upd s.sent (key oc) (some i) }.at_ i .waiting)
        else some (s.at_ i (.done false))
      | some _ => none
    | _ => none
  | .timeout i f =>
    match s.calls[i]? with
    -- hci.go:1013-1015: after `Close` the handler is not called
    | some ⟨_, _, .waiting⟩ => some (s.at_ i (.running (if s.isOpen then f else [])))
    | _ => none
  | .wake i =>
    match s.calls[i]? with
    | some ⟨_, _, .waiting⟩ => if s.isOpen then none else some (s.at_ i .closed)
    | _ => none
  | .act i =>
    match s.calls[i]? with
    | some ⟨_, _, .running (.other :: r)⟩ => some (s.at_ i (.running r))
    | some ⟨_, _, .running (.cmd oc :: r)⟩ =>
      some { s.at_ i (.blocked r s.calls.length) with calls := (s.at_ i (.blocked r s.calls.length)).calls ++ [⟨.handler i, oc, .want⟩] }
    | _ => none
  | .resume i =>
    match s.calls[i]? with
    | some ⟨_, _, .blocked r j⟩ =>
      match s.calls[j]? with
      | some ⟨_, _, .done _⟩ => some (s.at_ i (.running r))
      | _ => none
    | _ => none
  | .finish i =>
    match s.calls[i]? with
    | some ⟨_, oc, .replied⟩ => some ({ s with lock := upd s.lock (key oc) none, sent := upd s.sent (key oc) none }.at_ i (.done true))
    | some ⟨_, oc, .closed⟩ => some ({ s with lock := upd s.lock (key oc) none, sent := upd s.sent (key oc) none }.at_ i (.done false))
    | some ⟨_, oc, .running []⟩ => some ({ s with lock := upd s.lock (key oc) none, sent := upd s.sent (key oc) none }.at_ i (.done false))
    | _ => none
  | .raise m => some { s with evq := s.evq ++ [m] }
  | .take =>
    match s.loop, s.evq with
    | .idle, .reply k :: q => some { s with evq := q, loop := match s.sent k with | some i => .handing i | none => .idle }
    | .idle, .callback f :: q => some { s with evq := q, loop := .running f }
    | _, _ => none
  | .hand =>
    match s.loop with
    | .handing i =>
      match s.calls[i]? with
      | some ⟨_, _, .waiting⟩ => some { s.at_ i .replied with loop := .idle }
      | _ => none
    | _ => none
  | .giveUp =>
    match s.loop with
    | .handing _ => if s.isOpen then none else some { s with loop := .idle }
    | _ => none
  | .loopAct =>
    match s.loop with
    | .running (.other :: r) => some { s with loop := .running r }
    | .running (.cmd oc :: r) => some { s with loop := .blocked r s.calls.length, calls := s.calls ++ [⟨.loop, oc, .want⟩] }
    | _ => none
  | .loopResume =>
    match s.loop with
    | .blocked r j =>
      match s.calls[j]? with
      | some ⟨_, _, .done _⟩ => some { s with loop := .running r }
      | _ => none
    | _ => none
  | .loopReturn =>
    match s.loop with
    | .running [] => some { s with loop := .idle }
    | _ => none
  | .close => some { s with isOpen := false }

/-- Any sequence of steps from an initialised device. -/
def run (es : List Ev) : Option St := runT step {} es

end Ble.Reenter
