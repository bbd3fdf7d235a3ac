import Verif.Basic
set_option autoImplicit false

/-!
# Closing the device, and the failure of the transport

linux/hci/hci.go:195-223 (`cleanup`), 226-239 (`Close`), 241 (`Error`), 312-442 (`Send`), 444-525 (`sktProcessLoop`, `sktReadLoop`, `close`), 790-839 (`handleLEConnectionComplete`), 1009-1019 (`dispatchError`), linux/hci/gap.go:184-268 (`Accept`,
`Dial`), as a transition system whose steps are the points where goroutines meet. `h.err` is read and written without a lock; reads and writes are taken to be atomic.

Simplifications: what a packet contains is not modelled beyond its kind; the command buffers (Cmd.lean) are never exhausted; a call of `Send` is one step up to the write and one step from the wake-up to its return; two commands with the same opcode
exclude each other, which only delays them; `cancelDial` is part of the step `giveUp`; at most one connection made as central waits in `chMasterConn`.
-/

namespace Ble.Shutdown

/-- Values of `h.err`. -/
inductive Err where
  | eof
  | read
  | send
deriving DecidableEq, Repr

/-- What the controller sends. -/
inductive Item where
  /-- Command Complete or Command Status for the command of call `i`, with status 0 -/
  | reply (i : Nat)
  /-- LE Connection Complete, the device is peripheral -/
  | slave
  /-- LE Connection Complete, the device is central -/
  | master
  /-- anything else -/
  | other
deriving DecidableEq, Repr

/-- What a call returned. -/
inductive Res where
  /-- a nil error, and for `Dial` and `Accept` a connection -/
  | ok
  | err
  /-- `Dial` or `Accept` returned neither a connection nor an error -/
  | nothing
deriving DecidableEq, Repr

/-- A call. -/
inductive Call where
  /-- `Send` in its `select` (hci.go:419-431); `reply`: the caller wants the return parameters (`r != nil`) -/
  | send (reply : Bool)
  /-- `Dial` inside `Send` -/
  | dialSend
  /-- `Dial` after `Send` returned nil, before it evaluates `h.chMasterConn` -/
  | dialling
  /-- `Dial` in its `select` (gap.go:228-240); `chan`: `h.chMasterConn` was not nil when it was evaluated -/
  | dialWait (chan : Bool)
  /-- `Accept` in its `select` (gap.go:189-196) -/
  | accept
  | ret (r : Res)
deriving DecidableEq, Repr

/-- `sktProcessLoop`. -/
inductive Proc where
  | loop
  /-- in `handleLEConnectionComplete`, sending on the unbuffered `chSlaveConn` (hci.go:822) -/
  | offering
  /-- has set `h.err = io.EOF` (hci.go:456, 462), deferred calls to come -/
  | leaving
  /-- after `cleanup` -/
  | finished
deriving DecidableEq, Repr

structure St where
  /-- `h.err` -/
  err : Option Err := none
  /-- `h.done` is closed -/
  done : Bool := false
  /-- the socket has not been closed by the host -/
  skt : Bool := true
  /-- the transport has failed -/
  broken : Bool := false
  /-- `sktRxChan` (16 places) and whether it is closed -/
  rx : List Item := []
  rxClosed : Bool := false
  /-- `sktReadLoop` is running -/
  reader : Bool := true
  proc : Proc := .loop
  /-- a connection waits in `chMasterConn` -/
  master : Bool := false
  /-- `cleanup` has run (which connections it announces as disconnected: Conns.lean) -/
  cleaned : Bool := false
  calls : List Call := []
  /-- the commands whose reply has been handled -/
  answered : List Nat := []
  /-- what the error handler of the application was called with by `sktProcessLoop`; `none` is a nil error -/
  told : List (Option Err) := []
deriving DecidableEq, Repr

inductive Ev where
  /-- `Close` -/
  | close
  /-- the transport fails -/
  | fail
  /-- `sktReadLoop` reads a packet -/
  | read (i : Item)
  /-- `sktReadLoop` gets an error and returns: hci.go:494-501 -/
  | readFail
  /-- `sktReadLoop` sees that the device is closed: hci.go:488-491, 513-516 -/
  | readStop
  /-- `sktProcessLoop` handles a packet -/
  | handle
  /-- `sktProcessLoop` sees that the device is closed: hci.go:454-457 -/
  | procDone
  /-- `sktProcessLoop` sees that `sktRxChan` is closed: hci.go:460-463 -/
  | procClosed
  /-- `sktProcessLoop` hands the new connection to an `Accept` -/
  | deliver (i : Nat)
  /-- the deferred `dispatchError(h.err)` and `cleanup` -/
  | cleanup
  /-- a call of `Send` -/
  | send (reply : Bool)
  | dial
  | accept
  /-- `Dial` enters its `select` -/
  | enter (i : Nat)
  /-- the call sees that the device is closed: hci.go:426-428, gap.go:190-191, 235-236 -/
  | wake (i : Nat)
  /-- `Dial` receives from `chMasterConn` -/
  | connected (i : Nat)
  /-- a timer or the context ends the call: hci.go:421, gap.go:194, 231-234 -/
  | giveUp (i : Nat)
deriving DecidableEq, Repr

/-- `Send` up to its `select`: hci.go:353-418. `w`: the state of a call that waits. -/
def begin (s : St) (w : Call) : St :=
  match s.err with
  | some _ => { s with calls := s.calls ++ [.ret .err] }
  | none =>
    if s.done then { s with calls := s.calls ++ [.ret .err] }
    else if s.skt && !s.broken then { s with calls := s.calls ++ [w] }
    else { s with err := some .send, skt := false, calls := s.calls ++ [w] }

/-- What a call that waits does when it sees that the device is closed; `err` is `h.err` at that time. `Send` with a nil error and no parameters goes on to `Unmarshal`, which fails on no bytes, or returns nil: hci.go:312-325. -/
def woken (err : Option Err) : Call → Option Call
  | .send reply => some (if err.isSome || reply then .ret .err else .ret .ok)
  | .dialSend => some (if err.isSome then .ret .err else .dialling)
  | .dialWait _ => some (if err.isSome then .ret .err else .ret .nothing)
  | .accept => some (if err.isSome then .ret .err else .ret .nothing)
  | _ => none

/-- `handlePkt`: hci.go:527. A command whose call does not wait any more is not in `h.sent`. -/
def handle (s : St) : Item → St
  | .reply i =>
    match s.calls[i]? with
    | some (.send _) => { s with calls := s.calls.set i (.ret .ok), answered := s.answered ++ [i] }
    | some .dialSend => { s with calls := s.calls.set i .dialling, answered := s.answered ++ [i] }
    | _ => s
  | .slave => { s with proc := .offering }
  | .master => { s with master := true }
  | .other => s

/-- One step; `none` when it cannot happen in this state. -/
def step (s : St) : Ev → Option St
  | .close => some { s with done := true }
  | .fail => some { s with broken := true }
  | .read i => if s.reader && s.skt && !s.broken && s.rx.length < 16 then some { s with rx := s.rx ++ [i] } else none
  | .readFail => if s.reader && (!s.skt || s.broken) then some { s with err := some .read, rxClosed := true, reader := false } else none
  | .readStop => if s.reader && s.done then some { s with rxClosed := true, reader := false } else none
  | .handle =>
    match s.proc, s.rx with
    | .loop, i :: rest => some (handle { s with rx := rest } i)
    | _, _ => none
  | .procDone => if s.proc = .loop ∧ s.done then some { s with err := some .eof, proc := .leaving } else none
  | .procClosed => if s.proc = .loop ∧ s.rx = [] ∧ s.rxClosed then some { s with err := some .eof, proc := .leaving } else none
  | .deliver i => if s.proc = .offering ∧ s.calls[i]? = some .accept then some { s with proc := .loop, calls := s.calls.set i (.ret .ok) } else none
  | .cleanup =>
    -- `defer h.dispatchError(h.err)` evaluates `h.err` when the loop starts, where it is nil
    if s.proc = .leaving then some { s with err := none, skt := false, proc := .finished, cleaned := true, told := if s.done then s.told else s.told ++ [none] } else none
  | .send reply => some (begin s (.send reply))
  | .dial => some (begin s .dialSend)
  | .accept => some { s with calls := s.calls ++ [.accept] }
  | .enter i => if s.calls[i]? = some .dialling then some { s with calls := s.calls.set i (.dialWait (s.proc ≠ .finished)) } else none
  | .wake i =>
    match s.calls[i]? with
    | none => none
    | some c =>
      match woken s.err c with
      | some c' => if s.done then some { s with calls := s.calls.set i c' } else none
      | none => none
  | .connected i =>
    if s.calls[i]? = some (.dialWait true) then
      if s.master then some { s with master := false, calls := s.calls.set i (.ret .ok) }
      else if s.proc = .finished then some { s with calls := s.calls.set i (.ret .err) }
      else none
    else none
  | .giveUp i =>
    match s.calls[i]? with
    | none => none
    | some (.ret _) => none
    | some .dialling => none
    | some _ => some { s with calls := s.calls.set i (.ret .err) }

def run (s : St) : List Ev → Option St
  | [] => some s
  | e :: es =>
    match step s e with
    | none => none
    | some s' => run s' es

/-- A device that has been initialised. -/
def init : St := {}

end Ble.Shutdown
