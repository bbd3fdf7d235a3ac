import Verif.Trans
set_option autoImplicit false

/-!
# Model of the lock of a GATT client

linux/gatt/client.go: every method takes the client's lock and keeps it until it returns (137-138, 179-180, …, 420-432); `HandleNotification` takes it too, and calls the application's handler with it (439-467), on the one goroutine that
handles the notifications of the connection, in order (linux/att/client.go:596-602). A method waits for the answers to its requests one after the other, at most two seconds each (att/client.go:509-541), but the time starts anew with every
PDU that is no answer (523-540).

Simplifications: `Addr`, `Name` and `Profile` take the lock for reading (65-82); here every method takes it exclusively. How many answers a method waits for is a number given with the call (a discovery depends on the answers; it is
finite). What the methods do is in Model.lean and Loop.lean.
-/

namespace Ble.Locking

/-- Something a handler does. -/
inductive Act where
  /-- calls a method of the same client -/
  | client
  /-- anything else that ends -/
  | other
deriving DecidableEq, Repr

inductive Phase where
  /-- waits for the lock; will wait for `w` answers -/
  | want (w : Nat)
  /-- has the lock, `w` answers to wait for -/
  | inside (w : Nat)
  | returned
deriving DecidableEq, Repr

inductive Worker where
  | idle
  /-- in `HandleNotification`, waits for the lock -/
  | want (h : List Act)
  /-- in the handler, which has this left to do -/
  | running (h : List Act)
  /-- in a method of the client called from the handler, waits for the lock -/
  | blocked (h : List Act)
deriving DecidableEq, Repr

inductive Owner where
  | call (i : Nat)
  | worker
deriving DecidableEq, Repr

structure St where
  calls : List Phase := []
  owner : Option Owner := none
  worker : Worker := .idle
  /-- notifications waiting for the worker: what their handlers do -/
  queue : List (List Act) := []

inductive Ev where
  /-- the application calls a method, from a goroutine of its own -/
  | call (w : Nat)
  /-- a notification comes in -/
  | notify (h : List Act)
  | lock (i : Nat)
  /-- the answer comes, or the two seconds are over -/
  | waitEnds (i : Nat)
  /-- a PDU that is no answer: the wait starts again -/
  | strange (i : Nat)
  | unlock (i : Nat)
  | take
  | workerLock
  | act
  /-- the method called from the handler gets the lock -/
  | inner
  | workerUnlock
deriving DecidableEq, Repr

def step (s : St) : Ev → Option St
  | .call w => some { s with calls := s.calls ++ [.want w] }
  | .notify h => some { s with queue := s.queue ++ [h] }
  | .lock i =>
    match s.calls[i]?, s.owner with
    | some (.want w), none => some { s with calls := s.calls.set i (.inside w), owner := some (.call i) }
    | _, _ => none
  | .waitEnds i =>
    match s.calls[i]? with
    | some (.inside (w + 1)) => some { s with calls := s.calls.set i (.inside w) }
    | _ => none
  | .strange i =>
    match s.calls[i]? with
    | some (.inside (_ + 1)) => some s
    | _ => none
  | .unlock i =>
    match s.calls[i]? with
    | some (.inside 0) => some { s with calls := s.calls.set i .returned, owner := none }
    | _ => none
  | .take =>
    match s.worker, s.queue with
    | .idle, h :: q => some { s with worker := .want h, queue := q }
    | _, _ => none
  | .workerLock =>
    match s.worker, s.owner with
    | .want h, none => some { s with worker := .running h, owner := some .worker }
    | _, _ => none
  | .act =>
    match s.worker with
    | .running (.other :: h) => some { s with worker := .running h }
    | .running (.client :: h) => some { s with worker := .blocked h }
    | _ => none
  | .inner =>
    match s.worker, s.owner with
    | .blocked h, none => some { s with worker := .running h }
    | _, _ => none
  | .workerUnlock =>
    match s.worker with
    | .running [] => some { s with worker := .idle, owner := none }
    | _ => none

end Ble.Locking
