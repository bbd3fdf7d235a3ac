import Verif.Basic
set_option autoImplicit false

/-!
# Model of `ble.Connect`, `ble.Scan` and `ble.Find`

gatt.go:85-149, linux/device.go:211-225 (`Device.Scan`), linux/hci/hci.go:728-732 (how the handler is called), as transition systems whose steps are the points where goroutines meet. `α` is the type of advertisements, `f` the filter of the
application. Reports reach the handler through the event loop (AdvHist.lean); scanning itself is a command (Cmd.lean), `Dial` is in Dial.lean.

Simplifications: one `Connect` or `Find` at a time; the signal handler of `trap` is not modelled; an answer to the command that stops scanning needs the event loop and is one step.
-/

namespace Ble.Connect

variable {α : Type}

/-- State of a context: `ctx.Err()` is nil, `context.Canceled` or `context.DeadlineExceeded`. -/
inductive Ctx where
  | active
  | canceled
  | deadline
deriving DecidableEq, Repr

/-- Where `Connect` is. -/
inductive Phase (α : Type) where
  /-- before the scan is enabled: gatt.go:141, device.go:212-218 -/
  | starting
  /-- in `<-ctx.Done()` of `Device.Scan`: device.go:219 -/
  | scanning
  /-- in `StopScanning`: device.go:220 -/
  | stopping
  /-- in `<-ch`: gatt.go:147 -/
  | receiving
  /-- in `Dial`: gatt.go:147 -/
  | dialling (a : α)
  /-- returned a client of this advertiser (`some`) or an error (`none`) -/
  | returned (r : Option α)
deriving DecidableEq

structure St (α : Type) where
  /-- the caller's context -/
  ctx : Ctx := .active
  /-- `ctx2` -/
  ctx2 : Ctx := .active
  phase : Phase α := .starting
  /-- handlers started by the event loop that have not run yet (only when handlers are called asynchronously): hci.go:731 -/
  spawned : List α := []
  /-- goroutines that wait in `ch <- a`: gatt.go:139 -/
  offers : List α := []
  /-- the event loop itself waits in `ch <- a`: hci.go:729 -/
  blocked : Option α := none
  /-- the advertisements reported since the handler was set -/
  reported : List α := []

inductive Ev (α : Type) where
  /-- scanning has been enabled, or could not be -/
  | started (ok : Bool)
  /-- the event loop handles a report -/
  | report (a : α)
  /-- the first started handler runs -/
  | handler
  /-- the caller's context ends -/
  | cancel
  /-- `raced`: the goroutine of gatt.go:128-134 sees that the context has ended and cancels `ctx2` before the package `context` has passed the cause on to `ctx2` -/
  | expire (raced : Bool)
  /-- `Device.Scan` sees that `ctx2` has ended -/
  | wake
  /-- the controller's answer to the command that stops scanning is handled by the event loop -/
  | stopped
  /-- that command fails: no answer within 3 s, or an error -/
  | stopFailed
  /-- `Connect` receives the `i`-th offer, or that of the event loop -/
  | receive (i : Nat)
  | receiveLoop
  | dialled (ok : Bool)
deriving DecidableEq

/-- Ending of `ctx2`: the first cause stays. -/
def endCtx (c new : Ctx) : Ctx := if c = .active then new else c

/-- The function `fn` of gatt.go:137-140 behind the filter of `Scan` (gatt.go:95-99), up to the send. -/
def accept (f : α → Bool) (s : St α) (a : α) : Bool × St α := if f a then (true, { s with ctx2 := endCtx s.ctx2 .canceled }) else (false, s)

/-- One step of `Connect`; `none` when it cannot happen. `sync`: the option `OptAdvHandlerSync(true)`. -/
def step (f : α → Bool) (sync : Bool) (s : St α) : Ev α → Option (St α)
  | .started ok =>
    match s.phase with
    | .starting => some { s with phase := if ok then .scanning else .returned none }
    | _ => none
  | .report a =>
    -- the handler is set before scanning is enabled (device.go:212) and never taken back
    match s.blocked with
    | some _ => none
    | none =>
      if sync then
        match accept f s a with
        | (true, s') => some { s' with reported := s.reported ++ [a], blocked := some a }
        | (false, s') => some { s' with reported := s.reported ++ [a] }
      else some { s with reported := s.reported ++ [a], spawned := s.spawned ++ [a] }
  | .handler =>
    match s.spawned with
    | [] => none
    | a :: rest =>
      match accept f s a with
      | (true, s') => some { s' with spawned := rest, offers := s.offers ++ [a] }
      | (false, s') => some { s' with spawned := rest }
  | .cancel => some { s with ctx := endCtx s.ctx .canceled, ctx2 := endCtx s.ctx2 (endCtx s.ctx .canceled) }
  | .expire raced => some { s with ctx := endCtx s.ctx .deadline, ctx2 := endCtx s.ctx2 (if raced then .canceled else endCtx s.ctx .deadline) }
  | .wake =>
    match s.phase with
    | .scanning => if s.ctx2 = .active then none else some { s with phase := .stopping }
    | _ => none
  | .stopped =>
    match s.phase, s.blocked with
    | .stopping, none => some { s with phase := if s.ctx2 = .canceled then .receiving else .returned none }
    | _, _ => none
  | .stopFailed =>
    match s.phase with
    | .stopping => some { s with phase := .returned none }
    | _ => none
  | .receive i =>
    match s.phase, s.offers[i]? with
    | .receiving, some a => some { s with phase := .dialling a, offers := s.offers.eraseIdx i }
    | _, _ => none
  | .receiveLoop =>
    match s.phase, s.blocked with
    | .receiving, some a => some { s with phase := .dialling a, blocked := none }
    | _, _ => none
  | .dialled ok =>
    match s.phase with
    | .dialling a => some { s with phase := .returned (if ok then some a else none) }
    | _ => none

def run (f : α → Bool) (sync : Bool) (s : St α) : List (Ev α) → Option (St α)
  | [] => some s
  | e :: es =>
    match step f sync s e with
    | none => none
    | some s' => run f sync s' es

/-! ## Find -/

/-- `Find` (gatt.go:104-114): the handler appends to a variable shared by all handlers, without a lock. An append is a load of the slice and a store of the longer one. Backing arrays shared between slices are not modelled. -/
structure Found (α : Type) where
  /-- `advs` -/
  advs : List α := []
  /-- handlers started that have not loaded `advs` -/
  spawned : List α := []
  /-- handlers that have loaded `advs`: what they loaded and what they will append -/
  loaded : List (List α × α) := []
  reported : List α := []

inductive FindEv (α : Type) where
  | report (a : α)
  /-- the `i`-th started handler runs up to its load -/
  | load (i : Nat)
  /-- the `i`-th handler that has loaded stores -/
  | store (i : Nat)

/-- One step while `Find` waits for its scan to end. -/
def findStep (f : α → Bool) (s : Found α) : FindEv α → Option (Found α)
  | .report a => some { s with reported := s.reported ++ [a], spawned := s.spawned ++ [a] }
  | .load i =>
    match s.spawned[i]? with
    | none => none
    | some a =>
      if f a then some { s with spawned := s.spawned.eraseIdx i, loaded := s.loaded ++ [(s.advs, a)] }
      else some { s with spawned := s.spawned.eraseIdx i }
  | .store i =>
    match s.loaded[i]? with
    | none => none
    | some (xs, a) => some { s with advs := xs ++ [a], loaded := s.loaded.eraseIdx i }

def findRun (f : α → Bool) (s : Found α) : List (FindEv α) → Option (Found α)
  | [] => some s
  | e :: es =>
    match findStep f s e with
    | none => none
    | some s' => findRun f s' es

/-- What `Find` returns when its scan has ended in state `s`: gatt.go:113 `return advs, Scan(...)`. The order in which the variable is read and the function is called is not specified by the language; `early`: it is read first. -/
def findResult (early : Bool) (s : Found α) : List α := if early then [] else s.advs

end Ble.Connect
