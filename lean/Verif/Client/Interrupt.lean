import Verif.Trans
set_option autoImplicit false

/-!
# Model of the signal handling around the package-level calls

gatt.go:154-187 (`WithSigHandler`, `trap`, `untrap`), as used by `defer untrap(trap(ctx))` in AdvertiseNameAndServices, AdvertiseIBeaconData, AdvertiseIBeacon, Scan, Find and Dial (gatt.go:58-131). A context made by `WithSigHandler`
carries the application's function; every call with such a context is a step `enter` and, when it returns, a step `ret`. `Find` calls `Scan`, so it is two calls, one inside the other.

os/signal: a signal is offered to every registered channel without waiting; if no channel is registered for SIGINT and SIGTERM the signal has its default effect and ends the process; after `Stop` has returned the channel receives nothing
more. Signals of the application's own channels are not modelled.
-/

namespace Ble.Interrupt

/-- The goroutine started by `trap` (gatt.go:172-178). -/
inductive Gor where
  /-- none was started: the context carries no function -/
  | none
  /-- in the select -/
  | waiting
  /-- received a signal and called the function -/
  | called
  /-- saw the end of the context -/
  | gone
deriving DecidableEq, Repr

structure St where
  /-- calls entered so far; they are numbered in this order -/
  n : Nat := 0
  /-- the context of a call -/
  ctxOf : Nat → Nat := fun _ => 0
  /-- entered and not returned -/
  inCall : Nat → Bool := fun _ => false
  /-- the call's channel is registered (`signal.Notify`) -/
  reg : Nat → Bool := fun _ => false
  /-- the call's channel, of capacity 1, holds a signal -/
  buf : Nat → Bool := fun _ => false
  gor : Nat → Gor := fun _ => .none
  /-- contexts that have ended -/
  ended : Nat → Bool := fun _ => false
  /-- the process was ended by a signal -/
  killed : Bool := false

inductive Ev where
  /-- a call with context `c`: `trap`, gatt.go:160-180 -/
  | enter (c : Nat)
  /-- call `i` returns: `untrap`, gatt.go:182-187 -/
  | ret (i : Nat)
  /-- SIGINT or SIGTERM -/
  | signal
  /-- the goroutine of call `i` receives from its channel and calls the function: gatt.go:174-175 -/
  | fire (i : Nat)
  /-- the goroutine of call `i` sees that its context has ended: gatt.go:176 -/
  | quit (i : Nat)
  /-- context `c` ends -/
  | endCtx (c : Nat)
deriving DecidableEq, Repr

def upd {α : Type} (f : Nat → α) (i : Nat) (v : α) : Nat → α := fun j => if j = i then v else f j

/-- One step; `handles c`: context `c` carries a function (gatt.go:161-168). -/
def step (handles : Nat → Bool) (s : St) : Ev → Option St
  | .enter c =>
    if s.killed then none
    else some { s with n := s.n + 1, ctxOf := upd s.ctxOf s.n c, inCall := upd s.inCall s.n true, reg := upd s.reg s.n (handles c), gor := upd s.gor s.n (if handles c then .waiting else .none) }
  | .ret i => if !s.killed && s.inCall i then some { s with inCall := upd s.inCall i false, reg := upd s.reg i false } else none
  | .signal =>
    if s.killed then none
    else if (List.range s.n).any s.reg then some { s with buf := fun i => s.buf i || s.reg i }
    else some { s with killed := true }
  | .fire i => if !s.killed && s.gor i == .waiting && s.buf i then some { s with gor := upd s.gor i .called, buf := upd s.buf i false } else none
  | .quit i => if !s.killed && s.gor i == .waiting && s.ended (s.ctxOf i) then some { s with gor := upd s.gor i .gone } else none
  | .endCtx c => if s.killed then none else some { s with ended := upd s.ended c true }

def run (handles : Nat → Bool) : St → List Ev → Option St := runT (step handles)

end Ble.Interrupt
