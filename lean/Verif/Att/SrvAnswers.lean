import Verif.Att.SrvBytes
import Verif.Att.Model
set_option autoImplicit false

/-!
# What the server answers on a connection

`Loop` (att/server.go:158-166) with the requests it takes up (`SrvBytes`) handled by the attribute server of `Model`. Simplifications: those of both; a request is handled, and its answer written, at the step at which `Loop` takes it up (nothing else uses the server's state, and `Loop`
takes up the next request only afterwards); what is written after the connection has ended is lost on the way, not here.
-/

namespace Ble.SrvAnswers

open Ble.Att (Server)

/-- A name for a list of octets, for the model of the goroutines, which has only names. -/
def name : Bytes → Nat
  | [] => 0
  | b :: bs => name bs * 256 + b.toNat + 1

/-- `unname`, with a bound for the number of octets. -/
def unnameAux : Nat → Nat → Bytes
  | f + 1, n + 1 => UInt8.ofNat (n % 256) :: unnameAux f (n / 256)
  | _, _ => []

/-- The octets a name stands for. -/
def unname (n : Nat) : Bytes := unnameAux n n

structure State (σ : Type) where
  /-- the goroutines -/
  base : SrvBytes.State
  srv : Server σ
  /-- history: the PDUs `Loop` has written in answer: att/server.go:160-164 -/
  sent : List Bytes
  /-- a handler has crashed the program -/
  crashed : Bool

def init {σ : Type} (srv : Server σ) : State σ := ⟨SrvBytes.init, srv, [], false⟩

/-- One step; `none`: not possible. The requests taken up in the step, at most one, are handled: att/server.go:159-164. -/
def step {σ : Type} (s : State σ) (e : SrvBytes.Ev) : Option (State σ) :=
  if s.crashed then none
  else match SrvBytes.step name s.base e with
    | none => none
    | some b =>
      match Att.loop s.srv ((b.base.handled.drop s.base.base.handled.length).map unname) with
      | .ok (srv, outs) => some ⟨b, srv, s.sent ++ outs.flatten, false⟩
      | _ => some { s with base := b, crashed := true }

def run {σ : Type} : State σ → List SrvBytes.Ev → Option (State σ) := runT step

end Ble.SrvAnswers
