import Verif.Trans
set_option autoImplicit false

/-!
# Model of concurrent signalling requests

linux/hci/signal.go:29-101 (`Conn.Signal`) and the default case of `handleSignal` (166-186), as run by any number of goroutines: calls of `Open` from the application, which wait for a response, and `returnCredit` from the receiving goroutine, which does not. `c.sigID`
is read and written without a lock, at seven places; each access is a step of its own here. `sigRspChannels` is accessed under its mutex. Contents of the messages other than the identifier: Hci/Signal.lean.
-/

namespace Ble.SigConc

/-- How a call ends. -/
inductive Res where
  /-- with the response to the request of call `answers` -/
  | ok (answers : Nat)
  /-- a request that wants no response was written -/
  | sent
  /-- "unexpected signaling id": signal.go:96-98 -/
  | wrongId
  | timedOut
deriving DecidableEq, Repr

/-- Where a call is; `b`: the identifier in its request; `d`: the argument of the deferred function. -/
inductive PC where
  | idle
  /-- read the identifier (signal.go:31) -/
  | load
  /-- write it back plus 1 -/
  | store (v : Nat)
  /-- signal.go:32 -/
  | check
  /-- signal.go:33 -/
  | one
  /-- signal.go:49 -/
  | buf
  /-- signal.go:64 -/
  | reg (b : Nat)
  /-- signal.go:68-72 -/
  | dfr (b : Nat)
  /-- signal.go:75 -/
  | send (b : Nat) (d : Option Nat)
  /-- signal.go:86-92 -/
  | wait (b d : Nat)
  /-- signal.go:94-98, with the response received: its identifier and the call it answers -/
  | cmp (i u : Nat) (d : Nat)
  /-- signal.go:69-71 -/
  | clean (r : Res) (d : Nat)
  | fin (r : Res)
deriving DecidableEq, Repr

structure St where
  /-- `sigID` -/
  sig : Nat := 0
  /-- `sigRspChannels`: which call's channel is registered for an identifier -/
  reg : Nat → Option Nat := fun _ => none
  /-- what a call's channel, of capacity 1, holds -/
  box : Nat → Option (Nat × Nat) := fun _ => none
  pc : Nat → PC := fun _ => .idle
  /-- the requests on the air that want a response: call and identifier -/
  asked : List (Nat × Nat) := []
  /-- the calls whose request the peer has answered -/
  answered : List Nat := []

inductive Ev where
  | call (t : Nat)
  /-- the next step of a call; `wants`: it waits for a response (`rsp != nil`) -/
  | go (t : Nat) (wants : Bool)
  /-- two seconds are over -/
  | timeout (t : Nat)
  /-- the peer's response to the request of call `t` is handled: signal.go:166-186. Each request is answered at most once, with its identifier -/
  | respond (t : Nat)
deriving DecidableEq, Repr

def upd {α : Type} (f : Nat → α) (i : Nat) (v : α) : Nat → α := fun j => if j = i then v else f j

def St.at_ (s : St) (t : Nat) (p : PC) : St := { s with pc := upd s.pc t p }

def go (s : St) (t : Nat) (wants : Bool) : Option St :=
  match s.pc t with
  | .load => some (s.at_ t (.store s.sig))
  | .store v => some ({ s with sig := (v + 1) % 256 }.at_ t .check)
  | .check => some (s.at_ t (if s.sig = 0 then .one else .buf))
  | .one => some ({ s with sig := 1 }.at_ t .buf)
  | .buf => some (s.at_ t (if wants then .reg s.sig else .send s.sig none))
  | .reg b => some ({ s with reg := upd s.reg s.sig (some t) }.at_ t (.dfr b))
  | .dfr b => some (s.at_ t (.send b (some s.sig)))
  | .send _ none => some (s.at_ t (.fin .sent))
  | .send b (some d) => some ({ s with asked := s.asked ++ [(t, b)] }.at_ t (.wait b d))
  | .wait _ d => match s.box t with
    | none => none
    | some (i, u) => some ({ s with box := upd s.box t none }.at_ t (.cmp i u d))
  | .cmp i u d => some (s.at_ t (.clean (if i = s.sig then .ok u else .wrongId) d))
  | .clean r d => some ({ s with reg := upd s.reg d none }.at_ t (.fin r))
  | .idle => none
  | .fin _ => none

/-- The identifier of the request of a call, if it is on the air. -/
def idOf (s : St) (t : Nat) : Option Nat := (s.asked.find? fun x => x.1 == t).map Prod.snd

def step (s : St) : Ev → Option St
  | .call t => if s.pc t = .idle then some (s.at_ t .load) else none
  | .go t w => go s t w
  | .timeout t => match s.pc t with
    | .wait _ d => some (s.at_ t (.clean .timedOut d))
    | _ => none
  | .respond t => match idOf s t with
    | none => none
    | some i =>
      if t ∈ s.answered then none
      else match s.reg i with
        | none => some { s with answered := s.answered ++ [t] }
        | some u => match s.box u with
          | none => some { s with answered := s.answered ++ [t], reg := upd s.reg i none, box := upd s.box u (some (i, t)) }
          -- the send on the channel waits: the receiving goroutine is stuck
          | some _ => none

def run : St → List Ev → Option St := runT step

/-- The call is in progress. -/
def Active (s : St) (t : Nat) : Prop := s.pc t ≠ .idle ∧ ∀ r, s.pc t ≠ .fin r

end Ble.SigConc
