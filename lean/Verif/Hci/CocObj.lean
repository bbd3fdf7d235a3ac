import Verif.Hci.Coc
set_option autoImplicit false

/-!
# The objects that `Open` returns

`cocWrapper` (coc.go:388-420): `Open` of a client (gatt/client.go:477-479) returns an object with the two identifiers of the channel, whose methods look the channel up in the table: `Send` and `Close` by the peer's identifier, `Subscribe` and
`Unsubscribe` by the local one. Sending is one step per credit and per frame, as in Hci/Coc.lean.
-/

namespace Ble.CocObj

open Ble.Coc

/-- `cocWrapper`: the object's copy of the identifiers and sizes; `Info()` (coc.go:413-420) returns exactly these. -/
structure Obj where
  loc : Nat
  rem : Nat
  mtu : Nat
  mps : Nat
deriving DecidableEq, Repr

/-- The table, and the objects returned so far. -/
structure World where
  h : Hist
  objs : List Obj

def World.init : World := ⟨Hist.init, []⟩

/-- What can happen. `credit` and `write`: a `Send` of the object takes a credit, writes a frame. -/
inductive Op where
  | reserve
  | answer (l : Nat) (a : Answer)
  | grant (remote n : Nat)
  | close (o : Obj)
  | credit (o : Obj)
  | write (o : Obj)
  | subscribe (o : Obj)
  | unsubscribe (o : Obj)
deriving DecidableEq, Repr

/-- The step on the table: coc.go:397-411. -/
def act : Op → Act
  | .reserve => .reserve
  | .answer l a => .answer l a
  | .grant r n => .grant r n
  | .close o => .closeChan o.rem
  | .credit o => .take o.rem
  | .write o => .write o.rem
  | .subscribe o => .subscribe o.loc
  | .unsubscribe o => .unsubscribe o.loc

/-- The object of a call. -/
def target : Op → Option Obj
  | .close o | .credit o | .write o | .subscribe o | .unsubscribe o => some o
  | _ => none

/-- The object `Open` returns, if it does: coc.go:93-100, 111-120. -/
def made (h : Hist) : Op → List Obj
  | .answer l (.accepted d c mtu mps) => if l ∈ h.opening ∧ (addChannel h.st l (.accepted d c mtu mps)).2 then [⟨l, d, mtu, mps⟩] else []
  | _ => []

/-- One step; methods are called on objects that exist. -/
def step (w : World) (op : Op) : Option World :=
  if ∀ o, target op = some o → o ∈ w.objs then some ⟨Coc.step w.h (act op), w.objs ++ made w.h op⟩ else none

/-- The call returns nil (for `credit`: the attempt of `Send` to get a credit succeeds, coc.go:340): coc.go:127-130, 212-231, 150-162, 169-176. -/
def succeeds (s : St) : Op → Bool
  | .close o => (find s o.rem).isSome
  | .credit o => (decrement s o.rem 1).isSome
  | .subscribe o => (Coc.subscribe s o.loc).isSome
  | .unsubscribe o => (Coc.unsubscribe s o.loc).isSome
  | _ => true

def run (w : World) : List Op → Option World
  | [] => some w
  | op :: ops => (step w op).bind fun w' => run w' ops

end Ble.CocObj
