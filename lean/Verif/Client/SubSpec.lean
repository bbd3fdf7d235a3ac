import Verif.Client.Loop
set_option autoImplicit false

/-!
# Histories of subscriptions
-/

namespace Ble.Spec

open Ble.Client

/-- How a write to a CCCD ended: confirmed by the peer, not applied, or applied although the caller got an error (a lost response). -/
inductive WriteEnd where
  | ok
  | refused
  | lost
deriving Repr, DecidableEq

/-- Calls of the GATT client and incoming values. Characteristics are named by their value handle, notification handlers by numbers. -/
inductive SubOp where
  | subscribe (vh : Nat) (ind : Bool) (h : Nat) (w : WriteEnd)
  | unsubscribe (vh : Nat) (ind : Bool) (w : WriteEnd)
  /-- `ClearSubscriptions`: the entries it cleared, in any order, and the one that failed, if any -/
  | clear (done : List Nat) (failed : Option (Nat × WriteEnd))
  /-- a notification or indication arrives -/
  | value (pdu : Bytes)
deriving Repr, DecidableEq

/-- The handler subscribed to notifications (`false`) or indications (`true`) of a characteristic. -/
abbrev Active := Nat → Bool → Option Nat

/-- The characteristic has no subscription any more. -/
def Active.drop (a : Active) (vh : Nat) : Active := fun k i => if k = vh then none else a k i

/-- One subscription changes. -/
def Active.set (a : Active) (vh : Nat) (ind : Bool) (h : Option Nat) : Active := fun k i => if k = vh ∧ i = ind then h else a k i

/-- What the calls mean: a subscription that exists is kept as it is (with its first handler), removing one that does not exist does nothing, and a
failed write ends both subscriptions of the characteristic. -/
def Active.step (a : Active) : SubOp → Active
  | .subscribe vh ind h w => if (a vh ind).isSome then a else if w = .ok then a.set vh ind (some h) else a.drop vh
  | .unsubscribe vh ind w => if (a vh ind).isNone then a else if w = .ok then a.set vh ind none else a.drop vh
  | .clear done _ => fun k i => if k ∈ done then none else a k i
  | .value _ => a

/-- The subscriptions after a history. -/
def activeAfter (ops : List SubOp) : Active := ops.foldl Active.step fun _ _ => none

/-- The CCCD value for a set of subscriptions: bit 0 for notifications, bit 1 for indications. -/
def cccBits (a : Active) (vh : Nat) : UInt16 := (if (a vh false).isSome then 1 else 0) + (if (a vh true).isSome then 2 else 0)

/-- The client and the peer's CCCDs (by their handle). `failed` remembers whether the last write to a CCCD failed. -/
structure World where
  subs : Subs := fun _ => none
  peer : Nat → UInt16 := fun _ => 0
  failed : Nat → Bool := fun _ => false

/-- A write to the CCCD with handle `a`. -/
def World.write (w : World) (a : Nat) (v : UInt16) (e : WriteEnd) : World :=
  { w with
    peer := fun k => if k = a ∧ e ≠ .refused then v else w.peer k
    failed := fun k => if k = a then e != .ok else w.failed k }

/-- An optional write. -/
def World.writeOpt (w : World) (o : Option (Nat × UInt16)) (e : WriteEnd) : World :=
  match o with
  | none => w
  | some (a, v) => w.write a v e

/-- One operation, executed by the model of the client. `cccd` gives the CCCD handle of each characteristic. `none`: not possible (the entries that
`ClearSubscriptions` visits are the keys of its map, each once; that it visits all of them if nothing fails is not required here) or a panic. -/
def World.step (cccd : Nat → Nat) (w : World) : SubOp → Option World
  | .subscribe vh ind h e =>
    let r := setHandlers w.subs (cccd vh) vh ind (some h) (e == .ok)
    some ({ w with subs := r.1 }.writeOpt r.2 e)
  | .unsubscribe vh ind e =>
    let r := setHandlers w.subs (cccd vh) vh ind none (e == .ok)
    some ({ w with subs := r.1 }.writeOpt r.2 e)
  | .clear done failed =>
    if (done ++ (failed.map Prod.fst).toList).Nodup ∧ (∀ vh ∈ done ++ (failed.map Prod.fst).toList, (w.subs vh).isSome) ∧
        (∀ f, failed = some f → f.2 ≠ .ok) then
      let r := clearSubs w.subs done (failed.map Prod.fst)
      let w1 := (r.2.take done.length).foldl (fun w x => w.write x.1 x.2 .ok) { w with subs := r.1 }
      some (match failed with
        | none => w1
        | some (_, e) => (r.2.drop done.length).foldl (fun w x => w.write x.1 x.2 e) w1)
    else none
  | .value pdu =>
    match handleNotification w.subs pdu with
    | .ok (m, _) => some { w with subs := m }
    | _ => none

/-- A history from a new client. -/
def World.run (cccd : Nat → Nat) (w : World) : List SubOp → Option World
  | [] => some w
  | o :: os => (w.step cccd o).bind fun w' => World.run cccd w' os

end Ble.Spec
