import Verif.Att.Model
set_option autoImplicit false

/-!
# Histories of a connection, as far as Client Characteristic Configuration is concerned
-/

namespace Ble.Spec

open Ble.Att

variable {α : Type}

/-- `Evolves refs st evs st'`: from `st`, application handlers and writes `evs` to the CCCDs of characteristics in `refs`, in that order,
lead to `st'`. Application handlers change only the application's state. -/
inductive Evolves (refs : CharRef → Prop) (st : CState α) : List (CharRef × Bytes) → CState α → Prop
  | start : Evolves refs st [] st
  | app {evs st'} (a : α) : Evolves refs st evs st' → Evolves refs st evs { st' with app := a }
  | write {evs st' st'' c d e} : Evolves refs st evs st' → refs c → cccdWrite c st' d = .ok (st'', e) →
      Evolves refs st (evs ++ [(c, d)]) st''

/-- Value written, as a number: the first two bytes, little endian. -/
def cccValue : Bytes → Nat
  | lo :: hi :: _ => le16 lo hi
  | _ => 0

/-- A CCCD write is accepted when every bit it newly sets is a bit the characteristic's properties allow. -/
def cccAccepted (c : CharRef) (old v : Nat) : Prop :=
  (v % 2 = 1 → old % 2 = 1 ∨ c.prop &&& 0x10 ≠ 0) ∧ (v / 2 % 2 = 1 → old / 2 % 2 = 1 ∨ c.prop &&& 0x20 ≠ 0)

instance (c : CharRef) (old v : Nat) : Decidable (cccAccepted c old v) := by unfold cccAccepted; infer_instance

/-- Value of the CCCD of the characteristic with handle `h` after the writes `evs`: the last accepted one, `init` before any. -/
def cccAfter (init : Nat → Nat) (h : Nat) (evs : List (CharRef × Bytes)) : Nat :=
  evs.foldl (fun old ev => if ev.1.handle = h ∧ cccAccepted ev.1 old (cccValue ev.2) then cccValue ev.2 else old) (init h)

/-- Number of notifiers (`i = false`) or indicators (`i = true`) of the characteristic `h` that are running. -/
def running (st : CState α) (h : Nat) (i : Bool) : Nat :=
  (st.ntfs.filter fun n => n.char == h && n.ind == i && n.isOpen).length

/-- The bit of a CCCD value for notifications (`false`) or indications (`true`). -/
def cccBit (v : Nat) (i : Bool) : Bool := if i then decide (v / 2 % 2 = 1) else decide (v % 2 = 1)

end Ble.Spec
