import Verif.Store.Bond
import Mathlib.Logic.Equiv.List
import Mathlib.Data.Countable.Basic
set_option autoImplicit false

/-!
# The laws required of JSON can be met

An encoding of maps of any countable type of entries that satisfies the laws of `Json`.
-/

namespace Ble.Store

/-- Number `n` as a text in brackets. -/
def bracket (n : Nat) : Bytes := 0x7b :: (List.replicate n 0x31 ++ [0x7d])

theorem bracket_length (n : Nat) : (bracket n).length = n + 2 := by simp [bracket]

theorem bracket_inj {m n : Nat} (h : bracket m = bracket n) : m = n := by
  have := congrArg List.length h
  simpa [bracket_length] using this

theorem bracket_cut {m n k : Nat} (h : k < (bracket n).length) : bracket m ≠ (bracket n).take k := by
  intro he
  have hl := congrArg List.length he
  rw [bracket_length, List.length_take, bracket_length] at hl
  rw [bracket_length] at h
  have h1 : (bracket m)[m + 1]? = some 0x7d := by simp [bracket]
  have h2 : ((bracket n).take k)[m + 1]? = some 0x31 := by
    rw [List.getElem?_take_of_lt (by omega)]
    simp only [bracket, List.getElem?_cons_succ]
    rw [List.getElem?_append_left (by simp; omega), List.getElem?_replicate_of_lt (by omega)]
  rw [he, h2] at h1
  simp at h1

/-- The laws of `Json` are consistent, for every countable type of entries. -/
theorem json_exists (α : Type) [Countable α] : Nonempty (Json α) := by
  classical
  have : Countable Char := Function.Injective.countable (f := Char.toNat) (fun a b h => Char.ext (UInt32.toNat_inj.1 h))
  obtain ⟨code, hcode⟩ := exists_injective_nat (List (Text × α))
  refine ⟨{
    enc := fun m => bracket (code m)
    dec := fun b => if h : ∃ m, bracket (code m) = b then some (some h.choose) else none
    roundtrip := ?_
    braces := ?_
    cut := ?_ }⟩
  · intro m
    refine ⟨m, ?_, fun _ => rfl⟩
    have h : ∃ m', bracket (code m') = bracket (code m) := ⟨m, rfl⟩
    rw [dif_pos h, hcode (bracket_inj h.choose_spec)]
  · intro m
    rw [bracket_length]; omega
  · intro m n hn
    rw [dif_neg]
    rintro ⟨m', hm'⟩
    exact bracket_cut hn hm'

instance : Countable BondData := by
  have : Countable Char := Function.Injective.countable (f := Char.toNat) (fun a b h => Char.ext (UInt32.toNat_inj.1 h))
  exact Function.Injective.countable (f := fun d : BondData => (d.longTermKey, d.encryptionDiversifier, d.randomValue, d.legacy)) (by
    rintro ⟨a, b, c, d⟩ ⟨a', b', c', d'⟩ h
    simpa using h)

theorem json_bonds : Nonempty (Json BondData) := json_exists BondData

end Ble.Store
