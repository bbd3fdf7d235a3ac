set_option autoImplicit false
/-!
# Shared vocabulary of the model

Bytes, little-endian fields, and an outcome type in which a Go run-time panic is a visible result.
-/

namespace Ble

/-- A Go `[]byte`, contents only. Aliasing and capacity are modelled explicitly where a property needs them. -/
abbrev Bytes := List UInt8

/-- Outcome of a Go function: it returns normally, returns an error value, or panics
(index or slice out of range, nil dereference, integer division by zero). -/
inductive Go (ε : Type) (α : Type) where
  | ok (a : α)
  | err (e : ε)
  | panic
deriving Repr, DecidableEq

namespace Go

variable {ε α β : Type}

/-- Sequencing: an error or a panic ends the computation. -/
@[inline] def bind (x : Go ε α) (f : α → Go ε β) : Go ε β :=
  match x with
  | .ok a => f a
  | .err e => .err e
  | .panic => .panic

instance : Monad (Go ε) where
  pure := .ok
  bind := Go.bind

@[simp] theorem pure_def (a : α) : (pure a : Go ε α) = .ok a := rfl
@[simp] theorem bind_ok (a : α) (f : α → Go ε β) : ((Go.ok a : Go ε α) >>= f) = f a := rfl
@[simp] theorem bind_err (e : ε) (f : α → Go ε β) : ((Go.err e : Go ε α) >>= f) = .err e := rfl
@[simp] theorem bind_panic (f : α → Go ε β) : ((Go.panic : Go ε α) >>= f) = .panic := rfl

/-- The function returned: it did not panic. -/
def returns : Go ε α → Bool
  | .panic => false
  | _ => true

@[simp] theorem returns_ok (a : α) : (Go.ok a : Go ε α).returns = true := rfl
@[simp] theorem returns_err (e : ε) : (Go.err e : Go ε α).returns = true := rfl
@[simp] theorem returns_panic : (Go.panic : Go ε α).returns = false := rfl

theorem returns_bind {x : Go ε α} {f : α → Go ε β} (hx : x.returns = true)
    (hf : ∀ a, x = .ok a → (f a).returns = true) : (x >>= f).returns = true := by
  cases x <;> simp_all

theorem bind_eq_ok {x : Go ε α} {f : α → Go ε β} {b : β} : (x >>= f) = .ok b ↔ ∃ a, x = .ok a ∧ f a = .ok b := by
  cases x <;> simp

theorem bind_eq_panic {x : Go ε α} {f : α → Go ε β} :
    (x >>= f) = .panic ↔ x = .panic ∨ ∃ a, x = .ok a ∧ f a = .panic := by
  cases x <;> simp

end Go

/-- Go `b[i]`: panics when out of range. -/
def index {ε : Type} (b : Bytes) (i : Nat) : Go ε UInt8 :=
  match b[i]? with
  | some x => .ok x
  | none => .panic

/-- Go `b[lo:hi]` for a slice whose capacity equals its length: panics unless `lo ≤ hi ≤ len b`. -/
def slice {ε : Type} (b : Bytes) (lo hi : Nat) : Go ε Bytes :=
  if lo ≤ hi ∧ hi ≤ b.length then .ok ((b.take hi).drop lo) else .panic

/-- Go `b[lo:]`: panics unless `lo ≤ len b`. -/
def sliceFrom {ε : Type} (b : Bytes) (lo : Nat) : Go ε Bytes :=
  if lo ≤ b.length then .ok (b.drop lo) else .panic

/-- Value of a little-endian 16-bit field: `binary.LittleEndian.Uint16`. -/
def le16 (lo hi : UInt8) : Nat := lo.toNat + 256 * hi.toNat

/-- `binary.LittleEndian.PutUint16`: the two bytes of a `uint16`, least significant first. -/
def put16 (n : Nat) : Bytes := [UInt8.ofNat n, UInt8.ofNat (n / 256)]

/-- Go `binary.LittleEndian.Uint16(b[i:i+2])` with the bounds checks. -/
def le16At {ε : Type} (b : Bytes) (i : Nat) : Go ε Nat := do
  let lo ← index b i
  let hi ← index b (i + 1)
  pure (le16 lo hi)

theorem le16_lt (lo hi : UInt8) : le16 lo hi < 65536 := by
  have := lo.toNat_lt; have := hi.toNat_lt; unfold le16; omega

@[simp] theorem put16_length (n : Nat) : (put16 n).length = 2 := rfl

theorem le16_put16 (n : Nat) (h : n < 65536) :
    le16 (UInt8.ofNat n) (UInt8.ofNat (n / 256)) = n := by
  simp only [le16, UInt8.toNat_ofNat']; omega

theorem ofNat_toNat_byte (x : UInt8) : UInt8.ofNat x.toNat = x := by simp

theorem put16_le16 (lo hi : UInt8) : put16 (le16 lo hi) = [lo, hi] := by
  have h1 := lo.toNat_lt; have h2 := hi.toNat_lt
  simp only [put16, le16, List.cons.injEq, and_true]
  constructor
  · apply UInt8.toNat_inj.1; simp only [UInt8.toNat_ofNat']; omega
  · apply UInt8.toNat_inj.1; simp only [UInt8.toNat_ofNat']; omega

theorem put16_inj {m n : Nat} (hm : m < 65536) (hn : n < 65536) (h : put16 m = put16 n) : m = n := by
  simp only [put16, List.cons.injEq, and_true] at h
  rw [← le16_put16 m hm, ← le16_put16 n hn, h.1, h.2]

@[simp] theorem index_cons_zero {ε : Type} (x : UInt8) (l : Bytes) : index (ε := ε) (x :: l) 0 = .ok x := rfl
@[simp] theorem index_cons_succ {ε : Type} (x : UInt8) (l : Bytes) (n : Nat) :
    index (ε := ε) (x :: l) (n + 1) = index l n := rfl
@[simp] theorem index_nil {ε : Type} (n : Nat) : index (ε := ε) [] n = .panic := rfl

theorem index_of_lt {ε : Type} {b : Bytes} {i : Nat} (h : i < b.length) : index (ε := ε) b i = .ok b[i] := by
  simp [index, h]

theorem index_of_ge {ε : Type} {b : Bytes} {i : Nat} (h : b.length ≤ i) : index (ε := ε) b i = .panic := by
  simp [index, h]

theorem slice_of_le {ε : Type} {b : Bytes} {lo hi : Nat} (h : lo ≤ hi) (h' : hi ≤ b.length) :
    slice (ε := ε) b lo hi = .ok ((b.take hi).drop lo) := by simp [slice, h, h']

theorem sliceFrom_of_le {ε : Type} {b : Bytes} {lo : Nat} (h : lo ≤ b.length) :
    sliceFrom (ε := ε) b lo = .ok (b.drop lo) := by simp [sliceFrom, h]

theorem le_sum_of_mem {l : List Nat} {a : Nat} (h : a ∈ l) : a ≤ l.sum := by
  induction l with
  | nil => simp at h
  | cons x xs ih =>
    rcases List.mem_cons.1 h with rfl | h
    · simp
    · have := ih h; simp; omega

theorem flatMap_congr' {α β : Type} {l : List α} {f g : α → List β} (h : ∀ a ∈ l, f a = g a) :
    l.flatMap f = l.flatMap g := by
  induction l with
  | nil => rfl
  | cons x xs ih => simp [h x (by simp), ih (fun a ha => h a (by simp [ha]))]

end Ble
