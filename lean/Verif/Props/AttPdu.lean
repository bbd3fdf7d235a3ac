import Verif.Att.PduTable
import Verif.Att.PduSpec
set_option autoImplicit false

/-!
# C121: the fields of ATT PDUs are where the specification puts them
-/

namespace Ble.Props

open Ble.AttPdu

namespace AttPduAux

/-- The fields follow each other from octet `k`; one that takes the rest is the last. -/
def follow : Nat → List Field → Bool
  | _, [] => true
  | k, f :: fs => f.getAt == k && f.setAt == k && (match f.ty.size with | some n => follow (k + n) fs | none => fs.isEmpty)

theorem tables_follow : ∀ p ∈ pdus, p.name ≠ "SignedWriteCommand" → follow 1 p.fields = true := by decide

theorem u16_octets (v : UInt16) : put v = octets .u16 v := by
  simp only [put, octets, List.cons.injEq, and_true]
  constructor
  · apply UInt8.toNat_inj.1; simp
  · apply UInt8.toNat_inj.1; simp [Nat.shiftRight_eq_div_pow]

theorem u16_back (v : UInt16) : v.toUInt8.toUInt16 ||| (v >>> 8).toUInt8.toUInt16 <<< 8 = v := by
  apply UInt16.toNat_inj.1
  have hv := v.toNat_lt
  simp only [UInt16.toNat_or, UInt16.toNat_shiftLeft, UInt8.toNat_toUInt16, UInt16.toNat_toUInt8, UInt16.toNat_shiftRight]
  have h1 : (8 : UInt16).toNat % 16 = 8 := rfl
  rw [h1, Nat.shiftRight_eq_div_pow, Nat.shiftLeft_eq]
  have h2 : v.toNat / 2 ^ 8 % 2 ^ 8 * 2 ^ 8 % 2 ^ 16 = 2 ^ 8 * (v.toNat / 2 ^ 8) := by omega
  rw [h2, Nat.or_comm, ← Nat.two_pow_add_eq_or_of_lt (by omega)]
  omega

theorem copyAt_room (pre mid post v : Bytes) (h : v.length = mid.length) : copyAt (pre ++ mid ++ post) pre.length v = pre ++ v ++ post := by
  unfold copyAt
  have h1 : (pre ++ mid ++ post).take pre.length = pre := by simp
  have h2 : v.take ((pre ++ mid ++ post).length - pre.length) = v := List.take_of_length_le (by simp; omega)
  have h3 : (pre ++ mid ++ post).drop (pre.length + v.length) = post := by
    rw [h, ← List.length_append, List.drop_left]
  rw [h1, h2, h3]

/-- What the setters do when there is room. -/
theorem set_room (t : Ty) (pre mid post : Bytes) (v : t.Val) (h : (octets t v).length = mid.length) :
    setTy t pre.length (pre ++ mid ++ post) v = .ok (pre ++ octets t v ++ post) := by
  cases t with
  | u8 =>
    change UInt8 at v
    match mid, h with
    | [x], _ =>
      simp only [setTy, octets]
      rw [if_pos (by simp)]
      show Go.ok ((pre ++ [x] ++ post).set pre.length v) = _
      rw [List.append_assoc, List.set_append_right _ _ (Nat.le_refl _)]
      simp
  | u16 =>
    change UInt16 at v
    match mid, h with
    | [x, y], h =>
      have h1 := copyAt_room pre [x, y] post (put v) rfl
      rw [← u16_octets, ← h1]
      simp only [setTy, sliceFrom, index]
      simp
  | rest =>
    change Bytes at v
    have h1 := copyAt_room pre mid post v h
    simp only [setTy, sliceFrom, octets]
    rw [if_pos (by simp), ← h1]
    rfl
  | sig =>
    change { b : Bytes // b.length = 12 } at v
    have h1 := copyAt_room pre mid post v.1 h
    have h2 := v.2
    simp only [octets] at h
    simp only [setTy, slice, octets]
    rw [if_pos (by simp; omega), ← h1]
    rfl

theorem sliceFrom_room (pre s : Bytes) : (sliceFrom (pre ++ s) pre.length : Go Empty Bytes) = .ok s := by
  unfold sliceFrom
  rw [if_pos (by simp)]
  simp

/-- What the getters return. -/
theorem get_room (t : Ty) (pre post : Bytes) (v : t.Val) (hr : t = .rest → post = []) : getTy t pre.length (pre ++ octets t v ++ post) = .ok v := by
  rw [List.append_assoc]
  cases t with
  | u8 =>
    change UInt8 at v
    simp [getTy, octets, index]
  | u16 =>
    change UInt16 at v
    have h := u16_back v
    have h1 := u16_octets v
    simp only [getTy]
    rw [sliceFrom_room, ← h1]
    simpa [index, put] using h
  | rest =>
    change Bytes at v
    simp only [getTy, hr rfl]
    exact (sliceFrom_room _ _).trans (by simp [octets])
  | sig =>
    change { b : Bytes // b.length = 12 } at v
    have h := v.2
    simp only [getTy]
    rw [sliceFrom_room]
    simp only [Go.bind, octets]
    congr 1
    apply Subtype.ext
    simp [h]

theorem size_octets {t : Ty} {n : Nat} (h : t.size = some n) (v : t.Val) : (octets t v).length = n := by
  cases t <;> simp only [Ty.size, Option.some.injEq, reduceCtorEq] at h <;> subst h
  · rfl
  · rfl
  · exact v.2

theorem setAll_wire (v : (f : Field) → f.ty.Val) : ∀ (fs : List Field) (pre b : Bytes), follow pre.length fs = true → b.length = (fs.flatMap fun f => octets f.ty (v f)).length →
    setAll v fs (pre ++ b) = .ok (pre ++ fs.flatMap fun f => octets f.ty (v f))
  | [], pre, b, _, hb => by
    simp at hb
    subst hb
    simp [setAll]
  | f :: fs, pre, b, hf, hb => by
    simp only [follow, Bool.and_eq_true, beq_iff_eq] at hf
    obtain ⟨⟨hg, hs⟩, hrest⟩ := hf
    simp only [List.flatMap_cons, List.length_append] at hb
    have h1 := set_room f.ty pre (b.take (octets f.ty (v f)).length) (b.drop (octets f.ty (v f)).length) (v f) (by simp; omega)
    rw [List.append_assoc, List.take_append_drop] at h1
    simp only [setAll, Field.set, hs, h1, Go.bind]
    cases hz : f.ty.size with
    | some n =>
      rw [hz] at hrest
      have h2 := size_octets hz (v f)
      have := setAll_wire v fs (pre ++ octets f.ty (v f)) (b.drop (octets f.ty (v f)).length) (by rw [List.length_append, h2]; exact hrest) (by rw [List.length_drop]; omega)
      rw [this]
      simp
    | none =>
      rw [hz] at hrest
      simp at hrest
      subst hrest
      simp at hb
      simp [setAll, hb]

theorem get_wire (v : (f : Field) → f.ty.Val) : ∀ (fs : List Field) (pre : Bytes), follow pre.length fs = true → ∀ f ∈ fs, f.get (pre ++ fs.flatMap fun f => octets f.ty (v f)) = .ok (v f)
  | [], _, _, f, hf => by simp at hf
  | g :: fs, pre, hfo, f, hf => by
    simp only [follow, Bool.and_eq_true, beq_iff_eq] at hfo
    obtain ⟨⟨hg, hs⟩, hrest⟩ := hfo
    rcases List.mem_cons.1 hf with rfl | hf
    · have := get_room f.ty pre (fs.flatMap fun f => octets f.ty (v f)) (v f) (by
        intro h
        rw [h] at hrest
        simp only [Ty.size] at hrest
        simp at hrest
        subst hrest
        rfl)
      simp only [Field.get, hg]
      rw [List.flatMap_cons, ← List.append_assoc]
      exact this
    · cases hz : g.ty.size with
      | none =>
        rw [hz] at hrest
        simp at hrest
        subst hrest
        simp at hf
      | some n =>
        rw [hz] at hrest
        have h2 := size_octets hz (v g)
        have := get_wire v fs (pre ++ octets g.ty (v g)) (by rw [List.length_append, h2]; exact hrest) f hf
        rw [List.flatMap_cons, ← List.append_assoc]
        exact this

/-- The octets a field takes: from `k`, as many as its size, or all. -/
def inField (t : Ty) (k i : Nat) : Prop := k ≤ i ∧ ∀ n, t.size = some n → i < k + n

theorem set_frame {t : Ty} {k : Nat} {b b' : Bytes} {v : t.Val} (h : setTy t k b v = .ok b') : b'.length = b.length ∧ ∀ i, ¬ inField t k i → b'[i]? = b[i]? := by
  have copy : ∀ v : Bytes, k ≤ b.length → (copyAt b k v).length = b.length ∧ ∀ i, ¬ (k ≤ i ∧ i < k + v.length) → (copyAt b k v)[i]? = b[i]? := by
    intro v hk
    constructor
    · simp [copyAt]; omega
    · intro i hi
      unfold copyAt
      simp only [List.getElem?_append, List.length_append, List.length_take, List.getElem?_take, List.getElem?_drop]
      by_cases h1 : i < k
      · rw [if_pos (by omega), if_pos (by omega), if_pos h1]
      · have : k + v.length ≤ i := by omega
        split
        · rename_i h2
          rw [if_neg (by omega)]
          have : b.length ≤ i := by omega
          rw [List.getElem?_eq_none this]
          split
          · omega
          · rfl
        · rename_i h2
          by_cases h3 : i < b.length
          · congr 1; omega
          · rw [List.getElem?_eq_none (by omega), List.getElem?_eq_none (by omega)]
  cases t with
  | u8 =>
    change UInt8 at v
    simp only [setTy] at h
    split at h
    · cases h
      refine ⟨by simp, fun i hi => ?_⟩
      rw [List.getElem?_set]
      split
      · rename_i h1; subst h1; exact absurd ⟨Nat.le_refl _, fun n hn => by simp [Ty.size] at hn; omega⟩ hi
      · rfl
    · cases h
  | u16 =>
    change UInt16 at v
    simp only [setTy, sliceFrom] at h
    split at h
    · rename_i hk
      simp only [Go.bind_ok, Go.bind_eq_ok, Go.pure_def] at h
      obtain ⟨_, _, h⟩ := h
      cases h
      obtain ⟨c1, c2⟩ := copy (put v) hk
      exact ⟨c1, fun i hi => c2 i fun hh => hi ⟨hh.1, fun n hn => by simp [Ty.size] at hn; subst hn; exact hh.2⟩⟩
    · cases h
  | rest =>
    change Bytes at v
    simp only [setTy, sliceFrom] at h
    split at h
    · rename_i hk
      cases h
      obtain ⟨c1, c2⟩ := copy v hk
      exact ⟨c1, fun i hi => c2 i fun hh => hi ⟨hh.1, fun n hn => by simp [Ty.size] at hn⟩⟩
    · cases h
  | sig =>
    change { b : Bytes // b.length = 12 } at v
    simp only [setTy, slice] at h
    split at h
    · rename_i hk
      cases h
      obtain ⟨c1, c2⟩ := copy v.1 (by omega)
      exact ⟨c1, fun i hi => c2 i fun hh => hi ⟨hh.1, fun n hn => by simp [Ty.size] at hn; subst hn; have := v.2; omega⟩⟩
    · cases h

theorem drop_congr {b b' : Bytes} {k : Nat} (h : ∀ i, k ≤ i → b'[i]? = b[i]?) : b'.drop k = b.drop k := by
  apply List.ext_getElem?
  intro i
  simp only [List.getElem?_drop]
  exact h _ (by omega)

theorem get_congr {t : Ty} {k : Nat} {b b' : Bytes} (hl : b'.length = b.length) (h : ∀ i, inField t k i → b'[i]? = b[i]?) : getTy t k b' = getTy t k b := by
  cases t with
  | u8 => simp only [getTy, index]; rw [h k ⟨Nat.le_refl _, fun n hn => by simp [Ty.size] at hn; omega⟩]
  | u16 =>
    simp only [getTy, sliceFrom, hl]
    split
    · simp only [Go.bind_ok, index, List.getElem?_drop]
      rw [h (k + 1) ⟨by omega, fun n hn => by simp [Ty.size] at hn; omega⟩, h (k + 0) ⟨by omega, fun n hn => by simp [Ty.size] at hn; omega⟩]
    · rfl
  | rest =>
    simp only [getTy, sliceFrom, hl]
    rw [drop_congr fun i hi => h i ⟨hi, fun n hn => by simp [Ty.size] at hn⟩]
  | sig =>
    have e : (b'.drop k).take 12 = (b.drop k).take 12 := by
      apply List.ext_getElem?
      intro i
      simp only [List.getElem?_take, List.getElem?_drop]
      split
      · exact h _ ⟨by omega, fun n hn => by simp [Ty.size] at hn; omega⟩
      · rfl
    simp only [getTy, sliceFrom, hl]
    split
    · simp only [Go.bind]
      congr 1
      apply Subtype.ext
      simp [e, hl]
    · rfl

/-- One field ends before the other begins. -/
def apart (f g : Field) : Bool :=
  (match f.ty.size with | some n => decide (f.setAt + n ≤ g.getAt) | none => false) || (match g.ty.size with | some n => decide (g.getAt + n ≤ f.setAt) | none => false)

theorem tables_apart : ∀ p ∈ pdus, p.name ≠ "SignedWriteCommand" → ∀ f ∈ p.fields, ∀ g ∈ p.fields, f ≠ g → apart f g = true := by decide

theorem tables_same : ∀ p ∈ pdus, ∀ f ∈ p.fields, f.getAt = f.setAt ∧ 1 ≤ f.setAt := by decide

theorem apart_in {f g : Field} (h : apart f g = true) {i : Nat} (h1 : inField g.ty g.getAt i) : ¬ inField f.ty f.setAt i := by
  rintro ⟨h2, h3⟩
  obtain ⟨h4, h5⟩ := h1
  unfold apart at h
  simp only [Bool.or_eq_true] at h
  rcases h with h | h <;> split at h <;> simp only [decide_eq_true_eq, Bool.false_eq_true] at h
  · rename_i n hn; have := h3 n hn; omega
  · rename_i n hn; have := h5 n hn; omega

end AttPduAux

open AttPduAux

/-- **C121** The PDU types of the library are those of the specification: the same names, opcodes and fields, with the same sizes, in the same order; no opcode twice. -/
theorem att_pdus_are_spec : (∀ s, s ∈ pdus.map Pdu.spec ↔ s ∈ specPdus) ∧ (pdus.map Pdu.code).Nodup := by
  have h1 : ∀ s ∈ pdus.map Pdu.spec, s ∈ specPdus := by decide
  have h2 : ∀ s ∈ specPdus, s ∈ pdus.map Pdu.spec := by decide
  exact ⟨fun s => ⟨h1 s, h2 s⟩, by decide⟩

/-- **C121** Filling in any PDU but a Signed Write Command, in a buffer of its size whatever was in it, gives exactly the octets the specification says: the opcode and then the fields one after the other. -/
theorem att_fill_partial (p : Pdu) (hp : p ∈ pdus) (hn : p.name ≠ "SignedWriteCommand") (v : (f : Field) → f.ty.Val) (b : Bytes) (hb : b.length = (wire p v).length) :
    p.fill v b = .ok (wire p v) := by
  have hf := tables_follow p hp hn
  match b, hb with
  | x :: b, hb =>
    have := setAll_wire v p.fields [p.code] b hf (by simpa [wire] using hb)
    simp only [Pdu.fill, Pdu.setOpcode]
    rw [if_pos (by simp)]
    exact this

/-- **C121** Reading a PDU that has the octets of the specification gives every field its value. -/
theorem att_read_partial (p : Pdu) (hp : p ∈ pdus) (hn : p.name ≠ "SignedWriteCommand") (v : (f : Field) → f.ty.Val) :
    opcode (wire p v) = .ok p.code ∧ ∀ f ∈ p.fields, f.get (wire p v) = .ok (v f) :=
  ⟨rfl, fun f hf => get_wire v p.fields [p.code] (tables_follow p hp hn) f hf⟩

/-- **C121** Setting a field changes no other field, nor the opcode, nor the size, whatever the octets are. -/
theorem att_set_other (p : Pdu) (hp : p ∈ pdus) (hn : p.name ≠ "SignedWriteCommand") (f : Field) (hf : f ∈ p.fields) (b b' : Bytes) (v : f.ty.Val) (h : f.set b v = .ok b') :
    b'.length = b.length ∧ opcode b' = opcode b ∧ ∀ g ∈ p.fields, g ≠ f → g.get b' = g.get b := by
  obtain ⟨h1, h2⟩ := set_frame h
  refine ⟨h1, ?_, ?_⟩
  · unfold opcode index
    rw [h2 0]
    intro hh
    have := (tables_same p hp f hf).2
    have := hh.1
    omega
  · intro g hg hne
    exact get_congr h1 fun i hi => h2 i (apart_in (tables_apart p hp hn f hf g hg (Ne.symm hne)) hi)

/-- **C121** A field that was set is read back; of a value for the rest of the PDU as much as there is room for, with what was there before behind it. -/
theorem att_set_get (p : Pdu) (hp : p ∈ pdus) (f : Field) (hf : f ∈ p.fields) (b b' : Bytes) (v : f.ty.Val) (h : f.set b v = .ok b') :
    (f.ty ≠ .rest → f.get b' = .ok v) ∧ ∀ w : Bytes, f.ty = .rest → HEq v w → ∃ r, f.get b' = .ok r ∧ HEq r (w.take (b.length - f.setAt) ++ b.drop (f.setAt + w.length)) := by
  have hs := (tables_same p hp f hf).1
  obtain ⟨name, t, ga, sa⟩ := f
  simp only at hs
  subst hs
  simp only [Field.set, Field.get] at *
  cases t with
  | u8 =>
    change UInt8 at v
    refine ⟨fun _ => ?_, fun w hw => by simp at hw⟩
    simp only [setTy] at h
    split at h
    · rename_i hk; cases h; simp only [getTy, index]; rw [List.getElem?_set_self hk]
    · cases h
  | u16 =>
    change UInt16 at v
    refine ⟨fun _ => ?_, fun w hw => by simp at hw⟩
    have hk : ga + 2 ≤ b.length := by
      simp only [setTy, sliceFrom, index] at h
      split at h
      · simp only [Go.bind_ok, List.getElem?_drop, Go.bind_eq_ok] at h
        obtain ⟨_, h, _⟩ := h
        split at h
        · rename_i hx; have := (List.getElem?_eq_some_iff.1 hx).1; omega
        · cases h
      · cases h
    have h1 := set_room .u16 (b.take ga) ((b.drop ga).take 2) (b.drop (ga + 2)) v (by simp [octets]; omega)
    have h2 : b.take ga ++ (b.drop ga).take 2 ++ b.drop (ga + 2) = b := by
      rw [List.append_assoc, ← List.drop_drop, List.take_append_drop, List.take_append_drop]
    rw [h2, List.length_take, Nat.min_eq_left (by omega), h] at h1
    cases h1
    have h3 := get_room .u16 (b.take ga) (b.drop (ga + 2)) v (by simp)
    rwa [List.length_take, Nat.min_eq_left (by omega)] at h3
  | rest =>
    change Bytes at v
    refine ⟨fun hh => absurd rfl hh, fun w _ hw => ?_⟩
    cases hw
    simp only [setTy, sliceFrom] at h
    split at h
    · rename_i hk
      cases h
      refine ⟨_, ?_, HEq.rfl⟩
      simp only [getTy, sliceFrom]
      rw [if_pos (by simp [copyAt]; omega)]
      congr 1
      simp only [copyAt, List.append_assoc]
      rw [List.drop_append_of_le_length (by simp; omega), List.drop_take]
      simp
    · cases h
  | sig =>
    change { b : Bytes // b.length = 12 } at v
    refine ⟨fun _ => ?_, fun w hw => by simp at hw⟩
    have hk : ga + 12 ≤ b.length := by
      simp only [setTy, slice] at h
      split at h
      · rename_i hx; omega
      · cases h
    have h1 := set_room .sig (b.take ga) ((b.drop ga).take 12) (b.drop (ga + 12)) v (by have := v.2; simp [octets]; omega)
    have h2 : b.take ga ++ (b.drop ga).take 12 ++ b.drop (ga + 12) = b := by
      rw [List.append_assoc, ← List.drop_drop, List.take_append_drop, List.take_append_drop]
    rw [h2, List.length_take, Nat.min_eq_left (by omega), h] at h1
    cases h1
    have h3 := get_room .sig (b.take ga) (b.drop (ga + 12)) v (by simp)
    rwa [List.length_take, Nat.min_eq_left (by omega)] at h3

/-- **C121** The accessors panic exactly if the PDU is too short for the field. (The getter of the signature does not: it fills up with zeros.) -/
theorem att_accessor_panics_iff (f : Field) (b : Bytes) (v : f.ty.Val) :
    (f.set b v = .panic ↔ b.length < f.setAt + f.ty.size.getD 0) ∧
    (f.get b = .panic ↔ b.length < f.getAt + (if f.ty = .sig then 0 else f.ty.size.getD 0)) := by
  obtain ⟨name, t, ga, sa⟩ := f
  simp only [Field.set, Field.get]
  cases t with
  | u8 =>
    change UInt8 at v
    simp only [setTy, getTy, index, Ty.size]
    refine ⟨by split <;> simp <;> omega, ?_⟩
    cases hx : b[ga]? with
    | none => have := List.getElem?_eq_none_iff.1 hx; simp; omega
    | some x => have := (List.getElem?_eq_some_iff.1 hx).1; simp; omega
  | u16 =>
    change UInt16 at v
    simp only [setTy, getTy, sliceFrom, index, Ty.size]
    constructor
    · split
      · simp only [Go.bind_ok, List.getElem?_drop]
        cases hx : b[sa + 1]? with
        | none => have := List.getElem?_eq_none_iff.1 hx; simp; omega
        | some x => have := (List.getElem?_eq_some_iff.1 hx).1; simp; omega
      · simp; omega
    · split
      · simp only [Go.bind_ok, List.getElem?_drop]
        cases hx : b[ga + 1]? with
        | none => have := List.getElem?_eq_none_iff.1 hx; simp; omega
        | some x =>
          have := (List.getElem?_eq_some_iff.1 hx).1
          have hy : b[ga + 0]? = some (b[ga]'(by omega)) := by simp
          rw [hy]; simp; omega
      · simp; omega
  | rest =>
    change Bytes at v
    simp only [setTy, getTy, sliceFrom, Ty.size]
    constructor <;> split <;> simp <;> omega
  | sig =>
    change { b : Bytes // b.length = 12 } at v
    simp only [setTy, getTy, sliceFrom, slice, Ty.size]
    constructor <;> split <;> simp [Go.bind] <;> omega

/-- The type of the signed write command. -/
def signedWrite : Pdu :=
  ⟨"SignedWriteCommand", 0xD2, [⟨"AttributeHandle", .u16, 1, 1⟩, ⟨"AttributeValue", .rest, 3, 3⟩, ⟨"AuthenticationSignature", .sig, 3, 3⟩]⟩

/-- **C121: where it fails.** In a Signed Write Command the signature is put on top of the value: in a buffer of the right size, whatever was in it, the signature stands where the specification puts the value, the first twelve octets of the
value are lost, and the end of the PDU keeps what was in the buffer. So the PDU is the specified one only if value, signature and old contents agree. -/
theorem signed_write_overlaps (v : (f : Field) → f.ty.Val) (value sig old : Bytes) (h : UInt16)
    (hv : ∀ n a b, HEq (v ⟨n, .rest, a, b⟩) value) (hsig : sig.length = 12) (hs : ∀ n a b, (v ⟨n, .sig, a, b⟩).1 = sig) (hh : ∀ n a b, HEq (v ⟨n, .u16, a, b⟩) h)
    (ho : old.length = 3 + value.length + 12) :
    signedWrite ∈ pdus ∧ wire signedWrite v = 0xD2 :: octets .u16 h ++ value ++ sig ∧
    signedWrite.fill v old = .ok (0xD2 :: octets .u16 h ++ sig ++ value.drop 12 ++ old.drop (3 + max value.length 12)) := by
  have e1 := eq_of_heq (hv "AttributeValue" 3 3)
  have e2 := eq_of_heq (hh "AttributeHandle" 1 1)
  have e3 := hs "AuthenticationSignature" 3 3
  refine ⟨by decide, ?_, ?_⟩
  · simp only [wire, signedWrite, List.flatMap_cons, List.flatMap_nil, octets] at *
    rw [e1, e2, e3]
    simp
  · match old, ho with
    | x :: a :: b :: r, ho =>
      have hr : r.length = value.length + 12 := by simp at ho; omega
      have s1 := set_room .u16 [0xD2] [a, b] r h rfl
      have s2 := set_room .rest (0xD2 :: octets .u16 h) (r.take value.length) (r.drop value.length) value (by simp [octets]; omega)
      simp only [List.append_assoc, List.take_append_drop] at s2
      have hl : (value ++ r.drop value.length).length = value.length + 12 := by simp; omega
      have s3 := set_room .sig (0xD2 :: octets .u16 h) ((value ++ r.drop value.length).take 12) ((value ++ r.drop value.length).drop 12) ⟨sig, hsig⟩ (by simp [octets, hsig]; omega)
      simp only [List.append_assoc, List.take_append_drop] at s3
      have e3' : v ⟨"AuthenticationSignature", .sig, 3, 3⟩ = ⟨sig, hsig⟩ := Subtype.ext e3
      have l1 : (0xD2 :: octets .u16 h).length = 3 := rfl
      rw [l1] at s2 s3
      simp only [Pdu.fill, Pdu.setOpcode, signedWrite, setAll, Field.set]
      rw [if_pos (by simp)]
      simp only [List.set_cons_zero, Go.bind, e1, e2, e3']
      have s1' : setTy .u16 1 (0xD2 :: a :: b :: r) h = .ok (0xD2 :: octets .u16 h ++ r) := s1
      have o1 : octets .rest value = value := rfl
      have o2 : octets .sig ⟨sig, hsig⟩ = sig := rfl
      rw [o1] at s2
      rw [o2] at s3
      rw [s1']
      simp only
      rw [s2]
      simp only
      rw [s3]
      simp only
      congr 1
      rw [List.drop_append, List.drop_drop]
      have d : List.drop (3 + max value.length 12) (x :: a :: b :: r) = List.drop (max value.length 12) r := by
        rw [Nat.add_comm]; rfl
      rw [d]
      simp only [List.append_assoc]
      congr 4
      omega

/-- A case the positive theorems speak about. -/
theorem att_pdu_example : ∃ p ∈ pdus, p.name = "WriteRequest" ∧ p.name ≠ "SignedWriteCommand" ∧
    ∀ v : (f : Field) → f.ty.Val, (∀ n a b, HEq (v ⟨n, .u16, a, b⟩) (0x0102 : UInt16)) → (∀ n a b, HEq (v ⟨n, .rest, a, b⟩) ([7, 8] : Bytes)) → p.fill v [9, 9, 9, 9, 9] = .ok [0x12, 2, 1, 7, 8] := by
  refine ⟨⟨"WriteRequest", 0x12, [⟨"AttributeHandle", .u16, 1, 1⟩, ⟨"AttributeValue", .rest, 3, 3⟩]⟩, by decide, rfl, by decide, ?_⟩
  intro v h1 h2
  have e1 := eq_of_heq (h1 "AttributeHandle" 1 1)
  have e2 := eq_of_heq (h2 "AttributeValue" 3 3)
  simp only [Pdu.fill, Pdu.setOpcode, setAll, Field.set, e1, e2]
  rfl

/-- C121: a signature of which only a part is there is read as that part and zeros. -/
theorem att_sig_short (f : Field) (h : f.ty = .sig) (b : Bytes) (hb : f.getAt ≤ b.length) : ∃ v : Ty.Val .sig, (h ▸ f.get b : Go Empty (Ty.Val .sig)) = .ok v ∧ v.val = (b.drop f.getAt ++ List.replicate 12 0).take 12 := by
  obtain ⟨nm, ty, off, off'⟩ := f
  simp only at h hb
  subst h
  refine ⟨⟨(b.drop off ++ List.replicate 12 0).take 12, by simp⟩, ?_, rfl⟩
  simp only [Field.get, getTy, sliceFrom, hb, if_true, Go.bind]
  congr 1
  apply Subtype.ext
  simp only [List.take_append, List.take_replicate]
  congr 2
  omega

/-- C121: an opcode cannot be written to an empty buffer: the setter panics, for every PDU, and for no other buffer. -/
theorem set_opcode_exact (p : Pdu) (b : Bytes) : p.setOpcode b = match b with | [] => .panic | _ :: r => .ok (p.code :: r) := by
  cases b <;> simp [Pdu.setOpcode]

end Ble.Props
