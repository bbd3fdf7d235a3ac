import Verif.Hci.EvtTable
import Verif.Hci.EvtGenSpec
set_option autoImplicit false

/-!
# C125: the parameters of HCI events are read where the specification puts them
-/

namespace Ble.EvtGen

namespace EvtGenAux

/-- The parameters follow each other from octet `k`. -/
def follow : Nat → List Field → Bool
  | _, [] => true
  | k, f :: fs => f.off == k && follow (k + f.ty.size) fs

theorem tables_follow : ∀ e ∈ evts, follow 0 e.fields = true := by decide

theorem octetsOf_length (n v : Nat) : (octetsOf n v).length = n := by
  induction n generalizing v with
  | zero => rfl
  | succ n ih => simp [octetsOf, ih]

theorem size_octets (t : Ty) (v : t.Val) : (octets t v).length = t.size := by
  cases t with
  | u8 => rfl
  | u16 => rfl
  | u64 => rfl
  | addr => exact v.2

theorem sliceFrom_room (pre s : Bytes) : (sliceFrom (pre ++ s) pre.length : Go Empty Bytes) = .ok s := by
  unfold sliceFrom
  rw [if_pos (by simp)]
  simp

theorem u16_back (v : UInt16) : (UInt8.ofNat v.toNat).toUInt16 ||| (UInt8.ofNat (v.toNat / 256)).toUInt16 <<< 8 = v := by
  apply UInt16.toNat_inj.1
  have hv := v.toNat_lt
  simp only [UInt16.toNat_or, UInt16.toNat_shiftLeft, UInt8.toNat_toUInt16, UInt8.toNat_ofNat']
  have h1 : (8 : UInt16).toNat % 16 = 8 := rfl
  rw [h1, Nat.shiftLeft_eq]
  have h2 : v.toNat / 256 % 2 ^ 8 * 2 ^ 8 % 2 ^ 16 = 2 ^ 8 * (v.toNat / 256) := by omega
  rw [h2, Nat.or_comm, ← Nat.two_pow_add_eq_or_of_lt (by omega)]
  omega

theorem or_shift (a b k : Nat) (h : a < 2 ^ k) : a ||| b * 2 ^ k = a + b * 2 ^ k := by
  rw [Nat.mul_comm, Nat.or_comm, ← Nat.two_pow_add_eq_or_of_lt h, Nat.add_comm]

theorem u64_back (v : UInt64) (post : Bytes) : le64 (octets .u64 v ++ post) = some v := by
  have hv := v.toNat_lt
  simp only [octets, octetsOf, List.cons_append, le64, Option.some.injEq]
  apply UInt64.toNat_inj.1
  simp only [UInt64.toNat_or, UInt64.toNat_shiftLeft, UInt8.toNat_toUInt64, UInt8.toNat_ofNat', Nat.shiftLeft_eq]
  have e8 : (8 : UInt64).toNat % 64 = 8 := rfl
  have e16 : (16 : UInt64).toNat % 64 = 16 := rfl
  have e24 : (24 : UInt64).toNat % 64 = 24 := rfl
  have e32 : (32 : UInt64).toNat % 64 = 32 := rfl
  have e40 : (40 : UInt64).toNat % 64 = 40 := rfl
  have e48 : (48 : UInt64).toNat % 64 = 48 := rfl
  have e56 : (56 : UInt64).toNat % 64 = 56 := rfl
  rw [e8, e16, e24, e32, e40, e48, e56]
  generalize v.toNat = n at hv
  rw [Nat.mod_eq_of_lt (a := n / 256 % 2 ^ 8 * 2 ^ 8) (by omega), Nat.mod_eq_of_lt (a := n / 256 / 256 % 2 ^ 8 * 2 ^ 16) (by omega),
    Nat.mod_eq_of_lt (a := n / 256 / 256 / 256 % 2 ^ 8 * 2 ^ 24) (by omega), Nat.mod_eq_of_lt (a := n / 256 / 256 / 256 / 256 % 2 ^ 8 * 2 ^ 32) (by omega),
    Nat.mod_eq_of_lt (a := n / 256 / 256 / 256 / 256 / 256 % 2 ^ 8 * 2 ^ 40) (by omega), Nat.mod_eq_of_lt (a := n / 256 / 256 / 256 / 256 / 256 / 256 % 2 ^ 8 * 2 ^ 48) (by omega),
    Nat.mod_eq_of_lt (a := n / 256 / 256 / 256 / 256 / 256 / 256 / 256 % 2 ^ 8 * 2 ^ 56) (by omega)]
  rw [or_shift _ _ 8 (by omega), or_shift _ _ 16 (by omega), or_shift _ _ 24 (by omega), or_shift _ _ 32 (by omega), or_shift _ _ 40 (by omega), or_shift _ _ 48 (by omega),
    or_shift _ _ 56 (by omega)]
  omega

/-- What the getters return. -/
theorem get_room (t : Ty) (pre post : Bytes) (v : t.Val) : getTy t pre.length (pre ++ octets t v ++ post) = .ok v := by
  rw [List.append_assoc]
  cases t with
  | u8 =>
    change UInt8 at v
    simp [getTy, octets, octetsOf, index]
  | u16 =>
    change UInt16 at v
    have h := u16_back v
    simp only [getTy]
    rw [sliceFrom_room]
    simpa [index, octets, octetsOf] using h
  | u64 =>
    change UInt64 at v
    simp only [getTy]
    rw [sliceFrom_room]
    simp only [Go.bind, u64_back]
  | addr =>
    change { b : Bytes // b.length = 6 } at v
    have h := v.2
    simp only [getTy]
    rw [sliceFrom_room]
    simp only [Go.bind, octets]
    congr 1
    apply Subtype.ext
    simp [h]

theorem get_wire (v : (f : Field) → f.ty.Val) (post : Bytes) : ∀ (fs : List Field) (pre : Bytes), follow pre.length fs = true →
    ∀ f ∈ fs, f.get (pre ++ (fs.flatMap fun f => octets f.ty (v f)) ++ post) = .ok (v f)
  | [], _, _, f, hf => by simp at hf
  | g :: fs, pre, hfo, f, hf => by
    simp only [follow, Bool.and_eq_true, beq_iff_eq] at hfo
    obtain ⟨hg, hrest⟩ := hfo
    rcases List.mem_cons.1 hf with rfl | hf
    · have := get_room f.ty pre ((fs.flatMap fun f => octets f.ty (v f)) ++ post) (v f)
      simp only [Field.get, hg]
      rw [List.flatMap_cons, ← List.append_assoc, List.append_assoc]
      exact this
    · have := get_wire v post fs (pre ++ octets g.ty (v g)) (by rw [List.length_append, size_octets]; exact hrest) f hf
      rw [List.flatMap_cons, ← List.append_assoc]
      exact this

theorem le64_none (s : Bytes) : le64 s = none ↔ s.length < 8 := by
  unfold le64
  split
  · simp
  · rename_i h
    simp only [true_iff]
    match s, h with
    | [], _ | [_], _ | [_, _], _ | [_, _, _], _ | [_, _, _, _], _ | [_, _, _, _, _], _ | [_, _, _, _, _, _], _ | [_, _, _, _, _, _, _], _ => simp
    | b0 :: b1 :: b2 :: b3 :: b4 :: b5 :: b6 :: b7 :: r, h => exact absurd rfl (h b0 b1 b2 b3 b4 b5 b6 b7 r)

end EvtGenAux

open EvtGenAux

/-- C125: except for one event code, the event types of the library are those of the specification: the same names, codes and parameters, with the same sizes, in the same order.
Missing: LE Connection Update Complete has the code of Command Complete, see `evt_wrong_code`. -/
theorem evts_are_spec_partial :
    (∀ e ∈ evts, e.name ≠ "LEConnectionUpdateComplete" → e.spec ∈ specEvts) ∧ (∀ s ∈ specEvts, s.name ≠ "LEConnectionUpdateComplete" → ∃ e ∈ evts, e.spec = s) := by
  constructor
  · decide
  · decide

/-- C125: where it fails: the constant for LE Connection Update Complete is the code of Command Complete; its parameters are right. (The library does not use the constant: all subevents of the LE Meta event are dispatched by
their subevent code.) -/
theorem evt_wrong_code : ∃ e ∈ evts, e.name = "LEConnectionUpdateComplete" ∧ e.code = 0x0E ∧ (∃ c ∈ evts, c.name = "CommandComplete" ∧ c.code = e.code) ∧ { e with code := 0x3E }.spec ∈ specEvts := by decide

/-- C125: whatever the parameters of an event are, and whatever a controller of a later version puts behind them, every getter returns its parameter. -/
theorem evt_read (e : Evt) (he : e ∈ evts) (v : (f : Field) → f.ty.Val) (post : Bytes) : ∀ f ∈ e.fields, f.get (wire e v ++ post) = .ok (v f) := by
  intro f hf
  have := get_wire v post e.fields [] (tables_follow e he) f hf
  simpa [wire] using this

/-- C125: a getter panics exactly if the event is too short for its parameter; an address only if it does not even begin. -/
theorem evt_getter_panics_iff (f : Field) (b : Bytes) : f.get b = .panic ↔ b.length < f.off + (if f.ty = .addr then 0 else f.ty.size) := by
  obtain ⟨name, t, k⟩ := f
  simp only [Field.get]
  cases t with
  | u8 =>
    simp only [getTy, index, Ty.size]
    cases hx : b[k]? with
    | none => have := List.getElem?_eq_none_iff.1 hx; simp; omega
    | some x => have := (List.getElem?_eq_some_iff.1 hx).1; simp; omega
  | u16 =>
    simp only [getTy, sliceFrom, index, Ty.size]
    split
    · simp only [Go.bind_ok, List.getElem?_drop]
      cases hx : b[k + 1]? with
      | none => have := List.getElem?_eq_none_iff.1 hx; simp; omega
      | some x =>
        have := (List.getElem?_eq_some_iff.1 hx).1
        have hy : b[k + 0]? = some (b[k]'(by omega)) := by simp
        rw [hy]; simp; omega
    · simp; omega
  | u64 =>
    simp only [getTy, sliceFrom, Ty.size]
    by_cases hk : k ≤ b.length
    · rw [if_pos hk]
      simp only [Go.bind]
      have h := le64_none (b.drop k)
      rw [List.length_drop] at h
      cases hl : le64 (b.drop k) with
      | none => have := h.1 hl; simp; omega
      | some x =>
        have : ¬ b.length - k < 8 := fun hc => by rw [h.2 hc] at hl; cases hl
        simp; omega
    · rw [if_neg hk]; simp [Go.bind]; omega
  | addr =>
    simp only [getTy, sliceFrom, Ty.size]
    split <;> simp [Go.bind] <;> omega

/-- C125: a Command Status that is valid can be read. -/
theorem evt_valid_safe (e : Evt) (he : e ∈ evts) (n : Nat) (hn : e.valid = some n) (b : Bytes) (hv : e.isValid b = true) (f : Field) (hf : f ∈ e.fields) : f.get b ≠ .panic := by
  have h1 : ∀ e ∈ evts, ∀ n, e.valid = some n → ∀ f ∈ e.fields, f.off + f.ty.size ≤ n := by
    have : ∀ e ∈ evts, e.valid.all fun n => e.fields.all fun f => f.off + f.ty.size ≤ n := by decide
    intro e he n hn f hf
    have := this e he
    rw [hn] at this
    simp only [Option.all_some, List.all_eq_true, decide_eq_true_eq] at this
    exact this f hf
  rw [Ne, evt_getter_panics_iff]
  have := h1 e he n hn f hf
  simp only [Evt.isValid, hn, decide_eq_true_eq] at hv
  split <;> omega

/-- C125: and only such: `Valid` refuses no event whose parameters could all be read (events without the method count as valid). -/
theorem evt_valid_exact (e : Evt) (he : e ∈ evts) (b : Bytes) (hr : ∀ f ∈ e.fields, f.get b ≠ .panic) : e.isValid b = true := by
  cases hn : e.valid with
  | none => simp [Evt.isValid, hn]
  | some n =>
    have h1 : ∀ e ∈ evts, ∀ n, e.valid = some n → ∃ f ∈ e.fields, f.ty ≠ .addr ∧ n ≤ f.off + f.ty.size := by
      have : ∀ e ∈ evts, e.valid.all fun n => e.fields.any fun f => f.ty ≠ .addr && n ≤ f.off + f.ty.size := by decide
      intro e he n hn
      have := this e he
      rw [hn] at this
      simp only [Option.all_some, List.any_eq_true, Bool.and_eq_true, decide_eq_true_eq] at this
      exact this
    obtain ⟨f, hf, hty, hle⟩ := h1 e he n hn
    have := hr f hf
    rw [Ne, evt_getter_panics_iff, if_neg hty] at this
    simp only [Evt.isValid, hn, decide_eq_true_eq]
    omega

/-- A disconnection: status 0, handle 0x0040, reason 0x13. -/
theorem evt_example : ∃ e ∈ evts, e.name = "DisconnectionComplete" ∧ ∃ f ∈ e.fields, ∃ h : f.ty = .u16, f.name = "ConnectionHandle" ∧ h ▸ f.get [0, 0x40, 0, 0x13] = .ok (0x40 : UInt16) :=
  ⟨⟨"DisconnectionComplete", 0x05, none, none, [⟨"Status", .u8, 0⟩, ⟨"ConnectionHandle", .u16, 1⟩, ⟨"Reason", .u8, 3⟩]⟩, by decide, rfl, ⟨"ConnectionHandle", .u16, 1⟩, by decide, rfl, rfl, rfl⟩

/-- An address getter takes what the event has from its place on, up to six octets, and zeros for the rest. -/
theorem evt_addr_short (f : Field) (h : f.ty = .addr) (b : Bytes) (hb : f.off ≤ b.length) : ∃ v : Ty.Val .addr, (h ▸ f.get b : Go Empty (Ty.Val .addr)) = .ok v ∧ v.val = (b.drop f.off ++ List.replicate 6 0).take 6 := by
  obtain ⟨nm, ty, off⟩ := f
  simp only at h hb
  subst h
  refine ⟨⟨(b.drop off ++ List.replicate 6 0).take 6, by simp⟩, ?_, rfl⟩
  simp only [Field.get, getTy, sliceFrom, hb, if_true, Go.bind]
  congr 1
  apply Subtype.ext
  simp only [List.take_append, List.take_replicate]
  congr 2
  omega

end Ble.EvtGen
