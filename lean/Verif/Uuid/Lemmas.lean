import Verif.Uuid.Model
set_option autoImplicit false

namespace Ble

theorem reverseIter_eq (u : Bytes) : ∀ n, n ≤ u.length →
    reverseIter u n = List.replicate (u.length - n) 0 ++ (u.take n).reverse := by
  intro n
  induction n with
  | zero => intro _; simp [reverseIter]
  | succ n ih =>
    intro h
    rw [reverseIter, ih (by omega)]
    have e : u.length - n = (u.length - (n + 1)) + 1 := by omega
    have hn : n < u.length := by omega
    rw [e, List.replicate_succ']
    rw [List.append_assoc, List.set_append_right _ _ (by simp)]
    have : u.length - (n + 1) + 1 - 1 - (List.replicate (u.length - (n + 1)) (0:UInt8)).length = 0 := by
      simp
    rw [this]
    have ht : (List.take (n + 1) u).reverse = u[n] :: (List.take n u).reverse := by
      rw [List.take_add_one, List.getElem?_eq_getElem hn, List.reverse_append]; rfl
    rw [ht, List.getElem?_eq_getElem hn]
    rfl

@[simp] theorem reverse_eq (u : Bytes) : reverse u = u.reverse := by
  rw [reverse, reverseIter_eq u _ (Nat.le_refl _)]; simp

@[simp] theorem swapAt_length (a : Bytes) (i j : Nat) : (swapAt a i j).length = a.length := by
  simp [swapAt]

@[simp] theorem swapLoop_length (k : Nat) : ∀ a : Bytes, (swapLoop a k).length = a.length := by
  induction k with
  | zero => intro a; rfl
  | succ k ih => intro a; simp [swapLoop, ih]

theorem swapAt_get (a : Bytes) (i : Nat) (hi : 2 * i + 1 ≤ a.length) (j : Nat) (hj : j < a.length) :
    (swapAt a i (a.length - 1 - i))[j]? =
      if j = i ∨ j = a.length - 1 - i then a[a.length - 1 - j]? else a[j]? := by
  have e1 : a.length - 1 - i < a.length := by omega
  have e2 : i < a.length := by omega
  unfold swapAt
  rw [List.getElem?_set, List.getElem?_set]
  by_cases h1 : a.length - 1 - i = j
  · subst h1
    have : a.length - 1 - (a.length - 1 - i) = i := by omega
    simp [this, e1, e2]
  · by_cases h2 : i = j
    · subst h2
      simp [h1, hj, e1]
    · have h3 : ¬ (j = i ∨ j = a.length - 1 - i) := by omega
      simp [h1, h2, h3]

theorem swapLoop_get (k : Nat) : ∀ (a : Bytes), 2 * k ≤ a.length → ∀ j, j < a.length →
    (swapLoop a k)[j]? = if j < k ∨ a.length ≤ j + k then a[a.length - 1 - j]? else a[j]? := by
  induction k with
  | zero => intro a _ j hj; simp [swapLoop]; omega
  | succ k ih =>
    intro a h j hj
    rw [swapLoop, ih _ (by simp; omega) j (by simpa using hj)]
    simp only [swapAt_length]
    rw [swapAt_get a k (by omega) _ (by omega), swapAt_get a k (by omega) _ hj]
    by_cases c1 : j < k ∨ a.length ≤ j + k
    · have c2 : j < k + 1 ∨ a.length ≤ j + (k + 1) := by omega
      have c3 : ¬ (a.length - 1 - j = k ∨ a.length - 1 - j = a.length - 1 - k) := by omega
      simp [c1, c2, c3]
    · by_cases c2 : j < k + 1 ∨ a.length ≤ j + (k + 1)
      · have c3 : j = k ∨ j = a.length - 1 - k := by omega
        simp only [c1, c2, c3, if_true, if_false]
      · have c3 : ¬ (j = k ∨ j = a.length - 1 - k) := by omega
        simp only [c1, c2, c3, if_false]

@[simp] theorem swapBuf_eq (a : Bytes) : swapBuf a = a.reverse := by
  apply List.ext_getElem?
  intro j
  by_cases hj : j < a.length
  · rw [swapBuf, swapLoop_get _ a (by omega) j hj, List.getElem?_reverse hj]
    by_cases c : j < a.length / 2 ∨ a.length ≤ j + a.length / 2
    · rw [if_pos c]
    · rw [if_neg c]
      have : a.length - 1 - j = j := by omega
      rw [this]
  · rw [List.getElem?_eq_none (by simp [swapBuf]; omega), List.getElem?_eq_none (by simp; omega)]

theorem char_toNat_ofNat (n : Nat) (h : n < 128) : (Char.ofNat n).toNat = n := by
  have hv : n.isValidChar := by left; omega
  simp [Char.ofNat, hv, Char.ofNatAux, Char.toNat]

theorem hexDigit_toNat (n : Nat) (h : n < 16) :
    (hexDigit n).toNat = if n < 10 then 48 + n else 87 + n := by
  unfold hexDigit; split <;> rw [char_toNat_ofNat _ (by omega)]

theorem char_eq_iff (a b : Char) : a = b ↔ a.toNat = b.toNat :=
  ⟨fun h => by rw [h], fun h => by apply Char.ext; exact UInt32.toNat_inj.1 h⟩

theorem char_le_iff (a b : Char) : a ≤ b ↔ a.toNat ≤ b.toNat := Iff.rfl

theorem toLower_toNat (c : Char) :
    c.toLower.toNat = if 65 ≤ c.toNat ∧ c.toNat ≤ 90 then c.toNat + 32 else c.toNat := by
  unfold Char.toLower
  simp only [UInt32.le_iff_toNat_le]
  have : c.val.toNat = c.toNat := rfl
  split
  · rename_i h
    have h' : 65 ≤ c.toNat ∧ c.toNat ≤ 90 := by simpa [this] using h
    rw [if_pos h']
    show (c.val + _).toNat = _
    rw [UInt32.toNat_add, this]
    have e : (UInt32.toNat ('a'.val - 'A'.val)) = 32 := by decide
    rw [e]
    omega
  · rename_i h
    have h' : ¬ (65 ≤ c.toNat ∧ c.toNat ≤ 90) := by simpa [this] using h
    rw [if_neg h']

theorem fromHexChar_iff (c : Char) (n : Nat) :
    fromHexChar c = some n ↔ n < 16 ∧ c.toLower = hexDigit n := by
  unfold fromHexChar
  simp only [char_le_iff]
  have z : '0'.toNat = 48 := rfl
  have z1 : '9'.toNat = 57 := rfl
  have z2 : 'a'.toNat = 97 := rfl
  have z3 : 'f'.toNat = 102 := rfl
  have z4 : 'A'.toNat = 65 := rfl
  have z5 : 'F'.toNat = 70 := rfl
  rw [z, z1, z2, z3, z4, z5, char_eq_iff, toLower_toNat]
  constructor
  · intro h
    have hn : n < 16 := by grind
    refine ⟨hn, ?_⟩
    rw [hexDigit_toNat n hn]
    grind
  · rintro ⟨hn, h⟩
    rw [hexDigit_toNat n hn] at h
    grind

theorem hexDigit_inj {m n : Nat} (hm : m < 16) (hn : n < 16) (h : hexDigit m = hexDigit n) : m = n := by
  rw [char_eq_iff, hexDigit_toNat m hm, hexDigit_toNat n hn] at h
  split at h <;> split at h <;> omega

theorem hexDecode_iff (s : Text) : ∀ b : Bytes, hexDecode s = some b ↔ s.map Char.toLower = hexEncode b := by
  fun_induction hexDecode s with
  | case1 => intro b; cases b <;> simp [hexEncode]
  | case2 c => intro b; cases b <;> simp [hexEncode]
  | case3 a b rest x y r hr hy hx ih =>
    intro bs
    have hx' := (fromHexChar_iff a x).1 hx
    have hy' := (fromHexChar_iff b y).1 hy
    have hr' := (ih r).1 hr
    cases bs with
    | nil => simp [hexEncode]
    | cons v vs =>
      have hv := v.toNat_lt
      simp only [List.map_cons, hexEncode, Option.some.injEq, List.cons.injEq, hx'.2, hy'.2, hr']
      constructor
      · rintro ⟨rfl, rfl⟩
        have e : (UInt8.ofNat (x * 16 + y)).toNat = x * 16 + y := by
          rw [UInt8.toNat_ofNat']; omega
        rw [e]
        have e1 : (x * 16 + y) / 16 = x := by omega
        have e2 : (x * 16 + y) % 16 = y := by omega
        rw [e1, e2]; simp
      · rintro ⟨h1, h2, h3⟩
        have e1 := hexDigit_inj hx'.1 (by omega) h1
        have e2 := hexDigit_inj hy'.1 (by omega) h2
        constructor
        · apply UInt8.toNat_inj.1
          rw [UInt8.toNat_ofNat', e1, e2]; omega
        · have := (ih vs).2 (hr'.trans h3)
          rw [hr] at this; exact Option.some.inj this
  | case4 a b rest hno ih =>
    intro bs
    constructor
    · intro h; simp at h
    · intro h
      cases bs with
      | nil => simp [hexEncode] at h
      | cons v vs =>
        have hv := v.toNat_lt
        simp only [List.map_cons, hexEncode, List.cons.injEq] at h
        exact absurd ((ih vs).2 h.2.2) (fun h' =>
          hno _ _ _ ((fromHexChar_iff a _).2 ⟨by omega, h.1⟩) ((fromHexChar_iff b _).2 ⟨by omega, h.2.1⟩) h')

theorem hexDigit_ne (n : Nat) (hn : n < 16) (c : Char) (hc : c.toNat < 48 ∨ (57 < c.toNat ∧ c.toNat < 97)) :
    hexDigit n ≠ c := by
  intro h
  have := congrArg Char.toNat h
  rw [hexDigit_toNat n hn] at this
  split at this <;> omega

theorem hexEncode_no (c : Char) (hc : c.toNat < 48 ∨ (57 < c.toNat ∧ c.toNat < 97)) :
    ∀ b : Bytes, ∀ x ∈ hexEncode b, x ≠ c := by
  intro b
  induction b with
  | nil => simp [hexEncode]
  | cons v vs ih =>
    intro x hx
    have hv := v.toNat_lt
    simp only [hexEncode, List.mem_cons] at hx
    rcases hx with rfl | rfl | hx
    · exact hexDigit_ne _ (by omega) c hc
    · exact hexDigit_ne _ (by omega) c hc
    · exact ih x hx

theorem strip_hexEncode (c : Char) (hc : c.toNat < 48 ∨ (57 < c.toNat ∧ c.toNat < 97)) (b : Bytes) :
    strip c (hexEncode b) = hexEncode b := by
  unfold strip
  rw [List.filter_eq_self]
  intro x hx
  simpa using hexEncode_no c hc b x hx

theorem hexDigit_toLower (n : Nat) (hn : n < 16) : (hexDigit n).toLower = hexDigit n := by
  rw [char_eq_iff, toLower_toNat, hexDigit_toNat n hn]
  split <;> split <;> omega

theorem hexEncode_lower (b : Bytes) : (hexEncode b).map Char.toLower = hexEncode b := by
  induction b with
  | nil => rfl
  | cons v vs ih =>
    have hv := v.toNat_lt
    simp [hexEncode, ih, hexDigit_toLower _ (show v.toNat / 16 < 16 by omega),
      hexDigit_toLower _ (show v.toNat % 16 < 16 by omega)]

theorem hexDecode_hexEncode (b : Bytes) : hexDecode (hexEncode b) = some b :=
  (hexDecode_iff _ b).2 (hexEncode_lower b)

theorem hexEncode_length (b : Bytes) : (hexEncode b).length = 2 * b.length := by
  induction b with
  | nil => rfl
  | cons v vs ih => simp [hexEncode, ih]; omega

theorem hexEncode_inj {a b : Bytes} (h : hexEncode a = hexEncode b) : a = b := by
  have := hexDecode_hexEncode a
  rw [h, hexDecode_hexEncode b] at this
  exact (Option.some.inj this).symm

theorem hexDecodePrefix_of_decode (s : Text) : ∀ b, hexDecode s = some b → hexDecodePrefix s = b := by
  fun_induction hexDecode s with
  | case1 => intro b h; simp_all [hexDecodePrefix]
  | case2 => intro b h; simp at h
  | case3 a b rest x y r hr hy hx ih =>
    intro bs h
    simp only [Option.some.injEq] at h
    simp [hexDecodePrefix, hx, hy, ih r hr, ← h]
  | case4 => intro b h; simp at h

end Ble
