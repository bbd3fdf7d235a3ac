import Verif.Smp.Lemmas
set_option autoImplicit false

/-!
# C41, first part: the pairing functions are the specification's

For every cipher, MAC and curve (`Prims`). The library keeps every value least significant byte first, so its result on the reversed arguments is the reverse of the specification's.
-/

namespace Ble.Props

open Ble.Smp

/-- Reversing the byte order. -/
def le (b : Bytes) : Bytes := b.reverse

namespace SmpCryptoAux

theorem num_foldl (l : Bytes) : ∀ a, l.foldl (fun acc (x : UInt8) => acc * 256 + x.toNat) a = a * 256 ^ l.length + SmpSpec.num l := by
  induction l with
  | nil => intro a; simp [SmpSpec.num]
  | cons x xs ih =>
    intro a
    simp only [List.foldl_cons, SmpSpec.num, List.length_cons, Nat.pow_succ]
    rw [ih, ih (0 * 256 + x.toNat)]
    rw [Nat.add_mul, Nat.zero_mul, Nat.zero_add, Nat.add_assoc, Nat.mul_assoc, Nat.mul_comm 256]

theorem num_append (a b : Bytes) : SmpSpec.num (a ++ b) = SmpSpec.num a * 256 ^ b.length + SmpSpec.num b := by
  unfold SmpSpec.num
  rw [List.foldl_append, num_foldl]
  rfl

theorem low32 (b : Bytes) (h : b.length = 16) : SmpSpec.num b % 2 ^ 32 = le32 (b.reverse.take 4) := by
  obtain ⟨a, c, rfl, hc⟩ : ∃ a c, b = a ++ c ∧ c.length = 4 := ⟨b.take 12, b.drop 12, by simp, by simp [h]⟩
  rw [num_append, hc]
  match c, hc with
  | [x, y, z, w], _ =>
    have hx := x.toNat_lt; have hy := y.toNat_lt; have hz := z.toNat_lt; have hw := w.toNat_lt
    simp only [SmpSpec.num, le32, List.foldl_cons, List.foldl_nil, List.reverse_append, List.reverse_cons, List.reverse_nil, List.nil_append, List.cons_append, List.take_succ_cons, List.take_zero,
      List.getD_cons_zero, List.getD_cons_succ]
    omega

end SmpCryptoAux

variable (P : Prims)

/-- C41. f4. -/
theorem f4_spec (u v x : Bytes) (z : UInt8) (hu : u.length = 32) (hv : v.length = 32) (hx : x.length = 16) :
    smpF4 P (le u) (le v) (le x) z = .ok (le (SmpSpec.f4 P u v x z)) := by
  rw [Aux.f4_ok P (by simpa [le] using hu) (by simpa [le] using hv) (by simpa [le] using hx)]
  simp [le]

/-- C41. f5: the MAC key and the long term key. -/
theorem f5_spec (w n1 n2 a1 a2 : Bytes) (hw : w.length = 32) (h1 : n1.length = 16) (h2 : n2.length = 16) (h3 : a1.length = 7) (h4 : a2.length = 7) :
    smpF5 P (le w) (le n1) (le n2) (le a1) (le a2) = .ok (le (SmpSpec.macKey P w n1 n2 a1 a2), le (SmpSpec.ltk P w n1 n2 a1 a2)) := by
  rw [Aux.f5_ok P (by simpa [le] using hw) (by simpa [le] using h1) (by simpa [le] using h2) (by simpa [le] using h3) (by simpa [le] using h4)]
  simp [le]

/-- C41. f6. -/
theorem f6_spec (w n1 n2 r io a1 a2 : Bytes) (hw : w.length = 16) (h1 : n1.length = 16) (h2 : n2.length = 16) (hr : r.length = 16) (hi : io.length = 3)
    (h3 : a1.length = 7) (h4 : a2.length = 7) :
    smpF6 P (le w) (le n1) (le n2) (le r) (le io) (le a1) (le a2) = .ok (le (SmpSpec.f6 P w n1 n2 r io a1 a2)) := by
  rw [Aux.f6_ok P (by simpa [le] using hw) (by simpa [le] using h1) (by simpa [le] using h2) (by simpa [le] using hr) (by simpa [le] using hi) (by simpa [le] using h3) (by simpa [le] using h4)]
  simp [le]

/-- C41. g2, as the six digits that are shown. -/
theorem g2_spec (u v x y : Bytes) (hu : u.length = 32) (hv : v.length = 32) (hx : x.length = 16) (hy : y.length = 16) :
    smpG2 P (le u) (le v) (le x) (le y) = .ok (SmpSpec.g2 P u v x y) := by
  have hx' : (le x).length = 16 := by simpa [le] using hx
  unfold smpG2
  rw [Aux.cmac_ok P hx']
  have hl : (P.cmac x (u ++ v ++ y)).length = 16 := P.cmac_length _ _
  have hrev : (le x).reverse = x ∧ (le y ++ le v ++ le u).reverse = u ++ v ++ y := by simp [le]
  rw [hrev.1, hrev.2]
  simp only [show (le u).length = 32 by simpa [le] using hu, show (le v).length = 32 by simpa [le] using hv, hx', show (le y).length = 16 by simpa [le] using hy,
    ne_eq, not_true, decide_false, Bool.or_self, Bool.false_eq_true, if_false, Go.bind_ok]
  rw [slice_of_le (by omega) (by rw [List.length_reverse, hl]; omega)]
  simp only [Go.bind_ok, List.drop_zero, SmpSpec.g2]
  rw [SmpCryptoAux.low32 _ hl]

/-- C41. c1, of the two seven-byte messages as they are sent. -/
theorem c1_spec (k r preq pres : Bytes) (iat rat : UInt8) (ia ra : Bytes) (hk : k.length = 16) (hr : r.length = 16) (h1 : preq.length = 7) (h2 : pres.length = 7)
    (h3 : ia.length = 6) (h4 : ra.length = 6) :
    smpC1 P (le k) (le r) (le preq) (le pres) iat rat (le ia) (le ra) = .ok (le (SmpSpec.c1 P k r preq pres iat rat ia ra)) := by
  rw [Aux.c1_ok P (by simpa [le] using hk) (by simpa [le] using hr) (by simpa [le] using h1) (by simpa [le] using h2) (by simpa [le] using h3) (by simpa [le] using h4)]
  simp [le]

/-- C41. s1. -/
theorem s1_spec (k r1 r2 : Bytes) (hk : k.length = 16) (h1 : r1.length = 16) (h2 : r2.length = 16) :
    smpS1 P (le k) (le r1) (le r2) = .ok (le (SmpSpec.s1 P k r1 r2)) := by
  rw [Aux.s1_ok P (by simpa [le] using hk) (by simpa [le] using h1) (by simpa [le] using h2)]
  simp [le]

/-- C41. The passkey as the 128-bit number the specification uses: for every passkey below 2^32. -/
theorem passkey_spec (n : Nat) (h : n < 2 ^ 32) : (getLegacyTK n).length = 16 ∧ SmpSpec.num (le (getLegacyTK n)) = n := by
  unfold getLegacyTK
  rw [swapBuf_eq]
  refine ⟨by simp [passkeyBE], ?_⟩
  simp only [le, List.reverse_reverse, passkeyBE]
  rw [SmpCryptoAux.num_append, show SmpSpec.num (List.replicate 12 0) = 0 from by decide]
  simp only [SmpSpec.num, List.foldl_cons, List.foldl_nil, UInt8.toNat_ofNat']
  omega

/-- C41. In round `i` the passkey's bit `i` is used. -/
theorem passkey_bit_spec (n i : Nat) : passkeyBit n i = if n.testBit i then 0x81 else 0x80 := by
  have : (n &&& (1 <<< i)) >>> i = if n.testBit i then 1 else 0 := by
    apply Nat.eq_of_testBit_eq
    intro j
    rw [Nat.testBit_shiftRight, Nat.testBit_and, Nat.one_shiftLeft, Nat.testBit_two_pow]
    cases hb : n.testBit i
    · rw [if_neg (by simp), Nat.zero_testBit]
      by_cases hj : i = i + j
      · rw [← hj, hb]; simp
      · rw [show decide (i = i + j) = false from by simpa using hj]; simp
    · rw [if_pos rfl, show (1 : Nat) = 2 ^ 0 from rfl, Nat.testBit_two_pow]
      by_cases hj : j = 0
      · subst hj; simp [hb]
      · rw [show decide (i = i + j) = false from by simpa using hj, show decide (0 = j) = false from decide_eq_false (by omega)]; simp
  unfold passkeyBit
  rw [this]
  cases n.testBit i <;> rfl

/-- Public keys on the air are the coordinates, least significant byte first, and are decoded to the same key. -/
theorem public_key_roundtrip (p : P.Pub) : marshalXY P p = le (P.coordX p) ++ le (P.coordY p) ∧ (marshalXY P p).length = 64 ∧ unmarshalPub P (marshalXY P p) = some p := by
  have h : marshalXY P p = le (P.coordX p) ++ le (P.coordY p) := by simp [marshalXY, swapBuf_eq, le]
  refine ⟨h, by simp [h, le, P.coordX_length, P.coordY_length], ?_⟩
  rw [h]
  unfold unmarshalPub
  rw [List.take_left' (by simp [le, P.coordX_length]), List.drop_left' (by simp [le, P.coordX_length]), swapBuf_eq, swapBuf_eq]
  simp [le, P.point_coord]

/-- Anything but a point of the curve is refused, and what is accepted has the coordinates that were sent. -/
theorem public_key_sound (b : Bytes) (p : P.Pub) (h : unmarshalPub P b = some p) (hl : b.length = 64) : marshalXY P p = b := by
  have := P.coord_point _ _ _ h
  simp only [marshalXY, this.1, this.2, swapBuf_eq, List.reverse_reverse, List.take_append_drop]

end Ble.Props
