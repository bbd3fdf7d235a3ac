import Verif.Uuid.Lemmas
set_option autoImplicit false

/-!
# C01, C02: UUID text, addresses and byte-order reversal

`Ble.uuidParse` is `ble.Parse`, `Ble.uuidString` is `UUID.String`, `Ble.reverse` is `ble.Reverse`, `Ble.swapBuf` is
`sliceops.SwapBuf`. A UUID is its byte slice (least significant byte first).
-/

namespace Ble.Props

/-- C01: parsing what a UUID prints as gives the UUID back. -/
theorem uuid_parse_string (u : Bytes) (h : u.length = 2 ∨ u.length = 16) :
    uuidParse (uuidString u) = .ok u := by
  have hd : strip '-' (hexEncode u.reverse) = hexEncode u.reverse :=
    strip_hexEncode '-' (by left; decide) _
  simp [uuidParse, uuidString, hd, hexDecode_hexEncode, h]

example : ∃ u : Bytes, u.length = 16 ∧ uuidParse (uuidString u) = .ok u :=
  ⟨List.replicate 15 0x1a ++ [0xF0], rfl, uuid_parse_string _ (Or.inr rfl)⟩

/-- C01: `Parse` succeeds with `u` exactly when `u` has 2 or 16 bytes and the text, without hyphens and in lower
case, is the one `u` prints as. So hyphens and letter case do not matter, and nothing else is accepted. -/
theorem uuid_parse_iff (s : Text) (u : Bytes) :
    uuidParse s = .ok u ↔
      (u.length = 2 ∨ u.length = 16) ∧ (s.filter (· != '-')).map Char.toLower = uuidString u := by
  unfold uuidParse uuidString
  have key := hexDecode_iff (strip '-' s)
  constructor
  · intro h
    split at h
    · simp at h
    · rename_i b hb
      split at h
      · rename_i hl
        simp only [reverse_eq, Go.ok.injEq] at h
        subst h
        refine ⟨by simpa using hl, ?_⟩
        have := (key b).1 hb
        simpa [strip] using this
      · simp at h
  · rintro ⟨hl, h⟩
    have hb : hexDecode (strip '-' s) = some (reverse u) := (key _).2 (by simpa [strip] using h)
    rw [hb]
    simp [hl]

example : uuidParse "34DA3AD1-7110-41A1-B1EF-4430F509CDE7".toList =
    .ok [0xE7,0xCD,0x09,0xF5,0x30,0x44,0xEF,0xB1,0xA1,0x41,0x10,0x71,0xD1,0x3A,0xDA,0x34] := by decide

/-- C01: two UUIDs print alike only if they are equal. -/
theorem uuid_string_injective (u v : Bytes) (h : uuidString u = uuidString v) : u = v := by
  have := hexEncode_inj h
  simpa using this

/-- C01: `Parse` returns for every text (it never panics), and the UUIDs it returns have a legal size. -/
theorem uuid_parse_total (s : Text) :
    (uuidParse s).returns = true ∧ ∀ u, uuidParse s = .ok u → u.length = 2 ∨ u.length = 16 := by
  constructor
  · unfold uuidParse; split; rfl; split <;> rfl
  · intro u h; exact ((uuid_parse_iff s u).1 h).1

/-- C01: `MustParse` panics exactly on the texts `Parse` rejects. -/
theorem uuid_mustParse_panics_iff (s : Text) :
    uuidMustParse s = .panic ↔ ¬ ∃ u, uuidParse s = .ok u := by
  unfold uuidMustParse
  cases uuidParse s <;> simp

/-- C01: `UUID16` agrees with `Parse` on the four-digit text of the number: the bytes are little-endian. -/
theorem uuid16_bytes (i : Nat) (h : i < 65536) :
    ∃ lo hi, uuid16 i = [lo, hi] ∧ lo.toNat + 256 * hi.toNat = i :=
  ⟨_, _, rfl, le16_put16 i h⟩

example : uuidParse "2902".toList = .ok (uuid16 0x2902) := by decide

/-- C01: membership test is membership. -/
theorem uuid_contains_iff (s : List Bytes) (u : Bytes) : uuidContains s u = true ↔ u ∈ s := by
  simp [uuidContains]

/-- C02: byte `j` of the reversed slice is byte `len-1-j` of the argument, and the length is kept. -/
theorem reverse_spec (u : Bytes) :
    (reverse u).length = u.length ∧ ∀ j, j < u.length → (reverse u)[j]? = u[u.length - 1 - j]? := by
  refine ⟨by simp, fun j hj => ?_⟩
  rw [reverse_eq, List.getElem?_reverse hj]

/-- C02: same for `SwapBuf`. -/
theorem swapBuf_spec (u : Bytes) :
    (swapBuf u).length = u.length ∧ ∀ j, j < u.length → (swapBuf u)[j]? = u[u.length - 1 - j]? := by
  refine ⟨by simp, fun j hj => ?_⟩
  rw [swapBuf_eq, List.getElem?_reverse hj]

/-- C02: `Reverse` and `SwapBuf` agree, and each undoes itself. -/
theorem reverse_swapBuf_involutive (u : Bytes) :
    reverse u = swapBuf u ∧ reverse (reverse u) = u ∧ swapBuf (swapBuf u) = u := by simp

example : swapBuf [1, 2, 3] = [3, 2, 1] ∧ reverse [1, 2, 3, 4] = [4, 3, 2, 1] := by decide

/-- Colon-separated text of an address, e.g. `aa:bb:cc`: the form addresses are written in. -/
def addrText : Bytes → Text
  | [] => []
  | [b] => hexEncode [b]
  | b :: c :: bs => hexEncode [b] ++ ':' :: addrText (c :: bs)

theorem strip_addrText (b : Bytes) : strip ':' (addrText b) = hexEncode b := by
  fun_induction addrText b with
  | case1 => rfl
  | case2 b => exact strip_hexEncode ':' (by right; decide) _
  | case3 b c bs ih =>
    have h1 : strip ':' (hexEncode [b]) = hexEncode [b] := strip_hexEncode ':' (by right; decide) _
    unfold strip at *
    rw [List.filter_append, h1, List.filter_cons_of_neg (by simp), ih]
    rfl

/-- C48: the bytes of an address written with or without colons, in any letter case, are the bytes it denotes, in the
order written. -/
theorem addr_bytes (b : Bytes) (s : Text) (h : s.map Char.toLower = addrText b ∨ s.map Char.toLower = hexEncode b) :
    addrBytes (newAddr s) = b := by
  unfold addrBytes newAddr
  apply hexDecodePrefix_of_decode
  rcases h with h | h
  · rw [h, strip_addrText, hexDecode_hexEncode]
  · rw [h, strip_hexEncode ':' (by right; decide), hexDecode_hexEncode]

example : addrBytes (newAddr "AA:bb:0C:00:fF:10".toList) = [0xAA, 0xBB, 0x0C, 0, 0xFF, 0x10] := by decide

end Ble.Props
