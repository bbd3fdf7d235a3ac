import Verif.Basic
set_option autoImplicit false

/-!
# Model of uuid.go, addr.go and sliceops/swap.go

Texts are lists of characters. Go strings are byte strings; the functions below only compare single
ASCII characters, so a character outside ASCII behaves like any other non-hexadecimal character.
-/

namespace Ble

abbrev Text := List Char

/-- Loop of `Reverse` after `n` iterations: uuid.go:90-92 (`b[l-i-1] = u[i]`). Indices are in range for `n ≤ l`. -/
def reverseIter (u : Bytes) : Nat → Bytes
  | 0 => List.replicate u.length 0                     -- uuid.go:88 make([]byte, l)
  | n + 1 => (reverseIter u n).set (u.length - n - 1) (u[n]?.getD 0)

/-- `Reverse`: uuid.go:86-95. -/
def reverse (u : Bytes) : Bytes := reverseIter u u.length

/-- One swap `a[i], a[opp] = a[opp], a[i]`: sliceops/swap.go:8. -/
def swapAt (a : Bytes) (i opp : Nat) : Bytes :=
  (a.set i (a[opp]?.getD 0)).set opp (a[i]?.getD 0)

/-- Loop of `SwapBuf`, for `i = k-1, …, 0`: sliceops/swap.go:6-9. -/
def swapLoop (a : Bytes) : Nat → Bytes
  | 0 => a
  | k + 1 => swapLoop (swapAt a k (a.length - 1 - k)) k

/-- `SwapBuf`: sliceops/swap.go:3-12. -/
def swapBuf (a : Bytes) : Bytes := swapLoop a (a.length / 2)

/-- `hex.DecodeString`'s digit table (Go standard library `fromHexChar`), used by uuid.go:25 and addr.go:29. -/
def fromHexChar (c : Char) : Option Nat :=
  if '0' ≤ c ∧ c ≤ '9' then some (c.toNat - 48)
  else if 'a' ≤ c ∧ c ≤ 'f' then some (c.toNat - 97 + 10)
  else if 'A' ≤ c ∧ c ≤ 'F' then some (c.toNat - 65 + 10)
  else none

/-- `hex.DecodeString`: uuid.go:25. `none` is the error result (bad digit or odd length). -/
def hexDecode : Text → Option Bytes
  | [] => some []
  | [_] => none
  | a :: b :: rest =>
    match fromHexChar a, fromHexChar b, hexDecode rest with
    | some x, some y, some r => some (UInt8.ofNat (x * 16 + y) :: r)
    | _, _, _ => none

/-- Lower-case hexadecimal digit, as printed by `fmt.Sprintf("%x")`: uuid.go:62. -/
def hexDigit (n : Nat) : Char := if n < 10 then Char.ofNat (48 + n) else Char.ofNat (87 + n)

/-- `fmt.Sprintf("%x", bytes)` / `hex.EncodeToString`: uuid.go:62. -/
def hexEncode : Bytes → Text
  | [] => []
  | b :: bs => hexDigit (b.toNat / 16) :: hexDigit (b.toNat % 16) :: hexEncode bs

/-- `strings.Replace(s, c, "", -1)` for a one-character pattern: uuid.go:24, addr.go:27. -/
def strip (c : Char) (s : Text) : Text := s.filter (· != c)

inductive UuidErr where
  | hex
  | len
deriving Repr, DecidableEq

/-- `Parse`: uuid.go:23-33, with `lenErr` uuid.go:46-52. The text of the error is not modelled. -/
def uuidParse (s : Text) : Go UuidErr Bytes :=
  match hexDecode (strip '-' s) with
  | none => .err .hex
  | some b => if b.length = 2 ∨ b.length = 16 then .ok (reverse b) else .err .len

/-- `MustParse`: uuid.go:37-43. -/
def uuidMustParse (s : Text) : Go UuidErr Bytes :=
  match uuidParse s with
  | .ok u => .ok u
  | _ => .panic

/-- `UUID.String`: uuid.go:61-63. -/
def uuidString (u : Bytes) : Text := hexEncode (reverse u)

/-- `UUID16`: uuid.go:15-19. -/
def uuid16 (i : Nat) : Bytes := put16 i

/-- `Contains`: uuid.go:71-83 (`UUID.Equal` is byte equality, uuid.go:66-68). -/
def uuidContains (s : List Bytes) (u : Bytes) : Bool := s.any (· == u)

/-- Decoding as far as possible: the bytes `hex.DecodeString` returns together with its error, used by addr.go:29-34. -/
def hexDecodePrefix : Text → Bytes
  | a :: b :: rest =>
    match fromHexChar a, fromHexChar b with
    | some x, some y => UInt8.ofNat (x * 16 + y) :: hexDecodePrefix rest
    | _, _ => []
  | _ => []

/-- `NewAddr`: addr.go:16-18 (`strings.ToLower`, ASCII letters only in the model). -/
def newAddr (s : Text) : Text := s.map Char.toLower

/-- `addr.Bytes`: addr.go:26-35. On a decoding error the bytes decoded so far are returned. -/
def addrBytes (a : Text) : Bytes := hexDecodePrefix (strip ':' a)

end Ble
