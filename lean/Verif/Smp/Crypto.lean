import Verif.Basic
set_option autoImplicit false

/-!
# Model of the pairing functions

linux/hci/smp/crypto.go, util.go, ecdh.go and sliceops/swap.go. The ciphers and the elliptic curve are parameters: the theorems hold whatever they compute. Byte strings in the code are
least significant byte first; the primitives take them most significant byte first.
-/

namespace Ble.Smp

/-- The primitives the library takes from other packages: AES block encryption (`crypto/aes`), AES-CMAC (`github.com/aead/cmac`) and P-256 (`github.com/wsddn/go-ecdh`). Nothing is assumed
of them but the sizes of their results and that decoding a point and encoding it are inverse to each other. `dh` is the shared secret as the package returns it, of any length: the
package returns `x.Bytes()`, which has no leading zero bytes. -/
structure Prims where
  /-- One block under a key. -/
  aes : Bytes → Bytes → Bytes
  aes_length : ∀ k m, (aes k m).length = 16
  /-- AES-CMAC of a message under a key. -/
  cmac : Bytes → Bytes → Bytes
  cmac_length : ∀ k m, (cmac k m).length = 16
  Pub : Type
  Priv : Type
  /-- The two coordinates of a point, big-endian: what `Marshal` returns after the header byte. -/
  coordX : Pub → Bytes
  coordY : Pub → Bytes
  coordX_length : ∀ p, (coordX p).length = 32
  coordY_length : ∀ p, (coordY p).length = 32
  /-- `Unmarshal`: fails unless the coordinates are those of a point of the curve. -/
  point : Bytes → Bytes → Option Pub
  point_coord : ∀ p, point (coordX p) (coordY p) = some p
  coord_point : ∀ x y p, point x y = some p → coordX p = x ∧ coordY p = y
  dh : Priv → Pub → Bytes

/-- The loop of `SwapBuf`, sliceops/swap.go:6-9: exchanges positions `i` and `len - 1 - i` for `i = n-1, …, 0`. -/
def swapLoop : Nat → Bytes → Bytes
  | 0, a => a
  | i + 1, a => swapLoop i ((a.set i (a.getD (a.length - 1 - i) 0)).set (a.length - 1 - i) (a.getD i 0))

/-- `SwapBuf`: sliceops/swap.go:3-12. -/
def swapBuf (b : Bytes) : Bytes := swapLoop (b.length / 2) b

variable (P : Prims)

/-- `aes.NewCipher` accepts keys of 16, 24 and 32 bytes. -/
def aesKeyOk (k : Bytes) : Bool := k.length == 16 || k.length == 24 || k.length == 32

/-- `aesCMAC`: util.go:11-28. -/
def aesCMAC (key msg : Bytes) : Go Unit Bytes :=
  if aesKeyOk (swapBuf key) then .ok (swapBuf (P.cmac (swapBuf key) (swapBuf msg))) else .err ()

/-- `xorSlice`: util.go:30-36. Panics when `b` is shorter than `a`. -/
def xorSlice (a b : Bytes) : Go Unit Bytes := if a.length ≤ b.length then .ok (List.zipWith (· ^^^ ·) a b) else .panic

/-- `aes128`: util.go:38-47. `none` is the nil result. `Encrypt` panics on a message shorter than a block, and uses the first 16 bytes of a longer one. -/
def aes128 (key msg : Bytes) : Go Unit (Option Bytes) :=
  if aesKeyOk key then (if 16 ≤ msg.length then .ok (some (P.aes key (msg.take 16))) else .panic) else .ok none

/-- `smpE`: crypto.go:112-122. -/
def smpE (key msg : Bytes) : Go Unit Bytes := do
  match ← aes128 P (swapBuf key) (swapBuf msg) with
  | none => .err ()
  | some out => .ok (swapBuf out)

/-- `smpF4`: crypto.go:11-28. -/
def smpF4 (u v x : Bytes) (z : UInt8) : Go Unit Bytes :=
  if u.length ≠ 32 then .err ()
  else if v.length ≠ 32 then .err ()
  else if x.length ≠ 16 then .err ()
  else aesCMAC P x ([z] ++ v ++ u)

/-- The salt of f5, crypto.go:45-46. -/
def f5salt : Bytes := [0xbe, 0x83, 0x60, 0x5a, 0xdb, 0x0b, 0x37, 0x60, 0x38, 0xa5, 0xf5, 0xaa, 0x91, 0x83, 0x88, 0x6c]

/-- The message of f5 with counter 0, crypto.go:44,47,54-60. -/
def f5msg (n1 n2 a1 a2 : Bytes) : Bytes := [0x00, 0x01] ++ a2 ++ a1 ++ n2 ++ n1 ++ [0x65, 0x6c, 0x74, 0x62] ++ [0x00]

/-- `smpF5`: crypto.go:30-76. The result is the MAC key and the long term key. `m[52] = 0x01` (crypto.go:68) is `set 52 1`. -/
def smpF5 (w n1 n2 a1 a2 : Bytes) : Go Unit (Bytes × Bytes) :=
  if w.length ≠ 32 then .err ()
  else if n1.length ≠ 16 then .err ()
  else if n2.length ≠ 16 then .err ()
  else if a1.length ≠ 7 then .err ()
  else if a2.length ≠ 7 then .err ()
  else do
    let t ← aesCMAC P f5salt w
    let macKey ← aesCMAC P t (f5msg n1 n2 a1 a2)
    let ltk ← aesCMAC P t ((f5msg n1 n2 a1 a2).set 52 0x01)
    .ok (macKey, ltk)

/-- `smpF6`: crypto.go:78-91. -/
def smpF6 (w n1 n2 r ioCap a1 a2 : Bytes) : Go Unit Bytes :=
  if w.length ≠ 16 || n1.length ≠ 16 || n2.length ≠ 16 || r.length ≠ 16 || ioCap.length ≠ 3 || a1.length ≠ 7 || a2.length ≠ 7 then .err ()
  else aesCMAC P w (a2 ++ a1 ++ ioCap ++ r ++ n2 ++ n1)

/-- `binary.LittleEndian.Uint32`. -/
def le32 (b : Bytes) : Nat := (b.getD 0 0).toNat + 256 * (b.getD 1 0).toNat + 65536 * (b.getD 2 0).toNat + 16777216 * (b.getD 3 0).toNat

/-- `smpG2`: crypto.go:93-109. -/
def smpG2 (u v x y : Bytes) : Go Unit Nat :=
  if u.length ≠ 32 || v.length ≠ 32 || x.length ≠ 16 || y.length ≠ 16 then .err ()
  else do
    let h ← aesCMAC P x (y ++ v ++ u)
    let h4 ← slice h 0 4
    .ok (le32 h4 % 1000000)

/-- `smpC1`: crypto.go:125-150. -/
def smpC1 (k r preq pres : Bytes) (iat rat : UInt8) (la ra : Bytes) : Go Unit Bytes := do
  let p1 := [iat, rat] ++ preq ++ pres
  let p2 := ra ++ la ++ [0, 0, 0, 0]
  let x1 ← xorSlice r p1
  let msg1 ← smpE P k x1
  let x2 ← xorSlice msg1 p2
  smpE P k x2

/-- `smpS1`: crypto.go:152-174. -/
def smpS1 (k r1 r2 : Bytes) : Go Unit Bytes :=
  if k.length ≠ 16 then .err ()
  else if r1.length ≠ 16 then .err ()
  else if r2.length ≠ 16 then .err ()
  else smpE P k (r2.take 8 ++ r1.take 8)

/-- The sixteen bytes built from a passkey, most significant first, before the swap: util.go:58-64, context.go:176-183, transport.go:153-160. `uint32(key)` keeps the low 32 bits. The passkey
(a Go `int`) is taken to be non-negative. -/
def passkeyBE (key : Nat) : Bytes :=
  List.replicate 12 0 ++ [UInt8.ofNat (key / 16777216), UInt8.ofNat (key / 65536), UInt8.ofNat (key / 256), UInt8.ofNat key]

/-- `getLegacyParingTK`: util.go:57-69; also the `ra`, `rb` of the DHKey check. -/
def getLegacyTK (key : Nat) : Bytes := swapBuf (passkeyBE key)

/-- `z` of the passkey rounds, context.go:95 and 128. -/
def passkeyBit (key i : Nat) : UInt8 := (0x80 : UInt8) ||| UInt8.ofNat ((key &&& (1 <<< i)) >>> i)

/-- `MarshalPublicKeyX`: ecdh.go:57-65. -/
def marshalX (p : P.Pub) : Bytes := swapBuf (P.coordX p)

/-- `MarshalPublicKeyXY`: ecdh.go:44-55. -/
def marshalXY (p : P.Pub) : Bytes := swapBuf (P.coordX p) ++ swapBuf (P.coordY p)

/-- `UnmarshalPublicKey`: ecdh.go:30-42, for 64 bytes. -/
def unmarshalPub (b : Bytes) : Option P.Pub := P.point (swapBuf (b.take 32)) (swapBuf (b.drop 32))

/-- `GenerateSecret`: ecdh.go:67-72. -/
def generateSecret (prv : P.Priv) (pub : P.Pub) : Bytes := swapBuf (P.dh prv pub)

end Ble.Smp
