import Verif.Basic
set_option autoImplicit false

/-!
# Model of the accessors of ATT PDUs

linux/att/att_gen.go: every PDU type is a byte slice with a getter and a setter per field. There are four kinds of accessor bodies; the table of types and offsets is in `PduTable.lean`.

Simplification: the capacity of the slice is its length (this matters only for `SetAuthenticationSignature`, att_gen.go:487, which slices up to a fixed end).
-/

namespace Ble.AttPdu

/-- Kinds of fields, by the bodies of their accessors. -/
inductive Ty where
  /-- `r[k]` and `r[k] = v` -/
  | u8
  /-- `binary.LittleEndian.Uint16(r[k:])` and `PutUint16(r[k:], v)` -/
  | u16
  /-- `r[k:]` and `copy(r[k:], v)` -/
  | rest
  /-- a `[12]byte` filled by `copy(b[:], r[k:])`, and `copy(r[k:k+12], v[:])` -/
  | sig
deriving DecidableEq, Repr

/-- The Go type of the value: `uint8`, `uint16`, `[]byte`, `[12]byte`. -/
abbrev Ty.Val : Ty → Type
  | .u8 => UInt8
  | .u16 => UInt16
  | .rest => Bytes
  | .sig => { b : Bytes // b.length = 12 }

structure Field where
  name : String
  ty : Ty
  getAt : Nat
  setAt : Nat
deriving DecidableEq, Repr

structure Pdu where
  name : String
  /-- what `SetAttributeOpcode` writes into octet 0 -/
  code : UInt8
  fields : List Field
deriving DecidableEq, Repr

/-- Go `copy(b[k:], v)` for `k ≤ len(b)`: as much as there is room for. -/
def copyAt (b : Bytes) (k : Nat) (v : Bytes) : Bytes := b.take k ++ v.take (b.length - k) ++ b.drop (k + v.length)

/-- `binary.LittleEndian.PutUint16`. -/
def put (w : UInt16) : Bytes := [w.toUInt8, (w >>> 8).toUInt8]

/-- The bodies of the getters. -/
def getTy : (t : Ty) → Nat → Bytes → Go Empty t.Val
  | .u8, k, b => index b k
  | .u16, k, b => do
    let s ← sliceFrom b k
    let hi ← index s 1
    let lo ← index s 0
    pure (lo.toUInt16 ||| hi.toUInt16 <<< 8)
  | .rest, k, b => sliceFrom b k
  | .sig, k, b =>
    (sliceFrom b k).bind fun s => .ok ⟨s.take 12 ++ List.replicate (12 - s.length) 0, by simp; omega⟩

/-- The bodies of the setters. -/
def setTy : (t : Ty) → Nat → Bytes → t.Val → Go Empty Bytes
  | .u8, k, b, v => if k < b.length then .ok (b.set k v) else .panic
  | .u16, k, b, v => do
    let s ← sliceFrom b k
    let _ ← index s 1
    pure (copyAt b k (put v))
  | .rest, k, b, v => do
    let _ ← sliceFrom b k
    pure (copyAt b k v)
  | .sig, k, b, v => do
    let _ ← slice b k (k + 12)
    pure (copyAt b k v.1)

/-- The getter of a field. -/
def Field.get (f : Field) (b : Bytes) : Go Empty f.ty.Val := getTy f.ty f.getAt b

/-- The setter of a field. -/
def Field.set (f : Field) (b : Bytes) (v : f.ty.Val) : Go Empty Bytes := setTy f.ty f.setAt b v

/-- `AttributeOpcode()`. -/
def opcode (b : Bytes) : Go Empty UInt8 := index b 0

/-- `SetAttributeOpcode()`. -/
def Pdu.setOpcode (p : Pdu) (b : Bytes) : Go Empty Bytes := if 0 < b.length then .ok (b.set 0 p.code) else .panic

/-- Filling a PDU in: `SetAttributeOpcode()` and then the setters of the fields, as the callers in linux/att/client.go and server.go do. -/
def setAll (v : (f : Field) → f.ty.Val) : List Field → Bytes → Go Empty Bytes
  | [], b => .ok b
  | f :: fs, b => (f.set b (v f)).bind (setAll v fs)

def Pdu.fill (p : Pdu) (v : (f : Field) → f.ty.Val) (b : Bytes) : Go Empty Bytes := (p.setOpcode b).bind (setAll v p.fields)

end Ble.AttPdu
