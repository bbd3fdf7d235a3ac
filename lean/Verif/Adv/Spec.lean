import Verif.Uuid.Model
set_option autoImplicit false

/-!
# Independent specification of advertising data

Advertising data is a sequence of records `length, type, value` (Core Specification Supplement, Part A), where `length` counts the
type byte and the value. This file says what such a sequence *means*, without reference to the parser.
-/

namespace Ble.Spec

/-- One advertising record. -/
structure Rec where
  typ : UInt8
  data : Bytes
deriving Repr, DecidableEq

/-- The record on the air. -/
def Rec.bytes (r : Rec) : Bytes := UInt8.ofNat (r.data.length + 1) :: r.typ :: r.data

/-- What a record type means. The number is the size of the UUIDs in bytes. -/
inductive Kind where
  | flags | uuids (n : Nat) | solicited (n : Nat) | serviceData (n : Nat) | name | txPower | mfg | other
deriving Repr, DecidableEq

/-- Assigned numbers of the record types (Generic Access Profile assigned numbers). -/
def kind (t : UInt8) : Kind :=
  if t = 0x01 then .flags
  else if t = 0x02 ∨ t = 0x03 then .uuids 2
  else if t = 0x04 ∨ t = 0x05 then .uuids 4
  else if t = 0x06 ∨ t = 0x07 then .uuids 16
  else if t = 0x08 ∨ t = 0x09 then .name
  else if t = 0x0A then .txPower
  else if t = 0x14 then .solicited 2
  else if t = 0x1F then .solicited 4
  else if t = 0x15 then .solicited 16
  else if t = 0x16 then .serviceData 2
  else if t = 0x20 then .serviceData 4
  else if t = 0x21 then .serviceData 16
  else if t = 0xFF then .mfg
  else .other

/-- The value has a size its type allows. (Records with an empty value carry nothing and are always allowed.) -/
def Rec.WellFormed (r : Rec) : Prop :=
  r.data.length ≤ 254 ∧ (r.data = [] ∨
    match kind r.typ with
    | .uuids n => r.data.length % n = 0
    | .solicited n => r.data.length % n = 0
    | .serviceData n => n ≤ r.data.length
    | _ => True)

/-- The non-empty values of the records of the kinds selected by `p`, in order. -/
def values (p : Kind → Bool) (rs : List Rec) : List Bytes :=
  (rs.filter fun r => p (kind r.typ) && !r.data.isEmpty).map Rec.data

/-- A value cut into pieces of `n` bytes. -/
def pieces (n : Nat) (d : Bytes) : List Bytes :=
  (List.range (d.length / n)).map fun i => (d.drop (i * n)).take n

/-- All UUIDs listed by records of a kind selected by `size` (which also says how long they are), in order; `none` if there is no
such record. -/
def uuidList (size : Kind → Option Nat) (rs : List Rec) : Option (List Bytes) :=
  let sel := rs.filter fun r => (size (kind r.typ)).isSome && !r.data.isEmpty
  if sel.isEmpty then none
  else some (sel.flatMap fun r => pieces ((size (kind r.typ)).getD 0) r.data)

/-- Byte-valued entries: the concatenation of the values; `none` if there is none. -/
def concatenated (vs : List Bytes) : Option Bytes := if vs.isEmpty then none else some vs.flatten

/-- Manufacturer data: the first value, followed by the later ones without their repeated company identifier. -/
def mfgData : List Bytes → Option Bytes
  | [] => none
  | v :: vs => some (v ++ (vs.map (List.drop 2)).flatten)

def isFlags : Kind → Bool | .flags => true | _ => false
def isName : Kind → Bool | .name => true | _ => false
def isTx : Kind → Bool | .txPower => true | _ => false
def isMfg : Kind → Bool | .mfg => true | _ => false
def uuidSize : Kind → Option Nat | .uuids n => some n | _ => none
def solSize : Kind → Option Nat | .solicited n => some n | _ => none
def svcElemSize : Kind → Option Nat | .serviceData n => some n | _ => none

/-- The service-data values attached to a service UUID (given by its text), in order. -/
def serviceValues (rs : List Rec) (uuidText : Text) : List Bytes :=
  rs.filterMap fun r =>
    match svcElemSize (kind r.typ) with
    | some n => if r.data ≠ [] ∧ uuidString (r.data.take n) = uuidText then some (r.data.drop n) else none
    | none => none

/-- Some record carries service data. -/
def hasServiceData (rs : List Rec) : Bool := rs.any fun r => (svcElemSize (kind r.typ)).isSome && !r.data.isEmpty

/-- A sequence of records with an additional manufacturer record too short to repeat the company identifier. -/
def ShortExtraMfg (rs : List Rec) : Prop := ∃ v ∈ (values isMfg rs).tail, v.length < 2

end Ble.Spec
