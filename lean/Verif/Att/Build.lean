import Verif.Att.Spec
set_option autoImplicit false

/-!
# Declaring characteristics and descriptors; looking things up in a profile

profile.go. The methods an application calls to describe a characteristic or a descriptor before it adds the service to a server,
and the `Find` methods of a discovered `Profile`.

Values are contents: `SetValue` copies its argument, so later changes of the caller's slice are not seen. Applications that assign the
exported fields directly are not modelled here. `Property` is an `int` of which only the low byte is ever used; the bits set here all
lie in it.
-/

namespace Ble.Att

variable {α : Type}

/-- A call on a `*Characteristic` (profile.go:138-197). A handler argument `none` (`false`) is a nil interface. -/
inductive CharCall (α : Type) where
  | setValue (b : Bytes)
  | handleRead (h : Option (ReadH α))
  | handleWrite (h : Option (WriteH α))
  | handleNotify (given : Bool)
  | handleIndicate (given : Bool)
  | addDescriptor (d : Desc α)

/-- The UUID of a descriptor; a CCCD is made with `ClientCharacteristicConfigUUID` (db.go:166). -/
def Desc.uuid : Desc α → Bytes
  | .app u _ _ _ => u
  | .cccd => cccUUID

/-- One call: `AddDescriptor` profile.go:138-146, `SetValue` 157-164, `HandleRead` 169-175, `HandleWrite` 180-183,
`HandleNotify` 187-190, `HandleIndicate` 194-197. The property bits are those of profile.go:22-31. -/
def charCall (c : Char α) : CharCall α → Run (Char α)
  | .setValue b => if c.rh.isSome then .panic else .ok { c with prop := c.prop ||| 0x02, v := some b }
  | .handleRead h => if c.v.isSome then .panic else .ok { c with prop := c.prop ||| 0x02, rh := h }
  | .handleWrite h => .ok { c with prop := c.prop ||| (0x08 ||| 0x04), wh := h }
  | .handleNotify g => .ok { c with prop := c.prop ||| 0x10, hasNotify := g }
  | .handleIndicate g => .ok { c with prop := c.prop ||| 0x20, hasIndicate := g }
  | .addDescriptor d =>
    if c.descs.any (fun x => x.uuid == d.uuid) then .panic else .ok { c with descs := c.descs ++ [d] }

/-- The calls in order. -/
def charCalls : Char α → List (CharCall α) → Run (Char α)
  | c, [] => .ok c
  | c, k :: ks => do
    let c ← charCall c k
    charCalls c ks

/-- `NewCharacteristic(u)` (profile.go:14-16) followed by calls. -/
def buildChar (u : Bytes) (ks : List (CharCall α)) : Run (Char α) := charCalls { uuid := u } ks

/-- A call on a `*Descriptor` (profile.go:214-240). -/
inductive DescCall (α : Type) where
  | setValue (b : Bytes)
  | handleRead (h : Option (ReadH α))
  | handleWrite (h : Option (WriteH α))

/-- `Descriptor`: profile.go:200-209, as the application builds it. -/
structure DescB (α : Type) where
  uuid : Bytes
  prop : UInt8 := 0
  v : Option Bytes := none
  rh : Option (ReadH α) := none
  wh : Option (WriteH α) := none

/-- `SetValue`, `HandleRead`, `HandleWrite` of a descriptor: profile.go:214-240. -/
def descCall (d : DescB α) : DescCall α → Run (DescB α)
  | .setValue b => if d.rh.isSome then .panic else .ok { d with prop := d.prop ||| 0x02, v := some b }
  | .handleRead h => if d.v.isSome then .panic else .ok { d with prop := d.prop ||| 0x02, rh := h }
  | .handleWrite h => .ok { d with prop := d.prop ||| (0x08 ||| 0x04), wh := h }

/-- The calls in order. -/
def descCalls : DescB α → List (DescCall α) → Run (DescB α)
  | d, [] => .ok d
  | d, k :: ks => do
    let d ← descCall d k
    descCalls d ks

/-- The descriptor as the attribute table sees it (db.go:137-145 does not look at its properties). -/
def DescB.toDesc (d : DescB α) : Desc α := .app d.uuid d.v d.rh d.wh

/-- `AddCharacteristic`: profile.go:100-108, and `NewCharacteristic` 112-114. -/
def addCharacteristic (s : Svc α) (c : Char α) : Run (Svc α) :=
  if s.chars.any (fun x => x.uuid == c.uuid) then .panic else .ok { s with chars := s.chars ++ [c] }

/-- `AddCharacteristic` for each of a list. -/
def addCharacteristics : Svc α → List (Char α) → Run (Svc α)
  | s, [] => .ok s
  | s, c :: cs => do
    let s ← addCharacteristic s c
    addCharacteristics s cs

/-! ## Looking things up in a profile -/

/-- A characteristic of a profile, as far as `Find` looks: its UUID and those of its descriptors. -/
structure PChar where
  uuid : Bytes
  descs : List Bytes
deriving DecidableEq, Repr

/-- A service of a profile. -/
structure PSvc where
  uuid : Bytes
  chars : List PChar
deriving DecidableEq, Repr

/-- The first index at which `p` holds, by going through the list from index `i`. -/
def firstFrom {β : Type} (p : β → Bool) : Nat → List β → Option Nat
  | _, [] => none
  | i, x :: xs => if p x then some i else firstFrom p (i + 1) xs

/-- `FindService`: profile.go:54-61. A `*Service` is its index in the profile, nil is `none`. -/
def findService (p : List PSvc) (u : Bytes) : Option Nat := firstFrom (fun s => s.uuid == u) 0 p

/-- The loops of `FindCharacteristic`: profile.go:64-73, from service `i`. -/
def findCharFrom (u : Bytes) : Nat → List PSvc → Option (Nat × Nat)
  | _, [] => none
  | i, s :: ss =>
    match firstFrom (fun c => c.uuid == u) 0 s.chars with
    | some j => some (i, j)
    | none => findCharFrom u (i + 1) ss

/-- `FindCharacteristic`: profile.go:64-73. A `*Characteristic` is the pair of indices. -/
def findCharacteristic (p : List PSvc) (u : Bytes) : Option (Nat × Nat) := findCharFrom u 0 p

/-- The two inner loops of `FindDescriptor`: profile.go:78-84. -/
def findDescIn (u : Bytes) : Nat → List PChar → Option (Nat × Nat)
  | _, [] => none
  | j, c :: cs =>
    match firstFrom (fun d => d == u) 0 c.descs with
    | some k => some (j, k)
    | none => findDescIn u (j + 1) cs

/-- The loops of `FindDescriptor`: profile.go:76-87, from service `i`. -/
def findDescFrom (u : Bytes) : Nat → List PSvc → Option (Nat × Nat × Nat)
  | _, [] => none
  | i, s :: ss =>
    match findDescIn u 0 s.chars with
    | some (j, k) => some (i, j, k)
    | none => findDescFrom u (i + 1) ss

/-- `FindDescriptor`: profile.go:76-87. -/
def findDescriptor (p : List PSvc) (u : Bytes) : Option (Nat × Nat × Nat) := findDescFrom u 0 p

/-- An `interface{}` holding what `Find` returns: nil, or one of the three pointer types with a possibly nil pointer. -/
inductive IFace where
  | nil
  | service (p : Option Nat)
  | characteristic (p : Option (Nat × Nat))
  | descriptor (p : Option (Nat × Nat × Nat))
deriving DecidableEq, Repr

/-- The argument of `Find`. -/
inductive Target where
  | service (u : Bytes)
  | characteristic (u : Bytes)
  | descriptor (u : Bytes)
  | other
deriving DecidableEq, Repr

/-- `Find`: profile.go:40-51. Converting a nil `*Service` to `interface{}` gives an interface that is not nil. -/
def find (p : List PSvc) : Target → IFace
  | .service u => .service (findService p u)
  | .characteristic u => .characteristic (findCharacteristic p u)
  | .descriptor u => .descriptor (findDescriptor p u)
  | .other => .nil

end Ble.Att
