import Verif.Store.File
set_option autoImplicit false

/-!
# Model of linux/hci/bond/manager.go and linux/hci/bond.go

Go strings are modelled as texts, so an address that is not valid UTF-8 is outside the model. Log output is not modelled, nor is the text of errors.
-/

namespace Ble.Store

/-- `hci.BondInfo`: linux/hci/bond.go:3-8. `ediv` and `rand` are `uint16` and `uint64`. -/
structure Bond where
  ltk : Bytes
  ediv : UInt16
  rand : UInt64
  legacy : Bool
deriving Repr, DecidableEq

/-- `bondData`, the four fields of an entry of the file: bond/manager.go:22-27. -/
structure BondData where
  longTermKey : Text
  encryptionDiversifier : Text
  randomValue : Text
  legacy : Bool
deriving Repr, DecidableEq

/-- Number of bytes of a Go string. -/
def strLen (s : Text) : Nat := (s.map Char.utf8Size).sum

/-- `binary.LittleEndian.PutUint16` into a new slice: bond/manager.go:205-206. -/
def putLE16 (n : UInt16) : Bytes := [UInt8.ofNat n.toNat, UInt8.ofNat (n.toNat / 256)]

/-- `binary.LittleEndian.PutUint64` into a new slice: bond/manager.go:208-209. -/
def putLE64 (n : UInt64) : Bytes :=
  [UInt8.ofNat n.toNat, UInt8.ofNat (n.toNat / 256), UInt8.ofNat (n.toNat / 256 ^ 2), UInt8.ofNat (n.toNat / 256 ^ 3), UInt8.ofNat (n.toNat / 256 ^ 4), UInt8.ofNat (n.toNat / 256 ^ 5),
    UInt8.ofNat (n.toNat / 256 ^ 6), UInt8.ofNat (n.toNat / 256 ^ 7)]

/-- `binary.LittleEndian.Uint16`, which indexes `b[1]`: bond/manager.go:239. -/
def getLE16 : Bytes → Option UInt16
  | a :: b :: _ => some (UInt16.ofNat (a.toNat + 256 * b.toNat))
  | _ => none

/-- `binary.LittleEndian.Uint64`, which indexes `b[7]`: bond/manager.go:239. -/
def getLE64 : Bytes → Option UInt64
  | a :: b :: c :: d :: e :: f :: g :: h :: _ => some (UInt64.ofNat (a.toNat + 256 * b.toNat + 256 ^ 2 * c.toNat + 256 ^ 3 * d.toNat + 256 ^ 4 * e.toNat + 256 ^ 5 * f.toNat + 256 ^ 6 * g.toNat + 256 ^ 7 * h.toNat))
  | _ => none

/-- `createBondData`: bond/manager.go:200-216. -/
def createBondData (b : Bond) : BondData :=
  ⟨hexEncode b.ltk, hexEncode (putLE16 b.ediv), hexEncode (putLE64 b.rand), b.legacy⟩

/-- `createBondInfo`: bond/manager.go:220-241. A short diversifier or random value panics in `Uint16` or `Uint64`. -/
def createBondInfo (d : BondData) : Go Unit Bond :=
  match hexDecode d.longTermKey with
  | none => .err ()
  | some ltk =>
    if ltk.length = 0 then .err ()
    else match hexDecode d.encryptionDiversifier with
      | none => .err ()
      | some ediv => match hexDecode d.randomValue with
        | none => .err ()
        | some rand => match getLE16 ediv with
          | none => .panic
          | some e => match getLE64 rand with
            | none => .panic
            | some r => .ok ⟨ltk, e, r, d.legacy⟩

/-- `loadBonds`: bond/manager.go:152-182. It creates an empty file if there is none. -/
def loadBonds (J : Json BondData) (e : Env) (f : File) : File × Option (List (Text × BondData)) :=
  let created : Option File :=
    match f with
    | none => if e.create then some (some []) else none
    | some b => some (some b)
  match created with
  | none => (f, none)
  | some f' =>
    if e.read then
      match f' with
      | none => (f', none)
      | some b =>
        if b.length > 0 then
          match J.dec b with
          | none => (f', none)
          | some none => (f', some [])
          | some (some m) => (f', some m)
        else (f', some [])
    else (f', none)

/-- `Exists`: bond/manager.go:44-65. -/
def existsBond (J : Json BondData) (e : Env) (f : File) (addr : Text) : File × Bool :=
  if strLen addr ≠ 12 then (f, false)
  else match loadBonds J e f with
    | (f', none) => (f', false)
    | (f', some m) => (f', m.any fun x => x.1 = addr)

/-- `Find`: bond/manager.go:67-97. An entry that does not decode is removed from the file. -/
def findBond (J : Json BondData) (e : Env) (f : File) (addr : Text) : File × Go Unit Bond :=
  if strLen addr ≠ 12 then (f, .err ())
  else match loadBonds J e f with
    | (f', none) => (f', .err ())
    | (f', some m) =>
      match m.lookup addr with
      | none => (f', .err ())
      | some d =>
        match createBondInfo d with
        | .err _ => ((writeFile e.write f' (J.enc (del m addr))).1, .err ())
        | .panic => (f', .panic)
        | .ok b => (f', .ok b)

/-- `Save`: bond/manager.go:99-126. `none` is the nil interface. -/
def saveBond (J : Json BondData) (e : Env) (f : File) (addr : Text) (bond : Option Bond) : File × Go Unit Unit :=
  if strLen addr ≠ 12 then (f, .err ())
  else match bond with
    | none => (f, .err ())
    | some b =>
      match loadBonds J e f with
      | (f', none) => (f', .err ())
      | (f', some m) =>
        match writeFile e.write f' (J.enc (put m addr (createBondData b))) with
        | (f'', true) => (f'', .ok ())
        | (f'', false) => (f'', .err ())

/-- `Delete`: bond/manager.go:128-149. -/
def deleteBond (J : Json BondData) (e : Env) (f : File) (addr : Text) : File × Go Unit Unit :=
  match loadBonds J e f with
  | (f', none) => (f', .err ())
  | (f', some m) =>
    match m.lookup addr with
    | none => (f', .err ())
    | some _ =>
      match writeFile e.write f' (J.enc (del m addr)) with
      | (f'', true) => (f'', .ok ())
      | (f'', false) => (f'', .err ())

/-- A call. -/
inductive Op where
  | exists_ (addr : Text)
  | find (addr : Text)
  | save (addr : Text) (bond : Option Bond)
  | delete (addr : Text)

/-- What a call returns. -/
inductive Res where
  | bool (b : Bool)
  | bond (r : Go Unit Bond)
  | done (r : Go Unit Unit)
deriving DecidableEq

/-- One call. -/
def call (J : Json BondData) (e : Env) (f : File) : Op → File × Res
  | .exists_ a => ((existsBond J e f a).1, .bool (existsBond J e f a).2)
  | .find a => ((findBond J e f a).1, .bond (findBond J e f a).2)
  | .save a b => ((saveBond J e f a b).1, .done (saveBond J e f a b).2)
  | .delete a => ((deleteBond J e f a).1, .done (deleteBond J e f a).2)

/-- A history of calls; the manager keeps nothing in memory, so a restart of the program between two calls changes nothing. -/
def calls (J : Json BondData) (f : File) : List (Env × Op) → File × List Res
  | [] => (f, [])
  | (e, o) :: os => ((calls J (call J e f o).1 os).1, (call J e f o).2 :: (calls J (call J e f o).1 os).2)

end Ble.Store
