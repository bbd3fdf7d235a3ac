import Verif.Uuid.Model
set_option autoImplicit false

/-!
# Model of parser/parser.go and linux/adv/packet.go

The Go parser fills a `map[string]interface{}`. Its seven keys are distinct strings (adv.go, `AdvertisementMapKeys`), each only
ever written with one dynamic type, so the map is modelled as a structure with one optional field per key.
-/

namespace Ble

/-- Keys of the decoded map: parser.go:51-59. -/
inductive AdKey where
  | flags | services | solicited | serviceData | localName | txpwr | mfgdata
deriving Repr, DecidableEq

/-- `pduRecord`: parser.go:69-74. -/
structure PduRecord where
  arrayElementSz : Nat
  minSz : Nat
  svcDataUUIDSz : Nat
  key : AdKey
deriving Repr, DecidableEq

/-- `pduDecodeMap`: parser.go:76-179, with the type codes of parser.go:13-49. -/
def pduDecode (typ : UInt8) : Option PduRecord :=
  if typ = 0x02 then some ⟨2, 2, 0, .services⟩
  else if typ = 0x03 then some ⟨2, 2, 0, .services⟩
  else if typ = 0x04 then some ⟨4, 4, 0, .services⟩
  else if typ = 0x05 then some ⟨4, 4, 0, .services⟩
  else if typ = 0x06 then some ⟨16, 16, 0, .services⟩
  else if typ = 0x07 then some ⟨16, 16, 0, .services⟩
  else if typ = 0x14 then some ⟨2, 2, 0, .solicited⟩
  else if typ = 0x1f then some ⟨4, 4, 0, .solicited⟩
  else if typ = 0x15 then some ⟨16, 16, 0, .solicited⟩
  else if typ = 0x16 then some ⟨0, 2, 2, .serviceData⟩
  else if typ = 0x20 then some ⟨0, 4, 4, .serviceData⟩
  else if typ = 0x21 then some ⟨0, 16, 16, .serviceData⟩
  else if typ = 0x09 then some ⟨0, 1, 0, .localName⟩
  else if typ = 0x08 then some ⟨0, 1, 0, .localName⟩
  else if typ = 0x0a then some ⟨0, 1, 0, .txpwr⟩
  else if typ = 0xff then some ⟨0, 1, 0, .mfgdata⟩
  else if typ = 0x01 then some ⟨0, 1, 0, .flags⟩
  else none

/-- The decoded map `m`: parser.go:215. `none` = key absent. The service-data entry is itself a map from the UUID text
to the list of values; an absent UUID is the empty list (Go never stores an empty list there). -/
structure AdvMap where
  flags : Option Bytes := none
  services : Option (List Bytes) := none
  solicited : Option (List Bytes) := none
  serviceData : Option (Text → List Bytes) := none
  localName : Option Bytes := none
  txpwr : Option Bytes := none
  mfgdata : Option Bytes := none

/-- `len(m) > 0` (packet.go:83). -/
def AdvMap.nonEmpty (m : AdvMap) : Bool :=
  m.flags.isSome || m.services.isSome || m.solicited.isSome || m.serviceData.isSome || m.localName.isSome ||
    m.txpwr.isSome || m.mfgdata.isSome

inductive AdErr where
  | emptyPdu      -- parser.go:212 EmptyOrNilPdu
  | badLength     -- parser.go:225
  | overflow      -- parser.go:230
  | minLength     -- parser.go:241
  | arraySize     -- parser.go:250 / getArray
deriving Repr, DecidableEq

/-- Loop of `getArray`: parser.go:202-205. `bytes` is what is left from index `j` on. `size = 0` cannot occur
(parser.go:183); the slice expression is in range because `size` divides the length. -/
def getArrayLoop (size : Nat) (bytes : Bytes) : List Bytes :=
  if _h : bytes = [] ∨ size = 0 then [] else bytes.take size :: getArrayLoop size (bytes.drop size)
termination_by bytes.length
decreasing_by
  have : bytes.length ≠ 0 := by intro h'; exact _h (Or.inl (List.length_eq_zero_iff.1 h'))
  simp; omega

/-- `getArray`: parser.go:181-208. -/
def getArray (size : Nat) (bytes : Bytes) : Go AdErr (List Bytes) :=
  if size = 0 then .err .arraySize
  else if bytes.length = 0 then .err .arraySize
  else if bytes.length % size ≠ 0 ∨ bytes.length / size = 0 then .err .arraySize
  else .ok (getArrayLoop size bytes)

/-- Append to a list-valued entry: parser.go:253-259. -/
def appendList (o : Option (List Bytes)) (arr : List Bytes) : Option (List Bytes) :=
  match o with
  | none => some arr
  | some v => some (v ++ arr)

/-- `writeOrAppendBytes` on one entry: parser.go:293-311; `isMfg` is the test `key == keys.mfgdata` (:298), where
`data[2:]` (:301) panics on a one-byte record. -/
def writeOrAppend (o : Option Bytes) (isMfg : Bool) (data : Bytes) : Go AdErr (Option Bytes) :=
  match o with
  | none => .ok (some data)
  | some d =>
    if isMfg then
      match sliceFrom (ε := AdErr) data 2 with
      | .ok data' => .ok (some (d ++ data'))
      | .err e => .err e
      | .panic => .panic
    else .ok (some (d ++ data))

/-- Service-data entry: parser.go:262-280. -/
def addServiceData (o : Option (Text → List Bytes)) (su : Text) (sd : Bytes) : Option (Text → List Bytes) :=
  let msd := o.getD (fun _ => [])
  some (fun k => if k = su then msd k ++ [sd] else msd k)

/-- Handling of one record: parser.go:237-285. -/
def adRecord (m : AdvMap) (typ : UInt8) (bytes : Bytes) : Go AdErr AdvMap :=
  match pduDecode typ with
  | none => .ok m
  | some dec =>
    if bytes.length = 0 then .ok m
    else if dec.minSz > bytes.length then .err .minLength
    else if dec.arrayElementSz > 0 then
      match getArray dec.arrayElementSz bytes with
      | .ok arr =>
        match dec.key with
        | .services => .ok { m with services := appendList m.services arr }
        | .solicited => .ok { m with solicited := appendList m.solicited arr }
        | _ => .ok m     -- no such entry in pduDecodeMap
      | .err e => .err e
      | .panic => .panic
    else if dec.svcDataUUIDSz > 0 then
      match slice (ε := AdErr) bytes 0 dec.svcDataUUIDSz, sliceFrom (ε := AdErr) bytes dec.svcDataUUIDSz with
      | .ok u, .ok sd => .ok { m with serviceData := addServiceData m.serviceData (uuidString u) sd }
      | _, _ => .panic
    else
      match dec.key with
      | .flags => (writeOrAppend m.flags false bytes).bind fun v => .ok { m with flags := v }
      | .localName => (writeOrAppend m.localName false bytes).bind fun v => .ok { m with localName := v }
      | .txpwr => (writeOrAppend m.txpwr false bytes).bind fun v => .ok { m with txpwr := v }
      | .mfgdata => (writeOrAppend m.mfgdata true bytes).bind fun v => .ok { m with mfgdata := v }
      | _ => .ok m       -- no such entry in pduDecodeMap

/-- Loop of `Parse` from index `i` on: parser.go:216-288. An error is returned together with the map built so far. -/
def adParseLoop (pdu : Bytes) (i : Nat) (m : AdvMap) : Go (AdErr × AdvMap) AdvMap :=
  if h : i + 1 < pdu.length then
    let length := pdu[i].toNat
    let typ := pdu[i+1]
    if length < 1 then .err (.badLength, m)
    else if i + length ≥ pdu.length then .err (.overflow, m)
    else
      match slice (ε := AdErr) pdu (i + 2) (i + 2 + length - 1) with
      | .ok bytes =>
        match adRecord m typ bytes with
        | .ok m' => adParseLoop pdu (i + length + 1) m'
        | .err e => .err (e, m)
        | .panic => .panic
      | _ => .panic
  else .ok m
termination_by pdu.length - i

/-- `parser.Parse`: parser.go:210-291. -/
def adParse (pdu : Bytes) : Go (AdErr × AdvMap) AdvMap :=
  if pdu.length = 0 then .err (.emptyPdu, {}) else adParseLoop pdu 0 {}

/-- A packet being crafted or parsed: packet.go:32-35. `m` is the decoded map, `none` for a crafted packet (nil map). -/
structure Packet where
  b : Bytes := []
  m : Option AdvMap := none
  /-- the entry `AdvertisementError`, packet.go:85 -/
  advError : Option AdErr := none

/-- `NewRawPacket`: packet.go:63-93. -/
def newRawPacket (chunks : List Bytes) : Go AdErr Packet :=
  let b := chunks.flatten
  match adParse b with
  | .ok m => .ok { b := b, m := some m }
  | .panic => .panic
  | .err (.emptyPdu, _) => .ok { b := b, m := none }
  | .err (e, m) => if m.nonEmpty then .ok { b := b, m := some m, advError := some e } else .err e

/-- `MaxEIRPacketLength`: linux/adv/const.go:7. -/
notation "maxEIR" => (31 : Nat)

inductive PktErr where
  | notFit     -- ErrNotFit
  | invalid    -- ErrInvalid
deriving Repr, DecidableEq

/-- A field constructor applied to its arguments: packet.go:118-216. -/
inductive Field where
  | raw (b : Bytes)
  | iBeaconData (md : Bytes)
  | iBeacon (u : Bytes) (major minor : Nat) (pwr : UInt8)
  | flags (f : UInt8)
  | shortName (n : Bytes)
  | completeName (n : Bytes)
  | manufacturerData (id : Nat) (b : Bytes)
  | allUUID (u : Bytes)
  | someUUID (u : Bytes)
  | serviceData16 (id : Nat) (b : Bytes)
deriving Repr, DecidableEq

/-- `Packet.append`: packet.go:106-114. Returns the new bytes and the error, so that "left intact" is a statement about the bytes. -/
def pktAppend (p : Bytes) (typ : UInt8) (b : Bytes) : Bytes × Option PktErr :=
  if p.length + 1 + 1 + b.length > maxEIR then (p, some .notFit)
  else (p ++ [UInt8.ofNat (b.length + 1)] ++ [typ] ++ b, none)

/-- `ManufacturerData`: packet.go:174-179. -/
def pktMfg (p : Bytes) (id : Nat) (b : Bytes) : Bytes × Option PktErr :=
  pktAppend p 0xFF ([UInt8.ofNat id, UInt8.ofNat (id / 256)] ++ b)

/-- The 23 bytes of an iBeacon: packet.go:141-147 (`copy(md[2:], Reverse(u))` for a 16-byte `u`). -/
def iBeaconBytes (u : Bytes) (major minor : Nat) (pwr : UInt8) : Bytes :=
  [0x02, 0x15] ++ reverse u ++ [UInt8.ofNat (major / 256), UInt8.ofNat major] ++
    [UInt8.ofNat (minor / 256), UInt8.ofNat minor] ++ [pwr]

/-- Applying a field to a packet, `f(p)`: packet.go:118-216. -/
def Field.apply (p : Bytes) : Field → Bytes × Option PktErr
  | .raw b => if p.length + b.length > maxEIR then (p, some .notFit) else (p ++ b, none)
  | .iBeaconData md => pktMfg p 0x004C md
  | .iBeacon u major minor pwr =>
    if u.length ≠ 16 then (p, some .invalid) else pktMfg p 0x004C (iBeaconBytes u major minor pwr)
  | .flags f => pktAppend p 0x01 [f]
  | .shortName n => pktAppend p 0x08 n
  | .completeName n => pktAppend p 0x09 n
  | .manufacturerData id b => pktMfg p id b
  | .allUUID u =>
    if u.length = 2 then pktAppend p 0x03 u else if u.length = 4 then pktAppend p 0x05 u else pktAppend p 0x07 u
  | .someUUID u =>
    if u.length = 2 then pktAppend p 0x02 u else if u.length = 4 then pktAppend p 0x04 u else pktAppend p 0x06 u
  | .serviceData16 id b =>
    match pktAppend p 0x03 (uuid16 id) with
    | (p', some e) => (p', some e)
    | (p', none) => pktAppend p' 0x16 (uuid16 id ++ b)

/-- `NewPacket`: packet.go:52-60. On error no packet is returned. -/
def newPacketFrom (p : Bytes) : List Field → Go PktErr Bytes
  | [] => .ok p
  | f :: fs =>
    match f.apply p with
    | (_, some e) => .err e
    | (p', none) => newPacketFrom p' fs

def newPacket (fs : List Field) : Go PktErr Bytes := newPacketFrom [] fs

/-- A history of `Append` calls on one packet, errors ignored by the caller: packet.go:100-102. -/
def appendAll (p : Bytes) (fs : List Field) : Bytes := fs.foldl (fun p f => (f.apply p).1) p

/-! Accessors: packet.go:219-291. -/

/-- `Packet.Flags`: packet.go:219-224; `b[0]` panics on an empty entry. -/
def getFlags (m : AdvMap) : Go AdErr (Option UInt8) :=
  match m.flags with
  | none => .ok none
  | some b => (index b 0).bind fun x => .ok (some x)

/-- `Packet.TxPower`: packet.go:235-241, `int(int8(b[0]))`. -/
def getTxPower (m : AdvMap) : Go AdErr (Option Int) :=
  match m.txpwr with
  | none => .ok none
  | some b => (index b 0).bind fun x => .ok (some (if x.toNat < 128 then (x.toNat : Int) else (x.toNat : Int) - 256))

/-- `Packet.LocalName`: packet.go:227-232. -/
def getLocalName (m : AdvMap) : Bytes := m.localName.getD []

/-- `Packet.UUIDs`: packet.go:244-247. -/
def getUUIDs (m : AdvMap) : List Bytes := m.services.getD []

/-- `Packet.ServiceSol`: packet.go:250-253. -/
def getServiceSol (m : AdvMap) : List Bytes := m.solicited.getD []

/-- `Packet.ManufacturerData`: packet.go:288-291. -/
def getMfg (m : AdvMap) : Bytes := m.mfgdata.getD []

/-- `Packet.ServiceData` restricted to one map key: packet.go:264-282. The order in which Go walks the map is unspecified, so only
the list per key is modelled; a key that `ble.Parse` rejects (a 32-bit UUID) is skipped (packet.go:276-279). -/
def getServiceData (m : AdvMap) (key : Text) : List (Bytes × Bytes) :=
  match m.serviceData with
  | none => []
  | some f =>
    match uuidParse key with
    | .ok u => (f key).map (fun sd => (u, sd))
    | _ => []

end Ble
