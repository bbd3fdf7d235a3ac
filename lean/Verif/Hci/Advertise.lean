import Verif.Adv.Model
set_option autoImplicit false

/-!
# Model of the advertising calls

linux/hci/gap.go:47-181 (`AdvertiseAdv`, `AdvertiseNameAndServices`, `AdvertiseMfgData`, `AdvertiseServiceData16`, `AdvertiseIBeaconData`, `AdvertiseIBeacon`, `StopAdvertising`), 272-301
(`Advertise`, `SetAdvertisement`). The packets are built with the model of linux/adv/packet.go. `Send` of each command is an oracle: it succeeds or fails.
-/

namespace Ble.Advertise

/-- The commands the calls send. -/
inductive Sent where
  /-- LE Set Advertising Data: length and the 31-byte array -/
  | advData (len : UInt8) (data : Bytes)
  /-- LE Set Scan Response Data -/
  | scanResp (len : UInt8) (data : Bytes)
  /-- LE Set Advertising Parameters, with the parameters of the device -/
  | advParams
  /-- LE Set Advertise Enable -/
  | advEnable (on : UInt8)
deriving DecidableEq, Repr

/-- `h.params.advData.AdvertisingData` and `h.params.scanResp.ScanResponseData`: arrays of 31 bytes kept from call to call. -/
structure St where
  advData : Bytes
  scanResp : Bytes
deriving DecidableEq, Repr

/-- What `Send` returns for each command; `none` is success. -/
structure Ctl where
  advData : Option UInt8 := none
  scanResp : Option UInt8 := none
  advParams : Option UInt8 := none
  advEnable : Option UInt8 := none

/-- Errors. -/
inductive Err where
  /-- `ble.ErrEIRPacketTooLong` -/
  | tooLong
  /-- `adv.ErrNotFit`, `adv.ErrInvalid` -/
  | packet (e : PktErr)
  /-- `Send` failed -/
  | send (e : UInt8)
deriving DecidableEq, Repr

/-- What a call does: the state afterwards, the commands sent in order, the result. -/
structure Out where
  st : St
  sent : List Sent
  err : Option Err
deriving DecidableEq, Repr

/-- Go `copy(dst[:], src)`. -/
def goCopy (dst src : Bytes) : Bytes := src.take dst.length ++ dst.drop src.length

/-- `SetAdvertisement`: gap.go:282-299. -/
def setAdvertisement (s : St) (c : Ctl) (ad sr : Bytes) : Out :=
  if ad.length > 31 ∨ sr.length > 31 then ⟨s, [], some .tooLong⟩
  else
    let s1 := { s with advData := goCopy s.advData ad }
    let c1 := Sent.advData (UInt8.ofNat ad.length) s1.advData
    match c.advData with
    | some e => ⟨s1, [c1], some (.send e)⟩
    | none =>
      let s2 := { s1 with scanResp := goCopy s1.scanResp sr }
      let c2 := Sent.scanResp (UInt8.ofNat sr.length) s2.scanResp
      match c.scanResp with
      | some e => ⟨s2, [c1, c2], some (.send e)⟩
      | none => ⟨s2, [c1, c2], none⟩

/-- `Advertise`: gap.go:271-279. -/
def enable (s : St) (c : Ctl) : Out :=
  match c.advParams with
  | some e => ⟨s, [.advParams], some (.send e)⟩
  | none => ⟨s, [.advParams, .advEnable 1], c.advEnable.map .send⟩

/-- The end of every advertising call: gap.go:84-87, 123-126, 135-138, … An error of `SetAdvertisement` becomes nil. -/
def publish (s : St) (c : Ctl) (ad sr : Bytes) : Out :=
  let o := setAdvertisement s c ad sr
  match o.err with
  | some _ => { o with err := none }
  | none => let o2 := enable o.st c; { o2 with sent := o.sent ++ o2.sent }

/-- The loop over the UUIDs: gap.go:62-69, 108-115: stops at the first one that does not fit. No UUID field returns another error. -/
def addServices (f : Bytes → Field) (ad : Bytes) : List Bytes → Bytes
  | [] => ad
  | u :: us =>
    match (f u).apply ad with
    | (ad', none) => addServices f ad' us
    | (_, some _) => ad

/-- `adv.FlagGeneralDiscoverable | adv.FlagLEOnly`: linux/adv/const.go:18-19. -/
def advFlags : UInt8 := 0x06

/-- The choice between `AllUUID` and `SomeUUID`: gap.go:52-61, 99-107. -/
def uuidField (adLen : Nat) (uuids : List Bytes) : Bytes → Field :=
  if adLen + 1 + 1 + (uuids.map List.length).sum > maxEIR then .someUUID else .allUUID

/-- The placing of the name: gap.go:70-75, 116-121. The scan response is empty at this point. -/
def placeName (ad : Bytes) (name : Bytes) : Bytes × Bytes :=
  match (Field.completeName name).apply ad with
  | (ad', none) => (ad', [])
  | (_, some _) =>
    match (Field.completeName name).apply [] with
    | (sr, none) => (ad, sr)
    | (_, some _) =>
      match (Field.shortName name).apply [] with
      | (sr, none) => (ad, sr)
      | (_, some _) => (ad, [])

/-- The advertising data and scan response of `AdvertiseNameAndServices`: gap.go:92-118. -/
def nameAndServices (name : Bytes) (uuids : List Bytes) : Go PktErr (Bytes × Bytes) :=
  match newPacket [.flags advFlags] with
  | .ok ad => .ok (placeName (addServices (uuidField ad.length uuids) ad uuids) name)
  | .err e => .err e
  | .panic => .panic

/-- `AdvertiseNameAndServices`: gap.go:91-124. -/
def advertiseNameAndServices (s : St) (c : Ctl) (name : Bytes) (uuids : List Bytes) : Out :=
  match nameAndServices name uuids with
  | .ok (ad, sr) => publish s c ad sr
  | .err e => ⟨s, [], some (.packet e)⟩
  | .panic => ⟨s, [], none⟩ -- does not occur, see `nameAndServices_ok`

/-- The manufacturer data of `AdvertiseAdv`: gap.go:77-83. `none`: `ManufacturerData()` is nil. -/
def placeMfg (p : Bytes × Bytes) : Option Bytes → Bytes × Bytes
  | none => p
  | some md =>
    match (Field.manufacturerData 1337 md).apply p.1 with
    | (ad, none) => (ad, p.2)
    | (_, some _) =>
      match (Field.manufacturerData 1337 md).apply p.2 with
      | (sr, none) => (p.1, sr)
      | (_, some _) => p

/-- `AdvertiseAdv`: gap.go:46-87. -/
def advertiseAdv (s : St) (c : Ctl) (name : Bytes) (uuids : List Bytes) (md : Option Bytes) : Out :=
  match nameAndServices name uuids with
  | .ok p => let q := placeMfg p md; publish s c q.1 q.2
  | .err e => ⟨s, [], some (.packet e)⟩
  | .panic => ⟨s, [], none⟩ -- does not occur

/-- `AdvertiseMfgData`, `AdvertiseServiceData16`, `AdvertiseIBeaconData`, `AdvertiseIBeacon`: gap.go:130-175, with the respective field. -/
def advertiseField (s : St) (c : Ctl) (f : Field) : Out :=
  match newPacket [f] with
  | .ok ad => publish s c ad []
  | .err e => ⟨s, [], some (.packet e)⟩
  | .panic => ⟨s, [], none⟩ -- does not occur

end Ble.Advertise
