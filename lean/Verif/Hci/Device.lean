import Verif.Hci.Advertise
import Verif.Hci.Options
import Verif.Hci.CmdTable
set_option autoImplicit false

/-!
# Model of the advertising calls of a device, with any controller

linux/device.go:116-209 and the calls of linux/hci/gap.go they make (46-181, 272-301), `SetAdvParams` (linux/hci/option.go:51-55). Unlike Advertise.lean, where every answer is given beforehand, the controller is a state machine: what it answers
may depend on everything it was sent.

Simplifications: `Send` returns the controller's status (Cmd.lean has flow control and timeouts); one call at a time.
-/

namespace Ble.Device

open Ble.Advertise (goCopy nameAndServices placeMfg)
open Ble.Options (AdvParams)

/-- The commands the calls send. -/
inductive Cmd where
  | advParams (p : AdvParams)
  | advData (len : UInt8) (data : Bytes)
  | scanResp (len : UInt8) (data : Bytes)
  | advEnable (on : UInt8)
deriving DecidableEq

/-- A controller: its next state, and nil or the error of `Send`. -/
abbrev Ctl (σ : Type) := σ → Cmd → σ × Option UInt8

/-- Errors of the calls. -/
inductive Err where
  /-- `ble.ErrEIRPacketTooLong` -/
  | tooLong
  /-- `adv.ErrNotFit`, `adv.ErrInvalid` -/
  | packet (e : PktErr)
  /-- `Send` failed -/
  | send (e : UInt8)
deriving DecidableEq, Repr

/-- `h.params` as far as advertising is concerned, and the controller. -/
structure St (σ : Type) where
  ctl : σ
  params : AdvParams
  advData : Bytes
  scanResp : Bytes
  enable : UInt8 := 0

variable {σ : Type}

/-- `h.Send(c, nil)`. -/
def send (k : Ctl σ) (s : St σ) (c : Cmd) : St σ × Option Err :=
  let r := k s.ctl c
  ({ s with ctl := r.1 }, r.2.map .send)

/-- gap.go:282-301. -/
def setAdvertisement (k : Ctl σ) (s : St σ) (ad sr : Bytes) : St σ × Option Err :=
  if ad.length > 31 ∨ sr.length > 31 then (s, some .tooLong)
  else
    let s1 := { s with advData := goCopy s.advData ad }
    let r := send k s1 (.advData (UInt8.ofNat ad.length) s1.advData)
    match r.2 with
    | some e => (r.1, some e)
    | none =>
      let s2 := { r.1 with scanResp := goCopy r.1.scanResp sr }
      send k s2 (.scanResp (UInt8.ofNat sr.length) s2.scanResp)

/-- gap.go:271-279. -/
def advertise (k : Ctl σ) (s : St σ) : St σ × Option Err :=
  let r := send k s (.advParams s.params)
  match r.2 with
  | some e => (r.1, some e)
  | none => send k { r.1 with enable := 1 } (.advEnable 1)

/-- gap.go:178-181. -/
def stopAdvertising (k : Ctl σ) (s : St σ) : St σ × Option Err := send k { s with enable := 0 } (.advEnable 0)

/-- The end of the calls of gap.go:84-87, 122-125, 134-137, 146-149, 158-161, 170-173: an error of `SetAdvertisement` becomes nil. -/
def publish (k : Ctl σ) (s : St σ) (ad sr : Bytes) : St σ × Option Err :=
  let r := setAdvertisement k s ad sr
  match r.2 with
  | some _ => (r.1, none)
  | none => advertise k r.1

/-- What to advertise: the arguments of `Advertise` (an `Advertisement`'s name, services and manufacturer data), of `AdvertiseNameAndServices`, and of the four calls that advertise one field. -/
inductive Req where
  | adv (name : Bytes) (uuids : List Bytes) (md : Option Bytes)
  | nameAndServices (name : Bytes) (uuids : List Bytes)
  | field (f : Field)

/-- The packets: gap.go:47-83, 92-121, 130-133, 142-145, 154-157, 166-169. -/
def packets : Req → Go PktErr (Bytes × Bytes)
  | .adv name uuids md => do let p ← nameAndServices name uuids; pure (placeMfg p md)
  | .nameAndServices name uuids => nameAndServices name uuids
  | .field f => do let ad ← newPacket [f]; pure (ad, [])

/-- The call of `HCI`: gap.go:46-174. -/
def hciAdvertise (k : Ctl σ) (s : St σ) (r : Req) : St σ × Option Err :=
  match packets r with
  | .ok p => publish k s p.1 p.2
  | .err e => (s, some (.packet e))
  | .panic => (s, none) -- does not occur

/-- The call of `Device` up to its `<-ctx.Done()`: device.go:116-119 and so on: it returns the error, or waits. -/
inductive Begun where
  | returned (e : Err)
  | waits
deriving DecidableEq, Repr

/-- device.go:117-120, 130-133, 140-143, 150-153, 160-163, 170-173. -/
def begin (k : Ctl σ) (s : St σ) (r : Req) : St σ × Begun :=
  let x := hciAdvertise k s r
  match x.2 with
  | some e => (x.1, .returned e)
  | none => (x.1, .waits)

/-- When the context has ended: device.go:121-122 and so on. The error of `StopAdvertising` is dropped; the call returns the context's. -/
def finish (k : Ctl σ) (s : St σ) : St σ := (stopAdvertising k s).1

/-- `AdvertiseRaw`: device.go:178-205. Each field of `ble.AdvertisingParameters` goes to the field of the same name. -/
def advertiseRaw (k : Ctl σ) (s : St σ) (ad sr : Bytes) (p : AdvParams) : St σ × Option Err :=
  let q : AdvParams :=
    { intervalMin := p.intervalMin, intervalMax := p.intervalMax, advType := p.advType, ownAddrType := p.ownAddrType,
      directAddrType := p.directAddrType, directAddr := p.directAddr, channelMap := p.channelMap, filterPolicy := p.filterPolicy }
  let s1 := { s with params := q }
  let r := setAdvertisement k s1 ad sr
  match r.2 with
  | some e => (r.1, some e)
  | none => advertise k r.1

/-- `h.params.init()` and a new device: params.go:57-66. -/
def fresh (c : σ) : St σ := ⟨c, Options.defaultAdv, List.replicate 31 0, List.replicate 31 0, 0⟩

end Ble.Device
