import Verif.Hci.AdvHist
import Verif.Hci.Dial
set_option autoImplicit false

/-!
# Model of the methods of an advertisement, and of advertisements as shared objects

linux/hci/adv.go:186-248 (`ToMap`) and linux/hci/adv_werr.go; the other methods are in AdvHist.lean and Adv/Model.lean. The methods without error (adv.go:88-184) drop the error of the `WErr` function and keep the value returned with it.
The field `p` is never nil in an advertisement that `newAdvertisement` made (adv.go:46), so the branches for a nil packet (adv_werr.go:11-13 and so on) are not modelled. The time stamp is not modelled.
-/

namespace Ble.AdvHist

open Ble.Evt

/-- The map of the packet, empty if it is nil: packet.go:47-49. -/
def amap (a : Adv) : AdvMap := a.p.m.getD {}

/-- `TxPowerLevel`: adv.go:118-121, adv_werr.go:45-52; 0 if it is absent (packet.go:240). -/
def aTxPowerLevel (a : Adv) : Go AdErr Int := (getTxPower (amap a)).bind fun o => .ok (o.getD 0)

/-- `eventTypeWErr`: adv_werr.go:94-96. `EventType`: adv.go:149-152. -/
def aEventType (a : Adv) : Go Unit UInt8 := eventType a.e 0

/-- `addressTypeWErr`: adv_werr.go:98-100. `AddrType`: adv.go:156-159. -/
def aAddrType (a : Adv) : Go Unit UInt8 := addressType a.e 0

/-- `connectableWErr`: adv_werr.go:61-69. `Connectable`: adv.go:130-133. -/
def aConnectable (a : Adv) : Go Unit Bool := do
  let t ← aEventType a
  pure (t == 0x01 || t == 0x00)

/-- `rssiWErr`: adv_werr.go:71-74. `RSSI`: adv.go:136-139. -/
def aRSSI (a : Adv) : Go Unit Int := do
  let r ← rssi a.e 0
  pure (int8 r)

/-- `addrWErr`: adv_werr.go:76-92. `Addr`: adv.go:142-145. -/
def aAddr (a : Adv) : Go Unit Dial.Addr := do
  let b ← address a.e 0
  let t ← addressType a.e 0
  pure (Dial.advAddr b t)

/-- What `ToMap` returns. A key that is absent is `none`; the name is a Go string, whose bytes these are. -/
structure MapOut where
  mac : Text
  addressType : UInt8
  eventType : UInt8
  connectable : Bool
  rssi : Int
  name : Option Bytes
  txPower : Option Int
  flags : Option Bytes
  services : Option (List Bytes)
  solicited : Option (List Bytes)
  serviceData : Option (Text → List Bytes)
  mfg : Option Bytes
  error : Option AdErr

/-- The transmit power in `ToMap`: the first byte, as an unsigned number: adv.go:235-240. -/
def txOf (a : Adv) : Go Unit (Option Int) :=
  match (amap a).txpwr with
  | none => .ok none
  | some b => (index b 0).bind fun x => .ok (some (x.toNat : Int))

/-- `ToMap`: adv.go:186-248. -/
def toMap (a : Adv) : Go Unit MapOut := do
  let addr ← aAddr a
  let at' ← aAddrType a
  let et ← aEventType a
  let c ← aConnectable a
  let r ← aRSSI a
  let tx ← txOf a
  pure {
    mac := strip ':' addr.text, addressType := at', eventType := et, connectable := c, rssi := if r ≠ 0 then r else -128,
    name := (amap a).localName, txPower := tx, flags := (amap a).flags, services := (amap a).services, solicited := (amap a).solicited,
    serviceData := (amap a).serviceData, mfg := (amap a).mfgdata, error := a.p.advError }

/-! ## Shared objects -/

/-- The history as it is: pointers to advertisements (hci.go:110), which the application has as well. -/
structure Heap where
  objs : List Adv
  ring : List (Option Nat)
  last : Nat

/-- What the pointers stand for. -/
def Heap.view (h : Heap) : Scan := { ring := h.ring.map fun o => o.bind fun r => h.objs[r]?, last := h.last }

/-- After `Scan`: gap.go:34-35. Objects handed out before are still there. -/
def Heap.started (objs : List Adv) : Heap := { objs := objs, ring := List.replicate 128 none, last := 0 }

/-- `handleLEAdvertisingReport` on objects: hci.go:609-737. The result has the pointer that is handed to the application. The cases are those of `handle`; what differs is that an advertisement is a new object (adv.go:46) and that
`setScanResponse` changes an object in place (adv.go:81-82). -/
def Heap.handle (h : Heap) (e : Bytes) : Go Unit (Heap × Option Nat) :=
  match numReports e with
  | .panic => .panic
  | .err _ => .ok (h, none)
  | .ok nr =>
    if nr ≠ 1 then .ok (h, none)
    else match eventType e 0 with
      | .panic => .panic
      | .err _ => .ok (h, none)
      | .ok et =>
        if et = 0x00 ∨ et = 0x02 then
          match newAdv e with
          | .panic => .panic
          | .err _ => .ok (h, none)
          | .ok a =>
            if h.last < h.ring.length then
              .ok ({ objs := h.objs ++ [a], ring := h.ring.set h.last (some h.objs.length), last := if h.last + 1 = h.ring.length then 0 else h.last + 1 }, some h.objs.length)
            else .panic
        else if et = 0x04 then
          match newAdv e with
          | .panic => .panic
          | .err _ => .ok (h, none)
          | .ok sr =>
            match addrOf sr.e with
            | .err _ => .ok (h, none)
            | .panic => .panic
            | .ok addr =>
              match search h.view.ring h.last addr (h.ring.length + 1) ((h.last : Int) - 1) with
              | some (.at idx) =>
                match h.ring[idx]? with
                | some (some r) =>
                  match h.objs[r]? with
                  | some a =>
                    match setScanResponse a sr with
                    | .ok a' => .ok ({ h with objs := h.objs.set r a' }, some r)
                    | .err _ => .ok (h, none)
                    | .panic => .panic
                  | none => .panic
                | _ => .panic
              | some .none => .ok (h, none)
              | _ => .panic
        else if et = 0x01 ∨ et = 0x03 then
          match newAdv e with
          | .panic => .panic
          | .err _ => .ok (h, none)
          | .ok a => .ok ({ h with objs := h.objs ++ [a] }, some h.objs.length)
        else .ok (h, none)

/-- A sequence of events: the objects and the pointers handed out, in order. -/
def Heap.run (h : Heap) : List Bytes → Go Unit (Heap × List Nat)
  | [] => .ok (h, [])
  | e :: es =>
    match h.handle e with
    | .ok (h', o) =>
      match Heap.run h' es with
      | .ok (h'', os) => .ok (h'', o.toList ++ os)
      | .err x => .err x
      | .panic => .panic
    | .err x => .err x
    | .panic => .panic

end Ble.AdvHist
