import Verif.Hci.Evt
import Verif.Adv.Model
set_option autoImplicit false

/-!
# Model of the handling of advertising reports

linux/hci/hci.go:609-737 (`handleLEAdvertisingReport`) and linux/hci/adv.go. Everything runs on the event loop; the asynchronous call of the application's handler (hci.go:728-732) is an output.
The index `i` of an `Advertisement` is always 0, since events with another number of reports than one are refused (hci.go:626-630).
-/

namespace Ble.AdvHist

open Ble.Evt

/-- `Advertisement` (adv.go:52-60) without time stamp: the event, the event of the scan response, the parsed packet. -/
structure Adv where
  e : Bytes
  sr : Option Bytes
  p : Packet

/-- `newAdvertisement(e, 0)`: adv.go:29-48. -/
def newAdv (e : Bytes) : Go Unit Adv :=
  match data e 0 with
  | .ok d =>
    match newRawPacket [d] with
    | .ok p => .ok { e := e, sr := none, p := p }
    | .err _ => .err ()
    | .panic => .panic
  | .err _ => .err ()
  | .panic => .panic

/-- `setScanResponse`: adv.go:63-85. On an error the advertisement is left as it is. -/
def setScanResponse (a : Adv) (sr : Adv) : Go Unit Adv :=
  match data a.e 0, data sr.e 0 with
  | .ok d, .ok srd =>
    match newRawPacket [d, srd] with
    | .ok p => .ok { a with sr := some sr.e, p := p }
    | .err _ => .err ()
    | .panic => .panic
  | .panic, _ => .panic
  | .err _, _ => .err ()
  | .ok _, .panic => .panic
  | .ok _, .err _ => .err ()

/-- `addrWErr`: adv_werr.go:76-92. The address is compared as text (hci.go:689), the lower-case hexadecimal digits of the six bytes, most significant first: equal exactly when the bytes
are. The type, public or random, is not part of the text. -/
def addrOf (e : Bytes) : Go Unit Bytes := do
  let b ← address e 0
  let _ ← addressType e 0
  pure b

/-- `adHist` and `adLast` (hci.go:110-111). -/
structure Scan where
  ring : List (Option Adv)
  last : Nat

/-- Before the first `Scan`: a nil slice. -/
def initial : Scan := { ring := [], last := 0 }

/-- `Scan` (gap.go:28-38) allocates an empty history. -/
def started : Scan := { ring := List.replicate 128 none, last := 0 }

/-- Result of the search for the advertisement of a scan response. -/
inductive Found where
  | none
  | at (idx : Nat)
  | panic
deriving DecidableEq, Repr

/-- The loop of hci.go:665-702, for at most `fuel` iterations; `Option.none` means that it is still running. -/
def search (ring : List (Option Adv)) (last : Nat) (addr : Bytes) : Nat → Int → Option Found
  | 0, _ => none
  | fuel + 1, idx =>
    if idx = last then some .none
    else
      let idx' : Int := if idx = -1 then (ring.length : Int) - 1 else idx
      if idx = -1 ∧ idx' = last then some .none
      else if idx' < 0 then some .panic
      else match ring[idx'.toNat]? with
        | none => some .panic
        | some none => some .none
        | some (some a) =>
          match addrOf a.e with
          | .ok b => if b = addr then some (.at idx'.toNat) else search ring last addr fuel (idx' - 1)
          | .err _ => some .none
          | .panic => some .panic

/-- Outcome of handling an event: the new history, the advertisement handed to the application, and whether an error was reported. -/
structure Out where
  st : Scan
  sent : Option Adv
  reported : Bool

/-- `h.adHist[h.adLast] = a; h.adLast++; …`: hci.go:648-653. -/
def remember (s : Scan) (a : Adv) : Go Unit Scan :=
  if s.last < s.ring.length then
    .ok { ring := s.ring.set s.last (some a), last := if s.last + 1 = s.ring.length then 0 else s.last + 1 }
  else .panic

/-- The case of a scan response: hci.go:657-710. -/
def handleScanRsp (s : Scan) (e : Bytes) : Go Unit Out :=
  match newAdv e with
  | .panic => .panic
  | .err _ => .ok ⟨s, none, true⟩
  | .ok sr =>
    match addrOf sr.e with
    -- the address is read inside the loop; without it the loop ends in its first iteration, if there is one
    | .err _ => .ok ⟨s, none, true⟩
    | .panic => .panic
    | .ok addr =>
      match search s.ring s.last addr (s.ring.length + 1) ((s.last : Int) - 1) with
      | some (.at idx) =>
        match s.ring[idx]? with
        | some (some a) =>
          match setScanResponse a sr with
          | .ok a' => .ok ⟨{ s with ring := s.ring.set idx (some a') }, some a', false⟩
          | .err _ => .ok ⟨s, none, true⟩
          | .panic => .panic
        | _ => .panic
      | some .none => .ok ⟨s, none, true⟩
      | _ => .panic

/-- `handleLEAdvertisingReport`: hci.go:609-737, with a handler set; without one nothing happens (hci.go:610-612). -/
def handle (s : Scan) (e : Bytes) : Go Unit Out :=
  match numReports e with
  | .panic => .panic
  | .err _ => .ok ⟨s, none, true⟩
  | .ok nr =>
    if nr ≠ 1 then .ok ⟨s, none, true⟩
    else match eventType e 0 with
      | .panic => .panic
      | .err _ => .ok ⟨s, none, true⟩
      | .ok et =>
        if et = 0x00 ∨ et = 0x02 then
          match newAdv e with
          | .panic => .panic
          | .err _ => .ok ⟨s, none, true⟩
          | .ok a =>
            match remember s a with
            | .ok s' => .ok ⟨s', some a, false⟩
            | _ => .panic
        else if et = 0x04 then handleScanRsp s e
        else if et = 0x01 ∨ et = 0x03 then
          match newAdv e with
          | .panic => .panic
          | .err _ => .ok ⟨s, none, true⟩
          | .ok a => .ok ⟨s, some a, false⟩
        else .ok ⟨s, none, true⟩

/-- A history of events since `Scan`: the state and the advertisements handed to the application, in order. -/
def run (s : Scan) : List Bytes → Go Unit (Scan × List Adv)
  | [] => .ok (s, [])
  | e :: es =>
    match handle s e with
    | .ok o =>
      match run o.st es with
      | .ok (s', as) => .ok (s', o.sent.toList ++ as)
      | .err x => .err x
      | .panic => .panic
    | .err x => .err x
    | .panic => .panic

/-! ## What the application reads from an advertisement: adv.go, adv_werr.go -/

/-- `Connectable`: adv_werr.go:61-69, adv.go:130-133 (false on an error). -/
def Adv.connectable (a : Adv) : Bool :=
  match eventType a.e 0 with
  | .ok t => t = 0x01 ∨ t = 0x00
  | _ => false

/-- `RSSI`: adv_werr.go:71-74, adv.go:136-139. -/
def Adv.rssi (a : Adv) : Int :=
  match Evt.rssi a.e 0 with
  | .ok x => int8 x
  | _ => 0

/-- `Data`: adv_werr.go:102-104. -/
def Adv.data (a : Adv) : Bytes :=
  match Evt.data a.e 0 with
  | .ok d => d
  | _ => []

/-- `SrData`: adv_werr.go:106-112: the event read is that of the advertisement, not of the scan response. -/
def Adv.srData (a : Adv) : Option Bytes := a.sr.map fun _ => a.data

/-- `ScanResponse`: adv_werr.go:114-119. -/
def Adv.scanResponse (a : Adv) : Option Bytes :=
  a.sr.map fun e => match Evt.data e 0 with | .ok d => d | _ => []

/-- `Addr().Bytes()`: adv_werr.go:76-92: most significant byte first; the flag is whether it is a `RandomAddress`. -/
def Adv.addr (a : Adv) : Option (Bytes × Bool) :=
  match address a.e 0, addressType a.e 0 with
  | .ok b, .ok t => some (b.reverse, t = 1)
  | _, _ => none

end Ble.AdvHist
