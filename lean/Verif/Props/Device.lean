import Verif.Hci.Device
import Verif.Props.Advertise
set_option autoImplicit false

/-! # The advertising calls of a device on a controller that keeps to the specification (C106 - C107) -/

namespace Ble.Props

open Ble.Device Ble.Options

/-! ## Specification -/

/-- What a controller broadcasts: the parameters, the advertising data, the scan response, and whether it does. -/
structure Air where
  params : AdvParams
  ad : Bytes
  sr : Bytes
  on : Bool
deriving DecidableEq

/-- The controller (Core specification, vol 4 part E, 7.8.5, 7.8.7 - 7.8.9). While it advertises the parameters cannot be changed: the command gives Command Disallowed (0x0C). The data can. The first `len` bytes of the 31 count. Enabling takes 0 or 1; else Invalid HCI Command Parameters (0x12). -/
def airExec : Ctl Air
  | a, .advParams p => if a.on then (a, some 0x0C) else ({ a with params := p }, none)
  | a, .advData len d => ({ a with ad := d.take len.toNat }, none)
  | a, .scanResp len d => ({ a with sr := d.take len.toNat }, none)
  | a, .advEnable x => if x = 0 then ({ a with on := false }, none) else if x = 1 then ({ a with on := true }, none) else (a, some 0x12)

/-- Calls of the application. `advertise` is any of the six calls that take a context, `ended` the end of its context, `stop` is `StopAdvertising`. -/
inductive AppCall where
  | advertise (r : Req)
  | ended
  | raw (ad sr : Bytes) (p : AdvParams)
  | stop

/-- What a call does, if it returns at once: nil or an error; `none` if it waits for its context. -/
abbrev AppRes := Option (Option Device.Err)

/-- The program: the call, and what it does. -/
def appStep {σ : Type} (k : Ctl σ) (s : Device.St σ) : AppCall → Device.St σ × AppRes
  | .advertise r => match begin k s r with
    | (s', .returned e) => (s', some (some e))
    | (s', .waits) => (s', none)
  | .ended => (finish k s, some none)
  | .raw ad sr p => let x := advertiseRaw k s ad sr p; (x.1, some x.2)
  | .stop => let x := stopAdvertising k s; (x.1, some x.2)

/-- What it comes to on the air, in terms of the parameters the device has and what is on the air now. -/
def airStep (params : AdvParams) (a : Air) : AppCall → AdvParams × Air × AppRes
  | .advertise r => match packets r with
    | .ok (ad, sr) =>
      if a.on then (params, ⟨a.params, ad, sr, true⟩, some (some (.send 0x0C)))
      else (params, ⟨params, ad, sr, true⟩, none)
    | .err e => (params, a, some (some (.packet e)))
    | .panic => (params, a, none)
  | .ended => (params, { a with on := false }, some none)
  | .raw ad sr p =>
    if 31 < ad.length ∨ 31 < sr.length then (p, a, some (some .tooLong))
    else if a.on then (p, ⟨a.params, ad, sr, true⟩, some (some (.send 0x0C)))
    else (p, ⟨p, ad, sr, true⟩, some none)
  | .stop => (params, { a with on := false }, some none)

/-- Histories of both. -/
def appRun {σ : Type} (k : Ctl σ) (s : Device.St σ) : List AppCall → Device.St σ × List AppRes
  | [] => (s, [])
  | c :: cs => let r := appStep k s c; let t := appRun k r.1 cs; (t.1, r.2 :: t.2)

def airRun (params : AdvParams) (a : Air) : List AppCall → AdvParams × Air × List AppRes
  | [] => (params, a, [])
  | c :: cs => let r := airStep params a c; let t := airRun r.1 r.2.1 cs; (t.1, t.2.1, r.2.2 :: t.2.2)

namespace DevAux

open Ble.Advertise AdvertiseAux

theorem take_goCopy (dst src : Bytes) (hd : dst.length = 31) (hs : src.length ≤ 31) :
    (goCopy dst src).take (UInt8.ofNat src.length).toNat = src ∧ (goCopy dst src).length = 31 := by
  have h := goCopy_take dst src hd hs
  have : (UInt8.ofNat src.length).toNat = src.length := by
    rw [UInt8.toNat_ofNat']; omega
  rw [this]
  exact ⟨h.2, h.1⟩

/-- The packets fit. -/
theorem packets_le (r : Req) (p : Bytes × Bytes) (h : packets r = .ok p) : p.1.length ≤ 31 ∧ p.2.length ≤ 31 := by
  have hns : ∀ name us q, nameAndServices name us = .ok q → q.1.length ≤ 31 ∧ q.2.length ≤ 31 := by
    intro name us q hq
    obtain ⟨k, ad, sr, h1, -, -, -, h2, h3⟩ := nameAndServices_ok name us
    rw [h1] at hq
    cases hq
    exact ⟨newPacket_le_31 _ _ h2, newPacket_le_31 _ _ h3⟩
  cases r with
  | nameAndServices name us => exact hns _ _ _ h
  | adv name us md =>
    obtain ⟨k, ad, sr, h1, -, -, -, h2, h3⟩ := nameAndServices_ok name us
    have hq := hns _ _ _ h1
    simp only [packets, h1] at h
    cases h
    cases md with
    | none => exact hq
    | some d =>
      have e1 := apply_le ad (.manufacturerData 1337 d) hq.1
      have e2 := apply_le sr (.manufacturerData 1337 d) hq.2
      simp only [placeMfg]
      split
      · rename_i a ha
        rw [ha] at e1
        exact ⟨e1, hq.2⟩
      · split
        · rename_i b hb
          rw [hb] at e2
          exact ⟨hq.1, e2⟩
        · exact hq
  | field f =>
    simp only [packets] at h
    cases hf : newPacket [f] with
    | ok b =>
      rw [hf] at h
      cases h
      exact ⟨newPacket_le_31 _ _ hf, by simp⟩
    | err e => rw [hf] at h; cases h
    | panic => rw [hf] at h; cases h

/-- Setting the data. -/
theorem setAdv (s : Device.St Air) (ha : s.advData.length = 31) (hs : s.scanResp.length = 31) (ad sr : Bytes) (h1 : ad.length ≤ 31) (h2 : sr.length ≤ 31) :
    (Device.setAdvertisement airExec s ad sr).2 = none ∧
    (Device.setAdvertisement airExec s ad sr).1.ctl = { s.ctl with ad := ad, sr := sr } ∧
    (Device.setAdvertisement airExec s ad sr).1.params = s.params ∧
    (Device.setAdvertisement airExec s ad sr).1.advData.length = 31 ∧ (Device.setAdvertisement airExec s ad sr).1.scanResp.length = 31 := by
  have e1 := take_goCopy s.advData ad ha h1
  have e2 := take_goCopy s.scanResp sr hs h2
  rw [UInt8.toNat_ofNat'] at e1 e2
  simp only [Device.setAdvertisement]
  rw [if_neg (by omega)]
  simp [Device.send, airExec, e1, e2]

theorem adv (s : Device.St Air) :
    (Device.advertise airExec s).2 = (if s.ctl.on then some (.send 0x0C) else none) ∧
    (Device.advertise airExec s).1.ctl = (if s.ctl.on then s.ctl else { s.ctl with params := s.params, on := true }) ∧
    (Device.advertise airExec s).1.params = s.params ∧
    (Device.advertise airExec s).1.advData = s.advData ∧ (Device.advertise airExec s).1.scanResp = s.scanResp := by
  simp only [Device.advertise, Device.send, airExec]
  cases s.ctl.on <;> simp

end DevAux

open DevAux

/-- One call. -/
theorem app_step_refines (s : Device.St Air) (ha : s.advData.length = 31) (hs : s.scanResp.length = 31) (c : AppCall) :
    ((appStep airExec s c).1.params, (appStep airExec s c).1.ctl, (appStep airExec s c).2) = airStep s.params s.ctl c ∧
    (appStep airExec s c).1.advData.length = 31 ∧ (appStep airExec s c).1.scanResp.length = 31 := by
  cases c with
  | ended => simp [appStep, finish, stopAdvertising, Device.send, airExec, airStep, ha, hs]
  | stop => simp [appStep, stopAdvertising, Device.send, airExec, airStep, ha, hs]
  | raw ad sr p =>
    simp only [appStep, advertiseRaw, airStep]
    by_cases hl : 31 < ad.length ∨ 31 < sr.length
    · rw [if_pos hl]
      have : ∀ s' : Device.St Air, Device.setAdvertisement airExec s' ad sr = (s', some .tooLong) := by
        intro s'; simp only [Device.setAdvertisement]; rw [if_pos hl]
      simp [this, ha, hs]
    · rw [if_neg hl]
      obtain ⟨e1, e2, e3, e4, e5⟩ := setAdv { s with params := p } ha hs ad sr (by omega) (by omega)
      rw [e1]
      obtain ⟨f1, f2, f3, f4, f5⟩ := adv (Device.setAdvertisement airExec { s with params := p } ad sr).1
      simp only at *
      rw [f1, f2, f3, f4, f5, e2, e3]
      refine ⟨?_, e4, e5⟩
      cases hon : s.ctl.on <;> simp [hon]
  | advertise r =>
    simp only [appStep, begin, hciAdvertise, airStep]
    cases hp : packets r with
    | err e => simp [ha, hs]
    | panic => simp [ha, hs]
    | ok q =>
      have hq := packets_le r q hp
      obtain ⟨e1, e2, e3, e4, e5⟩ := setAdv s ha hs q.1 q.2 hq.1 hq.2
      simp only [publish, e1]
      obtain ⟨f1, f2, f3, f4, f5⟩ := adv (Device.setAdvertisement airExec s q.1 q.2).1
      rw [e2] at f1 f2
      rw [e3] at f2 f3
      cases hon : s.ctl.on
      · simp only [hon, Bool.false_eq_true, if_false] at f1 f2
        rw [f1]
        simp [f2, f3, f4, f5, e4, e5]
      · simp only [hon, if_true] at f1 f2
        rw [f1]
        simp [f2, f3, f4, f5, e4, e5, hon]

/-- For all histories. -/
theorem app_run_refines (cs : List AppCall) (s : Device.St Air) (ha : s.advData.length = 31) (hs : s.scanResp.length = 31) :
    ((appRun airExec s cs).1.params, (appRun airExec s cs).1.ctl, (appRun airExec s cs).2) = airRun s.params s.ctl cs := by
  induction cs generalizing s with
  | nil => rfl
  | cons c cs ih =>
    obtain ⟨h1, h2, h3⟩ := app_step_refines s ha hs c
    have := ih _ h2 h3
    have g1 : (airStep s.params s.ctl c).1 = (appStep airExec s c).1.params := by rw [← h1]
    have g2 : (airStep s.params s.ctl c).2.1 = (appStep airExec s c).1.ctl := by rw [← h1]
    have g3 : (airStep s.params s.ctl c).2.2 = (appStep airExec s c).2 := by rw [← h1]
    simp only [appRun, airRun, g1, g2, g3, ← this]

/-- The remembered state is that of the controller. -/
def Agrees (s : Device.St Air) : Prop := s.enable = if s.ctl.on then 1 else 0

/-- C106. The device remembers whether it advertises (this is what it asks the controller to go back to when a central has connected, C100), after every history. -/
theorem remembers_advertising (cs : List AppCall) (a : Air) (hoff : a.on = false) : Agrees (appRun airExec (fresh a) cs).1 := by
  have hsa : ∀ (s : Device.St Air) (ad sr : Bytes), Agrees s → Agrees (Device.setAdvertisement airExec s ad sr).1 := by
    intro s ad sr h
    simp only [Device.setAdvertisement]
    split
    · exact h
    · exact h
  have hadv : ∀ s : Device.St Air, Agrees s → Agrees (Device.advertise airExec s).1 := by
    intro s h
    have h : s.enable = if s.ctl.on then 1 else 0 := h
    simp only [Device.advertise, Device.send, airExec, Agrees]
    cases hon : s.ctl.on <;> simp [h, hon]
  have hstep : ∀ (s : Device.St Air) (c : AppCall), Agrees s → Agrees (appStep airExec s c).1 := by
    intro s c h
    cases c with
    | ended => rfl
    | stop => rfl
    | raw ad sr p =>
      simp only [appStep, advertiseRaw]
      have e4 := hsa { s with params := p } ad sr h
      have e3 := hadv _ e4
      cases h2 : (Device.setAdvertisement airExec { s with params := p } ad sr).2 with
      | some x => simp only; exact e4
      | none => simp only; exact e3
    | advertise r =>
      simp only [appStep, begin, hciAdvertise]
      cases hp : packets r with
      | err e => exact h
      | panic => exact h
      | ok q =>
        have e4 := hsa s q.1 q.2 h
        have e3 := hadv _ e4
        simp only [publish]
        cases hq : (Device.setAdvertisement airExec s q.1 q.2).2 with
        | some x => simp only; exact e4
        | none =>
          simp only
          cases (Device.advertise airExec (Device.setAdvertisement airExec s q.1 q.2).1).2 <;> exact e3
  have key : ∀ (cs : List AppCall) (s : Device.St Air), Agrees s → Agrees (appRun airExec s cs).1 := by
    intro cs
    induction cs with
    | nil => intro s h; exact h
    | cons c cs ih => intro s h; exact ih _ (hstep s c h)
  refine key cs _ ?_
  show (0 : UInt8) = if a.on then 1 else 0
  rw [hoff]; rfl

/-! ## C106: an advertising call advertises until its context ends -/

/-- **C106 (partial: from a state in which the device does not advertise, on a controller that keeps to the specification).** After any history that leaves the device not advertising, an advertising call either returns an error because the
data does not fit, and then nothing changes; or it waits for its context, and the controller broadcasts exactly that data, with the device's parameters; and when the context ends it does not broadcast any more. -/
theorem device_advertise_partial (cs : List AppCall) (a : Air) (r : Req) (hoff : (appRun airExec (fresh a) cs).1.ctl.on = false) :
    let s := (appRun airExec (fresh a) cs).1
    match packets r with
    | .ok (ad, sr) =>
      (appStep airExec s (.advertise r)).2 = none ∧ (appStep airExec s (.advertise r)).1.ctl = ⟨s.params, ad, sr, true⟩ ∧
      (appStep airExec (appStep airExec s (.advertise r)).1 .ended).1.ctl = ⟨s.params, ad, sr, false⟩
    | .err e => (appStep airExec s (.advertise r)).2 = some (some (.packet e)) ∧ (appStep airExec s (.advertise r)).1.ctl = s.ctl
    | .panic => False := by
  intro s
  have hinv : ∀ (cs : List AppCall) (s : Device.St Air), s.advData.length = 31 → s.scanResp.length = 31 →
      (appRun airExec s cs).1.advData.length = 31 ∧ (appRun airExec s cs).1.scanResp.length = 31 := by
    intro cs
    induction cs with
    | nil => intro s h1 h2; exact ⟨h1, h2⟩
    | cons c cs ih =>
      intro s h1 h2
      obtain ⟨-, h3, h4⟩ := app_step_refines s h1 h2 c
      exact ih _ h3 h4
  obtain ⟨l1, l2⟩ := hinv cs (fresh a) (by simp [fresh]) (by simp [fresh])
  obtain ⟨h1, l3, l4⟩ := app_step_refines s l1 l2 (.advertise r)
  have hs : s.ctl.on = false := hoff
  cases hp : packets r with
  | ok q =>
    simp only [airStep, hp, hs] at h1
    have g := (app_step_refines _ l3 l4 .ended).1
    simp only [Bool.false_eq_true, if_false, Prod.mk.injEq] at h1
    obtain ⟨g1, g2, g3⟩ := h1
    simp only [airStep, Prod.mk.injEq] at g
    refine ⟨g3, g2, ?_⟩
    rw [g.2.1, g2]
  | err e =>
    simp only [airStep, hp, Prod.mk.injEq] at h1
    exact ⟨h1.2.2, h1.2.1⟩
  | panic =>
    exfalso
    cases r with
    | nameAndServices name us =>
      obtain ⟨k, ad, sr, g, -⟩ := AdvertiseAux.nameAndServices_ok name us
      simp only [packets, g] at hp
      cases hp
    | adv name us md =>
      obtain ⟨k, ad, sr, g, -⟩ := AdvertiseAux.nameAndServices_ok name us
      simp only [packets, g] at hp
      cases hp
    | field f =>
      simp only [packets] at hp
      cases hf : newPacket [f] with
      | ok b => rw [hf] at hp; cases hp
      | err e => rw [hf] at hp; cases hp
      | panic =>
        simp only [newPacket, newPacketFrom] at hf
        split at hf <;> cases hf

/-- **C106: where it fails (1).** A device that advertises already: the call returns an error, since the controller does not take the parameters; but the data on the air has changed, and stays: nothing stops it when the context ends. -/
theorem advertise_while_advertising (s : Device.St Air) (ha : s.advData.length = 31) (hs : s.scanResp.length = 31) (hon : s.ctl.on = true) (r : Req) (ad sr : Bytes)
    (hp : packets r = .ok (ad, sr)) :
    (appStep airExec s (.advertise r)).2 = some (some (.send 0x0C)) ∧ (appStep airExec s (.advertise r)).1.ctl = ⟨s.ctl.params, ad, sr, true⟩ := by
  have h := (app_step_refines s ha hs (.advertise r)).1
  simp only [airStep, hp, hon, if_true, Prod.mk.injEq] at h
  exact ⟨h.2.2, h.2.1⟩

/-- **C106: where it fails (2).** If the controller, whatever it is, refuses the data, the call waits for its context all the same; it has sent nothing else, so nothing is advertised that was not before. -/
theorem refused_data_waits {σ : Type} (k : Ctl σ) (s : Device.St σ) (r : Req) (ad sr : Bytes) (hp : packets r = .ok (ad, sr)) (e : UInt8) (c : σ)
    (hk : ∀ len d, k s.ctl (.advData len d) = (c, some e)) :
    (appStep k s (.advertise r)).2 = none ∧ (appStep k s (.advertise r)).1.ctl = c := by
  have hl := packets_le r _ hp
  simp only at hl
  have : Device.setAdvertisement k s ad sr = ({ s with ctl := c, advData := Advertise.goCopy s.advData ad }, some (.send e)) := by
    simp only [Device.setAdvertisement]
    rw [if_neg (by omega)]
    simp [Device.send, hk]
  simp [appStep, begin, hciAdvertise, hp, publish, this]

/-! ## C107: `AdvertiseRaw` and the parameters -/

/-- The parameters of the last `AdvertiseRaw`. -/
def lastRaw (cs : List AppCall) : Option AdvParams := (cs.filterMap fun c => match c with | .raw _ _ p => some p | _ => none).getLast?

/-- **C107.** On any controller and after any history, the parameters that the next call will send are those of the last `AdvertiseRaw`, also if that failed, or else those the device was made with. -/
theorem params_of_last_raw {σ : Type} (k : Ctl σ) (s : Device.St σ) (cs : List AppCall) : (appRun k s cs).1.params = (lastRaw cs).getD s.params := by
  have hsend : ∀ (s : Device.St σ) c, (Device.send k s c).1.params = s.params := fun _ _ => rfl
  have hset : ∀ (s : Device.St σ) ad sr, (Device.setAdvertisement k s ad sr).1.params = s.params := by
    intro s ad sr
    simp only [Device.setAdvertisement]
    repeat' split
    all_goals rfl
  have hadv : ∀ (s : Device.St σ), (Device.advertise k s).1.params = s.params := by
    intro s
    simp only [Device.advertise]
    repeat' split
    all_goals rfl
  have hstep : ∀ (s : Device.St σ) c, (appStep k s c).1.params = match c with | .raw _ _ p => p | _ => s.params := by
    intro s c
    cases c with
    | ended => rfl
    | stop => rfl
    | raw ad sr p =>
      simp only [appStep, advertiseRaw]
      split
      · rw [hset]
      · rw [hadv, hset]
    | advertise r =>
      have : (begin k s r).1.params = s.params := by
        simp only [begin, hciAdvertise, publish]
        (repeat' split) <;> simp only [hadv, hset]
      simp only [appStep]
      split <;> rename_i h <;> rw [h] at this <;> exact this
  induction cs generalizing s with
  | nil => rfl
  | cons c cs ih =>
    rw [appRun, ih, hstep]
    cases c with
    | raw ad sr p =>
      simp only [lastRaw, List.filterMap_cons]
      cases hl : (cs.filterMap fun c => match c with | .raw _ _ p => some p | _ => none) <;> simp [List.getLast?_cons_cons, List.getLast?_cons]
    | _ => simp [lastRaw]

/-- **C107.** `AdvertiseRaw` on a device that does not advertise: it returns nil exactly if both packets have at most 31 bytes, and then exactly those packets, unchanged, are broadcast with exactly these parameters; otherwise nothing changes on the air. -/
theorem raw_exact (s : Device.St Air) (ha : s.advData.length = 31) (hs : s.scanResp.length = 31) (hoff : s.ctl.on = false) (ad sr : Bytes) (p : AdvParams) :
    ((appStep airExec s (.raw ad sr p)).2 = some none ↔ ad.length ≤ 31 ∧ sr.length ≤ 31) ∧
    (appStep airExec s (.raw ad sr p)).1.ctl = if ad.length ≤ 31 ∧ sr.length ≤ 31 then ⟨p, ad, sr, true⟩ else s.ctl := by
  have h := (app_step_refines s ha hs (.raw ad sr p)).1
  simp only [airStep, hoff] at h
  by_cases hl : 31 < ad.length ∨ 31 < sr.length
  · rw [if_pos hl] at h
    simp only [Prod.mk.injEq] at h
    rw [h.2.1, h.2.2, if_neg (by omega)]
    refine ⟨?_, rfl⟩
    simp
    omega
  · rw [if_neg hl] at h
    simp only [Bool.false_eq_true, if_false, Prod.mk.injEq] at h
    rw [h.2.1, h.2.2, if_pos (by omega)]
    exact ⟨by simp; omega, rfl⟩

/-- The fields of the command, in the order and with the types of the table (cmd_gen.go:711-720), and on the wire: Core specification, vol 4 part E, 7.8.5. -/
def advParamVals (p : AdvParams) : List HciCmd.Val :=
  [.u16 p.intervalMin, .u16 p.intervalMax, .u8 p.advType, .u8 p.ownAddrType, .u8 p.directAddrType, .bytes p.directAddr, .u8 p.channelMap, .u8 p.filterPolicy]

theorem adv_params_wire (p : AdvParams) (h : p.directAddr.length = 6) :
    (∃ c ∈ HciCmd.commands, c.opCode = 0x2006 ∧ c.len = 15 ∧ (advParamVals p).map (·.ty) = c.tys) ∧
    HciCmd.encodeAll (advParamVals p) =
      [UInt8.ofNat (p.intervalMin.toNat % 256), UInt8.ofNat (p.intervalMin.toNat / 256), UInt8.ofNat (p.intervalMax.toNat % 256), UInt8.ofNat (p.intervalMax.toNat / 256),
        p.advType, p.ownAddrType, p.directAddrType] ++ p.directAddr ++ [p.channelMap, p.filterPolicy] := by
  refine ⟨?_, ?_⟩
  · refine ⟨{ name := "LESetAdvertisingParameters", opCode := 0x08 <<< 10 ||| 0x0006, len := 15, fields := [("AdvertisingIntervalMin", .u16), ("AdvertisingIntervalMax", .u16), ("AdvertisingType", .u8), ("OwnAddressType", .u8), ("DirectAddressType", .u8), ("DirectAddress", .bytes 6), ("AdvertisingChannelMap", .u8), ("AdvertisingFilterPolicy", .u8)] }, ?_, rfl, rfl, ?_⟩
    · decide
    · simp [advParamVals, HciCmd.Command.tys, HciCmd.Val.ty, h]
  · have b8 : ∀ x : UInt16, x.toUInt8 = UInt8.ofNat (x.toNat % 256) := by
      intro x; apply UInt8.toNat_inj.1; simp
    have hi : ∀ x : UInt16, (x >>> 8).toUInt8 = UInt8.ofNat (x.toNat / 256) := by
      intro x; apply UInt8.toNat_inj.1
      have := x.toNat_lt
      simp [Nat.shiftRight_eq_div_pow]
    simp [HciCmd.encodeAll, advParamVals, HciCmd.Val.encode, ← b8, ← hi]

/-! ## Examples -/

/-- Manufacturer data that fits, advertised, stopped; then raw packets; then, with the parameters of the raw call, a name. -/
theorem example_device : ∃ s, appRun airExec (fresh ⟨defaultAdv, [], [], false⟩)
      [.advertise (.field (.manufacturerData 0x0102 [7])), .ended, .raw [2, 1, 4] [] { defaultAdv with advType := 3 }, .stop, .advertise (.nameAndServices [65] [])] =
      (s, [none, some none, some none, some none, none]) ∧ s.ctl.on = true ∧ s.ctl.params.advType = 3 ∧ s.ctl.ad = [2, 1, 6, 2, 9, 65] := by
  refine ⟨_, rfl, ?_⟩
  decide

/-- Two calls at a time: the second returns Command Disallowed, its data stays on the air. -/
theorem example_twice : (appRun airExec (fresh ⟨defaultAdv, [], [], false⟩)
      [.advertise (.field (.manufacturerData 1 [7])), .advertise (.nameAndServices [65] [])]).2 = [none, some (some (.send 0x0C))] ∧
    (appRun airExec (fresh ⟨defaultAdv, [], [], false⟩) [.advertise (.field (.manufacturerData 1 [7])), .advertise (.nameAndServices [65] [])]).1.ctl.ad = [2, 1, 6, 2, 9, 65] := by
  decide

end Ble.Props
