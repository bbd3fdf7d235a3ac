import Verif.Hci.Errs
import Verif.Props.HciPkt
import Verif.Props.AdvHist
set_option autoImplicit false

/-!
# C153, C154: what the application's error handler is told of received packets
-/

namespace Ble.Errs

open Ble.Evt Ble.AdvHist Ble.HciPkt Ble.Props Ble.Props.AdvAux

/-! ## The model agrees with the model of the handling of reports -/

theorem search_fst (ring : List (Option Adv)) (last : Nat) (sr addr : Bytes) (ha : addrOf sr = .ok addr) :
    ∀ (fuel : Nat) (idx : Int), (search ring last sr fuel idx).map Prod.fst = AdvHist.search ring last addr fuel idx := by
  intro fuel
  induction fuel with
  | zero => intro idx; rfl
  | succ n ih =>
    intro idx
    unfold search AdvHist.search
    simp only [ha]
    generalize (if idx = -1 then (ring.length : Int) - 1 else idx) = i
    split
    · rfl
    · split
      · rfl
      · split
        · rfl
        · cases ring[i.toNat]? with
          | none => rfl
          | some x =>
            cases x with
            | none => rfl
            | some a =>
              simp only
              cases addrOf a.e with
              | panic => rfl
              | err y => rfl
              | ok b =>
                simp only
                split
                · rfl
                · exact ih _

/-- Of an event with one report whose data can be read, the address can be read. -/
theorem sr_addr {e : Bytes} (hn : numReports e = .ok 1) {sr : Adv} (h : newAdv e = .ok sr) : ∃ addr, addrOf sr.e = .ok addr := by
  obtain ⟨d, p, hd, -, rfl⟩ := (newAdv_ok_iff ..).1 h
  obtain ⟨b, t, -, -, h2, -⟩ := addr_ok e d hn hd
  exact ⟨b, h2⟩

def fstGo {α β : Type} : Go Unit (α × β) → Go Unit α
  | .ok x => .ok x.1
  | .err x => .err x
  | .panic => .panic

theorem scanRsp_fst (s : Scan) (e : Bytes) (hn : numReports e = .ok 1) : fstGo (handleScanRsp s e) = AdvHist.handleScanRsp s e := by
  unfold handleScanRsp AdvHist.handleScanRsp
  cases h : newAdv e with
  | panic => rfl
  | err x => rfl
  | ok sr =>
    obtain ⟨addr, ha⟩ := sr_addr hn h
    have hs := search_fst s.ring s.last sr.e addr ha (s.ring.length + 1) ((s.last : Int) - 1)
    simp only [ha]
    rw [← hs]
    cases search s.ring s.last sr.e (s.ring.length + 1) ((s.last : Int) - 1) with
    | none => rfl
    | some r =>
      obtain ⟨f, t⟩ := r
      cases f with
      | none => rfl
      | panic => rfl
      | «at» idx =>
        simp only [Option.map_some]
        cases s.ring[idx]? with
        | none => rfl
        | some x =>
          cases x with
          | none => rfl
          | some a => simp only; cases setScanResponse a sr <;> rfl

/-- What happens to the history and what is handed to the application is as in the model of C33. -/
theorem adv_agrees (s : Scan) (e : Bytes) : fstGo (handleAdv s e) = AdvHist.handle s e := by
  unfold handleAdv AdvHist.handle
  cases hn : numReports e with
  | panic => rfl
  | err x => rfl
  | ok nr =>
    simp only
    split
    · rfl
    · rename_i h1
      have : nr = 1 := by simpa using h1
      subst this
      cases eventType e 0 with
      | panic => rfl
      | err x => rfl
      | ok et =>
        simp only
        split
        · cases newAdv e with
          | panic => rfl
          | err x => rfl
          | ok a => simp only; cases remember s a <;> rfl
        · split
          · exact scanRsp_fst s e hn
          · split
            · cases newAdv e <;> rfl
            · rfl

/-! ## Specification -/

/-- The event has a report of this type with this data, and no other. -/
def OneReport (e : Bytes) (t : UInt8) : Prop := numReports e = .ok 1 ∧ eventType e 0 = .ok t

/-- The data of the report can be read and parsed. -/
def Parses (e : Bytes) : Prop := ∃ d p, data e 0 = .ok d ∧ newRawPacket [d] = .ok p

/-- What the error handler is told of an advertising event after the events `es`. -/
inductive Tells (es : List Bytes) (e : Bytes) : List Told → Prop where
  /-- the number of reports cannot be read -/
  | short (x : Unit) (h : numReports e = .err x) : Tells es e [.numReports]
  /-- it is not one -/
  | count (n : Nat) (h : numReports e = .ok n) (hn : n ≠ 1) : Tells es e [.repCount]
  /-- there is no type -/
  | noType (x : Unit) (h : numReports e = .ok 1) (ht : eventType e 0 = .err x) : Tells es e [.evType]
  /-- the type is unknown -/
  | type (t : UInt8) (h : OneReport e t) (ht : 4 < t.toNat) : Tells es e [.badType]
  /-- the data cannot be read or parsed -/
  | data (t : UInt8) (h : OneReport e t) (ht : t.toNat ≤ 4) (hp : ¬ Parses e) : Tells es e [.newAdv]
  /-- a scan response without an advertisement -/
  | orphan (addr : Bytes) (h : OneReport e 4) (hp : Parses e) (ha : address e 0 = .ok addr) (hx : NoneWith es addr) : Tells es e [.noCause]
  /-- a scan response that cannot be parsed with its advertisement -/
  | join (addr x dx d : Bytes) (y : AdErr) (h : OneReport e 4) (hp : Parses e) (ha : address e 0 = .ok addr) (hx : NewestWith es addr x) (hdx : Evt.data x 0 = .ok dx) (hd : Evt.data e 0 = .ok d)
      (hj : newRawPacket [dx, d] = .err y) : Tells es e [.setScanResp, .noCause]

namespace Aux

theorem searchT_spec {s : Scan} {log : List Adv} (h : Inv s log) (sr addr : Bytes) (ha : addrOf sr = .ok addr) :
    ∀ (fuel : Nat) (idx : Int) (f : Found) (t : List Told), search s.ring s.last sr fuel idx = some (f, t) → t = [] := by
  intro fuel
  have hring : ∀ (n : Nat) (a : Adv), s.ring[n]? = some (some a) → Remembered a.e := by
    intro n a hna
    have hlen := h.len
    have hlast : s.last < 128 := by rw [h.last]; exact Nat.mod_lt _ (by omega)
    have hlt : n < 128 := by rw [← hlen]; exact (List.getElem?_eq_some_iff.1 hna).1
    have hk : ∃ k, k < 128 ∧ pos s.last k = n := by
      refine ⟨(s.last + 127 - n) % 128, Nat.mod_lt _ (by omega), ?_⟩
      unfold pos
      omega
    obtain ⟨k, hk, rfl⟩ := hk
    rw [h.ring k hk] at hna
    injection hna with hna
    exact h.good a (List.mem_of_getElem? hna)
  induction fuel with
  | zero => intro idx f t hs; cases hs
  | succ n ih =>
    intro idx f t hs
    unfold search at hs
    simp only [ha] at hs
    generalize (if idx = -1 then (s.ring.length : Int) - 1 else idx) = i at hs
    split at hs
    · cases hs; rfl
    · split at hs
      · cases hs; rfl
      · split at hs
        · cases hs; rfl
        · split at hs
          · cases hs; rfl
          · cases hs; rfl
          · rename_i a hra
            obtain ⟨b, -, hb⟩ := remembered_addr (hring _ a hra)
            simp only [hb] at hs
            split at hs
            · cases hs; rfl
            · exact ih _ f t hs

end Aux

/-- **C154, advertising events.** After every history of events since `Scan`: if the event is handed to the application the error handler is told nothing, and otherwise it is told what `Tells` says, which is never nothing. -/
theorem adv_told_exact (es : List Bytes) (s : Scan) (as : List Adv) (h : AdvHist.run started es = .ok (s, as)) (e : Bytes) (o : Out) (t : List Told) (ho : handleAdv s e = .ok (o, t)) :
    (∀ a, o.sent = some a → t = []) ∧ (o.sent = none → Tells es e t) := by
  obtain ⟨⟨log, hinv, hlog⟩, -⟩ := run_inv es started [] Inv_started s as h
  simp only [List.map_nil, List.append_nil] at hlog
  have hpar : ∀ x, newAdv e = .err x → ¬ Parses e := fun x hx => newAdv_err e x hx
  unfold handleAdv at ho
  cases hn : numReports e with
  | panic => simp [hn] at ho
  | err x =>
    simp only [hn, Go.ok.injEq, Prod.mk.injEq] at ho
    obtain ⟨rfl, rfl⟩ := ho
    exact ⟨by simp, fun _ => .short x hn⟩
  | ok nr =>
    simp only [hn] at ho
    split at ho
    · rename_i h1
      simp only [Go.ok.injEq, Prod.mk.injEq] at ho
      obtain ⟨rfl, rfl⟩ := ho
      exact ⟨by simp, fun _ => .count nr hn h1⟩
    · rename_i h1
      have : nr = 1 := by simpa using h1
      subst this
      cases het : eventType e 0 with
      | panic => simp [het] at ho
      | err x =>
        simp only [het, Go.ok.injEq, Prod.mk.injEq] at ho
        obtain ⟨rfl, rfl⟩ := ho
        exact ⟨by simp, fun _ => .noType x hn het⟩
      | ok et =>
        simp only [het] at ho
        split at ho
        · rename_i ht
          have hle : et.toNat ≤ 4 := by rcases ht with rfl | rfl <;> decide
          cases hna : newAdv e with
          | panic => simp [hna] at ho
          | err x =>
            simp only [hna, Go.ok.injEq, Prod.mk.injEq] at ho
            obtain ⟨rfl, rfl⟩ := ho
            exact ⟨by simp, fun _ => .data et ⟨hn, het⟩ hle (hpar x hna)⟩
          | ok a =>
            simp only [hna] at ho
            split at ho
            · simp only [Go.ok.injEq, Prod.mk.injEq] at ho
              obtain ⟨rfl, rfl⟩ := ho
              exact ⟨fun _ _ => rfl, by simp⟩
            · cases ho
        · split at ho
          · rename_i ht
            subst ht
            have hle : (4 : UInt8).toNat ≤ 4 := by decide
            unfold handleScanRsp at ho
            cases hna : newAdv e with
            | panic => simp [hna] at ho
            | err x =>
              simp only [hna, Go.ok.injEq, Prod.mk.injEq] at ho
              obtain ⟨rfl, rfl⟩ := ho
              exact ⟨by simp, fun _ => .data 4 ⟨hn, het⟩ hle (hpar x hna)⟩
            | ok sr =>
              obtain ⟨addr, hsr⟩ := sr_addr hn hna
              obtain ⟨d, p, hd, hp, rfl⟩ := (newAdv_ok_iff ..).1 hna
              obtain ⟨b, tt, hb, -, hb2, -⟩ := addr_ok e d hn hd
              have : addr = b := by simp only at hsr; rw [hsr] at hb2; cases hb2; rfl
              subst this
              have hparse : Parses e := ⟨d, p, hd, hp⟩
              have hlast : s.last < 128 := by rw [hinv.last]; exact Nat.mod_lt _ (by omega)
              simp only [hna] at ho
              cases hse : search s.ring s.last e (s.ring.length + 1) ((s.last : Int) - 1) with
              | none => simp [hse] at ho
              | some r =>
                obtain ⟨f, tl⟩ := r
                have htl := Aux.searchT_spec hinv e addr hsr _ _ f tl hse
                subst htl
                have hfst := search_fst s.ring s.last e addr hsr (s.ring.length + 1) ((s.last : Int) - 1)
                rw [hse] at hfst
                simp only [Option.map_some] at hfst
                simp only [hse] at ho
                rcases search_spec hinv addr 127 0 (s.ring.length + 1) (by omega) (by rw [hinv.len]; omega) with ⟨k, a, -, h2, h3, h4, h5, h6⟩ | ⟨h1, h2⟩
                · rw [← idxAt_zero _ hlast, ← hfst] at h6
                  simp only [Option.some.injEq] at h6
                  subst h6
                  simp only [hinv.ring k (by omega), h3] at ho
                  have hnew : NewestWith es addr a.e := by
                    refine ⟨k, h2, by rw [← hlog, List.getElem?_map, h3]; rfl, h4, ?_⟩
                    intro j y hj hy
                    rw [← hlog, List.getElem?_map] at hy
                    cases hl : log[j]? with
                    | none => rw [hl] at hy; cases hy
                    | some b =>
                      rw [hl] at hy
                      simp only [Option.map_some, Option.some.injEq] at hy
                      subst hy
                      exact h5 j b (Nat.zero_le _) hj hl
                  cases hset : setScanResponse a ⟨e, none, p⟩ with
                  | panic => simp [hset] at ho
                  | ok a' =>
                    simp only [hset, Go.ok.injEq, Prod.mk.injEq] at ho
                    obtain ⟨rfl, rfl⟩ := ho
                    exact ⟨fun _ _ => rfl, by simp⟩
                  | err x =>
                    simp only [hset, Go.ok.injEq, Prod.mk.injEq, List.nil_append] at ho
                    obtain ⟨rfl, rfl⟩ := ho
                    refine ⟨by simp, fun _ => ?_⟩
                    obtain ⟨-, -, da, pa, hda, -⟩ := hinv.good a (List.mem_of_getElem? h3)
                    unfold setScanResponse at hset
                    simp only [hda, hd] at hset
                    cases hj : newRawPacket [da, d] with
                    | ok q => simp [hj] at hset
                    | panic => simp [hj] at hset
                    | err y => exact .join addr a.e da d y ⟨hn, het⟩ hparse hb hnew hda hd hj
                · rw [← idxAt_zero _ hlast, ← hfst] at h2
                  simp only [Option.some.injEq] at h2
                  subst h2
                  simp only [Go.ok.injEq, Prod.mk.injEq, List.nil_append] at ho
                  obtain ⟨rfl, rfl⟩ := ho
                  refine ⟨by simp, fun _ => .orphan addr ⟨hn, het⟩ hparse hb ?_⟩
                  intro k x hk hx
                  rw [← hlog, List.getElem?_map] at hx
                  cases hl : log[k]? with
                  | none => rw [hl] at hx; cases hx
                  | some b =>
                    rw [hl] at hx
                    simp only [Option.map_some, Option.some.injEq] at hx
                    subst hx
                    exact h1 k b (Nat.zero_le _) hk hl
          · split at ho
            · rename_i h02 h4 ht
              have hle : et.toNat ≤ 4 := by rcases ht with rfl | rfl <;> decide
              cases hna : newAdv e with
              | panic => simp [hna] at ho
              | err x =>
                simp only [hna, Go.ok.injEq, Prod.mk.injEq] at ho
                obtain ⟨rfl, rfl⟩ := ho
                exact ⟨by simp, fun _ => .data et ⟨hn, het⟩ hle (hpar x hna)⟩
              | ok a =>
                simp only [hna, Go.ok.injEq, Prod.mk.injEq] at ho
                obtain ⟨rfl, rfl⟩ := ho
                exact ⟨fun _ _ => rfl, by simp⟩
            · rename_i h02 h4 h13
              simp only [Go.ok.injEq, Prod.mk.injEq] at ho
              obtain ⟨rfl, rfl⟩ := ho
              refine ⟨by simp, fun _ => .type et ⟨hn, het⟩ ?_⟩
              simp only [not_or] at h02 h13
              have hne : ∀ v : UInt8, et ≠ v → et.toNat ≠ v.toNat := fun v h1 h2 => h1 (UInt8.toNat_inj.1 h2)
              have := hne 0 h02.1; have := hne 2 h02.2; have := hne 4 h4; have := hne 1 h13.1; have := hne 3 h13.2
              simp at *
              omega

/-- `Tells` determines what is told: its cases exclude each other. -/
theorem tells_unique {es : List Bytes} {e : Bytes} {t t' : List Told} (h : Tells es e t) (h' : Tells es e t') : t = t' := by
  have hex : ∀ addr x, NoneWith es addr → ¬ NewestWith es addr x := fun addr x hn ⟨k, hk, hx, ha, _⟩ => hn k x hk hx ha
  cases h with
  | short x h => cases h' <;> simp_all [OneReport]
  | count n h hn => cases h' <;> simp_all [OneReport]
  | noType x h ht => cases h' <;> simp_all [OneReport]
  | type t h ht =>
    cases h' with
    | type => rfl
    | data t' h' ht' => obtain ⟨-, h1⟩ := h; rw [h'.2] at h1; cases h1; omega
    | orphan _ h' => obtain ⟨-, h1⟩ := h; rw [h'.2] at h1; cases h1; simp at ht
    | join _ _ _ _ _ h' => obtain ⟨-, h1⟩ := h; rw [h'.2] at h1; cases h1; simp at ht
    | _ => simp_all [OneReport]
  | data t h ht hp =>
    cases h' with
    | data => rfl
    | type t' h' ht' => obtain ⟨-, h1⟩ := h; rw [h'.2] at h1; cases h1; omega
    | orphan _ _ hp' => exact absurd hp' hp
    | join _ _ _ _ _ _ hp' => exact absurd hp' hp
    | _ => simp_all [OneReport]
  | orphan addr h hp ha hx =>
    cases h' with
    | orphan => rfl
    | data _ _ _ hp' => exact absurd hp hp'
    | type t' h' ht' => obtain ⟨-, h1⟩ := h; rw [h'.2] at h1; cases h1; simp at ht'
    | join addr' x _ _ _ _ _ ha' hx' => rw [ha] at ha'; cases ha'; exact absurd hx' (hex _ _ hx)
    | _ => simp_all [OneReport]
  | join addr x dx d y h hp ha hx =>
    cases h' with
    | join => rfl
    | data _ _ _ hp' => exact absurd hp hp'
    | type t' h' ht' => obtain ⟨-, h1⟩ := h; rw [h'.2] at h1; cases h1; simp at ht'
    | orphan addr' _ _ ha' hx' => rw [ha] at ha'; cases ha'; exact absurd hx (hex _ _ hx')
    | _ => simp_all [OneReport]

/-- **C153.** The application gets the advertisement or the error handler is told something, never both, never neither. -/
theorem adv_told_iff (es : List Bytes) (s : Scan) (as : List Adv) (h : AdvHist.run started es = .ok (s, as)) (e : Bytes) (o : Out) (t : List Told) (ho : handleAdv s e = .ok (o, t)) :
    o.sent = none ↔ t ≠ [] := by
  obtain ⟨h1, h2⟩ := adv_told_exact es s as h e o t ho
  constructor
  · intro hn
    have := h2 hn
    cases this <;> simp
  · intro hne
    cases hs : o.sent with
    | none => rfl
    | some a => exact absurd (h1 a hs) hne

/-- **C153, the part that holds.** Of an advertising event with a handler set that is not a scan response, after every history since `Scan`: the handler gets the advertisement, or the error handler is told once, of a cause that names what failed. Missing, and false of the code: the same of scan
responses (`orphan_error_says_nothing`, `unjoinable_response_told_twice`), and that the error handler is called for failures only (`vendor_event_tells_nil`) and for all failures (`failures_not_told`). -/
theorem errors_told_partial (es : List Bytes) (s : Scan) (as : List Adv) (h : AdvHist.run started es = .ok (s, as)) (e : Bytes) (o : Out) (t : List Told) (ho : handleAdv s e = .ok (o, t))
    (hsr : eventType e 0 ≠ .ok 4) : (∃ a, o.sent = some a ∧ t = []) ∨ (o.sent = none ∧ ∃ c, t = [c] ∧ c ≠ .noCause ∧ c ≠ .nilError) := by
  obtain ⟨h1, h2⟩ := adv_told_exact es s as h e o t ho
  cases hs : o.sent with
  | some a => exact .inl ⟨a, rfl, h1 a hs⟩
  | none =>
    right
    refine ⟨rfl, ?_⟩
    cases h2 hs with
    | orphan _ h => exact absurd h.2 hsr
    | join _ _ _ _ _ h => exact absurd h.2 hsr
    | _ => exact ⟨_, rfl, by simp, by simp⟩

/-- FALSE of the code that an error says what failed: of a scan response without its advertisement the error handler gets the text "<nil>" and the bytes. -/
theorem orphan_error_says_nothing (es : List Bytes) (s : Scan) (as : List Adv) (h : AdvHist.run started es = .ok (s, as)) (e : Bytes) (o : Out) (t : List Told) (ho : handleAdv s e = .ok (o, t)) (he : OneReport e 4)
    (hp : Parses e) (addr : Bytes) (ha : address e 0 = .ok addr) (hx : NoneWith es addr) : o.sent = none ∧ t = [.noCause] := by
  obtain ⟨h1, h2⟩ := adv_told_exact es s as h e o t ho
  obtain ⟨d, p, hd, hpp⟩ := hp
  obtain ⟨⟨log, hinv, hlog⟩, -⟩ := run_inv es started [] Inv_started s as h
  simp only [List.map_nil, List.append_nil] at hlog
  have hsent : o.sent = none := by
    have hag := adv_agrees s e
    rw [ho] at hag
    have hh : AdvHist.handle s e = AdvHist.handleScanRsp s e := by
      unfold AdvHist.handle
      simp [he.1, he.2]
    rw [hh] at hag
    rcases scanRsp_spec hinv e d p addr he.1 hd hpp ha with ⟨k, a, hk, hka, haa, -, -⟩ | ⟨-, hr⟩
    · exact absurd haa (hx k a.e hk (by rw [← hlog, List.getElem?_map, hka]; rfl))
    · rw [hr] at hag
      simp only [fstGo, Go.ok.injEq] at hag
      rw [hag]
  exact ⟨hsent, tells_unique (h2 hsent) (.orphan addr he ⟨d, p, hd, hpp⟩ ha hx)⟩

/-- FALSE of the code that a failure is told once: of a scan response that cannot be parsed with its advertisement the error handler is told twice, the second time without cause. -/
theorem unjoinable_response_told_twice (es : List Bytes) (s : Scan) (as : List Adv) (h : AdvHist.run started es = .ok (s, as)) (e : Bytes) (o : Out) (t : List Told) (ho : handleAdv s e = .ok (o, t)) (hs : o.sent = none) (he : OneReport e 4)
    (hp : Parses e) (addr x dx d : Bytes) (y : AdErr) (ha : address e 0 = .ok addr) (hx : NewestWith es addr x) (hdx : Evt.data x 0 = .ok dx) (hd : Evt.data e 0 = .ok d) (hj : newRawPacket [dx, d] = .err y) :
    t = [.setScanResp, .noCause] :=
  tells_unique ((adv_told_exact es s as h e o t ho).2 hs) (.join addr x dx d y he hp ha hx hdx hd hj)

/-! ## All packets -/

/-- FALSE of the code that the error handler is called for failures only: every vendor event, also the answer to a vendor command, calls it with a nil error. -/
theorem vendor_event_tells_nil (env : Env) (p : Bytes) (hp : p.length < 256) : pktTold env (0x04 :: 0xff :: UInt8.ofNat p.length :: p) = [.nilError] ∧
    handlePkt env (0x04 :: 0xff :: UInt8.ofNat p.length :: p) = .ok ([.vendor], env.scan) := by
  have : (UInt8.ofNat p.length).toNat = p.length := by simp; omega
  simp [pktTold, evtTold, handlePkt, handleEvt, this]

/-- **C154, packets.** The error handler is told something of a packet exactly if it is an event of the announced length that is a vendor event (a nil error), a Command Status of less than four octets, or, with an advertising handler set, an advertising event of which
`handleAdv` tells. -/
theorem pkt_told_iff (env : Env) (b : Bytes) (t : List Told) (ht : t ≠ []) :
    pktTold env b = t ↔ ∃ code p, p.length < 256 ∧ b = 0x04 :: code :: UInt8.ofNat p.length :: p ∧
      ((code = 0xff ∧ t = [.nilError]) ∨ (code = 0x0f ∧ p.length < 4 ∧ t = [.badStatus]) ∨ (code = 0x3e ∧ p.head? = some 0x02 ∧ env.handler = true ∧ ∃ o, handleAdv env.scan p = .ok (o, t))) := by
  constructor
  · intro h
    match b, h with
    | [], h => exact absurd h.symm ht
    | x :: b, h =>
      simp only [pktTold] at h
      split at h
      · rename_i hx
        subst hx
        match b, h with
        | [], h => exact absurd h.symm ht
        | [_], h => exact absurd h.symm ht
        | code :: plen :: p, h =>
          simp only [evtTold] at h
          split at h
          · exact absurd h.symm ht
          · rename_i hlen
            have hlen : plen.toNat = p.length := by simpa using hlen
            have hlt : p.length < 256 := by rw [← hlen]; exact plen.toNat_lt
            have hpl : plen = UInt8.ofNat p.length := by rw [← hlen]; simp
            refine ⟨code, p, hlt, by rw [hpl], ?_⟩
            split at h
            · rename_i hc
              split at h
              · exact .inr (.inl ⟨hc, by assumption, h.symm⟩)
              · exact absurd h.symm ht
            · split at h
              · rename_i hc
                match p, h with
                | [], h => exact absurd h.symm ht
                | sub :: q, h =>
                  simp only at h
                  split at h
                  · rename_i hs
                    split at h
                    · rename_i hh
                      subst hs
                      cases hha : handleAdv env.scan (0x02 :: q) with
                      | panic => rw [hha] at h; exact absurd h.symm ht
                      | err y => rw [hha] at h; exact absurd h.symm ht
                      | ok r =>
                        obtain ⟨o, t'⟩ := r
                        rw [hha] at h
                        simp only at h
                        subst h
                        exact .inr (.inr ⟨hc, rfl, hh, o, rfl⟩)
                    · exact absurd h.symm ht
                  · exact absurd h.symm ht
              · split at h
                · rename_i hc
                  exact .inl ⟨hc, h.symm⟩
                · exact absurd h.symm ht
      · exact absurd h.symm ht
  · rintro ⟨code, p, hlt, rfl, hcase⟩
    have hl : (UInt8.ofNat p.length).toNat = p.length := by simp; omega
    rcases hcase with ⟨rfl, rfl⟩ | ⟨rfl, h4, rfl⟩ | ⟨rfl, hh, hen, o, ho⟩
    · simp [pktTold, evtTold, hl]
    · simp [pktTold, evtTold, hl, h4]
    · match p, hh with
      | sub :: q, hh =>
        simp only [List.head?_cons, Option.some.injEq] at hh
        subst hh
        simp only [pktTold, evtTold, if_true, hl, ne_eq, not_true_eq_false, if_false, hen, ho]
        simp

/-- FALSE of the code that it is called for all failures: it is told nothing of any event that is not a vendor event, Command Status or LE Meta event, however short or unknown it is; nothing of an LE Meta event that is not an advertising report; and nothing of a packet that is not an event. In all these
cases a failure is only logged. -/
theorem failures_not_told (env : Env) (b : Bytes) (h : ∀ code p, b = 0x04 :: code :: p → code ≠ 0xff ∧ code ≠ 0x0f ∧ (code = 0x3e → ∀ n q, p ≠ n :: 0x02 :: q)) : pktTold env b = [] := by
  apply Classical.byContradiction
  intro hne
  obtain ⟨code, p, -, hb, hc⟩ := (pkt_told_iff env b _ hne).1 rfl
  obtain ⟨h1, h2, h3⟩ := h code _ hb
  rcases hc with ⟨hc, -⟩ | ⟨hc, -⟩ | ⟨hc, hh, -⟩
  · exact h1 hc
  · exact h2 hc
  · match p, hh with
    | x :: q, hh =>
      simp only [List.head?_cons, Option.some.injEq] at hh
      subst hh
      exact h3 hc _ _ rfl

/-! ## Cases that meet the hypotheses -/

set_option maxRecDepth 100000 in
/-- An unsupported event (0x10, Hardware Error) is refused and not told. -/
example (env : Env) : handlePkt env [0x04, 0x10, 0x01, 0x42] = .err () ∧ pktTold env [0x04, 0x10, 0x01, 0x42] = [] := ⟨rfl, rfl⟩

set_option maxRecDepth 100000 in
/-- A scan response as the first event of a scan. -/
theorem errs_example : AdvHist.run started [] = .ok (started, []) ∧ OneReport [0x02, 1, 4, 0, 1, 2, 3, 4, 5, 6, 0, 0xC0] 4 ∧ Parses [0x02, 1, 4, 0, 1, 2, 3, 4, 5, 6, 0, 0xC0] ∧
    address [0x02, 1, 4, 0, 1, 2, 3, 4, 5, 6, 0, 0xC0] 0 = .ok [1, 2, 3, 4, 5, 6] ∧ NoneWith [] [1, 2, 3, 4, 5, 6] ∧ ∃ o, handleAdv started [0x02, 1, 4, 0, 1, 2, 3, 4, 5, 6, 0, 0xC0] = .ok (o, [.noCause]) := by
  refine ⟨rfl, ⟨rfl, rfl⟩, ⟨[], _, rfl, rfl⟩, rfl, ?_, _, rfl⟩
  intro k x hk hx
  simp [rememberedEvents] at hx

end Ble.Errs
