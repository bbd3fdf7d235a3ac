import Verif.Att.CccdLemmas
import Verif.Props.AttWrite
set_option autoImplicit false

/-!
# Client Characteristic Configuration (C20)
-/

namespace Ble.Props

open Ble.Att Ble.Spec

variable {α : Type}

/-! ## One write to a CCCD -/

theorem notifyPart_some {c : CharRef} {o n : Bool} {st st1 : CState α} (h : cccdNotifyPart c o n st = .ok (some st1)) :
    (n = true → o = true ∨ c.prop &&& 0x10 ≠ 0) ∧ st1.cccs = st.cccs ∧ st1.ind = st.ind ∧
    ((n = true ∧ o = false ∧ st1 = { st with nn := upd st.nn c.handle (some st.ntfs.length), ntfs := st.ntfs ++ [⟨c.handle, false, true⟩] }) ∨
     (n = false ∧ o = true ∧ ∃ k, st.nn c.handle = some k ∧ st1 = { st with ntfs := closeNtf st.ntfs k }) ∨
     (n = o ∧ st1 = st)) := by
  unfold cccdNotifyPart at h
  cases n <;> cases o
  · cases h; simp
  · unfold closeAt at h
    cases hk : st.nn c.handle with
    | none => simp [hk] at h
    | some k =>
      rw [hk] at h
      cases h
      simp
  · simp only [Bool.not_false, Bool.and_self, if_true] at h
    unfold cccdStartNotify at h
    split at h
    · cases h
    split at h
    · cases h; rename_i hp _; simp [hp]
    · cases h
  · cases h; simp

theorem indicatePart_some {c : CharRef} {o n : Bool} {st st1 : CState α} (h : cccdIndicatePart c o n st = .ok (some st1)) :
    (n = true → o = true ∨ c.prop &&& 0x20 ≠ 0) ∧ st1.cccs = st.cccs ∧ st1.nn = st.nn ∧
    ((n = true ∧ o = false ∧ st1 = { st with ind := upd st.ind c.handle (some st.ntfs.length), ntfs := st.ntfs ++ [⟨c.handle, true, true⟩] }) ∨
     (n = false ∧ o = true ∧ ∃ k, st.ind c.handle = some k ∧ st1 = { st with ntfs := closeNtf st.ntfs k }) ∨
     (n = o ∧ st1 = st)) := by
  unfold cccdIndicatePart at h
  cases n <;> cases o
  · cases h; simp
  · unfold closeAt at h
    cases hk : st.ind c.handle with
    | none => simp [hk] at h
    | some k =>
      rw [hk] at h
      cases h
      simp
  · simp only [Bool.not_false, Bool.and_self, if_true] at h
    unfold cccdStartIndicate at h
    split at h
    · cases h
    split at h
    · cases h; rename_i hp _; simp [hp]
    · cases h
  · cases h; simp

theorem notifyPart_none {c : CharRef} {o n : Bool} {st : CState α} (h : cccdNotifyPart c o n st = .ok none) :
    n = true ∧ o = false ∧ c.prop &&& 0x10 = 0 := by
  unfold cccdNotifyPart closeAt cccdStartNotify at h
  cases n <;> cases o
  · cases h
  · cases hk : st.nn c.handle <;> simp [hk] at h
  · simp only [Bool.not_false, Bool.and_self, if_true] at h
    split at h
    · rename_i hp; exact ⟨rfl, rfl, hp⟩
    · split at h <;> cases h
  · cases h

theorem indicatePart_none {c : CharRef} {o n : Bool} {st : CState α} (h : cccdIndicatePart c o n st = .ok none) :
    n = true ∧ o = false ∧ c.prop &&& 0x20 = 0 := by
  unfold cccdIndicatePart closeAt cccdStartIndicate at h
  cases n <;> cases o
  · cases h
  · cases hk : st.ind c.handle <;> simp [hk] at h
  · simp only [Bool.not_false, Bool.and_self, if_true] at h
    split at h
    · rename_i hp; exact ⟨rfl, rfl, hp⟩
    · split at h <;> cases h
  · cases h

theorem cccdWrite_inv {c : CharRef} {st st' : CState α} {d : Bytes} {e : UInt8} (h : cccdWrite c st d = .ok (st', e)) :
    (e = 0x0E ∧ ¬ cccAccepted c (st.cccs c.handle) (cccValue d) ∧
      (st' = st ∨ (c.prop &&& 0x20 = 0 ∧ cccValue d / 2 % 2 = 1 ∧ st'.cccs = st.cccs ∧ st'.ind = st.ind ∧
        cccdNotifyPart c (st.cccs c.handle % 2 = 1) (cccValue d % 2 = 1) st = .ok (some st')))) ∨
    (e = 0 ∧ cccAccepted c (st.cccs c.handle) (cccValue d) ∧ ∃ st1 st2,
      cccdNotifyPart c (st.cccs c.handle % 2 = 1) (cccValue d % 2 = 1) st = .ok (some st1) ∧
      cccdIndicatePart c (st.cccs c.handle / 2 % 2 = 1) (cccValue d / 2 % 2 = 1) st1 = .ok (some st2) ∧
      st' = { st2 with cccs := upd st2.cccs c.handle (cccValue d) } ∧ st2.cccs = st.cccs) := by
  unfold cccdWrite at h
  obtain ⟨v, hv, h⟩ := Go.bind_eq_ok.1 h
  have hv : v = cccValue d := by
    match d, hv with
    | [], hv => cases hv
    | [_], hv => cases hv
    | _ :: _ :: _, hv => cases hv; rfl
  subst hv
  obtain ⟨r1, h1, h⟩ := Go.bind_eq_ok.1 h
  cases r1 with
  | none =>
    cases h
    obtain ⟨a, b, p⟩ := notifyPart_none h1
    refine Or.inl ⟨rfl, ?_, Or.inl rfl⟩
    rintro ⟨hacc, -⟩
    simp only [decide_eq_true_eq, decide_eq_false_iff_not] at a b
    rcases hacc a with x | x
    · exact b x
    · exact x p
  | some st1 =>
    obtain ⟨r2, h2, h⟩ := Go.bind_eq_ok.1 h
    have n1 := notifyPart_some h1
    cases r2 with
    | none =>
      cases h
      obtain ⟨a, b, p⟩ := indicatePart_none h2
      simp only [decide_eq_true_eq, decide_eq_false_iff_not] at a b
      refine Or.inl ⟨rfl, ?_, Or.inr ⟨p, a, n1.2.1, n1.2.2.1, h1⟩⟩
      rintro ⟨-, hacc⟩
      rcases hacc a with x | x
      · exact b x
      · exact x p
    | some st2 =>
      cases h
      have n2 := indicatePart_some h2
      refine Or.inr ⟨rfl, ⟨?_, ?_⟩, st1, st2, h1, h2, rfl, n2.2.1.trans n1.2.1⟩
      · simpa using n1.1
      · simpa using n2.1

/-- **C20.** A write to a CCCD is accepted exactly when every bit it newly sets is allowed by the characteristic's properties; the value
changes to what was written if it is accepted and not at all if it is refused. Values of other characteristics do not change. -/
theorem cccd_write_outcome (c : CharRef) (st st' : CState α) (d : Bytes) (e : UInt8) (h : cccdWrite c st d = .ok (st', e)) :
    (e = 0 ↔ cccAccepted c (st.cccs c.handle) (cccValue d)) ∧
    st'.cccs c.handle = (if e = 0 then cccValue d else st.cccs c.handle) ∧
    (∀ h', h' ≠ c.handle → st'.cccs h' = st.cccs h') ∧ st'.app = st.app := by
  have app1 : ∀ {o n : Bool} {a b : CState α}, cccdNotifyPart c o n a = .ok (some b) → b.app = a.app := by
    intro o n a b h
    rcases (notifyPart_some h).2.2.2 with ⟨-, -, rfl⟩ | ⟨-, -, k, -, rfl⟩ | ⟨-, rfl⟩ <;> rfl
  have app2 : ∀ {o n : Bool} {a b : CState α}, cccdIndicatePart c o n a = .ok (some b) → b.app = a.app := by
    intro o n a b h
    rcases (indicatePart_some h).2.2.2 with ⟨-, -, rfl⟩ | ⟨-, -, k, -, rfl⟩ | ⟨-, rfl⟩ <;> rfl
  rcases cccdWrite_inv h with ⟨rfl, hn, hs⟩ | ⟨rfl, ha, st1, st2, h1, h2, rfl, hc⟩
  · refine ⟨⟨fun x => absurd x (by decide), fun x => absurd x hn⟩, ?_⟩
    rcases hs with rfl | ⟨-, -, hc, -, h1⟩
    · simp
    · rw [hc]; exact ⟨by simp, fun _ _ => rfl, app1 h1⟩
  · refine ⟨⟨fun _ => ha, fun _ => rfl⟩, by simp [upd], ?_, (app2 h2).trans (app1 h1)⟩
    intro h' hne
    simp [upd, hne, hc]

/-- **C20.** The value of a CCCD after any history is the last accepted value written to it on this connection. -/
theorem cccd_value_after (refs : CharRef → Prop) (st st' : CState α) (evs : List (CharRef × Bytes)) (h : Evolves refs st evs st') (hd : Nat) :
    st'.cccs hd = cccAfter st.cccs hd evs := by
  induction h with
  | start => rfl
  | app a _ ih => exact ih
  | write _ _ hw ih =>
    rename_i evs st1 st2 c d e _ _
    obtain ⟨h1, h2, h3, -⟩ := cccd_write_outcome c st1 st2 d e hw
    unfold cccAfter at ih ⊢
    rw [List.foldl_append, List.foldl_cons, List.foldl_nil, ← ih]
    by_cases hc : c.handle = hd
    · subst hc
      rw [h2]
      by_cases ha : cccAccepted c (st1.cccs c.handle) (cccValue d)
      · rw [if_pos (h1.2 ha)]; exact (if_pos ⟨rfl, ha⟩).symm
      · rw [if_neg (fun x => ha (h1.1 x))]; exact (if_neg (fun x => ha x.2)).symm
    · rw [if_neg (fun x => hc x.1)]
      exact h3 hd fun x => hc x.symm

/-- The characteristics of `ss` as a CCCD sees them. -/
def refsOf (ss : List (Svc α)) (c : CharRef) : Prop :=
  ∃ s ∈ ss, ∃ ch ∈ s.chars, c.prop = ch.prop ∧ c.hasNotify = ch.hasNotify ∧ c.hasIndicate = ch.hasIndicate

theorem newDB_wf (ss : List (Svc α)) (base : Nat) (hf : base + dbSize ss ≤ 65536) (s : Server (CState α))
    (hdb : s.db = newDB ss base) (hp : s.prep = none) : WF (refsOf ss) s := by
  refine ⟨fun a ha => ?_, fun a ha => by rw [hp] at ha; cases ha⟩
  rw [hdb] at ha
  by_cases hne : ss = []
  · subst hne; simp [newDB, genSvcs] at ha
  · rw [newDB_attrs ss base hf hne] at ha
    exact svcsAt_attrOk ss base a ha

/-- **C20.** Whatever PDUs a connection has received, its CCCD state is the result of a sequence of CCCD writes and nothing else; PDUs
other than Write Requests, Write Commands and Execute Writes contribute none. In particular two connections do not share it. -/
theorem connection_history (ss : List (Svc α)) (base : Nat) (hf : base + dbSize ss ≤ 65536) (s s' : Server (CState α))
    (hdb : s.db = newDB ss base) (hp : s.prep = none) (app : α) (hst : s.st = CState.init app) (bs : List Bytes) (outs : List (List Bytes))
    (h : loop s bs = .ok (s', outs)) :
    ∃ evs, Evolves (refsOf ss) s.st evs s'.st ∧ (∀ hd, s'.st.cccs hd = cccAfter (fun _ => 0) hd evs) ∧
      ((∀ b ∈ bs, b.head? ≠ some 0x12 ∧ b.head? ≠ some 0x52 ∧ b.head? ≠ some 0x18) → evs = []) := by
  obtain ⟨-, evs, hn, hev⟩ := loop_leads (refs := refsOf ss) h (newDB_wf ss base hf s hdb hp)
  refine ⟨evs, hev, ?_, ?_⟩
  · intro hd
    have := cccd_value_after _ _ _ _ hev hd
    rw [hst] at this
    exact this
  · intro hb
    refine hn fun hx => ?_
    obtain ⟨b, hbm, hw⟩ := hx
    have := hb b hbm
    rcases hw with hw | hw | hw
    · exact this.1 hw
    · exact this.2.1 hw
    · exact this.2.2 hw

/-- **C20.** Reading a CCCD returns the connection's value for its characteristic, little endian; it changes nothing. -/
theorem cccd_read (s : Server (CState α)) (hm : 23 ≤ s.mtu) (h : Nat) (hh : h < 65536) (a : Attr (CState α)) (c : CharRef)
    (ha : s.db.at h = some a) (hv : a.v = none) (hr : a.rh = some (cccdRead c)) :
    handleRequest s (0x0A :: put16 h) = .ok (s, some (0x0B :: put16 (s.st.cccs c.handle))) := by
  show handleRead s _ = _
  unfold handleRead handleATT
  have e1 : le16At (ε := Empty) (0x0A :: put16 h) 1 = .ok h := by
    have := le16At_put16 (ε := Empty) 0x0A h hh []
    simpa using this
  rw [e1]
  simp only [index_cons_zero, Go.bind_ok]
  rw [if_neg (by simp), ha]
  simp only [hv, hr]
  rw [if_pos (by simp)]
  have hw : writeAll (s.mtu - 1) [] [put16 (s.st.cccs c.handle)] = put16 (s.st.cccs c.handle) := by
    rw [writeAll, if_neg (by simp; omega)]; rfl
  simp [serveRead, cccdRead, hw]

/-- **C20.** A Write Request of at least two bytes to a CCCD is a CCCD write of its characteristic: refused with Unlikely Error or
acknowledged as `cccd_write_outcome` says. -/
theorem cccd_write_request (s : Server (CState α)) (h : Nat) (hh : h < 65536) (a : Attr (CState α)) (c : CharRef) (v : Bytes)
    (ha : s.db.at h = some a) (hw : a.wh = some (cccdWrite c)) (st' : CState α) (e : UInt8) (hr : cccdWrite c s.st v = .ok (st', e)) :
    handleRequest s (0x12 :: (put16 h ++ v)) =
      .ok ({ s with st := st' }, some (if cccAccepted c (s.st.cccs c.handle) (cccValue v) then [0x13] else errorRsp 0x12 h 0x0E)) := by
  rw [write_request_delivers s h hh v a _ st' e ha hw hr]
  have := (cccd_write_outcome c _ _ _ _ hr).1
  by_cases he : e = 0
  · rw [if_pos he, if_pos (this.1 he)]
  · rw [if_neg he, if_neg (fun x => he (this.2 x))]
    rcases cccdWrite_inv hr with ⟨rfl, -⟩ | ⟨rfl, -⟩
    · rfl
    · exact absurd rfl he

/-! ## Notifiers -/

/-- Positions of the notifiers of a kind. -/
def mapOf (st : CState α) (i : Bool) : Nat → Option Nat := if i then st.ind else st.nn

/-- With the bits `B`: one running notifier where the bit is set, and it is the one the connection would close; none elsewhere. -/
def Tracks (B : Nat → Bool → Bool) (st : CState α) : Prop :=
  ∀ h i, running st h i = (B h i).toNat ∧
    (B h i = true → ∃ k, mapOf st i h = some k ∧ st.ntfs[k]? = some ⟨h, i, true⟩)

def setBit (B : Nat → Bool → Bool) (h : Nat) (i b : Bool) : Nat → Bool → Bool := fun h' i' => if h' = h ∧ i' = i then b else B h' i'

def runCount (l : List Ntf) (h : Nat) (i : Bool) : Nat := (l.filter fun n => n.char == h && n.ind == i && n.isOpen).length

theorem runCount_close (l : List Ntf) (k : Nat) (h : Nat) (i : Bool) (hk : l[k]? = some ⟨h, i, true⟩) (h' : Nat) (i' : Bool) :
    runCount (closeNtf l k) h' i' + (if h' = h ∧ i' = i then 1 else 0) = runCount l h' i' := by
  induction l generalizing k with
  | nil => simp at hk
  | cons n l ih =>
    cases k with
    | zero =>
      simp only [List.getElem?_cons_zero, Option.some.injEq] at hk
      subst hk
      simp only [closeNtf, List.modify_zero_cons, runCount]
      rw [List.filter_cons_of_neg (by simp)]
      by_cases he : h' = h ∧ i' = i
      · obtain ⟨rfl, rfl⟩ := he
        rw [List.filter_cons_of_pos (by simp)]; simp
      · rw [List.filter_cons_of_neg, if_neg he]
        · rfl
        · simp only [Bool.and_true, Bool.and_eq_true, beq_iff_eq]; exact fun x => he ⟨x.1.symm, x.2.symm⟩
    | succ k =>
      simp only [List.getElem?_cons_succ] at hk
      have ih := ih k hk
      simp only [closeNtf, List.modify_succ_cons, runCount] at ih ⊢
      generalize hp : (fun n : Ntf => n.char == h' && n.ind == i' && n.isOpen) = p at ih ⊢
      by_cases hn : p n = true
      · rw [List.filter_cons_of_pos hn, List.filter_cons_of_pos hn, List.length_cons, List.length_cons]; omega
      · rw [List.filter_cons_of_neg hn, List.filter_cons_of_neg hn]; exact ih

theorem tracks_start {B : Nat → Bool → Bool} {st st1 : CState α} {h : Nat} {i : Bool} (hB : Tracks B st) (hb : B h i = false)
    (hn : st1.ntfs = st.ntfs ++ [⟨h, i, true⟩]) (hm : ∀ j, mapOf st1 j = if j = i then upd (mapOf st j) h (some st.ntfs.length) else mapOf st j) :
    Tracks (setBit B h i true) st1 := by
  intro h' j
  have hr : running st1 h' j = running st h' j + (if h' = h ∧ j = i then 1 else 0) := by
    unfold running
    rw [hn, List.filter_append, List.length_append]
    by_cases he : h' = h ∧ j = i
    · obtain ⟨rfl, rfl⟩ := he; simp
    · rw [if_neg he, List.filter_cons_of_neg]
      · rfl
      · simp only [Bool.and_true, Bool.and_eq_true, beq_iff_eq]; exact fun x => he ⟨x.1.symm, x.2.symm⟩
  rw [hr, (hB h' j).1]
  by_cases he : h' = h ∧ j = i
  · obtain ⟨rfl, rfl⟩ := he
    refine ⟨by simp [setBit, hb], fun _ => ⟨st.ntfs.length, ?_, ?_⟩⟩
    · rw [hm]; simp [upd]
    · rw [hn]; simp
  · have hs : setBit B h i true h' j = B h' j := by unfold setBit; rw [if_neg he]
    rw [hs, if_neg he]
    refine ⟨rfl, fun hb' => ?_⟩
    obtain ⟨k, hk1, hk2⟩ := (hB h' j).2 hb'
    refine ⟨k, ?_, ?_⟩
    · rw [hm]
      by_cases hj : j = i
      · subst hj
        rw [if_pos rfl]; unfold upd; rw [if_neg (fun x => he ⟨x, rfl⟩)]; exact hk1
      · rw [if_neg hj]; exact hk1
    · rw [hn, List.getElem?_append_left (List.getElem?_eq_some_iff.1 hk2).1]; exact hk2

theorem tracks_stop {B : Nat → Bool → Bool} {st st1 : CState α} {h : Nat} {i : Bool} {k : Nat} (hB : Tracks B st) (hb : B h i = true)
    (hk : mapOf st i h = some k) (hn : st1.ntfs = closeNtf st.ntfs k) (hm : ∀ j, mapOf st1 j = mapOf st j) :
    Tracks (setBit B h i false) st1 := by
  obtain ⟨k', hk1, hk2⟩ := (hB h i).2 hb
  rw [hk] at hk1
  cases hk1
  intro h' j
  have hr := runCount_close st.ntfs k h i hk2 h' j
  have hr1 : running st1 h' j = runCount (closeNtf st.ntfs k) h' j := by unfold running runCount; rw [hn]
  have hr2 : running st h' j = runCount st.ntfs h' j := rfl
  rw [← hr1, ← hr2, (hB h' j).1] at hr
  by_cases he : h' = h ∧ j = i
  · obtain ⟨rfl, rfl⟩ := he
    simp only [and_self, if_true, hb, Bool.toNat_true] at hr
    refine ⟨by simp [setBit]; omega, fun x => by simp [setBit] at x⟩
  · have hs : setBit B h i false h' j = B h' j := by unfold setBit; rw [if_neg he]
    rw [if_neg he] at hr
    rw [hs]
    refine ⟨by omega, fun hb' => ?_⟩
    obtain ⟨k2, h1, h2⟩ := (hB h' j).2 hb'
    refine ⟨k2, by rw [hm]; exact h1, ?_⟩
    have hne : k ≠ k2 := by
      rintro rfl
      rw [hk2] at h2
      simp only [Option.some.injEq, Ntf.mk.injEq, and_true] at h2
      exact he ⟨h2.1.symm, h2.2.symm⟩
    rw [hn]; unfold closeNtf
    rw [List.getElem?_modify, h2]; simp [hne]

theorem setBit_same {B : Nat → Bool → Bool} {h : Nat} {i b : Bool} (hb : B h i = b) : setBit B h i b = B := by
  funext h' i'
  unfold setBit; split
  · rename_i he; rw [he.1, he.2, hb]
  · rfl

theorem tracks_notify {B : Nat → Bool → Bool} {st st1 : CState α} {c : CharRef} {n : Bool} (hB : Tracks B st)
    (h : cccdNotifyPart c (B c.handle false) n st = .ok (some st1)) : Tracks (setBit B c.handle false n) st1 := by
  rcases (notifyPart_some h).2.2.2 with ⟨rfl, ho, rfl⟩ | ⟨rfl, ho, k, hk, rfl⟩ | ⟨rfl, rfl⟩
  · apply tracks_start hB ho rfl
    intro j; cases j <;> rfl
  · apply tracks_stop hB ho hk rfl
    intro j; cases j <;> rfl
  · rw [setBit_same rfl]; exact hB

theorem tracks_indicate {B : Nat → Bool → Bool} {st st1 : CState α} {c : CharRef} {n : Bool} (hB : Tracks B st)
    (h : cccdIndicatePart c (B c.handle true) n st = .ok (some st1)) : Tracks (setBit B c.handle true n) st1 := by
  rcases (indicatePart_some h).2.2.2 with ⟨rfl, ho, rfl⟩ | ⟨rfl, ho, k, hk, rfl⟩ | ⟨rfl, rfl⟩
  · apply tracks_start hB ho rfl
    intro j; cases j <;> rfl
  · apply tracks_stop hB ho hk rfl
    intro j; cases j <;> rfl
  · rw [setBit_same rfl]; exact hB

/-- The bits of the CCCD values. -/
def bitsOf (st : CState α) : Nat → Bool → Bool := fun h i => cccBit (st.cccs h) i

theorem tracks_history {refs : CharRef → Prop} {st st' : CState α} {evs : List (CharRef × Bytes)} (h : Evolves refs st evs st')
    (hB : Tracks (bitsOf st) st) (hok : ∀ ev ∈ evs, cccValue ev.2 / 2 % 2 = 1 → ev.1.prop &&& 0x20 ≠ 0) : Tracks (bitsOf st') st' := by
  induction h with
  | start => exact hB
  | app a _ ih => exact ih hok
  | write _ _ hw ih =>
    rename_i evs st1 st2 c d e _ _
    have ih := ih fun ev hev => hok ev (by simp [hev])
    rcases cccdWrite_inv hw with ⟨-, -, rfl | ⟨hp, hv, -⟩⟩ | ⟨-, -, sa, sb, h1, h2, rfl, hc⟩
    · exact ih
    · exact absurd hp (hok (c, d) (by simp) hv)
    · have e1 : decide (st1.cccs c.handle % 2 = 1) = bitsOf st1 c.handle false := by simp [bitsOf, cccBit]
      rw [e1] at h1
      have t1 := tracks_notify ih h1
      have e2 : decide (st1.cccs c.handle / 2 % 2 = 1) = setBit (bitsOf st1) c.handle false (decide (cccValue d % 2 = 1)) c.handle true := by
        simp [bitsOf, cccBit, setBit]
      rw [e2] at h2
      have t2 := tracks_indicate t1 h2
      have e3 : bitsOf { sb with cccs := upd sb.cccs c.handle (cccValue d) } =
          setBit (setBit (bitsOf st1) c.handle false (decide (cccValue d % 2 = 1))) c.handle true (decide (cccValue d / 2 % 2 = 1)) := by
        funext h' j
        by_cases hh : h' = c.handle
        · subst hh
          cases j <;> simp [bitsOf, cccBit, setBit, upd]
        · simp [bitsOf, cccBit, setBit, upd, hh, hc]
      rw [e3]
      exact t2

theorem tracks_init (app : α) : Tracks (bitsOf (CState.init app)) (CState.init app) := by
  intro h i
  cases i <;> simp [running, CState.init, bitsOf, cccBit]

/-- **C20.** At every point of a connection, for every characteristic and for notifications and indications alike: exactly one notifier
is running if the bit is set in the CCCD, none if it is not. Partial: requires that no write sets the indicate bit of a characteristic without
the indicate property; `refused_write_leaks_notifier` shows what happens otherwise. -/
theorem notifier_runs_iff_bit_partial (refs : CharRef → Prop) (app : α) (st : CState α) (evs : List (CharRef × Bytes))
    (h : Evolves refs (CState.init app) evs st) (hok : ∀ ev ∈ evs, cccValue ev.2 / 2 % 2 = 1 → ev.1.prop &&& 0x20 ≠ 0) (hd : Nat) (i : Bool) :
    running st hd i = if cccBit (cccAfter (fun _ => 0) hd evs) i then 1 else 0 := by
  have := (tracks_history h (tracks_init app) hok hd i).1
  rw [this]
  have e : st.cccs hd = cccAfter (fun _ => 0) hd evs := cccd_value_after _ _ _ _ h hd
  unfold bitsOf
  rw [e]
  cases cccBit (cccAfter (fun _ => 0) hd evs) i <;> rfl

/-- Refutation of the unconditional claim: on a characteristic with the notify but not the indicate property, writing 3 is refused, the CCCD
still reads 0, and yet a notifier is running; a following write of 1 then 0 leaves it running. -/
theorem refused_write_leaks_notifier (c : CharRef) (hp : c.prop &&& 0x10 ≠ 0) (hq : c.prop &&& 0x20 = 0) (hn : c.hasNotify = true) (app : α) :
    ∃ st1 st2 st3, cccdWrite c (CState.init app) [3, 0] = .ok (st1, 0x0E) ∧ st1.cccs c.handle = 0 ∧ running st1 c.handle false = 1 ∧
      cccdWrite c st1 [1, 0] = .ok (st2, 0) ∧ running st2 c.handle false = 2 ∧
      cccdWrite c st2 [0, 0] = .ok (st3, 0) ∧ running st3 c.handle false = 1 := by
  let st1 : CState α := { CState.init app with nn := upd (fun _ => none) c.handle (some 0), ntfs := [⟨c.handle, false, true⟩] }
  let st2 : CState α := { st1 with nn := upd st1.nn c.handle (some 1), ntfs := [⟨c.handle, false, true⟩, ⟨c.handle, false, true⟩],
                                   cccs := upd st1.cccs c.handle 1 }
  let st3 : CState α := { st2 with ntfs := [⟨c.handle, false, true⟩, ⟨c.handle, false, false⟩], cccs := upd st2.cccs c.handle 0 }
  refine ⟨st1, st2, st3, ?_, rfl, by simp [st1, running], ?_, by simp [st2, running], ?_, by simp [st3, running]⟩
  · simp [cccdWrite, le16At, le16, CState.init, cccdNotifyPart, cccdStartNotify, cccdIndicatePart, cccdStartIndicate, hp, hq, hn, st1]
  · simp [cccdWrite, le16At, le16, CState.init, cccdNotifyPart, cccdStartNotify, cccdIndicatePart, hp, hn, st1, st2]
  · simp [cccdWrite, le16At, le16, CState.init, cccdNotifyPart, cccdIndicatePart, closeAt, closeNtf, st1, st2, st3, upd]

example : (⟨2, 0x10, true, false⟩ : CharRef).prop &&& 0x10 ≠ 0 ∧ (⟨2, 0x10, true, false⟩ : CharRef).prop &&& 0x20 = 0 := by decide

/-! ## End of the connection -/

theorem tracks_close {B : Nat → Bool → Bool} {st : CState α} {h : Nat} {i : Bool} (hB : Tracks B st) (hb : B h i = true) :
    ∃ st', closeAt st (mapOf st i) h = .ok st' ∧ st'.cccs = st.cccs ∧ (∀ j, mapOf st' j = mapOf st j) ∧ Tracks (setBit B h i false) st' := by
  obtain ⟨k, hk, -⟩ := (hB h i).2 hb
  refine ⟨{ st with ntfs := closeNtf st.ntfs k }, ?_, rfl, ?_, tracks_stop hB hb hk rfl ?_⟩
  · unfold closeAt; rw [hk]
  · intro j; cases j <;> rfl
  · intro j; cases j <;> rfl

theorem cleanup_tracks {B : Nat → Bool → Bool} {st : CState α} {keys : List Nat} (hB : Tracks B st) (hk : keys.Nodup)
    (hb : ∀ h ∈ keys, ∀ i, B h i = cccBit (st.cccs h) i) (hb' : ∀ h, h ∉ keys → ∀ i, B h i = false) :
    ∃ st', cleanup st keys = .ok st' ∧ ∀ h i, running st' h i = 0 := by
  induction keys generalizing st B with
  | nil =>
    refine ⟨st, rfl, fun h i => ?_⟩
    rw [(hB h i).1, hb' h (by simp)]; rfl
  | cons x keys ih =>
    have hx : x ∉ keys := (List.nodup_cons.1 hk).1
    obtain ⟨sa, ha, hca, hma, hta⟩ : ∃ sa, cleanupInd st x = .ok sa ∧ sa.cccs = st.cccs ∧
        (∀ j, mapOf sa j = mapOf st j) ∧ Tracks (setBit B x true false) sa := by
      have e := hb x (by simp) true
      unfold cleanupInd
      by_cases hc : st.cccs x / 2 % 2 = 1
      · rw [if_pos hc]
        exact tracks_close hB (by rw [e]; simp [cccBit, hc])
      · rw [if_neg hc]
        refine ⟨st, rfl, rfl, fun _ => rfl, ?_⟩
        rw [setBit_same (by rw [e]; simp [cccBit, hc])]; exact hB
    obtain ⟨sb, hbb, hcb, hmb, htb⟩ : ∃ sb, cleanupNtf sa x = .ok sb ∧ sb.cccs = sa.cccs ∧
        (∀ j, mapOf sb j = mapOf sa j) ∧ Tracks (setBit (setBit B x true false) x false false) sb := by
      have e := hb x (by simp) false
      have e' : setBit B x true false x false = B x false := by simp [setBit]
      unfold cleanupNtf
      by_cases hc : sa.cccs x % 2 = 1
      · rw [if_pos hc]
        exact tracks_close hta (by rw [e', e, ← hca]; simp [cccBit, hc])
      · rw [if_neg hc]
        refine ⟨sa, rfl, rfl, fun _ => rfl, ?_⟩
        rw [setBit_same (by rw [e', e, ← hca]; simp [cccBit, hc])]; exact hta
    obtain ⟨sc, hsc, hr⟩ := ih htb (List.nodup_cons.1 hk).2
      (by
        intro h hh i
        have hne : h ≠ x := fun he => hx (he ▸ hh)
        simp only [setBit, hne, false_and, if_false]
        rw [hb h (by simp [hh]) i, hcb, hca])
      (by
        intro h hh i
        by_cases hne : h = x
        · subst hne
          cases i <;> simp [setBit]
        · simp only [setBit, hne, false_and, if_false]
          exact hb' h (by simp [hne, hh]) i)
    refine ⟨sc, ?_, hr⟩
    rw [cleanup, cleanupStep]
    rw [ha]
    simp only [Go.bind_ok]
    rw [hbb]
    exact hsc

/-- **C20.** When the connection ends, the cleanup over the keys of the CCCD map (in any order) returns, and no notifier is left
running. Partial: same condition as `notifier_runs_iff_bit_partial`. -/
theorem disconnect_stops_notifiers_partial (refs : CharRef → Prop) (app : α) (st : CState α) (evs : List (CharRef × Bytes))
    (h : Evolves refs (CState.init app) evs st) (hok : ∀ ev ∈ evs, cccValue ev.2 / 2 % 2 = 1 → ev.1.prop &&& 0x20 ≠ 0)
    (keys : List Nat) (hn : keys.Nodup) (hk : ∀ hd, st.cccs hd ≠ 0 → hd ∈ keys) :
    ∃ st', cleanup st keys = .ok st' ∧ ∀ hd i, running st' hd i = 0 := by
  refine cleanup_tracks (tracks_history h (tracks_init app) hok) hn (fun _ _ _ => rfl) ?_
  intro hd hnk i
  have : st.cccs hd = 0 := Classical.byContradiction fun hc => hnk (hk hd hc)
  unfold bitsOf; rw [this]; cases i <;> rfl

/-! ## Non-vacuity -/

example : ∃ st, Evolves (fun _ => True) (CState.init ()) [(⟨2, 0x30, true, true⟩, [3, 0]), (⟨5, 0x10, true, false⟩, [1, 0])] st ∧
    running st 2 false = 1 ∧ running st 2 true = 1 ∧ running st 5 false = 1 ∧ running st 5 true = 0 := by
  refine ⟨_, .write (.write .start trivial rfl) trivial rfl, ?_⟩
  decide

example : (match loop crashServer [[0x12, 4, 0, 1, 0], [0x0A, 4, 0]] with | .ok (_, o) => o | _ => []) = [[[0x13]], [[0x0B, 1, 0]]] := by rfl
example : (match loop crashServer [[0x12, 4, 0, 2, 0], [0x0A, 4, 0]] with | .ok (_, o) => o | _ => []) =
    [[[0x01, 0x12, 4, 0, 0x0E]], [[0x0B, 0, 0]]] := by rfl

end Ble.Props
