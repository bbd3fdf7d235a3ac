import Verif.Hci.AdvHist
import Verif.Props.Evt
import Verif.Props.Adv
set_option autoImplicit false

/-!
# C33: scan responses and advertisements
-/

namespace Ble.Props

open Ble.Evt Ble.AdvHist

/-! ## Specification -/

/-- The event is an advertisement the host remembers: one report, connectable or scannable undirected (event types 0 and 2), whose data the parser accepts. -/
def Remembered (e : Bytes) : Prop :=
  numReports e = .ok 1 ∧ (eventType e 0 = .ok 0x00 ∨ eventType e 0 = .ok 0x02) ∧ ∃ d p, data e 0 = .ok d ∧ newRawPacket [d] = .ok p

open Classical in
/-- The advertisements remembered after a history of events, newest first. -/
noncomputable def rememberedEvents (es : List Bytes) : List Bytes := (es.filter fun e => decide (Remembered e)).reverse

/-- `x` is the newest of the 127 latest remembered advertisements with this address. -/
def NewestWith (es : List Bytes) (addr x : Bytes) : Prop :=
  ∃ k, k < 127 ∧ (rememberedEvents es)[k]? = some x ∧ address x 0 = .ok addr ∧ ∀ (j : Nat) y, j < k → (rememberedEvents es)[j]? = some y → address y 0 ≠ .ok addr

/-- None of the 127 latest remembered advertisements has this address. -/
def NoneWith (es : List Bytes) (addr : Bytes) : Prop :=
  ∀ (k : Nat) x, k < 127 → (rememberedEvents es)[k]? = some x → address x 0 ≠ .ok addr

namespace AdvAux

theorem newAdv_ok_iff (e : Bytes) (a : Adv) : newAdv e = .ok a ↔ ∃ d p, data e 0 = .ok d ∧ newRawPacket [d] = .ok p ∧ a = ⟨e, none, p⟩ := by
  unfold newAdv
  constructor
  · intro h
    split at h
    · next d hd =>
      split at h
      · next p hp => injection h with h; exact ⟨d, p, hd, hp, h.symm⟩
      · cases h
      · cases h
    · cases h
    · cases h
  · rintro ⟨d, p, hd, hp, rfl⟩
    simp [hd, hp]

theorem newAdv_err (e : Bytes) (x : Unit) (h : newAdv e = .err x) : ¬ ∃ d p, data e 0 = .ok d ∧ newRawPacket [d] = .ok p := by
  rintro ⟨d, p, hd, hp⟩
  rw [(newAdv_ok_iff e _).2 ⟨d, p, hd, hp, rfl⟩] at h; cases h

/-- The address of a readable single report. -/
theorem addr_ok (e : Bytes) (d : Bytes) (hn : numReports e = .ok 1) (h : data e 0 = .ok d) : ∃ b t, address e 0 = .ok b ∧ addressType e 0 = .ok t ∧ addrOf e = .ok b ∧ b.length = 6 := by
  obtain ⟨-, ⟨t, ht⟩, ⟨b, hb, hl⟩⟩ := data_implies_other_fields e 0 1 d hn (by omega) h
  exact ⟨b, t, hb, ht, by simp only [addrOf]; erw [hb, Go.bind_ok, ht]; rfl, hl⟩

/-- The event of the n-th latest advertisement sits this far behind `last`. -/
def pos (last k : Nat) : Nat := (last + 127 - k) % 128

/-- Invariant: the ring holds the log, newest first, as far as it reaches back. -/
structure Inv (s : Scan) (log : List Adv) : Prop where
  len : s.ring.length = 128
  last : s.last = log.length % 128
  ring : ∀ k, k < 128 → s.ring[pos s.last k]? = some log[k]?
  good : ∀ a ∈ log, Remembered a.e

theorem Inv_started : Inv started [] := by
  refine ⟨by simp [started], rfl, fun k hk => ?_, by simp⟩
  have : pos 0 k < 128 := Nat.mod_lt _ (by omega)
  show (List.replicate 128 none)[pos 0 k]? = some none
  rw [List.getElem?_replicate, if_pos this]

theorem Inv_remember {s : Scan} {log : List Adv} (h : Inv s log) (a : Adv) (ha : Remembered a.e) : ∃ s', remember s a = .ok s' ∧ Inv s' (a :: log) := by
  have hlast : s.last < 128 := by rw [h.last]; exact Nat.mod_lt _ (by omega)
  refine ⟨_, by unfold remember; rw [if_pos (by rw [h.len]; exact hlast)], ?_⟩
  have hl' : (if s.last + 1 = s.ring.length then 0 else s.last + 1) = (s.last + 1) % 128 := by
    rw [h.len]; split
    · omega
    · omega
  refine ⟨by simpa using h.len, ?_, fun k hk => ?_, ?_⟩
  · simp only [hl']; rw [h.last]; simp; 
  · simp only [hl']
    cases k with
    | zero =>
      have : pos ((s.last + 1) % 128) 0 = s.last := by unfold pos; omega
      rw [this, List.getElem?_set_self (by rw [h.len]; exact hlast)]; rfl
    | succ k =>
      have h1 : pos ((s.last + 1) % 128) (k + 1) = pos s.last k := by unfold pos; omega
      have h2 : s.last ≠ pos s.last k := by unfold pos; omega
      rw [h1, List.getElem?_set_ne h2, h.ring k (by omega)]; rfl
  · intro b hb
    rcases List.mem_cons.1 hb with rfl | hb
    · exact ha
    · exact h.good b hb

/-- Where the loop stands when it examines the `j`-th latest advertisement. -/
def idxAt (last j : Nat) : Int := if j = last then -1 else (pos last j : Int)

theorem remembered_addr {e : Bytes} (h : Remembered e) : ∃ b, address e 0 = .ok b ∧ addrOf e = .ok b := by
  obtain ⟨hn, -, d, p, hd, -⟩ := h
  obtain ⟨b, t, h1, -, h2, -⟩ := addr_ok e d hn hd
  exact ⟨b, h1, h2⟩

/-- What the search loop finds. -/
theorem search_spec {s : Scan} {log : List Adv} (h : Inv s log) (addr : Bytes) :
    ∀ (n j fuel : Nat), j + n = 127 → n < fuel →
      (∃ k a, j ≤ k ∧ k < 127 ∧ log[k]? = some a ∧ address a.e 0 = .ok addr ∧ (∀ (m : Nat) b, j ≤ m → m < k → log[m]? = some b → address b.e 0 ≠ .ok addr) ∧
        search s.ring s.last addr fuel (idxAt s.last j) = some (.at (pos s.last k))) ∨
      ((∀ (m : Nat) b, j ≤ m → m < 127 → log[m]? = some b → address b.e 0 ≠ .ok addr) ∧ search s.ring s.last addr fuel (idxAt s.last j) = some .none) := by
  have hlast : s.last < 128 := by rw [h.last]; exact Nat.mod_lt _ (by omega)
  intro n
  induction n with
  | zero =>
    intro j fuel hj hf
    right
    refine ⟨fun m b h1 h2 => by omega, ?_⟩
    obtain ⟨f, rfl⟩ : ∃ f, fuel = f + 1 := ⟨fuel - 1, by omega⟩
    have hp : pos s.last j = s.last := by unfold pos; omega
    unfold search idxAt
    by_cases hjl : j = s.last
    · rw [if_pos hjl, if_neg (by omega)]
      simp only [if_true, h.len, true_and]
      rw [if_pos (by omega)]
    · rw [if_neg hjl, if_pos (by rw [hp])]
  | succ n ih =>
    intro j fuel hj hf
    obtain ⟨f, rfl⟩ : ∃ f, fuel = f + 1 := ⟨fuel - 1, by omega⟩
    have hpl : pos s.last j ≠ s.last := by unfold pos; omega
    have hpb : pos s.last j < 128 := Nat.mod_lt _ (by omega)
    -- one iteration
    have hstep : search s.ring s.last addr (f + 1) (idxAt s.last j) =
        match s.ring[pos s.last j]? with
        | none => some .panic
        | some none => some .none
        | some (some a) =>
          match addrOf a.e with
          | .ok b => if b = addr then some (.at (pos s.last j)) else search s.ring s.last addr f ((pos s.last j : Int) - 1)
          | .err _ => some .none
          | .panic => some .panic := by
      rw [search, if_neg (by unfold idxAt; split <;> omega)]
      have hi : (if idxAt s.last j = -1 then (s.ring.length : Int) - 1 else idxAt s.last j) = (pos s.last j : Int) := by
        unfold idxAt
        by_cases hjl : j = s.last
        · rw [if_pos hjl, if_pos rfl, h.len]; unfold pos; omega
        · rw [if_neg hjl, if_neg (by omega)]
      simp only [hi]
      rw [if_neg (by rintro ⟨-, h2⟩; omega), if_neg (by omega)]
      simp only [Int.toNat_natCast]
      rcases s.ring[pos s.last j]? with _ | _ | a
      · rfl
      · rfl
      · rfl
    have hnext : (pos s.last j : Int) - 1 = idxAt s.last (j + 1) := by
      unfold idxAt pos
      split <;> omega
    rw [hstep, h.ring j (by omega), hnext]
    cases hlj : log[j]? with
    | none =>
      right
      refine ⟨fun m b h1 _ h3 => ?_, rfl⟩
      have : log.length ≤ j := List.getElem?_eq_none_iff.1 hlj
      rw [List.getElem?_eq_none (by omega)] at h3; cases h3
    | some a =>
      obtain ⟨b, hb1, hb2⟩ := remembered_addr (h.good a (List.mem_of_getElem? hlj))
      simp only [hb2]
      by_cases hba : b = addr
      · left
        subst hba
        exact ⟨j, a, Nat.le_refl _, by omega, hlj, hb1, fun m b h1 h2 => by omega, by simp⟩
      · rw [if_neg hba]
        have hne : ∀ c, log[j]? = some c → address c.e 0 ≠ .ok addr := by
          intro c hc; rw [hlj] at hc; injection hc with hc; subst hc; rw [hb1]; intro he; injection he with he; exact hba he
        rcases ih (j + 1) f (by omega) (by omega) with ⟨k, c, h1, h2, h3, h4, h5, h6⟩ | ⟨h1, h2⟩
        · left
          refine ⟨k, c, by omega, h2, h3, h4, fun m d hm1 hm2 hm3 => ?_, h6⟩
          rcases Nat.eq_or_lt_of_le hm1 with rfl | hm1
          · exact hne d hm3
          · exact h5 m d hm1 hm2 hm3
        · right
          refine ⟨fun m d hm1 hm2 hm3 => ?_, h2⟩
          rcases Nat.eq_or_lt_of_le hm1 with rfl | hm1
          · exact hne d hm3
          · exact h1 m d hm1 hm2 hm3

/-- The first iteration. -/
theorem idxAt_zero (last : Nat) (h : last < 128) : (last : Int) - 1 = idxAt last 0 := by unfold idxAt pos; split <;> omega

theorem Inv_set {s : Scan} {log : List Adv} (h : Inv s log) (k : Nat) (hk : k < 128) (a a' : Adv) (ha : log[k]? = some a) (he : a'.e = a.e) :
    Inv { s with ring := s.ring.set (pos s.last k) (some a') } (log.set k a') := by
  have hlast : s.last < 128 := by rw [h.last]; exact Nat.mod_lt _ (by omega)
  have hkl : k < log.length := by
    rcases Nat.lt_or_ge k log.length with h | h
    · exact h
    · rw [List.getElem?_eq_none h] at ha; cases ha
  refine ⟨by simpa using h.len, by simpa using h.last, fun m hm => ?_, fun b hb => ?_⟩
  · by_cases hmk : m = k
    · subst hmk
      simp only
      rw [List.getElem?_set_self (by rw [h.len]; exact Nat.mod_lt _ (by omega)), List.getElem?_set_self hkl]
    · have : pos s.last k ≠ pos s.last m := by unfold pos; omega
      simp only
      rw [List.getElem?_set_ne this, List.getElem?_set_ne (Ne.symm hmk), h.ring m hm]
  · rcases List.mem_or_eq_of_mem_set hb with hb | rfl
    · exact h.good b hb
    · rw [he]; exact h.good a (List.mem_of_getElem? ha)

end AdvAux

namespace AdvAux

theorem remembered_cons (e : Bytes) (es : List Bytes) : (Remembered e → rememberedEvents (e :: es) = rememberedEvents es ++ [e]) ∧ (¬ Remembered e → rememberedEvents (e :: es) = rememberedEvents es) := by
  constructor
  · intro h; simp [rememberedEvents, List.filter_cons, h]
  · intro h; simp [rememberedEvents, List.filter_cons, h]

theorem setScanResponse_ok_iff (a sr a' : Adv) : setScanResponse a sr = .ok a' ↔ ∃ d d' p, data a.e 0 = .ok d ∧ data sr.e 0 = .ok d' ∧ newRawPacket [d, d'] = .ok p ∧ a' = { a with sr := some sr.e, p := p } := by
  unfold setScanResponse
  constructor
  · intro h
    split at h
    · next d d' hd hd' =>
      split at h
      · next p hp => injection h with h; exact ⟨d, d', p, hd, hd', hp, h.symm⟩
      · cases h
      · cases h
    all_goals cases h
  · rintro ⟨d, d', p, hd, hd', hp, rfl⟩
    simp [hd, hd', hp]

/-- The scan-response case, in terms of the log. -/
theorem scanRsp_spec {s : Scan} {log : List Adv} (h : Inv s log) (e d : Bytes) (p : Packet) (addr : Bytes) (hn : numReports e = .ok 1) (hd : data e 0 = .ok d) (hp : newRawPacket [d] = .ok p)
    (ha : address e 0 = .ok addr) :
    (∃ k a, k < 127 ∧ log[k]? = some a ∧ address a.e 0 = .ok addr ∧ (∀ (m : Nat) b, m < k → log[m]? = some b → address b.e 0 ≠ .ok addr) ∧
      handleScanRsp s e = match setScanResponse a ⟨e, none, p⟩ with
        | .ok a' => .ok ⟨{ s with ring := s.ring.set (pos s.last k) (some a') }, some a', false⟩
        | .err _ => .ok ⟨s, none, true⟩
        | .panic => .panic) ∨
    ((∀ (m : Nat) b, m < 127 → log[m]? = some b → address b.e 0 ≠ .ok addr) ∧ handleScanRsp s e = .ok ⟨s, none, true⟩) := by
  have hlast : s.last < 128 := by rw [h.last]; exact Nat.mod_lt _ (by omega)
  obtain ⟨b, t, hb, -, hb2, -⟩ := addr_ok e d hn hd
  rw [ha] at hb; injection hb with hb; subst hb
  have hnew : newAdv e = .ok ⟨e, none, p⟩ := (newAdv_ok_iff ..).2 ⟨d, p, hd, hp, rfl⟩
  rcases search_spec h addr 127 0 (s.ring.length + 1) (by omega) (by rw [h.len]; omega) with ⟨k, a, -, h2, h3, h4, h5, h6⟩ | ⟨h1, h2⟩
  · left
    refine ⟨k, a, h2, h3, h4, fun m b hm => h5 m b (Nat.zero_le _) hm, ?_⟩
    unfold handleScanRsp
    simp only [hnew, hb2, idxAt_zero _ hlast, h6, h.ring k (by omega), h3]
    split <;> simp_all
  · right
    refine ⟨fun m b hm => h1 m b (Nat.zero_le _) hm, ?_⟩
    unfold handleScanRsp
    simp only [hnew, hb2, idxAt_zero _ hlast, h2]

/-- Every handled event keeps the invariant, and what is handed out carries a scan response only of the same address. -/
theorem handle_inv {s : Scan} {log : List Adv} (h : Inv s log) (e : Bytes) (o : Out) (ho : handle s e = .ok o) :
    (∃ log', Inv o.st log' ∧ ((Remembered e ∧ log'.map (·.e) = e :: log.map (·.e)) ∨ (¬ Remembered e ∧ log'.map (·.e) = log.map (·.e)))) ∧
    (∀ a, o.sent = some a → (a.e = e ∧ a.sr = none) ∨ (a.sr = some e ∧ eventType e 0 = .ok 0x04 ∧ Remembered a.e ∧ ∃ b, address a.e 0 = .ok b ∧ address e 0 = .ok b)) := by
  unfold handle at ho
  -- outcomes that change nothing
  have hsame : ∀ (o : Out), ¬ Remembered e → Go.ok (ε := Unit) ⟨s, none, true⟩ = .ok o →
      (∃ log', Inv o.st log' ∧ ((Remembered e ∧ log'.map (·.e) = e :: log.map (·.e)) ∨ (¬ Remembered e ∧ log'.map (·.e) = log.map (·.e)))) ∧
      (∀ a, o.sent = some a → (a.e = e ∧ a.sr = none) ∨ (a.sr = some e ∧ eventType e 0 = .ok 0x04 ∧ Remembered a.e ∧ ∃ b, address a.e 0 = .ok b ∧ address e 0 = .ok b)) := by
    intro o hr heq
    injection heq with heq; subst heq
    exact ⟨⟨log, h, Or.inr ⟨hr, rfl⟩⟩, by simp⟩
  split at ho
  · cases ho
  · next hn => exact hsame o (by rintro ⟨h1, -⟩; rw [hn] at h1; cases h1) ho
  · next nr hn =>
    split at ho
    · next hnr => exact hsame o (by rintro ⟨h1, -⟩; rw [hn] at h1; injection h1 with h1; exact hnr h1) ho
    · next hnr =>
      have hnr : nr = 1 := by omega
      subst hnr
      split at ho
      · cases ho
      · next he => exact hsame o (by rintro ⟨-, h1 | h1, -⟩ <;> · rw [he] at h1; cases h1) ho
      · next et he =>
        split at ho
        · next het =>
          split at ho
          · cases ho
          · next hne => exact hsame o (by rintro ⟨-, -, d, p, h1, h2⟩; exact newAdv_err e _ hne ⟨d, p, h1, h2⟩) ho
          · next a hne =>
            obtain ⟨d, p, hd, hp, rfl⟩ := (newAdv_ok_iff ..).1 hne
            have hrem : Remembered e := ⟨hn, het.elim (fun h => Or.inl (h ▸ he)) (fun h => Or.inr (h ▸ he)), d, p, hd, hp⟩
            obtain ⟨s', hs', hinv⟩ := Inv_remember h ⟨e, none, p⟩ hrem
            rw [hs'] at ho
            injection ho with ho; subst ho
            exact ⟨⟨_, hinv, Or.inl ⟨hrem, rfl⟩⟩, by rintro a ha; injection ha with ha; subst ha; exact Or.inl ⟨rfl, rfl⟩⟩
        · next het =>
          have hnotrem : ¬ Remembered e := by
            rintro ⟨-, h1 | h1, -⟩ <;> · rw [he] at h1; injection h1 with h1; exact het (by simp [h1])
          split at ho
          · next het4 =>
            subst het4
            cases hne : newAdv e with
            | panic => simp [handleScanRsp, hne] at ho
            | err x => simp only [handleScanRsp, hne] at ho; exact hsame o hnotrem ho
            | ok sr =>
              obtain ⟨d, p, hd, hp, rfl⟩ := (newAdv_ok_iff ..).1 hne
              obtain ⟨addr, t, hb, -, -, -⟩ := addr_ok e d hn hd
              rcases scanRsp_spec h e d p addr hn hd hp hb with ⟨k, a, hk, hka, haddr, -, hh⟩ | ⟨-, hh⟩
              · rw [hh] at ho
                cases hset : setScanResponse a ⟨e, none, p⟩ with
                | panic => rw [hset] at ho; cases ho
                | err x => rw [hset] at ho; exact hsame o hnotrem ho
                | ok a' =>
                  rw [hset] at ho
                  injection ho with ho; subst ho
                  obtain ⟨d1, d2, p', -, -, -, rfl⟩ := (setScanResponse_ok_iff ..).1 hset
                  refine ⟨⟨_, Inv_set h k (by omega) a _ hka rfl, Or.inr ⟨hnotrem, ?_⟩⟩, ?_⟩
                  · rw [List.map_set]
                    refine List.ext_getElem? fun i => ?_
                    rw [List.getElem?_set]
                    split
                    · next hki =>
                      subst hki
                      split
                      · rw [List.getElem?_map, hka]; rfl
                      · next hlt => rw [List.getElem?_eq_none (by omega)]
                    · rfl
                  · rintro x hx
                    injection hx with hx; subst hx
                    exact Or.inr ⟨rfl, he, h.good a (List.mem_of_getElem? hka), addr, haddr, hb⟩
              · rw [hh] at ho; exact hsame o hnotrem ho
          · split at ho
            · split at ho
              · cases ho
              · exact hsame o hnotrem ho
              · next a hne =>
                obtain ⟨d, p, hd, hp, rfl⟩ := (newAdv_ok_iff ..).1 hne
                injection ho with ho; subst ho
                exact ⟨⟨log, h, Or.inr ⟨hnotrem, rfl⟩⟩, by rintro a ha; injection ha with ha; subst ha; exact Or.inl ⟨rfl, rfl⟩⟩
            · exact hsame o hnotrem ho

theorem run_inv (es : List Bytes) : ∀ (s : Scan) (log : List Adv), Inv s log → ∀ (s' : Scan) (as : List Adv), run s es = .ok (s', as) →
    (∃ log', Inv s' log' ∧ log'.map (·.e) = rememberedEvents es ++ log.map (·.e)) ∧
    (∀ a ∈ as, (a.e ∈ es ∧ a.sr = none) ∨ ∃ r ∈ es, a.sr = some r ∧ eventType r 0 = .ok 0x04 ∧ Remembered a.e ∧ ∃ b, address a.e 0 = .ok b ∧ address r 0 = .ok b) := by
  induction es with
  | nil =>
    intro s log h s' as hr
    simp only [run, Go.ok.injEq, Prod.mk.injEq] at hr
    obtain ⟨rfl, rfl⟩ := hr
    exact ⟨⟨log, h, by simp [rememberedEvents]⟩, by simp⟩
  | cons e es ih =>
    intro s log h s' as hr
    simp only [run] at hr
    split at hr
    · next o ho =>
      split at hr
      · next s2 as2 hr2 =>
        simp only [Go.ok.injEq, Prod.mk.injEq] at hr
        obtain ⟨rfl, rfl⟩ := hr
        obtain ⟨⟨log1, hi1, hm1⟩, hsent⟩ := handle_inv h e o ho
        obtain ⟨⟨log2, hi2, hm2⟩, has⟩ := ih o.st log1 hi1 s2 as2 hr2
        refine ⟨⟨log2, hi2, ?_⟩, ?_⟩
        · rw [hm2]
          rcases hm1 with ⟨hr1, hm1⟩ | ⟨hr1, hm1⟩
          · rw [(remembered_cons e es).1 hr1, hm1]; simp
          · rw [(remembered_cons e es).2 hr1, hm1]
        · intro a ha
          rcases List.mem_append.1 ha with ha | ha
          · have hs : o.sent = some a := by
              cases hos : o.sent with
              | none => rw [hos] at ha; simp at ha
              | some x => rw [hos] at ha; simp at ha; rw [ha]
            rcases hsent a hs with ⟨h1, h2⟩ | ⟨h1, h2, h3, b, h4, h5⟩
            · exact Or.inl ⟨by simp [h1], h2⟩
            · exact Or.inr ⟨e, by simp, h1, h2, h3, b, h4, h5⟩
          · rcases has a ha with ⟨h1, h2⟩ | ⟨r, h0, h1⟩
            · exact Or.inl ⟨by simp [h1], h2⟩
            · exact Or.inr ⟨r, by simp [h0], h1⟩
      · cases hr
      · cases hr
    · cases hr
    · cases hr

end AdvAux

open AdvAux

/-! ## C33 -/

/-- C33. After every history of events since `Scan`, each advertisement (event types 0 to 3) whose data the parser accepts is handed to the application, with its own data and no scan response. -/
theorem advertisement_seen (es : List Bytes) (s : Scan) (as : List Adv) (h : run started es = .ok (s, as)) (r : Report) (hr : r.Ok)
    (ht : r.evType = 0x00 ∨ r.evType = 0x01 ∨ r.evType = 0x02 ∨ r.evType = 0x03) (p : Packet) (hp : newRawPacket [r.data] = .ok p) :
    ∃ s', handle s (encodeRows [r]) = .ok ⟨s', some ⟨encodeRows [r], none, p⟩, false⟩ := by
  obtain ⟨h1, h2, h3, h4, h5, h6, h7⟩ := single_report_fields r hr
  have hnew : newAdv (encodeRows [r]) = .ok ⟨encodeRows [r], none, p⟩ := (newAdv_ok_iff ..).2 ⟨_, p, h6, hp, rfl⟩
  obtain ⟨⟨log, hinv, -⟩, -⟩ := run_inv es started [] Inv_started s as h
  unfold handle
  simp only [h1, h2, hnew]
  by_cases ht2 : r.evType = 0x00 ∨ r.evType = 0x02
  · obtain ⟨s', hs', -⟩ := Inv_remember hinv ⟨encodeRows [r], none, p⟩ ⟨h1, by rw [h2]; rcases ht2 with ht2 | ht2 <;> simp [ht2], _, p, h6, hp⟩
    exact ⟨s', by simp [ht2, hs']⟩
  · have ht3 : r.evType = 0x01 ∨ r.evType = 0x03 := by rcases ht with h | h | h | h <;> simp_all
    exact ⟨s, by rcases ht3 with ht3 | ht3 <;> simp [ht3]⟩

/-- **C33, the part that holds.** Missing: events with several reports and data the parser rejects, which are dropped (`multi_report_event_dropped`, `unparseable_advertisement_dropped`). -/
theorem advertisement_seen_partial (es : List Bytes) (s : Scan) (as : List Adv) (h : run started es = .ok (s, as)) (r : Report) (hr : r.Ok)
    (ht : r.evType = 0x00 ∨ r.evType = 0x01 ∨ r.evType = 0x02 ∨ r.evType = 0x03) (p : Packet) (hp : newRawPacket [r.data] = .ok p) :
    ∃ s', handle s (encodeRows [r]) = .ok ⟨s', some ⟨encodeRows [r], none, p⟩, false⟩ :=
  advertisement_seen es s as h r hr ht p hp

/-- C33. After every history of events since `Scan`, a scan response is attached to the newest of the 127 latest remembered advertisements with its address: the application gets that
advertisement, with this scan response and the data of both. -/
theorem scan_response_paired (es : List Bytes) (s : Scan) (as : List Adv) (h : run started es = .ok (s, as)) (r : Report) (hr : r.Ok) (ht : r.evType = 0x04) (p : Packet)
    (hp : newRawPacket [r.data] = .ok p) (x : Bytes) (hx : NewestWith es r.addr x) (d : Bytes) (hd : data x 0 = .ok d) (q : Packet) (hq : newRawPacket [d, r.data] = .ok q) :
    ∃ s', handle s (encodeRows [r]) = .ok ⟨s', some ⟨x, some (encodeRows [r]), q⟩, false⟩ := by
  obtain ⟨h1, h2, h3, h4, h5, h6, h7⟩ := single_report_fields r hr
  obtain ⟨⟨log, hinv, hlog⟩, -⟩ := run_inv es started [] Inv_started s as h
  simp only [List.map_nil, List.append_nil] at hlog
  obtain ⟨k, hk, hxk, hxa, hmin⟩ := hx
  rw [← hlog, List.getElem?_map] at hxk
  have hhandle : handle s (encodeRows [r]) = handleScanRsp s (encodeRows [r]) := by
    unfold handle; simp [h1, h2, ht]
  rw [hhandle]
  rcases scanRsp_spec hinv _ _ p r.addr h1 h6 hp h4 with ⟨k', a, hk', hka, haa, hmin', hh⟩ | ⟨hnone, -⟩
  · have hkk : k' = k := by
      rcases Nat.lt_trichotomy k' k with hlt | heq | hgt
      · exact absurd haa (hmin k' a.e hlt (by rw [← hlog, List.getElem?_map, hka]; rfl))
      · exact heq
      · cases hl : log[k]? with
        | none => rw [hl] at hxk; cases hxk
        | some b =>
          rw [hl] at hxk
          injection hxk with hxk
          exact absurd (by rw [show b.e = x from hxk]; exact hxa) (hmin' k b hgt hl)
    subst hkk
    rw [hka] at hxk
    injection hxk with hxk
    simp only at hxk
    subst hxk
    rw [hh, (setScanResponse_ok_iff a ⟨encodeRows [r], none, p⟩ ⟨a.e, some (encodeRows [r]), q⟩).2 ⟨d, r.data, q, hd, h6, hq, rfl⟩]
    exact ⟨_, rfl⟩
  · cases hl : log[k]? with
    | none => rw [hl] at hxk; cases hxk
    | some b =>
      rw [hl] at hxk
      injection hxk with hxk
      exact absurd (by rw [show b.e = x from hxk]; exact hxa) (hnone k b hk hl)

/-- C33. If none of the 127 latest remembered advertisements has its address, a scan response is not handed out, an error is reported, and nothing changes. -/
theorem scan_response_unpaired (es : List Bytes) (s : Scan) (as : List Adv) (h : run started es = .ok (s, as)) (r : Report) (hr : r.Ok) (ht : r.evType = 0x04) (p : Packet)
    (hp : newRawPacket [r.data] = .ok p) (hx : NoneWith es r.addr) : handle s (encodeRows [r]) = .ok ⟨s, none, true⟩ := by
  obtain ⟨h1, h2, h3, h4, h5, h6, h7⟩ := single_report_fields r hr
  obtain ⟨⟨log, hinv, hlog⟩, -⟩ := run_inv es started [] Inv_started s as h
  simp only [List.map_nil, List.append_nil] at hlog
  have hhandle : handle s (encodeRows [r]) = handleScanRsp s (encodeRows [r]) := by
    unfold handle; simp [h1, h2, ht]
  rw [hhandle]
  rcases scanRsp_spec hinv _ _ p r.addr h1 h6 hp h4 with ⟨k', a, hk', hka, haa, -, -⟩ | ⟨-, hh⟩
  · exact absurd haa (hx k' a.e hk' (by rw [← hlog, List.getElem?_map, hka]; rfl))
  · exact hh

/-- C33. In every history, whatever the events contain, an advertisement handed to the application has a scan response only if that was received as scan response in an event with the same
address; otherwise it is one of the received events by itself. -/
theorem no_foreign_scan_response (es : List Bytes) (s : Scan) (as : List Adv) (h : run started es = .ok (s, as)) (a : Adv) (ha : a ∈ as) :
    (a.e ∈ es ∧ a.sr = none) ∨ ∃ r ∈ es, a.sr = some r ∧ eventType r 0 = .ok 0x04 ∧ Remembered a.e ∧ ∃ b, address a.e 0 = .ok b ∧ address r 0 = .ok b :=
  (run_inv es started [] Inv_started s as h).2 a ha

/-- C33. A sequence of acceptable advertisements, of any length, reaches the application complete and in order. -/
theorem advertisements_in_order (rs : List Report) (hok : ∀ r ∈ rs, r.Ok ∧ (r.evType = 0x00 ∨ r.evType = 0x01 ∨ r.evType = 0x02 ∨ r.evType = 0x03) ∧ ∃ p, newRawPacket [r.data] = .ok p) :
    ∃ s as, run started (rs.map fun r => encodeRows [r]) = .ok (s, as) ∧ as.map (·.e) = rs.map (fun r => encodeRows [r]) ∧ as.all (·.sr.isNone) = true := by
  have key : ∀ (rs : List Report) (s : Scan) (log : List Adv), Inv s log →
      (∀ r ∈ rs, r.Ok ∧ (r.evType = 0x00 ∨ r.evType = 0x01 ∨ r.evType = 0x02 ∨ r.evType = 0x03) ∧ ∃ p, newRawPacket [r.data] = .ok p) →
      ∃ s' as, run s (rs.map fun r => encodeRows [r]) = .ok (s', as) ∧ as.map (·.e) = rs.map (fun r => encodeRows [r]) ∧ as.all (·.sr.isNone) = true := by
    intro rs
    induction rs with
    | nil => intro s log _ _; exact ⟨s, [], rfl, rfl, rfl⟩
    | cons r rs ih =>
      intro s log hinv hok
      obtain ⟨hr, ht, p, hp⟩ := hok r (by simp)
      obtain ⟨h1, h2, h3, h4, h5, h6, h7⟩ := single_report_fields r hr
      have hnew : newAdv (encodeRows [r]) = .ok ⟨encodeRows [r], none, p⟩ := (newAdv_ok_iff ..).2 ⟨_, p, h6, hp, rfl⟩
      have hh : ∃ s', handle s (encodeRows [r]) = .ok ⟨s', some ⟨encodeRows [r], none, p⟩, false⟩ := by
        unfold handle
        simp only [h1, h2, hnew]
        by_cases ht2 : r.evType = 0x00 ∨ r.evType = 0x02
        · obtain ⟨s', hs', -⟩ := Inv_remember hinv ⟨encodeRows [r], none, p⟩ ⟨h1, by rw [h2]; rcases ht2 with ht2 | ht2 <;> simp [ht2], _, p, h6, hp⟩
          exact ⟨s', by simp [ht2, hs']⟩
        · have ht3 : r.evType = 0x01 ∨ r.evType = 0x03 := by rcases ht with h | h | h | h <;> simp_all
          exact ⟨s, by rcases ht3 with ht3 | ht3 <;> simp [ht3]⟩
      obtain ⟨s1, hs1⟩ := hh
      obtain ⟨⟨log1, hinv1, -⟩, -⟩ := handle_inv hinv _ _ hs1
      obtain ⟨s2, as, hrun, h8, h9⟩ := ih s1 log1 hinv1 fun q hq => hok q (by simp [hq])
      refine ⟨s2, ⟨encodeRows [r], none, p⟩ :: as, ?_, by simp [h8], by simpa using h9⟩
      simp only [List.map_cons, run, hs1, hrun]
      simp
  exact key rs started [] Inv_started hok

/-- Events with another number of reports than one are dropped, with an error, whatever they announce. -/
theorem multi_report_event_dropped (s : Scan) (rs : List Report) (hn : rs.length < 256) (h : rs.length ≠ 1) : handle s (encodeRows rs) = .ok ⟨s, none, true⟩ := by
  have : numReports (encodeRows rs) = .ok rs.length := by
    refine (EvtAux.numReports_ok_iff ..).2 ⟨UInt8.ofNat rs.length, by simp [encodeRows], ?_⟩
    simp [UInt8.toNat_ofNat']; omega
  unfold handle
  simp [this, h]

/-- An advertisement in whose data the parser finds nothing before its first error is dropped. -/
theorem unparseable_advertisement_dropped (s : Scan) (r : Report) (hr : r.Ok) (x : AdErr) (hp : newRawPacket [r.data] = .err x) :
    handle s (encodeRows [r]) = .ok ⟨s, none, true⟩ := by
  obtain ⟨h1, h2, h3, h4, h5, h6, h7⟩ := single_report_fields r hr
  have hne : newAdv (encodeRows [r]) = .err () := by unfold newAdv; simp [h6, hp]
  unfold handle
  simp only [h1, h2, hne, handleScanRsp]
  simp

/-- The 128th latest advertisement is remembered but not searched: after 128 advertisements of different addresses the scan response of the first is dropped. -/
theorem oldest_remembered_not_searched (rs : List Report) (hl : rs.length = 128) (hok : ∀ r ∈ rs, r.Ok ∧ r.evType = 0x00 ∧ ∃ p, newRawPacket [r.data] = .ok p)
    (hd : (rs.map (·.addr)).Nodup) (s : Scan) (as : List Adv) (h : run started (rs.map fun r => encodeRows [r]) = .ok (s, as)) (r : Report) (hr : r.Ok) (ht : r.evType = 0x04) (p : Packet)
    (hp : newRawPacket [r.data] = .ok p) (ha : some r.addr = (rs.map (·.addr))[0]?) : handle s (encodeRows [r]) = .ok ⟨s, none, true⟩ := by
  refine scan_response_unpaired _ s as h r hr ht p hp ?_
  have hrem : ∀ e ∈ rs.map (fun r => encodeRows [r]), Remembered e := by
    intro e he
    obtain ⟨q, hq, rfl⟩ := List.mem_map.1 he
    obtain ⟨h1, h2, p', h3⟩ := hok q hq
    obtain ⟨f1, f2, -, -, -, f6, -⟩ := single_report_fields q h1
    exact ⟨f1, Or.inl (by rw [f2, h2]), _, p', f6, h3⟩
  have hev : rememberedEvents (rs.map fun r => encodeRows [r]) = (rs.map fun r => encodeRows [r]).reverse := by
    unfold rememberedEvents
    rw [List.filter_eq_self.2 (fun e he => by simpa using hrem e he)]
  intro k x hk hx haddr
  rw [hev, List.getElem?_reverse (by simp; omega), List.getElem?_map] at hx
  simp only [List.length_map, hl] at hx
  have hlt : 128 - 1 - k < rs.length := by omega
  rw [List.getElem?_eq_getElem hlt] at hx
  simp only [Option.map_some, Option.some.injEq] at hx
  subst hx
  obtain ⟨-, -, -, f4, -⟩ := single_report_fields _ (hok _ (List.getElem_mem hlt)).1
  rw [f4] at haddr
  injection haddr with haddr
  rw [List.getElem?_map, List.getElem?_eq_getElem (by omega)] at ha
  simp only [Option.map_some, Option.some.injEq] at ha
  have := (List.getElem_inj (i := 128 - 1 - k) (j := 0) (h₀ := by simpa using hlt) (h₁ := by simp; omega) hd).1 (by simp only [List.getElem_map]; rw [haddr, ha])
  omega

/-- C32. After every history since `Scan`, an event crashes the host exactly when it carries one report of type 0 to 4 whose data makes the advertising parser panic, by itself or, for a scan
response, together with the data of the advertisement it belongs to. -/
theorem advertising_panics_iff (es : List Bytes) (s : Scan) (as : List Adv) (h : run started es = .ok (s, as)) (e : Bytes) :
    handle s e = .panic ↔ numReports e = .ok 1 ∧ ∃ t d, eventType e 0 = .ok t ∧ t.toNat ≤ 4 ∧ data e 0 = .ok d ∧
      (newRawPacket [d] = .panic ∨ (t = 0x04 ∧ (∃ p, newRawPacket [d] = .ok p) ∧ ∃ addr x dx, address e 0 = .ok addr ∧ NewestWith es addr x ∧ data x 0 = .ok dx ∧ newRawPacket [dx, d] = .panic)) := by
  obtain ⟨⟨log, hinv, hlog⟩, -⟩ := run_inv es started [] Inv_started s as h
  simp only [List.map_nil, List.append_nil] at hlog
  -- newAdv
  have hnewpanic : newAdv e = .panic ↔ ∃ d, data e 0 = .ok d ∧ newRawPacket [d] = .panic := by
    unfold newAdv
    have hd := (report_accessors_no_panic e 0 (by omega)).2.2.2.2.2.1
    cases hdd : data e 0 with
    | panic => rw [hdd] at hd; cases hd
    | err x => simp
    | ok d =>
      simp only [Go.ok.injEq, exists_eq_left']
      cases newRawPacket [d] <;> simp
  -- the scan response case
  have hsr : numReports e = .ok 1 → eventType e 0 = .ok 0x04 → (handleScanRsp s e = .panic ↔ ∃ d, data e 0 = .ok d ∧
      (newRawPacket [d] = .panic ∨ ((∃ p, newRawPacket [d] = .ok p) ∧ ∃ addr x dx, address e 0 = .ok addr ∧ NewestWith es addr x ∧ data x 0 = .ok dx ∧ newRawPacket [dx, d] = .panic))) := by
    intro hn _
    cases hne : newAdv e with
    | panic =>
      obtain ⟨d, hd, hp⟩ := hnewpanic.1 hne
      constructor
      · intro _; exact ⟨d, hd, Or.inl hp⟩
      · intro _; simp [handleScanRsp, hne]
    | err x =>
      have h1 : handleScanRsp s e ≠ .panic := by simp [handleScanRsp, hne]
      refine ⟨fun h => absurd h h1, ?_⟩
      rintro ⟨d, hd, hp | ⟨⟨p, hp⟩, -⟩⟩
      · rw [hnewpanic.2 ⟨d, hd, hp⟩] at hne; cases hne
      · exact absurd ⟨d, p, hd, hp⟩ (newAdv_err e x hne)
    | ok sr =>
      obtain ⟨d, p, hd, hp, rfl⟩ := (newAdv_ok_iff ..).1 hne
      obtain ⟨addr, t, hb, -, -, -⟩ := addr_ok e d hn hd
      rcases scanRsp_spec hinv e d p addr hn hd hp hb with ⟨k, a, hk, hka, haa, hmin, hh⟩ | ⟨hnone, hh⟩
      · obtain ⟨-, -, da, pa, hda, -⟩ := hinv.good a (List.mem_of_getElem? hka)
        have hset : setScanResponse a ⟨e, none, p⟩ = .panic ↔ newRawPacket [da, d] = .panic := by
          unfold setScanResponse
          simp only [hda, hd]
          cases newRawPacket [da, d] <;> simp
        have hnw : NewestWith es addr a.e := by
          refine ⟨k, hk, by rw [← hlog, List.getElem?_map, hka]; rfl, haa, fun j y hj hy => ?_⟩
          rw [← hlog, List.getElem?_map] at hy
          cases hlj : log[j]? with
          | none => rw [hlj] at hy; cases hy
          | some b =>
            rw [hlj] at hy; injection hy with hy
            rw [← hy]; exact hmin j b hj hlj
        rw [hh]
        constructor
        · intro hpan
          have : setScanResponse a ⟨e, none, p⟩ = .panic := by
            cases hs : setScanResponse a ⟨e, none, p⟩ with
            | panic => rfl
            | ok a' => rw [hs] at hpan; cases hpan
            | err x => rw [hs] at hpan; cases hpan
          exact ⟨d, hd, Or.inr ⟨⟨p, hp⟩, addr, a.e, da, hb, hnw, hda, hset.1 this⟩⟩
        · rintro ⟨d', hd', hp' | ⟨-, addr', x, dx, hb', hx, hdx, hpp⟩⟩
          · rw [hd] at hd'; injection hd' with hd'; subst hd'; rw [hp] at hp'; cases hp'
          · rw [hd] at hd'; injection hd' with hd'; subst hd'
            rw [hb] at hb'; injection hb' with hb'; subst hb'
            -- the newest one is unique
            obtain ⟨k', hk', hxk', hxa', hmin'⟩ := hx
            have hxe : x = a.e := by
              have h1 : (rememberedEvents es)[k]? = some a.e := by rw [← hlog, List.getElem?_map, hka]; rfl
              rcases Nat.lt_trichotomy k' k with hlt | heq | hgt
              · obtain ⟨k2, -, hk2, hk3, hmin2⟩ := hnw
                rw [← hlog, List.getElem?_map] at hxk'
                cases hlk : log[k']? with
                | none => rw [hlk] at hxk'; cases hxk'
                | some b =>
                  rw [hlk] at hxk'; injection hxk' with hxk'
                  exact absurd (by rw [show b.e = x from hxk']; exact hxa') (hmin k' b hlt hlk)
              · subst heq; rw [h1] at hxk'; injection hxk' with hxk'; exact hxk'.symm
              · exact absurd haa (hmin' k a.e hgt h1)
            subst hxe
            rw [hda] at hdx; injection hdx with hdx; subst hdx
            rw [hset.2 hpp]
      · rw [hh]
        refine ⟨fun h => (by cases h), ?_⟩
        rintro ⟨d', hd', hp' | ⟨-, addr', x, dx, hb', ⟨k, hk, hxk, hxa, -⟩, hdx, hpp⟩⟩
        · rw [hd] at hd'; injection hd' with hd'; subst hd'; rw [hp] at hp'; cases hp'
        · rw [hb] at hb'; injection hb' with hb'; subst hb'
          rw [← hlog, List.getElem?_map] at hxk
          cases hlk : log[k]? with
          | none => rw [hlk] at hxk; cases hxk
          | some b =>
            rw [hlk] at hxk; injection hxk with hxk
            exact absurd (by rw [show b.e = x from hxk]; exact hxa) (hnone k b hk hlk)
  -- the whole handler
  unfold handle
  have hnr := (report_accessors_no_panic e 0 (by omega)).1
  have het := (report_accessors_no_panic e 0 (by omega)).2.1
  cases hn : numReports e with
  | panic => rw [hn] at hnr; cases hnr
  | err x => simp
  | ok nr =>
    by_cases h1 : nr = 1
    · subst h1
      cases ht : eventType e 0 with
      | panic => rw [ht] at het; cases het
      | err x => simp
      | ok t =>
        have hR : ∀ (X : UInt8 → Bytes → Prop), (∃ t' d, (Go.ok t : Go Unit UInt8) = .ok t' ∧ X t' d) ↔ ∃ d, X t d := by
          intro X
          constructor
          · rintro ⟨t', d, h, hx⟩; injection h with h; subst h; exact ⟨d, hx⟩
          · rintro ⟨d, hx⟩; exact ⟨t, d, rfl, hx⟩
        rw [hR]
        simp only [ne_eq, not_true_eq_false, if_false, true_and]
        by_cases ht0 : t = 0x00 ∨ t = 0x02
        · rw [if_pos ht0]
          have ht4 : t ≠ 0x04 := by rcases ht0 with rfl | rfl <;> decide
          have htl : t.toNat ≤ 4 := by rcases ht0 with rfl | rfl <;> decide
          simp only [htl, ht4, true_and, false_and, or_false, eq_self]
          rw [← hnewpanic]
          cases hne : newAdv e with
          | panic => simp
          | err x => simp
          | ok a =>
            obtain ⟨d, p, hd, hp, rfl⟩ := (newAdv_ok_iff ..).1 hne
            obtain ⟨s', hs', -⟩ := Inv_remember hinv ⟨e, none, p⟩ ⟨hn, ht0.elim (fun h => Or.inl (h ▸ ht)) (fun h => Or.inr (h ▸ ht)), d, p, hd, hp⟩
            simp [hs']
        · rw [if_neg ht0]
          by_cases ht4 : t = 0x04
          · subst ht4
            rw [if_pos rfl, hsr hn ht]
            simp
          · rw [if_neg ht4]
            by_cases ht1 : t = 0x01 ∨ t = 0x03
            · rw [if_pos ht1]
              have htl : t.toNat ≤ 4 := by rcases ht1 with rfl | rfl <;> decide
              simp only [htl, ht4, true_and, false_and, or_false, eq_self]
              rw [← hnewpanic]
              cases hne : newAdv e <;> simp
            · rw [if_neg ht1]
              have htl : ¬ t.toNat ≤ 4 := by
                intro hle
                have : t.toNat = 0 ∨ t.toNat = 1 ∨ t.toNat = 2 ∨ t.toNat = 3 ∨ t.toNat = 4 := by omega
                rcases this with h | h | h | h | h
                · exact ht0 (Or.inl (UInt8.toNat_inj.1 h))
                · exact ht1 (Or.inl (UInt8.toNat_inj.1 h))
                · exact ht0 (Or.inr (UInt8.toNat_inj.1 h))
                · exact ht1 (Or.inr (UInt8.toNat_inj.1 h))
                · exact ht4 (UInt8.toNat_inj.1 h)
              simp [htl]
    · simp [h1]

/-- C32. A report that arrives while a handler is set but before the first `Scan` crashes the host, if it would be remembered. -/
theorem report_before_scan_crashes (e : Bytes) (h : Remembered e) : handle initial e = .panic := by
  obtain ⟨h1, h2, d, p, h3, h4⟩ := h
  unfold handle
  rcases h2 with h2 | h2 <;> simp [h1, h2, (newAdv_ok_iff e _).2 ⟨d, p, h3, h4, rfl⟩, remember, initial]

/-- C32 and C33: two reports of one device on the air crash the host: an advertisement with manufacturer data and a scan response with a one-byte manufacturer record. -/
theorem advertising_pair_crashes (a : Bytes) (ha : a.length = 6) (t u : UInt8) :
    run started [encodeRows [⟨0x00, t, a, [4, 0xFF, 0x4C, 0, 1], 0⟩], encodeRows [⟨0x04, u, a, [2, 0xFF, 7], 0⟩]] = .panic := by
  obtain ⟨⟨m1, hm1⟩, ⟨m2, hm2⟩, hpan⟩ := parser_panics_on_radio_input
  have p1 : newRawPacket [[4, 0xFF, 0x4C, 0, 1]] = .ok { b := [4, 0xFF, 0x4C, 0, 1], m := some m1 } := by simp [newRawPacket, hm1]
  have p2 : newRawPacket [[2, 0xFF, 7]] = .ok { b := [2, 0xFF, 7], m := some m2 } := by simp [newRawPacket, hm2]
  obtain ⟨f1, f2, -, f4, -, f6, -⟩ := single_report_fields ⟨0x00, t, a, [4, 0xFF, 0x4C, 0, 1], 0⟩ ⟨ha, by simp⟩
  obtain ⟨g1, g2, -, g4, -, g6, -⟩ := single_report_fields ⟨0x04, u, a, [2, 0xFF, 7], 0⟩ ⟨ha, by simp⟩
  generalize encodeRows [⟨0x00, t, a, [4, 0xFF, 0x4C, 0, 1], 0⟩] = e at *
  generalize encodeRows [⟨0x04, u, a, [2, 0xFF, 7], 0⟩] = e' at *
  have hrem : Remembered e := ⟨f1, Or.inl f2, _, _, f6, p1⟩
  obtain ⟨s', hs', hinv⟩ := Inv_remember Inv_started ⟨e, none, { b := [4, 0xFF, 0x4C, 0, 1], m := some m1 }⟩ hrem
  have h1 : handle started e = .ok ⟨s', some ⟨e, none, { b := [4, 0xFF, 0x4C, 0, 1], m := some m1 }⟩, false⟩ := by
    unfold handle
    simp only [f1, f2, (newAdv_ok_iff e _).2 ⟨_, _, f6, p1, rfl⟩, hs']
    simp
  have h2 : handle s' e' = .panic := by
    have : handle s' e' = handleScanRsp s' e' := by unfold handle; simp [g1, g2]
    rw [this]
    rcases scanRsp_spec hinv e' _ _ a g1 g6 p2 g4 with ⟨k, x, hk, hkx, -, -, hh⟩ | ⟨hnone, -⟩
    · rw [hh]
      have hx : x = ⟨e, none, { b := [4, 0xFF, 0x4C, 0, 1], m := some m1 }⟩ := by
        cases k with
        | zero => simp at hkx; exact hkx.symm
        | succ k => simp at hkx
      subst hx
      have : setScanResponse ⟨e, none, { b := [4, 0xFF, 0x4C, 0, 1], m := some m1 }⟩ ⟨e', none, { b := [2, 0xFF, 7], m := some m2 }⟩ = .panic := by
        unfold setScanResponse
        simp only [f6, g6, hpan]
      rw [this]
    · exact absurd f4 (hnone 0 ⟨e, none, _⟩ (by omega) rfl)
  simp only [run, h1, h2]

namespace AdvAux

theorem run_single (q : Report) (hq : q.Ok) (ht : q.evType = 0x00) (p : Packet) (hp : newRawPacket [q.data] = .ok p) :
    ∃ s, run started [encodeRows [q]] = .ok (s, [⟨encodeRows [q], none, p⟩]) ∧ rememberedEvents [encodeRows [q]] = [encodeRows [q]] := by
  obtain ⟨f1, f2, -, -, -, f6, -⟩ := single_report_fields q hq
  obtain ⟨s, hs⟩ := advertisement_seen [] started [] rfl q hq (Or.inl ht) p hp
  refine ⟨s, by simp [run, hs], ?_⟩
  rw [(remembered_cons _ _).1 ⟨f1, Or.inl (by rw [f2, ht]), _, p, f6, hp⟩]
  simp [rememberedEvents]

end AdvAux

/-- The type of the address is not compared: after an advertisement from an address of type `t`, a scan response from the same six bytes as address of another type `u` (public and random, say:
a different device) is attached to it. -/
theorem address_type_not_compared (a : Bytes) (ha : a.length = 6) (t u : UInt8) :
    ∃ s s' q as, run started [encodeRows [⟨0x00, t, a, [2, 1, 6], 0⟩]] = .ok (s, as) ∧
      handle s (encodeRows [⟨0x04, u, a, [2, 9, 65], 0⟩]) = .ok ⟨s', some ⟨encodeRows [⟨0x00, t, a, [2, 1, 6], 0⟩], some (encodeRows [⟨0x04, u, a, [2, 9, 65], 0⟩]), q⟩, false⟩ := by
  have hok : (⟨0x00, t, a, [2, 1, 6], 0⟩ : Report).Ok := ⟨ha, by simp⟩
  have hok' : (⟨0x04, u, a, [2, 9, 65], 0⟩ : Report).Ok := ⟨ha, by simp⟩
  have h1 : ∃ p, newRawPacket [[2, 1, 6]] = .ok p := ⟨_, by simp [newRawPacket, adParse, adParseLoop, slice, adRecord, pduDecode, writeOrAppend, Go.bind]; rfl⟩
  have h2 : ∃ p, newRawPacket [[2, 9, 65]] = .ok p := ⟨_, by simp [newRawPacket, adParse, adParseLoop, slice, adRecord, pduDecode, writeOrAppend, Go.bind]; rfl⟩
  have h3 : ∃ p, newRawPacket [[2, 1, 6], [2, 9, 65]] = .ok p := ⟨_, by simp [newRawPacket, adParse, adParseLoop, slice, adRecord, pduDecode, writeOrAppend, Go.bind]; rfl⟩
  obtain ⟨p, hp⟩ := h1
  obtain ⟨p', hp'⟩ := h2
  obtain ⟨q, hq⟩ := h3
  obtain ⟨s, hs, hrem⟩ := run_single _ hok rfl p hp
  obtain ⟨-, -, -, f4, -, f6, -⟩ := single_report_fields _ hok
  obtain ⟨s', hs'⟩ := scan_response_paired _ s _ hs _ hok' rfl p' hp' (encodeRows [⟨0x00, t, a, [2, 1, 6], 0⟩]) ⟨0, by omega, by rw [hrem]; rfl, f4, fun j y hj => by omega⟩ _ f6 q hq
  exact ⟨s, s', q, _, hs, hs'⟩

/-! ## Reading an advertisement -/

/-- The accessors of an advertisement made of a report return the report's fields: whether it is connectable (event types 0 and 1), signal strength, data, address (most significant byte
first, random if the type is 1) and, after pairing, the scan response's data. -/
theorem advertisement_fields (r : Report) (hr : r.Ok) (a : Adv) (he : a.e = encodeRows [r]) :
    (a.connectable = true ↔ r.evType = 0 ∨ r.evType = 1) ∧ a.rssi = int8 r.rssi ∧ a.data = r.data ∧ a.addr = some (r.addr.reverse, decide (r.addrType = 1)) ∧
    (∀ r', r'.Ok → a.sr = some (encodeRows [r']) → a.scanResponse = some r'.data) ∧ (a.sr = none → a.scanResponse = none) := by
  obtain ⟨f1, f2, f3, f4, f5, f6, f7⟩ := single_report_fields r hr
  refine ⟨?_, ?_, ?_, ?_, ?_, ?_⟩
  · simp [Adv.connectable, he, f2, Or.comm]
  · simp [Adv.rssi, he, f7]
  · simp [Adv.data, he, f6]
  · simp [Adv.addr, he, f3, f4]
  · intro r' hr' hs
    obtain ⟨-, -, -, -, -, g6, -⟩ := single_report_fields r' hr'
    simp [Adv.scanResponse, hs, g6]
  · intro h; simp [Adv.scanResponse, h]

/-- `int8` is the two's complement value of the byte. -/
theorem int8_spec (x : UInt8) : -128 ≤ int8 x ∧ int8 x < 128 ∧ (int8 x) % 256 = x.toNat := by
  have := x.toNat_lt
  unfold int8; split <;> omega

/-- `SrData` does not return the scan response's data but the advertisement's. -/
theorem srData_is_advertisement_data (r r' : Report) (hr : r.Ok) (a : Adv) (he : a.e = encodeRows [r]) (hs : a.sr = some (encodeRows [r'])) : a.srData = some r.data := by
  obtain ⟨-, -, -, -, -, f6, -⟩ := single_report_fields r hr
  simp [Adv.srData, Adv.data, hs, he, f6]

/-! ## The hypotheses are met -/

set_option maxRecDepth 100000 in
/-- 128 advertisements of different addresses, and a scan response of the first. -/
example : let rs : List Report := (List.range 128).map fun k => ⟨0x00, 0, [UInt8.ofNat k, 0, 0, 0, 0, 0], [], 0⟩
    ∃ s as, run started (rs.map fun r => encodeRows [r]) = .ok (s, as) ∧ as.length = 128 ∧ handle s (encodeRows [⟨0x04, 0, [0, 0, 0, 0, 0, 0], [], 0⟩]) = .ok ⟨s, none, true⟩ := by
  intro rs
  have hp : newRawPacket [[]] = .ok { b := [], m := none } := by simp [newRawPacket, adParse]
  have hok : ∀ r ∈ rs, r.Ok ∧ r.evType = 0x00 ∧ ∃ p, newRawPacket [r.data] = .ok p := by
    intro r hr
    obtain ⟨k, -, rfl⟩ := List.mem_map.1 hr
    exact ⟨⟨rfl, by simp⟩, rfl, _, hp⟩
  obtain ⟨s, as, hrun, has, -⟩ := advertisements_in_order rs fun r hr => ⟨(hok r hr).1, Or.inl (hok r hr).2.1, (hok r hr).2.2⟩
  refine ⟨s, as, hrun, ?_, ?_⟩
  · have := congrArg List.length has
    simpa [rs] using this
  · exact oldest_remembered_not_searched rs (by simp [rs]) hok (by decide) s as hrun _ ⟨rfl, by simp⟩ rfl _ hp (by decide)

end Ble.Props
