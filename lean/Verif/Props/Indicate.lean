import Verif.Att.Indicate
import Verif.Props.AttWrite
set_option autoImplicit false

/-! # C60: indications are confirmed -/

namespace Ble.Props.IndAux
open Ble.Ind

/-- Number of confirmations on their way to the reader. -/
def confirms (l : List In) : Nat := l.countP (· == .confirm)

/-- Number of calls that succeeded. -/
def oks (l : List (Nat × Res)) : Nat := l.countP (·.2 == .ok)

theorem confirms_append (l : List In) (b : In) : confirms (l ++ [b]) = confirms l + if b = .confirm then 1 else 0 := by
  cases b <;> simp [confirms, List.countP_append, List.countP_cons]

theorem confirms_cons (l : List In) (b : In) : confirms (b :: l) = confirms l + if b = .confirm then 1 else 0 := by
  cases b <;> simp [confirms, List.countP_cons]

theorem oks_append (l : List (Nat × Res)) (x : Nat × Res) : oks (l ++ [x]) = oks l + if x.2 = .ok then 1 else 0 := by
  obtain ⟨i, r⟩ := x
  cases r <;> simp [oks, List.countP_append, List.countP_cons]

/-- The state of the buffers and numbers. -/
structure Basic (s : St) : Prop where
  buf : s.indBuf = none ↔ s.ind ≠ none
  nbuf : s.notBuf = none ↔ s.ntf ≠ none
  cur : ∀ c, s.ind = some c → c.id + 1 = s.calls
  res : ∀ x ∈ s.results, x.1 < s.calls ∧ ∀ c, s.ind = some c → x.1 < c.id
  oks : oks s.results + confirms s.inq ≤ s.confirmed.length

theorem basic_step {s t : St} {e : Ev} (h : Basic s) (hs : step s e = some t) : Basic t := by
  obtain ⟨h1, h2, h3, h4, h5⟩ := h
  cases e <;> simp only [step] at hs
  case read =>
    split at hs
    · cases hs
    · rename_i rest hq
      rw [hq, confirms_cons] at h5
      split at hs
      · split at hs
        · injection hs with hs; subst hs
          refine ⟨by simp, h2, by simp, ?_, ?_⟩
          · intro x hx
            rcases List.mem_append.1 hx with hx | hx
            · exact ⟨(h4 x hx).1, by simp⟩
            · simp at hx; subst hx; rename_i c hc _; have := h3 c hc; exact ⟨by simp; omega, by simp⟩
          · simp only [oks_append]; simp at h5 ⊢; omega
        · injection hs with hs; subst hs
          exact ⟨h1, h2, h3, h4, by simp at h5 ⊢; omega⟩
      · injection hs with hs; subst hs
        exact ⟨h1, h2, h3, h4, by simp at h5 ⊢; omega⟩
    · rename_i b rest hb hq
      rw [hq, confirms_cons] at h5
      split at hs
      · split at hs
        · split at hs <;> (injection hs with hs; subst hs; exact ⟨h1, h2, h3, h4, by simp at h5 ⊢; omega⟩)
        · injection hs with hs; subst hs; exact ⟨h1, h2, h3, h4, by simp at h5 ⊢; omega⟩
        · injection hs with hs; subst hs; exact ⟨h1, h2, h3, h4, by simp at h5 ⊢; omega⟩
      · cases hs
  case indTimeout =>
    split at hs
    · split at hs
      · injection hs with hs; subst hs
        refine ⟨by simp, h2, by simp, ?_, by simpa [oks_append] using h5⟩
        intro x hx
        rcases List.mem_append.1 hx with hx | hx
        · exact ⟨(h4 x hx).1, by simp⟩
        · simp at hx; subst hx; rename_i c hc _; have := h3 c hc; exact ⟨by simp; omega, by simp⟩
      · cases hs
    · cases hs
  case peerConfirm =>
    split at hs
    · injection hs with hs; subst hs
      exact ⟨h1, h2, h3, h4, by simp [confirms_append]; omega⟩
    · cases hs
  case peerSend b =>
    split at hs
    · cases hs
    · injection hs with hs; subst hs
      rename_i hb
      exact ⟨h1, h2, h3, h4, by simp [confirms_append, hb]; omega⟩
  case mainStep =>
    split at hs
    · cases hs
    · split at hs
      · injection hs with hs; subst hs; rename_i hn; exact ⟨h1, by simp [hn] at h2 ⊢; exact h2, h3, h4, h5⟩
      · cases hs
    · split at hs
      · injection hs with hs; subst hs; rename_i hn; exact ⟨by simp [hn] at h1 ⊢; exact h1, h2, h3, h4, h5⟩
      · cases hs
    · injection hs with hs; subst hs; exact ⟨h1, h2, h3, h4, h5⟩
  case notifyTake hh data =>
    split at hs
    · injection hs with hs; subst hs; exact ⟨h1, by simp, h3, h4, h5⟩
    · cases hs
  case notifyWrite =>
    split at hs
    · injection hs with hs; subst hs; exact ⟨h1, by simp, h3, h4, h5⟩
    · cases hs
  case indTake hh data =>
    split at hs
    · rename_i n hn
      injection hs with hs; subst hs
      refine ⟨by simp, h2, by simp, ?_, h5⟩
      intro x hx
      have := (h4 x hx).1
      exact ⟨by simp; omega, fun c hc => by simp at hc; subst hc; exact this⟩
    · cases hs
  case indWrite =>
    split at hs
    · rename_i c hc
      split at hs
      · injection hs with hs; subst hs
        refine ⟨by simp [hc] at h1 ⊢; exact h1, h2, ?_, ?_, h5⟩
        · intro c' hc'; simp at hc'; subst hc'; exact h3 c hc
        · intro x hx; exact ⟨(h4 x hx).1, fun c' hc' => by simp at hc'; subst hc'; exact (h4 x hx).2 c hc⟩
      · cases hs
    · cases hs
  case indWait =>
    split at hs
    · rename_i c hc
      split at hs
      · injection hs with hs; subst hs
        refine ⟨by simp [hc] at h1 ⊢; exact h1, h2, ?_, ?_, h5⟩
        · intro c' hc'; simp at hc'; subst hc'; exact h3 c hc
        · intro x hx; exact ⟨(h4 x hx).1, fun c' hc' => by simp at hc'; subst hc'; exact (h4 x hx).2 c hc⟩
      · cases hs
    · cases hs

theorem run_step {s t : St} {e : Ev} {es : List Ev} (h : step s e = some t) : run s (e :: es) = run t es := by simp [run, h]

theorem run_append (s : St) (a b : List Ev) : run s (a ++ b) = (run s a).bind fun t => run t b := by
  induction a generalizing s with
  | nil => rfl
  | cons e a ih =>
    simp only [List.cons_append, run]
    cases step s e with
    | none => rfl
    | some t => simpa using ih t

theorem run_snoc {s t : St} {a : List Ev} {e : Ev} (h : run s (a ++ [e]) = some t) : ∃ u, run s a = some u ∧ step u e = some t := by
  rw [run_append] at h
  cases hu : run s a with
  | none => rw [hu] at h; cases h
  | some u =>
    rw [hu] at h
    refine ⟨u, rfl, ?_⟩
    simp only [Option.bind_some, run] at h
    cases he : step u e with
    | none => rw [he] at h; cases h
    | some w => rw [he] at h; simpa using h

theorem snoc_ind {P : List Ev → Prop} (nil : P []) (snoc : ∀ l a, P l → P (l ++ [a])) : ∀ l, P l := by
  intro l
  rw [← List.reverse_reverse l]
  induction l.reverse with
  | nil => exact nil
  | cons a l ih => rw [List.reverse_cons]; exact snoc _ _ ih

/-- A property kept by every step holds in every reachable state. -/
theorem invariant {P : St → Prop} (h0 : P {}) (hs : ∀ s t e, P s → step s e = some t → P t) (evs : List Ev) : ∀ s, run {} evs = some s → P s := by
  induction evs using snoc_ind with
  | nil => intro s h; cases h; exact h0
  | snoc l a ih =>
    intro s h
    obtain ⟨u, h1, h2⟩ := run_snoc h
    exact hs u s a (ih u h1) h2

theorem basic (evs : List Ev) (s : St) (h : run {} evs = some s) : Basic s :=
  invariant (P := Basic) ⟨by simp, by simp, by simp, by simp, by simp [oks, confirms]⟩ (fun _ _ _ => basic_step) evs s h

/-- As long as nothing timed out: what the peer owes. -/
def Exact (s : St) : Prop :=
  (∃ x ∈ s.results, x.2 = .timeout) ∨
    ((∀ x ∈ s.results, x.1 ∈ s.confirmed) ∧
      match s.ind with
      | none => s.owed = [] ∧ confirms s.inq = 0
      | some c =>
        match c.phase with
        | .taken => s.owed = [] ∧ confirms s.inq = 0
        | _ => (s.owed = [c.id] ∧ confirms s.inq = 0) ∨ (s.owed = [] ∧ c.id ∈ s.confirmed ∧ confirms s.inq ≤ 1))

theorem exact_step {s t : St} {e : Ev} (hbas : Basic s) (h : Exact s) (hs : step s e = some t) : Exact t := by
  by_cases ht : ∃ x ∈ t.results, x.2 = .timeout
  · exact .inl ht
  refine .inr ?_
  have hsub : ∀ x ∈ s.results, x ∈ t.results := by
    intro x hx
    cases e <;> simp only [step] at hs <;> grind
  rcases h with ⟨x, hx, hx2⟩ | ⟨hr, h⟩
  · exact absurd ⟨x, hsub x hx, hx2⟩ ht
  cases e <;> simp only [step] at hs
  case read =>
    split at hs
    · cases hs
    · rename_i rest hq
      rw [hq, confirms_cons] at h
      simp only [if_true] at h
      split at hs
      · rename_i c hc
        rw [hc] at h
        split at hs
        · rename_i hp
          injection hs with hs; subst hs
          simp only [hp] at h
          rcases h with ⟨-, h⟩ | ⟨h1, h2, h3⟩
          · omega
          · refine ⟨?_, h1, by show confirms rest = 0; omega⟩
            intro x hx
            rcases List.mem_append.1 hx with hx | hx
            · exact hr x hx
            · simp at hx; subst hx; exact h2
        · rename_i hp
          injection hs with hs; subst hs
          refine ⟨hr, ?_⟩
          simp only [hc]
          simp only at h
          cases hph : c.phase <;> rw [hph] at h <;> simp only at h ⊢
          · omega
          · rcases h with h | ⟨h1, h2, h3⟩
            · omega
            · exact .inr ⟨h1, h2, by omega⟩
          · exact absurd hph hp
      · rename_i hc
        rw [hc] at h
        simp only at h; omega
    · rename_i b rest hb hq
      have hb' : b ≠ .confirm := by intro hh; exact hb hh
      rw [hq, confirms_cons, if_neg hb'] at h
      simp only [Nat.add_zero] at h
      split at hs
      · split at hs
        · split at hs <;> (injection hs with hs; subst hs; exact ⟨hr, h⟩)
        · injection hs with hs; subst hs; exact ⟨hr, h⟩
        · injection hs with hs; subst hs; exact ⟨hr, h⟩
      · cases hs
  case indTimeout =>
    split at hs
    · split at hs
      · injection hs with hs; subst hs
        exfalso; apply ht; exact ⟨_, List.mem_append_right _ (List.mem_singleton.2 rfl), rfl⟩
      · cases hs
    · cases hs
  case peerConfirm =>
    split at hs
    · rename_i i rest ho
      injection hs with hs; subst hs
      refine ⟨fun x hx => List.mem_append_left _ (hr x hx), ?_⟩
      simp only [confirms_append, if_true]
      cases hc : s.ind with
      | none => rw [hc, ho] at h; simp at h
      | some c =>
        rw [hc] at h
        simp only at h ⊢
        cases hph : c.phase <;> rw [hph, ho] at h <;> simp only at h ⊢
        · simp at h
        · rcases h with ⟨h1, h2⟩ | ⟨h1, -⟩
          · simp at h1; exact .inr ⟨h1.2, List.mem_append_right _ (by simp [h1.1]), by omega⟩
          · cases h1
        · rcases h with ⟨h1, h2⟩ | ⟨h1, -⟩
          · simp at h1; exact .inr ⟨h1.2, List.mem_append_right _ (by simp [h1.1]), by omega⟩
          · cases h1
    · cases hs
  case peerSend b =>
    split at hs
    · cases hs
    · injection hs with hs; subst hs
      rename_i hb
      refine ⟨hr, ?_⟩
      simpa only [confirms_append, if_neg hb, Nat.add_zero] using h
  case mainStep =>
    split at hs
    · cases hs
    · split at hs
      · injection hs with hs; subst hs; exact ⟨hr, h⟩
      · cases hs
    · split at hs
      · injection hs with hs; subst hs; exact ⟨hr, h⟩
      · cases hs
    · injection hs with hs; subst hs; exact ⟨hr, h⟩
  case notifyTake hh data =>
    split at hs
    · injection hs with hs; subst hs; exact ⟨hr, h⟩
    · cases hs
  case notifyWrite =>
    split at hs
    · injection hs with hs; subst hs; exact ⟨hr, h⟩
    · cases hs
  case indTake hh data =>
    split at hs
    · rename_i n hn
      injection hs with hs; subst hs
      refine ⟨hr, ?_⟩
      show s.owed = [] ∧ confirms s.inq = 0
      cases hc : s.ind with
      | none => rw [hc] at h; exact h
      | some c => have := hbas.buf.2 (by rw [hc]; simp); rw [hn] at this; cases this
    · cases hs
  case indWrite =>
    split at hs
    · rename_i c hc
      split at hs
      · rename_i hp
        injection hs with hs; subst hs
        refine ⟨hr, ?_⟩
        rw [hc] at h; simp only [hp] at h
        simp only
        exact .inl ⟨by simp [h.1], h.2⟩
      · cases hs
    · cases hs
  case indWait =>
    split at hs
    · rename_i c hc
      split at hs
      · rename_i hp
        injection hs with hs; subst hs
        refine ⟨hr, ?_⟩
        rw [hc] at h; simp only [hp] at h
        exact h
      · cases hs
    · cases hs

end Ble.Props.IndAux

namespace Ble.Props
open Ble.Ind IndAux
open Ble.Att (notifyPDU indicatePDU)

/-- **C60** (part: as long as no call has timed out). Every call of an indication's `Write` that returned success was confirmed by the peer, and the peer never holds more than one unconfirmed
indication. Missing: after a timeout this is false, see `late_confirmation_credits_next`. -/
theorem indication_success_confirmed_partial (evs : List Ev) (s : St) (h : run {} evs = some s) (hnt : ∀ x ∈ s.results, x.2 ≠ .timeout) :
    (∀ x ∈ s.results, x.2 = .ok ∧ x.1 ∈ s.confirmed) ∧ s.owed.length ≤ 1 := by
  have h2 : Basic s ∧ Exact s := by
    refine invariant (P := fun s => Basic s ∧ Exact s) ⟨?_, ?_⟩ ?_ evs s h
    · exact basic [] _ rfl
    · exact .inr ⟨by simp, by simp [confirms]⟩
    · intro s t e ⟨hb, hx⟩ hs; exact ⟨basic_step hb hs, exact_step hb hx hs⟩
  rcases h2.2 with ⟨x, hx, hx2⟩ | ⟨hr, hx⟩
  · exact absurd hx2 (hnt x hx)
  · refine ⟨fun x hx => ⟨?_, hr x hx⟩, ?_⟩
    · have := hnt x hx
      cases h : x.2 <;> simp_all
    · split at hx
      · simp [hx.1]
      · split at hx
        · simp [hx.1]
        · rcases hx with hx | hx <;> simp [hx.1]

/-- **C60** (always). No more calls have succeeded than the peer has confirmed indications. -/
theorem indication_successes_le_confirmations (evs : List Ev) (s : St) (h : run {} evs = some s) : oks s.results ≤ s.confirmed.length := by
  have := (basic evs s h).oks
  omega

/-- **C60**. The numbers of the calls that have returned are different and below the number of calls: no call returns twice. -/
theorem indication_results_ordered (evs : List Ev) (s : St) (h : run {} evs = some s) : (s.results.map (·.1)).Pairwise (· < ·) := by
  have h2 : Basic s ∧ (s.results.map (·.1)).Pairwise (· < ·) := by
    refine invariant (P := fun s => Basic s ∧ (s.results.map (·.1)).Pairwise (· < ·)) ⟨basic [] _ rfl, by simp⟩ ?_ evs s h
    intro s t e ⟨hb, hp⟩ hs
    refine ⟨basic_step hb hs, ?_⟩
    have key : t.results = s.results ∨ ∃ c r, s.ind = some c ∧ t.results = s.results ++ [(c.id, r)] := by
      cases e <;> simp only [step] at hs <;> grind
    rcases key with hk | ⟨c, r, hc, hk⟩
    · rw [hk]; exact hp
    · rw [hk, List.map_append, List.pairwise_append]
      refine ⟨hp, by simp, ?_⟩
      intro a ha b hb'
      obtain ⟨x, hx, rfl⟩ := List.mem_map.1 ha
      simp at hb'; subst hb'
      exact (hb.res x hx).2 c hc
  exact h2.2

/-- **C60** (delivery). If a call is waiting, the main goroutine is free and the peer's confirmation is behind some requests and commands other than Exchange MTU, then the reader gets to the
confirmation by itself and the call succeeds. -/
theorem waiting_indication_confirmed (s : St) (c : Call) (l : List In) (hc : s.ind = some c) (hw : c.phase = .waiting) (hm : s.main = .idle)
    (hl : ∀ b ∈ l, b = .req ∨ b = .cmd) (hq : s.inq = l ++ [.confirm]) :
    ∃ t, run s (List.replicate (l.length + 1) .read) = some t ∧ t.results = s.results ++ [(c.id, .ok)] ∧ t.indBuf = some c.size := by
  induction l generalizing s with
  | nil => exact ⟨_, by simp [run, step, hq, hc, hw]; rfl, rfl, rfl⟩
  | cons b l ih =>
    rcases hl b (by simp) with rfl | rfl
    · obtain ⟨t, h1, h2, h3⟩ := ih { s with inq := l ++ [.confirm], sent := s.sent ++ [.rsp] } hc hm (fun b hb => hl b (by simp [hb])) rfl
      refine ⟨t, ?_, h2, h3⟩
      rw [List.length_cons, List.replicate_succ]
      have hst : step s .read = some { s with inq := l ++ [.confirm], sent := s.sent ++ [.rsp] } := by simp only [step, hq, List.cons_append, hm]
      rw [IndAux.run_step hst]
      exact h1
    · obtain ⟨t, h1, h2, h3⟩ := ih { s with inq := l ++ [.confirm] } hc hm (fun b hb => hl b (by simp [hb])) rfl
      refine ⟨t, ?_, h2, h3⟩
      rw [List.length_cons, List.replicate_succ]
      have hst : step s .read = some { s with inq := l ++ [.confirm] } := by simp only [step, hq, List.cons_append, hm]
      rw [IndAux.run_step hst]
      exact h1

namespace IndAux

/-- An indication whose confirmation is read before the caller is in the `select`. -/
def lostRound (h : Nat) (d : Bytes) : List Ev := [.indTake h d, .indWrite, .peerConfirm, .read, .indWait, .indTimeout]

theorem lost_rounds (h : Nat) (d : Bytes) (n : Nat) (s : St) (hi : s.ind = none) (hb : s.indBuf = some 23) (ho : s.owed = []) (hq : s.inq = []) :
    ∃ t, run s ((List.replicate n (lostRound h d)).flatten) = some t ∧ t.results = s.results ++ (List.range' s.calls n).map (·, .timeout) ∧
      t.confirmed = s.confirmed ++ List.range' s.calls n := by
  induction n generalizing s with
  | zero => exact ⟨s, rfl, by simp, by simp⟩
  | succ n ih =>
    have key : ∃ u, run s (lostRound h d) = some u ∧ u.ind = none ∧ u.indBuf = some 23 ∧ u.owed = [] ∧ u.inq = [] ∧ u.calls = s.calls + 1 ∧
        u.results = s.results ++ [(s.calls, .timeout)] ∧ u.confirmed = s.confirmed ++ [s.calls] := by
      refine ⟨_, by simp [run, lostRound, step, hi, hb, ho, hq]; rfl, ?_⟩
      simp
    obtain ⟨u, hu, h1, h2, h3, h4, h5, h6, h7⟩ := key
    obtain ⟨t, ht, hr, hcf⟩ := ih u h1 h2 h3 h4
    refine ⟨t, ?_, ?_, ?_⟩
    · rw [List.replicate_succ, List.flatten_cons, run_append, hu]; exact ht
    · rw [hr, h5, h6, List.range'_succ]; simp
    · rw [hcf, h5, h7, List.range'_succ]; simp

/-- A call whose `select` is satisfied by the confirmation of the previous indication. -/
def lateRound (h : Nat) (d : Bytes) : List Ev := [.indTake h d, .indWrite, .indWait, .peerConfirm, .read]

theorem late_rounds (h : Nat) (d : Bytes) (n k : Nat) (s : St) (hi : s.ind = none) (hb : s.indBuf = some 23) (ho : s.owed = [k]) (hc : s.calls = k + 1) (hq : s.inq = []) :
    ∃ t, run s ((List.replicate n (lateRound h d)).flatten) = some t ∧ t.results = s.results ++ (List.range' (k + 1) n).map (·, .ok) ∧
      t.confirmed = s.confirmed ++ List.range' k n ∧ t.owed = [k + n] := by
  induction n generalizing s k with
  | zero => exact ⟨s, rfl, by simp, by simp, ho⟩
  | succ n ih =>
    have key : ∃ u, run s (lateRound h d) = some u ∧ u.ind = none ∧ u.indBuf = some 23 ∧ u.owed = [k + 1] ∧ u.inq = [] ∧ u.calls = k + 1 + 1 ∧
        u.results = s.results ++ [(k + 1, .ok)] ∧ u.confirmed = s.confirmed ++ [k] := by
      refine ⟨_, by simp [run, lateRound, step, hi, hb, ho, hq, hc]; rfl, ?_⟩
      simp
    obtain ⟨u, hu, h1, h2, h3, h4, h5, h6, h7⟩ := key
    obtain ⟨t, ht, hr, hcf, how⟩ := ih (k + 1) u h1 h2 h3 h5 h4
    refine ⟨t, ?_, ?_, ?_, ?_⟩
    · rw [List.replicate_succ, List.flatten_cons, run_append, hu]; exact ht
    · rw [hr, h6, List.range'_succ (s := k + 1)]; simp
    · rw [hcf, h7, List.range'_succ (s := k)]; simp
    · rw [how]; congr 1; omega

end IndAux

/-- **C60** fails (lost confirmation): a peer that answers before the caller has reached its `select` has its confirmation dropped. For every `n` there is a run in which the peer confirms each of
`n` indications at once and each call returns the timeout error, half a minute later. -/
theorem early_confirmation_lost (h n : Nat) (d : Bytes) :
    ∃ evs s, run {} evs = some s ∧ s.confirmed = List.range n ∧ s.results = (List.range n).map (·, .timeout) := by
  obtain ⟨t, h1, h2, h3⟩ := IndAux.lost_rounds h d n {} rfl rfl rfl rfl
  refine ⟨_, t, h1, ?_, ?_⟩
  · rw [h3, List.range_eq_range']; rfl
  · rw [h2, List.range_eq_range']; rfl

/-- **C60** fails (late confirmation): after one timeout the late confirmation is credited to the next call, and so on for ever: for every `n` there is a run in which call 0 timed out, calls
1 … n returned success, and the peer has confirmed 0 … n - 1. The last success is of an indication that the peer has not confirmed. -/
theorem late_confirmation_credits_next (h n : Nat) (d : Bytes) :
    ∃ evs s, run {} evs = some s ∧ s.results = (0, .timeout) :: (List.range' 1 n).map (·, .ok) ∧ s.confirmed = List.range n ∧ s.owed = [n] := by
  have h0 : run {} [.indTake h d, .indWrite, .indWait, .indTimeout] =
      some { calls := 1, owed := [0], results := [(0, .timeout)], sent := [.ind 0 h d (indicatePDU 23 h d)] } := by simp [run, step]
  obtain ⟨t, h1, h2, h3, h4⟩ := IndAux.late_rounds h d n 0 (s := { calls := 1, owed := [0], results := [(0, .timeout)], sent := [.ind 0 h d (indicatePDU 23 h d)] }) rfl rfl rfl rfl rfl
  refine ⟨[.indTake h d, .indWrite, .indWait, .indTimeout] ++ (List.replicate n (IndAux.lateRound h d)).flatten, t, ?_, ?_, ?_, ?_⟩
  · rw [IndAux.run_append, h0]; exact h1
  · rw [h2]; rfl
  · rw [h3, List.range_eq_range']; rfl
  · rw [h4]; simp

namespace IndAux

/-- The server in the grip of an MTU exchange. -/
def Stuck (r : List (Nat × Res)) (c : Call) (m : Nat) (s : St) : Prop :=
  s.results = r ∧ s.ind = some c ∧ s.indBuf = none ∧
    ((s.main = .idle ∧ m ≠ s.cur ∧ (∃ l, s.inq = .mtu m :: .cmd :: l)) ∨ ((s.main = .swapNot m ∨ s.main = .swapInd m) ∧ ∃ l, s.inq = .cmd :: l))

theorem stuck_step {r : List (Nat × Res)} {c : Call} {m : Nat} {s t : St} {e : Ev} (hw : c.phase = .waiting) (h : Stuck r c m s) (hne : e ≠ .indTimeout) (hs : step s e = some t) : Stuck r c m t := by
  unfold Stuck at h ⊢
  cases e <;> simp only [step] at hs <;> grind

end IndAux

/-- **C60** fails (MTU exchange): while a call is waiting for its confirmation, the peer may send an Exchange MTU Request and a Write Command, which the specification allows, and then the
confirmation. The server's main goroutine waits for the indication's buffer to answer the first, the reader waits for the main goroutine to take the second, and nobody reads the confirmation.
Whatever happens next, until the 30 s have passed the call does not return and no request is answered. -/
theorem mtu_exchange_blocks_confirmation (s : St) (c : Call) (m : Nat) (hc : s.ind = some c) (hw : c.phase = .waiting) (hb : s.indBuf = none) (hm : s.main = .idle) (hq : s.inq = [])
    (hcur : m ≠ s.cur) (ho : s.owed = [c.id]) :
    (∃ t, run s [.peerSend (.mtu m), .peerSend .cmd, .peerConfirm] = some t ∧ t.confirmed = s.confirmed ++ [c.id] ∧
      ∀ (evs : List Ev) (u : St), .indTimeout ∉ evs → run t evs = some u → u.results = s.results ∧ u.ind = some c ∧ ∃ l, u.sent = s.sent ++ l ∧ ∀ o ∈ l, ∃ h d p, o = .ntf h d p) := by
  refine ⟨_, by simp [run, step, ho, hq]; rfl, rfl, ?_⟩
  generalize ht : ({ s with inq := [.mtu m, .cmd, .confirm], owed := [], confirmed := s.confirmed ++ [c.id] } : St) = t
  have h0 : IndAux.Stuck s.results c m t ∧ ∃ l, t.sent = s.sent ++ l ∧ ∀ o ∈ l, ∃ h d p, o = .ntf h d p := by
    subst ht; exact ⟨⟨rfl, hc, hb, .inl ⟨hm, hcur, [.confirm], rfl⟩⟩, [], by simp, by simp⟩
  clear ht
  intro evs
  induction evs generalizing t with
  | nil => intro u _ hu; cases hu; exact ⟨h0.1.1, h0.1.2.1, h0.2⟩
  | cons e evs ih =>
    intro u hn hu
    simp only [run] at hu
    cases he : step t e with
    | none => rw [he] at hu; cases hu
    | some t' =>
      rw [he] at hu
      refine ih t' ⟨IndAux.stuck_step hw h0.1 (fun h => hn (by simp [h])) he, ?_⟩ u (fun h => hn (by simp [h])) hu
      obtain ⟨l, hl, hl2⟩ := h0.2
      obtain ⟨⟨-, h2, h3, h4⟩, -⟩ := h0
      have key : t'.sent = t.sent ∨ ∃ h d p, t'.sent = t.sent ++ [.ntf h d p] := by
        rcases h4 with ⟨hm, hcur, l, hq⟩ | ⟨hm, l, hq⟩
        · cases e <;> simp only [step, h2, h3, hm, hq, hw] at he <;> grind
        · cases e <;> simp only [step, h2, h3, hq, hw] at he <;> grind
      rcases key with hk | ⟨h, d, p, hk⟩
      · exact ⟨l, by rw [hk, hl], hl2⟩
      · refine ⟨l ++ [.ntf h d p], by rw [hk, hl]; simp, ?_⟩
        intro o ho
        rcases List.mem_append.1 ho with ho | ho
        · exact hl2 o ho
        · simp at ho; exact ⟨h, d, p, ho⟩

/-- The hypotheses are met by an ordinary run. -/
example : ∃ s c, run {} [.indTake 5 [1, 2], .indWrite, .indWait] = some s ∧ s.ind = some c ∧ c.phase = .waiting ∧ s.indBuf = none ∧ s.main = .idle ∧ s.inq = [] ∧ 100 ≠ s.cur ∧ s.owed = [c.id] :=
  ⟨_, _, rfl, rfl, rfl, rfl, rfl, rfl, by decide, rfl⟩

/-- The peer asked for MTU `m`. -/
def Asked (evs : List Ev) (m : Nat) : Prop := m = 23 ∨ .peerSend (.mtu m) ∈ evs

/-- The PDU is that of its value for one of the given MTUs. -/
def Fits (A : Nat → Prop) : Out → Prop
  | .ntf h d p => ∃ n, A n ∧ p = notifyPDU n h d
  | .ind _ h d p => ∃ n, A n ∧ p = indicatePDU n h d
  | _ => True

/-- **C60** (size). Every notification and indication sent is the PDU of its value for 23 or for an MTU that the peer asked for. -/
theorem value_pdus_within_asked_mtu (evs : List Ev) (s : St) (h : run {} evs = some s) : ∀ o ∈ s.sent, Fits (Asked evs) o := by
  suffices H : (∀ n, s.notBuf = some n → Asked evs n) ∧ (∀ n, s.indBuf = some n → Asked evs n) ∧ (∀ x, s.ntf = some x → Asked evs x.1) ∧ (∀ x, s.ind = some x → Asked evs x.size) ∧
      (∀ m, .mtu m ∈ s.inq → Asked evs m) ∧ (∀ m, s.main = .swapNot m → Asked evs m) ∧ (∀ m, s.main = .swapInd m → Asked evs m) ∧ ∀ o ∈ s.sent, Fits (Asked evs) o from H.2.2.2.2.2.2.2
  induction evs using IndAux.snoc_ind generalizing s with
  | nil => cases h; simp [Asked]
  | snoc l e ih =>
    obtain ⟨u, hu, hs⟩ := IndAux.run_snoc h
    have hmono : ∀ m, Asked l m → Asked (l ++ [e]) m := fun m hm => hm.imp id (fun h => List.mem_append_left _ h)
    obtain ⟨h1, h2, h3, h4, h5, h6, h6', h7⟩ := ih u hu
    have hnew : ∀ m, e = .peerSend (.mtu m) → Asked (l ++ [e]) m := fun m hm => .inr (by simp [hm])
    have h7' : ∀ o ∈ u.sent, Fits (Asked (l ++ [e])) o := by
      intro o ho
      have := h7 o ho
      cases o <;> simp only [Fits] at this ⊢
      · exact this.imp fun n hn => ⟨hmono n hn.1, hn.2⟩
      · exact this.imp fun n hn => ⟨hmono n hn.1, hn.2⟩
    clear h7 ih h
    generalize Asked (l ++ [e]) = A at *
    have g1 : ∀ n h d, A n → Fits A (.ntf h d (notifyPDU n h d)) := fun n h d hn => ⟨n, hn, rfl⟩
    have g2 : ∀ n i h d, A n → Fits A (.ind i h d (indicatePDU n h d)) := fun n i h d hn => ⟨n, hn, rfl⟩
    have g3 : Fits A .rsp := trivial
    have g4 : ∀ m, Fits A (.mtuRsp m) := fun m => trivial
    generalize Asked l = L at *
    generalize Fits A = F at *
    clear hu
    obtain ⟨m1, m2, m3, m4, m5, m6, m7, m8, m9, m10, m11, m12⟩ := u
    obtain ⟨n1, n2, n3, n4, n5, n6, n7, n8, n9, n10, n11, n12⟩ := s
    simp only at h1 h2 h3 h4 h5 h6 h6' h7' ⊢
    cases e <;> simp only [step] at hs <;> (repeat' split at hs) <;> (try injection hs with hs) <;> (try injection hs with hs) <;> grind

/-- **C60** (size). No notification or indication is longer than 23 bytes and every MTU the peer asked for. -/
theorem value_pdus_bounded (evs : List Ev) (s : St) (h : run {} evs = some s) (B : Nat) (hB : ∀ m, Asked evs m → m ≤ B) (hlow : ∀ m, Asked evs m → 23 ≤ m) :
    (∀ hh d p, Out.ntf hh d p ∈ s.sent → p.length ≤ B) ∧ (∀ i hh d p, Out.ind i hh d p ∈ s.sent → p.length ≤ B) := by
  have key := value_pdus_within_asked_mtu evs s h
  constructor
  · intro hh d p hp
    obtain ⟨n, hn, rfl⟩ := key _ hp
    obtain ⟨q, h1, -, -, h4, -⟩ := notification_pdu n hh (by have := hlow n hn; omega) d
    rw [h1]; have := hB n hn; simp [put16]; omega
  · intro i hh d p hp
    obtain ⟨n, hn, rfl⟩ := key _ hp
    obtain ⟨q, -, h1, -, h4, -⟩ := notification_pdu n hh (by have := hlow n hn; omega) d
    rw [h1]; have := hB n hn; simp [put16]; omega

/-- **C60** fails (size): the new MTU is used before the Exchange MTU Response has been sent. For every MTU `m` and every value that needs more than 23 bytes there is a run that sends a
notification longer than 23 bytes while no Exchange MTU Response has been sent, although the code says "after this response has been sent and before any other attribute protocol PDU is sent". -/
theorem notification_before_mtu_response (m h : Nat) (d : Bytes) (hm : 23 < m) (hd : 20 < d.length) :
    ∃ evs s p, run {} evs = some s ∧ s.sent = [.ntf h d p] ∧ 23 < p.length ∧ s.main = .reply m := by
  refine ⟨[.peerSend (.mtu m), .read, .mainStep, .mainStep, .notifyTake h d, .notifyWrite],
    { main := .reply m, cur := m, notBuf := some m, indBuf := some m, sent := [.ntf h d (notifyPDU m h d)] }, notifyPDU m h d, ?_, rfl, ?_, rfl⟩
  · simp [run, step, show m ≠ 23 by omega]
  · obtain ⟨q, h1, -, h3, h4, h5⟩ := notification_pdu m h (by omega) d
    rw [h1]
    rcases h5 with rfl | h5 <;> simp [put16] <;> omega

/-- A successful run: taken, sent, confirmed, read. -/
theorem example_confirmed_indication : ∃ s, run {} [.indTake 5 [1, 2], .indWrite, .indWait, .peerConfirm, .read, .indTake 6 [3]] = some s ∧ s.results = [(0, .ok)] ∧ s.confirmed = [0] ∧ s.calls = 2 := ⟨_, rfl, rfl, rfl, rfl⟩

/-- What a request of the peer asks for: `some m` is an Exchange MTU Request, `none` any other request; commands and confirmations are not requests. -/
def asks : In → Option (Option Nat)
  | .mtu m => some (some m)
  | .req => some none
  | _ => none

def asksEv : Ev → Option (Option Nat)
  | .peerSend b => asks b
  | _ => none

/-- Which kind of request a PDU of the server answers. -/
def answers : Out → Option (Option Nat)
  | .mtuRsp m => some (some m)
  | .rsp => some none
  | _ => none

/-- The request that the main goroutine is working on. -/
def inWork : Main → List (Option Nat)
  | .idle => []
  | .swapNot m => [some m]
  | .swapInd m => [some m]
  | .reply m => [some m]

/-- **C60**: every request is answered exactly once, in the order in which they came: at any time the answers sent, the request in work and the requests not yet taken are, in this order, the requests the peer has sent; an Exchange MTU
Request is answered as such whether or not it changes the MTU, and notifications and indications in between change nothing. -/
theorem requests_answered_in_order (evs : List Ev) (s : St) (h : run {} evs = some s) :
    evs.filterMap asksEv = s.sent.filterMap answers ++ inWork s.main ++ s.inq.filterMap asks := by
  induction evs using IndAux.snoc_ind generalizing s with
  | nil => cases h; rfl
  | snoc l e ih =>
    obtain ⟨u, hu, hs⟩ := IndAux.run_snoc h
    have := ih u hu
    rw [List.filterMap_append, this]
    cases e <;> simp only [step] at hs <;> (repeat' split at hs) <;> simp only [Option.some.injEq, reduceCtorEq] at hs <;> subst hs <;> simp_all [asksEv, asks, answers, inWork, List.filterMap_cons] <;> rfl

example : ∃ s, run {} [.peerSend (.mtu 23), .peerSend .req, .read, .mainStep, .read] = some s ∧ s.sent = [.mtuRsp 23, .rsp] := ⟨_, rfl, rfl⟩

end Ble.Props
