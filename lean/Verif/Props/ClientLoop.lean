import Verif.Client.Loop
set_option autoImplicit false

/-!
# Responses, late responses, notifications (C22, C27)
-/

namespace Ble.Props

open Ble.Att Ble.Client

/-! ## C22 -/

/-- Numbers of the requests whose answers have not reached a caller, oldest first. -/
def pipeline (s : Net) : List Nat := (s.offer.toList ++ s.wire).filterMap Msg.tag ++ s.inbox.map Prod.fst

/-- Numbers of the requests whose answers were returned to a caller. -/
def returned (rs : List (Nat × Outcome)) : List Nat :=
  rs.filterMap fun r => match r.2 with | .rsp m => m.tag | .timeout => none

structure NetInv (s : Net) : Prop where
  sorted : (returned s.results ++ pipeline s).Pairwise (· < ·)
  owned : ∀ j ∈ pipeline s, j < s.calls ∧ (s.waiting.map Prod.fst = some j ∨ ∃ k, k ≤ j ∧ (k, .timeout) ∈ s.results)
  current : ∀ i op, s.waiting = some (i, op) → i + 1 = s.calls
  once : (s.results.map Prod.fst).Pairwise (· < ·)
  past : ∀ r ∈ s.results, r.1 < s.calls ∧ s.waiting.map Prod.fst ≠ some r.1
  tagged : ∀ m, s.offer = some m → m.tag.isSome
  own : ∀ m ∈ s.wire, m.tag = none → classify m.pdu ≠ .ok .response
  answers : ∀ i m, (i, Outcome.rsp m) ∈ s.results → ∃ j, m.tag = some j ∧ (j = i ∨ j < i ∧ ∃ k, k ≤ j ∧ (k, .timeout) ∈ s.results)

theorem netInv_init : NetInv {} :=
  ⟨by simp [returned, pipeline], by simp [pipeline], by simp, by simp, by simp, by simp, by simp, by simp⟩

theorem netInv_step {s s' : Net} {e : Ev} (hi : NetInv s) (h : step s e = some s') : NetInv s' := by
  cases e with
  | call req =>
    simp only [step] at h
    split at h
    · rename_i hw
      injection h with h; subst h
      have hp : pipeline { s with calls := s.calls + 1, waiting := some (s.calls, req.headD 0), inbox := s.inbox ++ [(s.calls, req)] } =
          pipeline s ++ [s.calls] := by simp [pipeline]
      refine ⟨?_, ?_, ?_, hi.once, ?_, hi.tagged, hi.own, ?_⟩
      · rw [hp, ← List.append_assoc]
        refine List.pairwise_append.2 ⟨hi.sorted, by simp, ?_⟩
        intro a ha b hb
        rw [List.mem_singleton] at hb; subst hb
        rcases List.mem_append.1 ha with ha | ha
        · simp only [returned, List.mem_filterMap] at ha
          obtain ⟨⟨i, o⟩, hr, ho⟩ := ha
          cases o with
          | timeout => simp at ho
          | rsp m =>
            simp only at ho
            obtain ⟨j, hj, h2⟩ := hi.answers i m hr
            have := (hi.past _ hr).1
            have hja : j = a := by rw [hj] at ho; exact Option.some.inj ho
            rcases h2 with h2 | h2 <;> omega
        · exact (hi.owned a ha).1
      · rw [hp]
        intro j hj
        rcases List.mem_append.1 hj with hj | hj
        · obtain ⟨h1, h2⟩ := hi.owned j hj
          rw [hw] at h2
          refine ⟨by simp only; omega, .inr ?_⟩
          rcases h2 with h2 | h2
          · simp at h2
          · exact h2
        · rw [List.mem_singleton] at hj; subst hj
          exact ⟨by simp, .inl rfl⟩
      · intro i op hh
        simp only [Option.some.injEq, Prod.mk.injEq] at hh
        simp only; omega
      · intro r hr
        have := (hi.past r hr).1
        refine ⟨by simp only; omega, ?_⟩
        simp only [Option.map_some, ne_eq, Option.some.injEq]
        omega
      · exact hi.answers
    · cases h
  | answer rsp =>
    simp only [step] at h
    split at h
    · cases h
    · rename_i i req rest hin
      split at h
      · rename_i hr
        injection h with h; subst h
        have hp : pipeline { s with inbox := rest, wire := s.wire ++ [⟨some i, rsp⟩] } = pipeline s := by
          simp [pipeline, hin, List.filterMap_append]
        refine ⟨by rw [hp]; exact hi.sorted, by rw [hp]; exact hi.owned, hi.current, hi.once, hi.past, hi.tagged, ?_, hi.answers⟩
        intro m hm ht
        simp only [List.mem_append, List.mem_singleton] at hm
        rcases hm with hm | rfl
        · exact hi.own m hm ht
        · cases ht
      · cases h
  | push b =>
    have key : classify b ≠ .ok .response ∧ s' = { s with wire := s.wire ++ [⟨none, b⟩] } := by
      simp only [step] at h
      cases hc : classify b with
      | ok k => cases k <;> rw [hc] at h <;> simp at h ⊢ <;> exact h.symm
      | err e => rw [hc] at h; cases h
      | panic => rw [hc] at h; cases h
    obtain ⟨hc, rfl⟩ := key
    have hp : pipeline { s with wire := s.wire ++ [⟨none, b⟩] } = pipeline s := by
      simp [pipeline, List.filterMap_append]
    refine ⟨by rw [hp]; exact hi.sorted, by rw [hp]; exact hi.owned, hi.current, hi.once, hi.past, hi.tagged, ?_, hi.answers⟩
    intro m hm ht
    simp only [List.mem_append, List.mem_singleton] at hm
    rcases hm with hm | rfl
    · exact hi.own m hm ht
    · exact hc
  | read =>
    simp only [step] at h
    split at h
    · rename_i m rest ho hwire
      have hsub : (pipeline { s with wire := rest }).Sublist (pipeline s) := by
        simp only [pipeline, hwire, ho, Option.toList_none, List.nil_append]
        exact ((List.sublist_cons_self m rest).filterMap _).append_right _
      have keep : ∀ s'' : Net, s''.results = s.results → s''.waiting = s.waiting → s''.calls = s.calls → s''.offer = none → s''.wire = rest →
          s''.inbox = s.inbox → NetInv s'' := by
        intro s'' h1 h2 h3 h4 h5 h6
        have hp : pipeline s'' = pipeline { s with wire := rest } := by simp only [pipeline, h4, h5, h6, ho]
        refine ⟨?_, ?_, ?_, ?_, ?_, ?_, ?_, ?_⟩
        · rw [hp, h1]; exact hi.sorted.sublist (hsub.append_left _)
        · rw [hp, h1, h2, h3]; intro j hj; exact hi.owned j (hsub.subset hj)
        · rw [h2, h3]; exact hi.current
        · rw [h1]; exact hi.once
        · rw [h1, h2, h3]; exact hi.past
        · rw [h4]; simp
        · rw [h5]; intro x hx; exact hi.own x (by rw [hwire]; exact List.mem_cons_of_mem _ hx)
        · rw [h1]; exact hi.answers
      cases hc : classify m.pdu with
      | err e => rw [hc] at h; cases h
      | panic => rw [hc] at h; cases h
      | ok k =>
        rw [hc] at h
        cases k with
        | request => injection h with h; subst h; exact keep _ rfl rfl rfl ho rfl rfl
        | value ind => injection h with h; subst h; exact keep _ rfl rfl rfl ho rfl rfl
        | response =>
          injection h with h; subst h
          have hp : pipeline { s with wire := rest, seen := s.seen ++ [m.pdu], offer := some m } = pipeline s := by
            simp [pipeline, hwire, ho]
          have ht : m.tag.isSome := by
            cases hm : m.tag with
            | some j => rfl
            | none => exact absurd hc (hi.own m (by rw [hwire]; simp) hm)
          refine ⟨by rw [hp]; exact hi.sorted, by rw [hp]; exact hi.owned, hi.current, hi.once, hi.past, ?_, ?_, hi.answers⟩
          · intro m' hm'; injection hm' with hm'; subst hm'; exact ht
          · intro x hx; exact hi.own x (by rw [hwire]; exact List.mem_cons_of_mem _ hx)
    · cases h
  | receive =>
    simp only [step] at h
    split at h
    · rename_i i op m hw ho
      injection h with h; subst h
      obtain ⟨j, hj⟩ := Option.isSome_iff_exists.1 (hi.tagged m ho)
      have hpl : pipeline s = j :: pipeline { s with offer := none } := by
        simp [pipeline, ho, hj]
      have hjo := hi.owned j (by rw [hpl]; simp)
      have hcur := hi.current i op hw
      unfold Net.receive
      split
      · -- the response goes to the caller
        have hpp : pipeline { s with waiting := none, offer := none, results := s.results ++ [(i, .rsp m)] } = pipeline { s with offer := none } := rfl
        have hret : returned (s.results ++ [(i, .rsp m)]) = returned s.results ++ [j] := by
          simp [returned, hj]
        refine ⟨?_, ?_, by simp, ?_, ?_, by simp, hi.own, ?_⟩
        · rw [hpp]
          simp only [hret]
          have := hi.sorted
          rw [hpl] at this
          simpa using this
        · rw [hpp]
          intro k hk
          have hlt : j < k := by
            have := hi.sorted
            rw [hpl] at this
            exact (List.pairwise_cons.1 (List.pairwise_append.1 this).2.1).1 k hk
          obtain ⟨h1, h2⟩ := hi.owned k (by rw [hpl]; exact List.mem_cons_of_mem _ hk)
          refine ⟨h1, .inr ?_⟩
          rcases h2 with h2 | h2
          · rw [hw] at h2 hjo
            simp only [Option.map_some, Option.some.injEq] at h2 hjo
            rcases hjo.2 with h3 | ⟨t, h3, h4⟩
            · omega
            · exact ⟨t, by omega, List.mem_append_left _ h4⟩
          · obtain ⟨t, h3, h4⟩ := h2
            exact ⟨t, h3, List.mem_append_left _ h4⟩
        · simp only [List.map_append, List.map_cons, List.map_nil]
          refine List.pairwise_append.2 ⟨hi.once, by simp, ?_⟩
          intro a ha b hb
          rw [List.mem_singleton] at hb; subst hb
          obtain ⟨r, hr, rfl⟩ := List.mem_map.1 ha
          have := hi.past r hr
          rw [hw] at this
          simp only [Option.map_some, ne_eq, Option.some.injEq] at this
          omega
        · intro r hr
          rcases List.mem_append.1 hr with hr | hr
          · exact ⟨(hi.past r hr).1, by simp⟩
          · rw [List.mem_singleton] at hr; subst hr
            exact ⟨by simp only; omega, by simp⟩
        · intro i' m' hm'
          rcases List.mem_append.1 hm' with hm' | hm'
          · obtain ⟨k, h1, h2⟩ := hi.answers i' m' hm'
            exact ⟨k, h1, h2.imp_right fun ⟨h, t, h3, h4⟩ => ⟨h, t, h3, List.mem_append_left _ h4⟩⟩
          · simp only [List.mem_singleton, Prod.mk.injEq, Outcome.rsp.injEq] at hm'
            obtain ⟨rfl, rfl⟩ := hm'
            refine ⟨j, hj, ?_⟩
            rw [hw] at hjo
            simp only [Option.map_some, Option.some.injEq] at hjo
            rcases Nat.lt_or_ge j i' with hlt | hge
            · rcases hjo.2 with h | ⟨t, h3, h4⟩
              · omega
              · exact .inr ⟨hlt, t, h3, List.mem_append_left _ h4⟩
            · exact .inl (by omega)
      · have hpp : pipeline { s with offer := none, sent := s.sent ++ [errorRsp (m.pdu.headD 0) 0 0x06] } = pipeline { s with offer := none } := rfl
        have hsub : (pipeline { s with offer := none }).Sublist (pipeline s) := by rw [hpl]; exact List.sublist_cons_self _ _
        refine ⟨by rw [hpp]; exact hi.sorted.sublist (hsub.append_left _), by rw [hpp]; intro k hk; exact hi.owned k (hsub.subset hk),
          hi.current, hi.once, hi.past, by simp, hi.own, hi.answers⟩
    · cases h
  | timeout =>
    simp only [step] at h
    split at h
    · rename_i i op hw
      injection h with h; subst h
      have hcur := hi.current i op hw
      have hret : returned (s.results ++ [(i, .timeout)]) = returned s.results := by simp [returned]
      refine ⟨?_, ?_, by simp, ?_, ?_, hi.tagged, hi.own, ?_⟩
      · simp only [hret]; exact hi.sorted
      · intro j hj
        obtain ⟨h1, h2⟩ := hi.owned j hj
        refine ⟨h1, .inr ?_⟩
        rcases h2 with h2 | h2
        · rw [hw] at h2
          simp only [Option.map_some, Option.some.injEq] at h2
          subst h2; exact ⟨_, Nat.le_refl _, by simp⟩
        · obtain ⟨t, h3, h4⟩ := h2
          exact ⟨t, h3, List.mem_append_left _ h4⟩
      · simp only [List.map_append, List.map_cons, List.map_nil]
        refine List.pairwise_append.2 ⟨hi.once, by simp, ?_⟩
        intro a ha b hb
        rw [List.mem_singleton] at hb; subst hb
        obtain ⟨r, hr, rfl⟩ := List.mem_map.1 ha
        have := hi.past r hr
        rw [hw] at this
        simp only [Option.map_some, ne_eq, Option.some.injEq] at this
        omega
      · intro r hr
        rcases List.mem_append.1 hr with hr | hr
        · exact ⟨(hi.past r hr).1, by simp⟩
        · rw [List.mem_singleton] at hr; subst hr
          exact ⟨by simp only; omega, by simp⟩
      · intro i' m' hm'
        rcases List.mem_append.1 hm' with hm' | hm'
        · obtain ⟨k, h1, h2⟩ := hi.answers i' m' hm'
          exact ⟨k, h1, h2.imp_right fun ⟨h, t, h3, h4⟩ => ⟨h, t, h3, List.mem_append_left _ h4⟩⟩
        · simp at hm'
    · cases h
  | work =>
    simp only [step] at h
    split at h
    · injection h with h; subst h
      exact ⟨hi.sorted, hi.owned, hi.current, hi.once, hi.past, hi.tagged, hi.own, hi.answers⟩
    · cases h

theorem run_append {s s' s'' : Net} {es fs : List Ev} (h1 : run s es = some s') (h2 : run s' fs = some s'') : run s (es ++ fs) = some s'' := by
  induction es generalizing s with
  | nil => cases h1; exact h2
  | cons e es ih =>
    simp only [run, List.cons_append] at h1 ⊢
    cases hs : step s e with
    | none => rw [hs] at h1; cases h1
    | some t => rw [hs] at h1; exact ih h1

theorem run_induct {P : Net → Prop} {s s' : Net} {es : List Ev} (hstep : ∀ s s' e, e ∈ es → P s → step s e = some s' → P s') (h0 : P s)
    (h : run s es = some s') : P s' := by
  induction es generalizing s with
  | nil => cases h; exact h0
  | cons e es ih =>
    simp only [run] at h
    cases hs : step s e with
    | none => rw [hs] at h; cases h
    | some t =>
      rw [hs] at h
      exact ih (fun s s' e he => hstep s s' e (List.mem_cons_of_mem _ he)) (hstep s t e (by simp) h0 hs) h

theorem netInv_run {s : Net} {evs : List Ev} (h : run {} evs = some s) : NetInv s :=
  run_induct (fun _ _ _ _ hi hs => netInv_step hi hs) netInv_init h

/-- **C22 (partial).** In every interleaving of calls, answers, pushes by the server, reads and timeouts: a call returns at most once, no answer is
returned twice, and the answer a call returns is the server's answer to that same call, unless an earlier call timed out. -/
theorem call_returns_own_answer_partial (evs : List Ev) (s : Net) (h : run {} evs = some s) :
    (s.results.map Prod.fst).Pairwise (· < ·) ∧ (returned s.results).Pairwise (· < ·) ∧
    ∀ i m, (i, Outcome.rsp m) ∈ s.results → ∃ j, m.tag = some j ∧ (j = i ∨ j < i ∧ ∃ k, k ≤ j ∧ (k, .timeout) ∈ s.results) := by
  have hi := netInv_run h
  exact ⟨hi.once, (List.pairwise_append.1 hi.sorted).1, hi.answers⟩

/-- Specification: the responses to the requests a client can make, and the confirmation of an indication (Core, Vol 3, Part F, 3.4). -/
def responseTo : List (UInt8 × UInt8) :=
  [(0x02, 0x03), (0x04, 0x05), (0x06, 0x07), (0x08, 0x09), (0x0A, 0x0B), (0x0C, 0x0D), (0x0E, 0x0F), (0x10, 0x11), (0x12, 0x13), (0x16, 0x17), (0x18, 0x19), (0x1D, 0x1E)]

theorem rspOfReq_spec (op : UInt8) : rspOfReq op = (responseTo.lookup op).getD 0 := by
  unfold rspOfReq
  split
  · rename_i h
    simp only [List.mem_cons, List.not_mem_nil, or_false] at h
    rcases h with rfl | rfl | rfl | rfl | rfl | rfl | rfl | rfl | rfl | rfl | rfl | rfl <;> rfl
  · rename_i h
    simp only [List.mem_cons, List.not_mem_nil, or_false, not_or] at h
    obtain ⟨h1, h2, h3, h4, h5, h6, h7, h8, h9, h10, h11, h12⟩ := h
    have e : ∀ {a b : UInt8}, ¬ a = b → (a == b) = false := by intro a b h; simpa using h
    simp [responseTo, List.lookup, e h1, e h2, e h3, e h4, e h5, e h6, e h7, e h8, e h9, e h10, e h11, e h12]

/-- **C22, opcodes.** A call returns an answer only in a step of its own, and only an error response or the response belonging to its request: no other PDU, whatever the server or a
late answer offers. -/
theorem call_result_opcode (s s' : Net) (e : Ev) (i : Nat) (m : Msg) (h : step s e = some s') (hm : (i, Outcome.rsp m) ∈ s'.results) (hn : (i, Outcome.rsp m) ∉ s.results) :
    ∃ op, s.waiting = some (i, op) ∧ (m.pdu.head? = some 0x01 ∨ m.pdu.head? = some ((responseTo.lookup op).getD 0)) := by
  have keep : s'.results = s.results → False := fun hr => hn (hr ▸ hm)
  cases e with
  | call req =>
    simp only [step] at h
    split at h
    · injection h with h; subst h; exact (keep rfl).elim
    · cases h
  | answer rsp =>
    simp only [step] at h
    split at h
    · cases h
    · split at h
      · injection h with h; subst h; exact (keep rfl).elim
      · cases h
  | push b =>
    simp only [step] at h
    split at h
    · cases h
    · injection h with h; subst h; exact (keep rfl).elim
    · cases h
  | read =>
    simp only [step] at h
    split at h
    · split at h
      · injection h with h; subst h; exact (keep rfl).elim
      · injection h with h; subst h; exact (keep rfl).elim
      · injection h with h; subst h; exact (keep rfl).elim
      · cases h
    · cases h
  | receive =>
    simp only [step] at h
    split at h
    · rename_i j op m' hw ho
      injection h with h; subst h
      by_cases hc : m'.pdu.head? = some 0x01 ∨ m'.pdu.head? = some (rspOfReq op)
      · unfold Net.receive at hm
        rw [if_pos hc] at hm
        rcases List.mem_append.1 hm with hm | hm
        · exact absurd hm hn
        · simp only [List.mem_singleton, Prod.mk.injEq, Outcome.rsp.injEq] at hm
          obtain ⟨rfl, rfl⟩ := hm
          exact ⟨op, hw, rspOfReq_spec op ▸ hc⟩
      · unfold Net.receive at hm
        rw [if_neg hc] at hm
        exact absurd hm hn
    · cases h
  | timeout =>
    simp only [step] at h
    split at h
    · injection h with h; subst h
      rcases List.mem_append.1 hm with hm | hm
      · exact absurd hm hn
      · simp at hm
    · cases h
  | work =>
    simp only [step] at h
    split at h
    · injection h with h; subst h; exact (keep rfl).elim
    · cases h

/-- The hypotheses are met, and a PDU of another kind is not returned: the call goes on waiting. -/
example : (∃ s s' : Net, step s .receive = some s' ∧ (0, Outcome.rsp ⟨some 0, [0x0B, 5]⟩) ∈ s'.results ∧ (0, Outcome.rsp ⟨some 0, [0x0B, 5]⟩) ∉ s.results) ∧
    (∃ s s' : Net, step s .receive = some s' ∧ s.offer = some ⟨none, [0x09, 5]⟩ ∧ s'.waiting = some (0, 0x0A) ∧ s'.results = []) :=
  ⟨⟨{ waiting := some (0, 0x0A), offer := some ⟨some 0, [0x0B, 5]⟩ }, _, rfl, by decide, by decide⟩,
   ⟨{ waiting := some (0, 0x0A), offer := some ⟨none, [0x09, 5]⟩ }, _, rfl, rfl, rfl, rfl⟩⟩

/-- **C22, without timeouts.** -/
theorem call_returns_own_answer (evs : List Ev) (hnt : Ev.timeout ∉ evs) (s : Net) (h : run {} evs = some s) (i : Nat) (m : Msg)
    (hm : (i, Outcome.rsp m) ∈ s.results) : m.tag = some i := by
  have hno : ∀ r ∈ s.results, r.2 ≠ .timeout := by
    refine run_induct (P := fun s => ∀ r ∈ s.results, r.2 ≠ .timeout) ?_ (by simp) h
    intro s s' e he hs hst r hr
    have hne : e ≠ .timeout := fun h => hnt (h ▸ he)
    cases e with
    | timeout => exact absurd rfl hne
    | call req =>
      simp only [step] at hst
      split at hst
      · injection hst with hst; subst hst; exact hs r hr
      · cases hst
    | answer rsp =>
      simp only [step] at hst
      split at hst
      · cases hst
      · split at hst
        · injection hst with hst; subst hst; exact hs r hr
        · cases hst
    | push b =>
      simp only [step] at hst
      split at hst
      · cases hst
      · injection hst with hst; subst hst; exact hs r hr
      · cases hst
    | read =>
      simp only [step] at hst
      split at hst
      · split at hst <;> first | (injection hst with hst; subst hst; exact hs r hr) | cases hst
      · cases hst
    | receive =>
      simp only [step] at hst
      split at hst
      · injection hst with hst; subst hst
        unfold Net.receive at hr
        split at hr
        · rcases List.mem_append.1 hr with hr | hr
          · exact hs r hr
          · rw [List.mem_singleton] at hr; subst hr; simp
        · exact hs r hr
      · cases hst
    | work =>
      simp only [step] at hst
      split at hst
      · injection hst with hst; subst hst; exact hs r hr
      · cases hst
  obtain ⟨-, -, ha⟩ := call_returns_own_answer_partial evs s h
  obtain ⟨j, hj, rfl | ⟨-, k, -, hk⟩⟩ := ha i m hm
  · exact hj
  · exact absurd rfl (hno _ hk)

/-- **C22, refuted with timeouts.** Call 0 reads handle 3 and times out; its answer then arrives and is returned to call 1, which reads handle 5. -/
theorem late_answer_goes_to_next_call : ∃ evs s, run {} evs = some s ∧
    s.results = [(0, .timeout), (1, .rsp ⟨some 0, [0x0B, 0x33]⟩)] ∧ s.inbox = [(1, [0x0A, 5, 0])] :=
  ⟨[.call [0x0A, 3, 0], .timeout, .answer [0x0B, 0x33], .read, .call [0x0A, 5, 0], .receive], _, rfl, rfl, rfl⟩

/-- The same without waiting for anything: all later calls of the same kind return the previous call's answer. -/
example : ∃ s, run {} [.call [0x0A, 3, 0], .timeout, .answer [0x0B, 0x33], .read, .call [0x0A, 5, 0], .receive, .answer [0x0B, 0x55], .read,
    .call [0x0A, 7, 0], .receive] = some s ∧
    s.results = [(0, .timeout), (1, .rsp ⟨some 0, [0x0B, 0x33]⟩), (2, .rsp ⟨some 1, [0x0B, 0x55]⟩)] := ⟨_, rfl, rfl⟩

/-- Non-vacuity of `call_returns_own_answer`: two calls, an indication in between. -/
example : ∃ s, run {} [.call [0x0A, 3, 0], .push [0x1D, 4, 0, 9], .answer [0x0B, 0x33], .read, .read, .receive, .work, .call [0x12, 3, 0, 1],
    .answer [0x01, 0x12, 3, 0, 3], .read, .receive] = some s ∧
    s.results = [(0, .rsp ⟨some 0, [0x0B, 0x33]⟩), (1, .rsp ⟨some 1, [0x01, 0x12, 3, 0, 3]⟩)] ∧ s.sent = [[0x1E]] ∧ s.handled = [[0x1D, 4, 0, 9]] :=
  ⟨_, rfl, rfl, rfl, rfl⟩

/-- A late answer that nobody waits for stops the receive loop: until the next call, no PDU is read, so no notification is delivered that was not
queued already and no indication is confirmed. -/
theorem late_answer_blocks_loop (s s' : Net) (m : Msg) (ho : s.offer = some m) (hw : s.waiting = none) (evs : List Ev)
    (hnc : ∀ req, Ev.call req ∉ evs) (h : run s evs = some s') :
    s'.seen = s.seen ∧ s'.sent = s.sent ∧ s'.handled ++ s'.queue = s.handled ++ s.queue := by
  have := run_induct (P := fun t => t.offer = some m ∧ t.waiting = none ∧ t.seen = s.seen ∧ t.sent = s.sent ∧
    t.handled ++ t.queue = s.handled ++ s.queue) ?_ ⟨ho, hw, rfl, rfl, rfl⟩ h
  · exact this.2.2
  · rintro t t' e he ⟨h1, h2, h3, h4, h5⟩ hst
    cases e with
    | call req => exact absurd he (hnc req)
    | answer rsp =>
      simp only [step] at hst
      split at hst
      · cases hst
      · split at hst
        · injection hst with hst; subst hst; exact ⟨h1, h2, h3, h4, h5⟩
        · cases hst
    | push b =>
      simp only [step] at hst
      split at hst
      · cases hst
      · injection hst with hst; subst hst; exact ⟨h1, h2, h3, h4, h5⟩
      · cases hst
    | read => simp only [step, h1] at hst; cases hst
    | receive => simp only [step, h2] at hst; cases hst
    | timeout => simp only [step, h2] at hst; cases hst
    | work =>
      simp only [step] at hst
      split at hst
      · rename_i b rest hq
        injection hst with hst; subst hst
        exact ⟨h1, h2, h3, h4, by rw [← h5, hq]; simp⟩
      · cases hst

example : ∃ s m, run {} [.call [0x0A, 3, 0], .timeout, .answer [0x0B, 0x33], .push [0x1D, 4, 0, 9], .read] = some s ∧ s.offer = some m ∧
    s.waiting = none ∧ s.wire = [⟨none, [0x1D, 4, 0, 9]⟩] := ⟨_, _, rfl, rfl, rfl, rfl⟩

/-! ## C27: the loop -/

/-- The PDU is a notification or an indication. -/
def isValue (b : Bytes) : Bool := b.head? == some 0x1B || b.head? == some 0x1D

theorem classify_value {b : Bytes} {ind : Bool} (h : classify b = .ok (.value ind)) :
    isValue b = true ∧ (b.head? == some 0x1D) = ind := by
  cases b with
  | nil => cases h
  | cons x xs =>
    simp only [classify, index_cons_zero, Go.bind_ok] at h
    split at h
    · cases h
    · split at h
      · cases h
      · rename_i h2
        injection h with h
        injection h with h
        subst h
        simp only [isValue, List.head?_cons]
        rcases Classical.em (x = 0x1B) with rfl | h3
        · decide
        · have h4 : x = 0x1D := Classical.byContradiction fun h4 => h2 ⟨h3, h4⟩
          subst h4; decide

theorem classify_not_value {b : Bytes} {k : Kind} (h : classify b = .ok k) (hk : ∀ ind, k ≠ .value ind) : isValue b = false := by
  cases b with
  | nil => cases h
  | cons x xs =>
    simp only [classify, index_cons_zero, Go.bind_ok] at h
    simp only [isValue, List.head?_cons]
    split at h
    · rename_i h1
      rcases Classical.em (x = 0x1B) with rfl | h3
      · exact absurd h1 (by decide)
      · rcases Classical.em (x = 0x1D) with rfl | h4
        · exact absurd h1 (by decide)
        · simp [h3, h4]
    · split at h
      · rename_i h2
        simp [h2.1, h2.2]
      · injection h with h; exact absurd h.symm (hk _)

/-- What one step does to the observable traffic. -/
theorem step_effect {s s' : Net} {e : Ev} (h : step s e = some s') :
    (e = .read ∧ ∃ b, s'.seen = s.seen ++ [b] ∧
      ((isValue b = false ∧ s'.sent = s.sent ∧ s'.handled = s.handled ∧ s'.queue = s.queue) ∨
       (isValue b = true ∧ s'.sent = s.sent ++ (if b.head? == some 0x1D then [[0x1E]] else []) ∧ s'.handled = s.handled ∧
        s'.queue = if s.queue.length < 16 then s.queue ++ [b] else s.queue))) ∨
    (e ≠ .read ∧ s'.seen = s.seen ∧ (s'.sent = s.sent ∨ ∃ x, s'.sent = s.sent ++ [0x01 :: x]) ∧ s'.handled ++ s'.queue = s.handled ++ s.queue) := by
  cases e with
  | call req =>
    right
    simp only [step] at h
    split at h
    · injection h with h; subst h; exact ⟨by simp, rfl, .inl rfl, rfl⟩
    · cases h
  | answer rsp =>
    right
    simp only [step] at h
    split at h
    · cases h
    · split at h
      · injection h with h; subst h; exact ⟨by simp, rfl, .inl rfl, rfl⟩
      · cases h
  | push b =>
    right
    simp only [step] at h
    split at h
    · cases h
    · injection h with h; subst h; exact ⟨by simp, rfl, .inl rfl, rfl⟩
    · cases h
  | read =>
    left
    refine ⟨rfl, ?_⟩
    simp only [step] at h
    split at h
    · rename_i m rest ho hw
      cases hc : classify m.pdu with
      | err e => rw [hc] at h; cases h
      | panic => rw [hc] at h; cases h
      | ok k =>
        rw [hc] at h
        cases k with
        | request =>
          injection h with h; subst h
          exact ⟨m.pdu, rfl, .inl ⟨classify_not_value hc (by simp), rfl, rfl, rfl⟩⟩
        | response =>
          injection h with h; subst h
          exact ⟨m.pdu, rfl, .inl ⟨classify_not_value hc (by simp), rfl, rfl, rfl⟩⟩
        | value ind =>
          injection h with h; subst h
          obtain ⟨h1, h2⟩ := classify_value hc
          refine ⟨m.pdu, rfl, .inr ⟨h1, ?_, rfl, rfl⟩⟩
          rw [h2]
          cases ind <;> simp [Net.value]
    · cases h
  | receive =>
    right
    refine ⟨by simp, ?_⟩
    simp only [step] at h
    split at h
    · injection h with h; subst h
      unfold Net.receive
      split
      · exact ⟨rfl, .inl rfl, rfl⟩
      · exact ⟨rfl, .inr ⟨_, rfl⟩, rfl⟩
    · cases h
  | timeout =>
    right
    simp only [step] at h
    split at h
    · injection h with h; subst h; exact ⟨by simp, rfl, .inl rfl, rfl⟩
    · cases h
  | work =>
    right
    simp only [step] at h
    split at h
    · rename_i b rest hq
      injection h with h; subst h
      exact ⟨by simp, rfl, .inl rfl, by simp [hq]⟩
    · cases h

/-- **C27.** In every interleaving the client has sent exactly one confirmation for each indication it has read, and none for anything else. -/
theorem indications_confirmed_once (evs : List Ev) (s : Net) (h : run {} evs = some s) :
    (s.sent.filter (· == [0x1E])).length = (s.seen.filter fun b => b.head? == some 0x1D).length := by
  refine run_induct (P := fun s => (s.sent.filter (· == [0x1E])).length = (s.seen.filter fun b => b.head? == some 0x1D).length) ?_ rfl h
  intro s s' e _ hs hst
  rcases step_effect hst with ⟨-, b, h1, h2⟩ | ⟨-, h1, h2, -⟩
  · rw [h1, List.filter_append, List.length_append, ← hs]
    rcases h2 with ⟨hv, h3, -, -⟩ | ⟨hv, h3, -, -⟩
    · have : (b.head? == some 0x1D) = false := by
        simp only [isValue, Bool.or_eq_false_iff] at hv; exact hv.2
      rw [h3]; simp [this]
    · rw [h3, List.filter_append, List.length_append]
      cases hb : (b.head? == some (0x1D : UInt8)) <;> simp [hb]
  · rw [h1, ← hs]
    rcases h2 with h2 | ⟨x, h2⟩
    · rw [h2]
    · rw [h2, List.filter_append]; simp

/-- **C27.** In every interleaving, the values handed to the subscription handlers, followed by those that wait, are values that were received, in the
order in which they were received and none twice. -/
theorem values_in_order (evs : List Ev) (s : Net) (h : run {} evs = some s) : (s.handled ++ s.queue).Sublist (s.seen.filter isValue) := by
  refine run_induct (P := fun s => (s.handled ++ s.queue).Sublist (s.seen.filter isValue)) ?_ (by simp) h
  intro s s' e _ hs hst
  rcases step_effect hst with ⟨-, b, h1, h2⟩ | ⟨-, h1, -, h3⟩
  · rw [h1, List.filter_append]
    rcases h2 with ⟨hv, -, h4, h5⟩ | ⟨hv, -, h4, h5⟩
    · rw [h4, h5]; exact hs.trans (List.sublist_append_left _ _)
    · rw [h4, h5]
      split
      · rw [← List.append_assoc]
        exact hs.append (by simp [hv])
      · exact hs.trans (List.sublist_append_left _ _)
  · rw [h1, h3]; exact hs

/-- **C27.** No value is lost unless at some moment sixteen values were waiting to be handled. -/
theorem values_complete_partial (evs : List Ev) (s : Net) (h : run {} evs = some s)
    (hroom : ∀ pre s0, pre <+: evs → run {} pre = some s0 → s0.queue.length < 16) : s.handled ++ s.queue = s.seen.filter isValue := by
  have main : ∀ (evs : List Ev) (t s : Net), t.handled ++ t.queue = t.seen.filter isValue → run t evs = some s →
      (∀ pre s0, pre <+: evs → run t pre = some s0 → s0.queue.length < 16) → s.handled ++ s.queue = s.seen.filter isValue := by
    intro evs
    induction evs with
    | nil => intro t s h0 h _; cases h; exact h0
    | cons e es ih =>
      intro t s h0 h hr
      simp only [run] at h
      cases hs : step t e with
      | none => rw [hs] at h; cases h
      | some t' =>
        rw [hs] at h
        refine ih t' s ?_ h ?_
        · have hlen := hr [] t (List.nil_prefix) rfl
          rcases step_effect hs with ⟨-, b, h1, h2⟩ | ⟨-, h1, -, h3⟩
          · rw [h1, List.filter_append, ← h0]
            rcases h2 with ⟨hv, -, h4, h5⟩ | ⟨hv, -, h4, h5⟩
            · rw [h4, h5]; simp [hv]
            · rw [h4, h5, if_pos hlen]; simp [hv]
          · rw [h1, h3, h0]
        · intro pre s0 hp hrun
          refine hr (e :: pre) s0 (List.cons_prefix_cons.2 ⟨rfl, hp⟩) ?_
          simp only [run, hs]
          exact hrun
  exact main evs {} s rfl h hroom

/-- The condition is needed: the seventeenth waiting value is dropped, although an indication is confirmed all the same. -/
theorem seventeenth_value_dropped : ∃ evs s, run {} evs = some s ∧ s.handled = [] ∧ s.queue = List.replicate 16 [0x1B, 3, 0] ∧
    s.seen = List.replicate 16 [0x1B, 3, 0] ++ [[0x1D, 3, 0, 1]] ∧ s.sent = [[0x1E]] :=
  ⟨(List.replicate 16 (.push [0x1B, 3, 0])) ++ (.push [0x1D, 3, 0, 1]) :: List.replicate 17 .read, _, rfl, rfl, rfl, rfl, rfl⟩

/-- An empty PDU makes the loop panic. -/
theorem loop_panics_iff (b : Bytes) : classify b = .panic ↔ b = [] := by
  cases b with
  | nil => simp [classify]
  | cons x xs =>
    simp only [classify, index_cons_zero, Go.bind_ok, reduceCtorEq, iff_false]
    split
    · simp
    · split <;> simp

end Ble.Props
