import Verif.Hci.Reenter
set_option autoImplicit false

/-!
# Functions of the application that use the device they are called by (C131)
-/

namespace Ble.Reenter

/-- The function sends no command. -/
def quiet (f : List Act) : Prop := ∀ a ∈ f, a = .other

/-- Call `i` has returned. -/
def returned (s : St) (i : Nat) : Prop := ∃ c ok, s.calls[i]? = some c ∧ c.ph = .done ok

/-! ## Lemmas -/

theorem at_get {s : St} {i k : Nat} {p : Phase} :
    (s.at_ i p).calls[k]? = if i = k then (s.calls[k]?).map (fun c => { c with ph := p }) else s.calls[k]? := by
  simp only [St.at_, List.getElem?_modify]
  split <;> rename_i h <;> simp [h]

theorem at_len {s : St} {i : Nat} {p : Phase} : (s.at_ i p).calls.length = s.calls.length := by simp [St.at_]

theorem at_loop {s : St} {i : Nat} {p : Phase} : (s.at_ i p).loop = s.loop := rfl
theorem at_lock {s : St} {i : Nat} {p : Phase} : (s.at_ i p).lock = s.lock := rfl
theorem at_sent {s : St} {i : Nat} {p : Phase} : (s.at_ i p).sent = s.sent := rfl
theorem at_evq {s : St} {i : Nat} {p : Phase} : (s.at_ i p).evq = s.evq := rfl
theorem at_open {s : St} {i : Nat} {p : Phase} : (s.at_ i p).isOpen = s.isOpen := rfl

/-- The call has the lock of its opcode. -/
def holds : Phase → Bool
  | .want => false
  | .done _ => false
  | _ => true

/-- What one step can do to a call. -/
theorem step_call {s s' : St} {e : Ev} {k : Nat} {c : Call} (h : step s e = some s') (hc : s.calls[k]? = some c) :
    s'.calls[k]? = some c ∨
    (∃ p, s'.calls[k]? = some { c with ph := p } ∧
      ((e = .lock k ∧ c.ph = .want ∧ s.lock (key c.oc) = none ∧ ((p = .waiting ∧ s.isOpen = true) ∨ (p = .done false ∧ s.isOpen = false))) ∨
       (∃ f, e = .timeout k f ∧ c.ph = .waiting ∧ p = .running (if s.isOpen then f else [])) ∨
       (e = .wake k ∧ c.ph = .waiting ∧ p = .closed ∧ s.isOpen = false) ∨
       (e = .act k ∧ ((∃ r, c.ph = .running (.other :: r) ∧ p = .running r) ∨ (∃ oc r, c.ph = .running (.cmd oc :: r) ∧ p = .blocked r s.calls.length))) ∨
       (e = .resume k ∧ ∃ r j, c.ph = .blocked r j ∧ p = .running r ∧ returned s j) ∨
       (e = .finish k ∧ ((c.ph = .replied ∧ p = .done true) ∨ (c.ph = .closed ∧ p = .done false) ∨ (c.ph = .running [] ∧ p = .done false))) ∨
       (e = .hand ∧ s.loop = .handing k ∧ c.ph = .waiting ∧ p = .replied))) := by
  have hlt : k < s.calls.length := by
    rcases Nat.lt_or_ge k s.calls.length with h | h
    · exact h
    · rw [List.getElem?_eq_none h] at hc; simp at hc
  have happ : ∀ (l : List Call) (x : Call), l.length = s.calls.length → (l ++ [x])[k]? = l[k]? := by
    intro l x hl; rw [List.getElem?_append_left (by omega)]
  cases e with
  | call oc => simp only [step, Option.some.injEq] at h; subst h; left; simp only; rw [happ _ _ rfl, hc]
  | raise m => simp only [step, Option.some.injEq] at h; subst h; left; exact hc
  | close => simp only [step, Option.some.injEq] at h; subst h; left; exact hc
  | lock i =>
    simp only [step] at h
    split at h
    · rename_i w oc hi
      split at h
      · rename_i hl
        by_cases hik : i = k
        · subst hik
          rw [hc, Option.some.injEq] at hi; subst hi
          right
          split at h <;> (rename_i ho; simp only [Option.some.injEq] at h; subst h)
          · exact ⟨.waiting, by rw [at_get]; simp [hc], .inl ⟨rfl, rfl, hl, .inl ⟨rfl, ho⟩⟩⟩
          · exact ⟨.done false, by rw [at_get]; simp [hc], .inl ⟨rfl, rfl, hl, .inr ⟨rfl, by simpa using ho⟩⟩⟩
        · left
          split at h <;> (simp only [Option.some.injEq] at h; subst h; rw [at_get]; simp [hik, hc])
      · simp at h
    · simp at h
  | timeout i f =>
    simp only [step] at h
    split at h
    · rename_i w oc hi
      simp only [Option.some.injEq] at h; subst h
      by_cases hik : i = k
      · subst hik
        rw [hc, Option.some.injEq] at hi; subst hi
        exact .inr ⟨_, by rw [at_get]; simp [hc], .inr (.inl ⟨f, rfl, rfl, rfl⟩)⟩
      · left; rw [at_get]; simp [hik, hc]
    · simp at h
  | wake i =>
    simp only [step] at h
    split at h
    · rename_i w oc hi
      split at h
      · simp at h
      rename_i ho
      simp only [Option.some.injEq] at h; subst h
      by_cases hik : i = k
      · subst hik
        rw [hc, Option.some.injEq] at hi; subst hi
        exact .inr ⟨_, by rw [at_get]; simp [hc], .inr (.inr (.inl ⟨rfl, rfl, rfl, by simpa using ho⟩))⟩
      · left; rw [at_get]; simp [hik, hc]
    · simp at h
  | act i =>
    simp only [step] at h
    split at h
    · rename_i w oc r hi
      simp only [Option.some.injEq] at h; subst h
      by_cases hik : i = k
      · subst hik
        rw [hc, Option.some.injEq] at hi; subst hi
        exact .inr ⟨_, by rw [at_get]; simp [hc], .inr (.inr (.inr (.inl ⟨rfl, .inl ⟨r, rfl, rfl⟩⟩)))⟩
      · left; rw [at_get]; simp [hik, hc]
    · rename_i w oc' oc r hi
      simp only [Option.some.injEq] at h; subst h
      by_cases hik : i = k
      · subst hik
        rw [hc, Option.some.injEq] at hi; subst hi
        refine .inr ⟨_, ?_, .inr (.inr (.inr (.inl ⟨rfl, .inr ⟨oc, r, rfl, rfl⟩⟩)))⟩
        simp only; rw [happ _ _ at_len, at_get]; simp [hc]
      · left; simp only; rw [happ _ _ at_len, at_get]; simp [hik, hc]
    · simp at h
  | resume i =>
    simp only [step] at h
    split at h
    · rename_i w oc r j hi
      split at h
      · rename_i w' oc' ok hj
        simp only [Option.some.injEq] at h; subst h
        by_cases hik : i = k
        · subst hik
          rw [hc, Option.some.injEq] at hi; subst hi
          exact .inr ⟨_, by rw [at_get]; simp [hc], .inr (.inr (.inr (.inr (.inl ⟨rfl, r, j, rfl, rfl, _, ok, hj, rfl⟩))))⟩
        · left; rw [at_get]; simp [hik, hc]
      · simp at h
    · simp at h
  | finish i =>
    simp only [step] at h
    split at h
    all_goals first
      | (simp at h; done)
      | (rename_i w oc hi
         simp only [Option.some.injEq] at h; subst h
         by_cases hik : i = k
         · subst hik
           rw [hc, Option.some.injEq] at hi; subst hi
           first
             | exact .inr ⟨.done true, by rw [at_get]; simp [hc], .inr (.inr (.inr (.inr (.inr (.inl ⟨rfl, .inl ⟨rfl, rfl⟩⟩)))))⟩
             | exact .inr ⟨.done false, by rw [at_get]; simp [hc], .inr (.inr (.inr (.inr (.inr (.inl ⟨rfl, .inr (.inl ⟨rfl, rfl⟩)⟩)))))⟩
             | exact .inr ⟨.done false, by rw [at_get]; simp [hc], .inr (.inr (.inr (.inr (.inr (.inl ⟨rfl, .inr (.inr ⟨rfl, rfl⟩)⟩)))))⟩
         · left; rw [at_get]; simp [hik, hc])
  | take =>
    simp only [step] at h
    split at h
    all_goals first
      | (simp at h; done)
      | (simp only [Option.some.injEq] at h; subst h; left; exact hc)
  | hand =>
    simp only [step] at h
    split at h
    · rename_i i hl
      split at h
      · rename_i w oc hi
        simp only [Option.some.injEq] at h; subst h
        by_cases hik : i = k
        · subst hik
          rw [hc, Option.some.injEq] at hi; subst hi
          refine .inr ⟨_, ?_, .inr (.inr (.inr (.inr (.inr (.inr ⟨rfl, hl, rfl, rfl⟩)))))⟩
          show (s.at_ i .replied).calls[i]? = _
          rw [at_get]; simp [hc]
        · left
          show (s.at_ i .replied).calls[k]? = _
          rw [at_get]; simp [hik, hc]
      · simp at h
    · simp at h
  | giveUp =>
    simp only [step] at h
    split at h
    · split at h
      · simp at h
      · simp only [Option.some.injEq] at h; subst h; left; exact hc
    · simp at h
  | loopAct =>
    simp only [step] at h
    split at h
    · simp only [Option.some.injEq] at h; subst h; left; exact hc
    · simp only [Option.some.injEq] at h; subst h; left; simp only; rw [happ _ _ rfl, hc]
    · simp at h
  | loopResume =>
    simp only [step] at h
    split at h
    · split at h
      · simp only [Option.some.injEq] at h; subst h; left; exact hc
      · simp at h
    · simp at h
  | loopReturn =>
    simp only [step] at h
    split at h
    · simp only [Option.some.injEq] at h; subst h; left; exact hc
    · simp at h

/-- Calls appear, waiting for their lock, and nothing else. -/
theorem step_new {s s' : St} {e : Ev} {k : Nat} {c : Call} (h : step s e = some s') (hk : s.calls[k]? = none) (hc : s'.calls[k]? = some c) :
    k = s.calls.length ∧ c.ph = .want ∧
    ((∃ oc, e = .call oc ∧ c.who = .app) ∨ (∃ i oc r d, e = .act i ∧ c.who = .handler i ∧ c.oc = oc ∧ s.calls[i]? = some d ∧ d.ph = .running (.cmd oc :: r)) ∨
      (e = .loopAct ∧ c.who = .loop ∧ (∃ oc r, s.loop = .running (.cmd oc :: r) ∧ s'.loop = .blocked r k))) := by
  have hk' : s.calls.length ≤ k := by simpa using hk
  have hlen : s'.calls.length = s.calls.length → False := by
    intro hl
    have : s'.calls[k]? = none := by rw [List.getElem?_eq_none_iff, hl]; exact hk'
    rw [hc] at this; simp at this
  have happ : ∀ (l : List Call) (x : Call), l.length = s.calls.length → (l ++ [x])[k]? = some c → k = s.calls.length ∧ c = x := by
    intro l x hl hx
    have : k < (l ++ [x]).length := by
      rcases Nat.lt_or_ge k (l ++ [x]).length with h | h
      · exact h
      · rw [List.getElem?_eq_none h] at hx; simp at hx
    simp at this
    have : k = l.length := by omega
    subst this
    simp at hx
    exact ⟨hl, hx.symm⟩
  cases e with
  | call oc =>
    simp only [step, Option.some.injEq] at h; subst h
    obtain ⟨a, b⟩ := happ _ _ rfl hc; subst b
    exact ⟨a, rfl, .inl ⟨oc, rfl, rfl⟩⟩
  | act i =>
    simp only [step] at h
    split at h
    · simp only [Option.some.injEq] at h; subst h
      exact (hlen at_len).elim
    · rename_i w oc' oc r hi
      simp only [Option.some.injEq] at h; subst h
      obtain ⟨a, b⟩ := happ _ _ at_len hc; subst b
      exact ⟨a, rfl, .inr (.inl ⟨i, oc, r, _, rfl, rfl, rfl, hi, rfl⟩)⟩
    · simp at h
  | loopAct =>
    simp only [step] at h
    split at h
    · simp only [Option.some.injEq] at h; subst h; simp [hk] at hc
    · rename_i oc r hl
      simp only [Option.some.injEq] at h; subst h
      obtain ⟨a, b⟩ := happ _ _ rfl hc; subst b
      exact ⟨a, rfl, .inr (.inr ⟨rfl, rfl, oc, r, hl, by rw [a]⟩)⟩
    · simp at h
  | raise m => simp only [step, Option.some.injEq] at h; subst h; simp [hk] at hc
  | close => simp only [step, Option.some.injEq] at h; subst h; simp [hk] at hc
  | _ =>
    simp only [step] at h
    (repeat' split at h)
    all_goals first
      | (simp at h; done)
      | (simp only [Option.some.injEq] at h; subst h; exact (hlen (by simp [St.at_])).elim)

/-- What one step can do to the event loop. -/
theorem step_loop {s s' : St} {e : Ev} (h : step s e = some s') :
    s'.loop = s.loop ∨
    (e = .take ∧ s.loop = .idle) ∨
    (e = .hand ∧ s'.loop = .idle ∧ ∃ i, s.loop = .handing i) ∨
    (e = .giveUp ∧ s'.loop = .idle ∧ s.isOpen = false ∧ ∃ i, s.loop = .handing i) ∨
    (e = .loopAct ∧ ∃ a r, s.loop = .running (a :: r) ∧ (s'.loop = .running r ∨ s'.loop = .blocked r s.calls.length)) ∨
    (e = .loopResume ∧ ∃ r j, s.loop = .blocked r j ∧ s'.loop = .running r ∧ returned s j) ∨
    (e = .loopReturn ∧ s'.loop = .idle ∧ s.loop = .running []) := by
  cases e with
  | call oc => simp only [step, Option.some.injEq] at h; subst h; exact .inl rfl
  | raise m => simp only [step, Option.some.injEq] at h; subst h; exact .inl rfl
  | close => simp only [step, Option.some.injEq] at h; subst h; exact .inl rfl
  | take =>
    simp only [step] at h
    split at h
    · rename_i hl _; exact .inr (.inl ⟨rfl, hl⟩)
    · rename_i hl _; exact .inr (.inl ⟨rfl, hl⟩)
    · simp at h
  | hand =>
    simp only [step] at h
    split at h
    · rename_i i hl
      split at h
      · simp only [Option.some.injEq] at h; subst h; exact .inr (.inr (.inl ⟨rfl, rfl, i, hl⟩))
      · simp at h
    · simp at h
  | giveUp =>
    simp only [step] at h
    split at h
    · rename_i i hl
      split at h
      · simp at h
      · rename_i ho
        simp only [Option.some.injEq] at h; subst h; exact .inr (.inr (.inr (.inl ⟨rfl, rfl, by simpa using ho, i, hl⟩)))
    · simp at h
  | loopAct =>
    simp only [step] at h
    split at h
    · rename_i r hl
      simp only [Option.some.injEq] at h; subst h
      exact .inr (.inr (.inr (.inr (.inl ⟨rfl, _, r, hl, .inl rfl⟩))))
    · rename_i oc r hl
      simp only [Option.some.injEq] at h; subst h
      exact .inr (.inr (.inr (.inr (.inl ⟨rfl, _, r, hl, .inr rfl⟩))))
    · simp at h
  | loopResume =>
    simp only [step] at h
    split at h
    · rename_i r j hl
      split at h
      · rename_i hj
        simp only [Option.some.injEq] at h; subst h
        exact .inr (.inr (.inr (.inr (.inr (.inl ⟨rfl, r, j, hl, rfl, _, _, hj, rfl⟩)))))
      · simp at h
    · simp at h
  | loopReturn =>
    simp only [step] at h
    split at h
    · rename_i hl
      simp only [Option.some.injEq] at h; subst h
      exact .inr (.inr (.inr (.inr (.inr (.inr ⟨rfl, rfl, hl⟩)))))
    · simp at h
  | _ =>
    left
    simp only [step] at h
    (repeat' split at h)
    all_goals first
      | (simp at h; done)
      | (simp only [Option.some.injEq] at h; subst h; rfl)

/-- What one step can do to the opcode locks. -/
theorem step_lock {s s' : St} {e : Ev} (h : step s e = some s') :
    (s'.lock = s.lock ∧ (∀ i, e ≠ .finish i)) ∨
    (∃ i c, e = .lock i ∧ s.calls[i]? = some c ∧ c.ph = .want ∧ s.lock (key c.oc) = none ∧ s'.lock = upd s.lock (key c.oc) (some i) ∧ s.isOpen = true) ∨
    (∃ i c, e = .finish i ∧ s.calls[i]? = some c ∧ holds c.ph = true ∧ s'.lock = upd s.lock (key c.oc) none) := by
  cases e with
  | call oc => simp only [step, Option.some.injEq] at h; subst h; exact .inl ⟨rfl, by simp⟩
  | raise m => simp only [step, Option.some.injEq] at h; subst h; exact .inl ⟨rfl, by simp⟩
  | close => simp only [step, Option.some.injEq] at h; subst h; exact .inl ⟨rfl, by simp⟩
  | lock i =>
    simp only [step] at h
    split at h
    · rename_i w oc hi
      split at h
      · rename_i hl
        split at h
        · rename_i ho
          simp only [Option.some.injEq] at h; subst h
          exact .inr (.inl ⟨i, _, rfl, hi, rfl, hl, rfl, ho⟩)
        · simp only [Option.some.injEq] at h; subst h; exact .inl ⟨rfl, by simp⟩
      · simp at h
    · simp at h
  | finish i =>
    simp only [step] at h
    split at h
    all_goals first
      | (simp at h; done)
      | (rename_i w oc hi
         simp only [Option.some.injEq] at h; subst h
         exact .inr (.inr ⟨i, _, rfl, hi, rfl, rfl⟩))
  | _ =>
    left
    simp only [step] at h
    (repeat' split at h)
    all_goals first
      | (simp at h; done)
      | (simp only [Option.some.injEq] at h; subst h; exact ⟨rfl, by simp⟩)

/-- A call that has sent its command and not returned has the lock of its opcode, and only such calls have locks. -/
structure LockInv (s : St) : Prop where
  held : ∀ k c, s.calls[k]? = some c → holds c.ph = true → s.lock (key c.oc) = some k
  owner : ∀ x k, s.lock x = some k → ∃ c, s.calls[k]? = some c ∧ key c.oc = x ∧ holds c.ph = true

theorem lockInv_step {s s' : St} {e : Ev} (hI : LockInv s) (h : step s e = some s') : LockInv s' := by
  have hl := step_lock h
  constructor
  · intro k c' hc' hh
    cases hk : s.calls[k]? with
    | none => obtain ⟨_, hw, _⟩ := step_new h hk hc'; rw [hw] at hh; simp [holds] at hh
    | some c =>
      rcases step_call h hk with h1 | ⟨p, h1, h2⟩
      · rw [hc', Option.some.injEq] at h1; subst h1
        have hk1 := hI.held k c' hk hh
        rcases hl with ⟨a, _⟩ | ⟨i, d, _, _, _, hn, a, _⟩ | ⟨i, d, he, hd, hdh, a⟩
        · rw [a]; exact hk1
        · rw [a]; simp only [upd]; split
          · rename_i hx; rw [hx, hn] at hk1; simp at hk1
          · exact hk1
        · rw [a]; simp only [upd]; split
          · rename_i hx
            have h3 := hI.held i d hd hdh
            rw [← hx, hk1] at h3
            simp only [Option.some.injEq] at h3; subst h3
            rw [hk, Option.some.injEq] at hd; subst hd
            -- the call that finishes does not stay as it is
            subst he
            rcases step_call h hk with h4 | ⟨p, h4, h5⟩
            · simp only [step, hk] at h
              rcases hcp : c'.ph with _ | _ | _ | _ | r | ⟨r, j⟩ | ok
              all_goals (rcases c' with ⟨w, oc, ph⟩; simp only at hcp; subst hcp)
              all_goals try (simp [holds] at hh; done)
              all_goals try (simp at h; done)
              · simp only [Option.some.injEq] at h; rw [← h, at_get] at h4; simp [hk] at h4
              · simp only [Option.some.injEq] at h; rw [← h, at_get] at h4; simp [hk] at h4
              · cases r with
                | nil => simp only [Option.some.injEq] at h; rw [← h, at_get] at h4; simp [hk] at h4
                | cons a r => simp at h
            · rw [hc', Option.some.injEq] at h4
              have : c'.ph = p := by rw [h4]
              rcases h5 with ⟨hh5, _⟩ | ⟨_, hh5, _⟩ | ⟨hh5, _⟩ | ⟨hh5, _⟩ | ⟨hh5, _⟩ | ⟨_, h6⟩ | ⟨hh5, _⟩
              all_goals try (simp at hh5; done)
              rcases h6 with ⟨_, h6⟩ | ⟨_, h6⟩ | ⟨_, h6⟩ <;> (rw [this, h6] at hh; simp [holds] at hh)
          · exact hk1
      · rw [hc', Option.some.injEq] at h1; subst h1
        simp only at hh ⊢
        rcases h2 with ⟨he, hw, hn, h3⟩ | ⟨f, he, hw, hp⟩ | ⟨he, hw, hp, _⟩ | ⟨he, h3⟩ | ⟨he, r, j, hw, hp, _⟩ | ⟨he, h3⟩ | ⟨he, _, hw, hp⟩
        · subst he
          rcases h3 with ⟨hp, ho⟩ | ⟨hp, _⟩
          · rcases hl with ⟨a, _⟩ | ⟨i, d, he, hd, _, _, a, _⟩ | ⟨i, d, he, _⟩
            · -- impossible: the lock was taken
              simp only [step, hk] at h
              rcases c with ⟨w, oc, ph⟩; simp only at hw hn; subst hw
              simp only [hn, ho, if_true, Option.some.injEq] at h
              rw [← h] ; rw [at_lock]; simp [upd]
            · simp only [Ev.lock.injEq] at he; subst he
              rw [hk, Option.some.injEq] at hd; subst hd
              rw [a]; simp [upd]
            · simp at he
          · rw [hp] at hh; simp [holds] at hh
        · have hk1 := hI.held k c hk (by rw [hw]; rfl)
          subst he
          rcases hl with ⟨a, _⟩ | ⟨i, d, he, _⟩ | ⟨i, d, he, _⟩
          · rw [a]; exact hk1
          · simp at he
          · simp at he
        · have hk1 := hI.held k c hk (by rw [hw]; rfl)
          subst he
          rcases hl with ⟨a, _⟩ | ⟨i, d, he, _⟩ | ⟨i, d, he, _⟩
          · rw [a]; exact hk1
          · simp at he
          · simp at he
        · have hk1 := hI.held k c hk (by rcases h3 with ⟨_, hw, _⟩ | ⟨_, _, hw, _⟩ <;> (rw [hw]; rfl))
          subst he
          rcases hl with ⟨a, _⟩ | ⟨i, d, he, _⟩ | ⟨i, d, he, _⟩
          · rw [a]; exact hk1
          · simp at he
          · simp at he
        · have hk1 := hI.held k c hk (by rw [hw]; rfl)
          subst he
          rcases hl with ⟨a, _⟩ | ⟨i, d, he, _⟩ | ⟨i, d, he, _⟩
          · rw [a]; exact hk1
          · simp at he
          · simp at he
        · rcases h3 with ⟨_, h3⟩ | ⟨_, h3⟩ | ⟨_, h3⟩ <;> (rw [h3] at hh; simp [holds] at hh)
        · have hk1 := hI.held k c hk (by rw [hw]; rfl)
          subst he
          rcases hl with ⟨a, _⟩ | ⟨i, d, he, _⟩ | ⟨i, d, he, _⟩
          · rw [a]; exact hk1
          · simp at he
          · simp at he
  · intro x k hx
    -- who had it before
    have hprev : (s.lock x = some k ∧ e ≠ .finish k) ∨ (∃ c, e = .lock k ∧ s.calls[k]? = some c ∧ c.ph = .want ∧ key c.oc = x ∧ s.isOpen = true ∧ s.lock (key c.oc) = none) := by
      rcases hl with ⟨a, b⟩ | ⟨i, d, he, hd, hw, hn, a, ho⟩ | ⟨i, d, he, hd, hdh, a⟩
      · rw [a] at hx; exact .inl ⟨hx, b k⟩
      · rw [a] at hx; simp only [upd] at hx; split at hx
        · rename_i hxx
          simp only [Option.some.injEq] at hx; subst hx
          exact .inr ⟨d, he, hd, hw, hxx.symm, ho, hn⟩
        · exact .inl ⟨hx, by rw [he]; simp⟩
      · rw [a] at hx; simp only [upd] at hx; split at hx
        · simp at hx
        · rename_i hxx
          refine .inl ⟨hx, ?_⟩
          rw [he]
          intro hik
          simp only [Ev.finish.injEq] at hik; subst hik
          obtain ⟨c, hc, hkc, _⟩ := hI.owner x i hx
          rw [hd, Option.some.injEq] at hc; subst hc
          exact hxx hkc.symm
    rcases hprev with ⟨hx0, hne⟩ | ⟨c, he, hc, hw, hkx, ho, hn⟩
    · obtain ⟨c, hc, hkc, hh⟩ := hI.owner x k hx0
      rcases step_call h hc with h1 | ⟨p, h1, h2⟩
      · exact ⟨c, h1, hkc, hh⟩
      · refine ⟨_, h1, hkc, ?_⟩
        simp only
        rcases h2 with ⟨_, hw, _⟩ | ⟨f, _, _, hp⟩ | ⟨_, _, hp, _⟩ | ⟨_, h3⟩ | ⟨_, r, j, _, hp, _⟩ | ⟨he, _⟩ | ⟨_, _, _, hp⟩
        · rw [hw] at hh; simp [holds] at hh
        · rw [hp]; rfl
        · rw [hp]; rfl
        · rcases h3 with ⟨r, _, hp⟩ | ⟨_, r, _, hp⟩ <;> (rw [hp]; rfl)
        · rw [hp]; rfl
        · exact absurd he hne
        · rw [hp]; rfl
    · subst he
      rcases c with ⟨w, oc, ph⟩
      simp only at hw hkx hn; subst hw
      simp only [step, hc, hn, ho, if_true, Option.some.injEq] at h
      subst h
      exact ⟨⟨w, oc, .waiting⟩, by rw [at_get]; simp [hc], hkx, rfl⟩

theorem lockInv_run {s s' : St} {es : List Ev} (hI : LockInv s) (h : runT step s es = some s') : LockInv s' :=
  runT_ind (P := fun _ s => LockInv s) hI (fun _ _ _ _ _ hp hs => lockInv_step hp hs) es s' h

theorem lockInv {s : St} {es : List Ev} (h : run es = some s) : LockInv s :=
  lockInv_run ⟨by simp, by simp⟩ h

/-! ## Functions called by the event loop -/

/-- The event loop is in a function of the application. -/
def inCallback (s : St) : Prop := (∃ r, s.loop = .running r) ∨ ∃ r j, s.loop = .blocked r j

/-- While a function of the application runs on the event loop, no call gets a reply: not the calls the function makes, not the calls of other goroutines, whatever the controller sends. -/
theorem no_reply_during_callback {s s' : St} {es : List Ev} (hs : inCallback s) (hr : Ev.loopReturn ∉ es) (h : runT step s es = some s') {k : Nat} {c' : Call}
    (hc' : s'.calls[k]? = some c') (hp : c'.ph = .replied ∨ c'.ph = .done true) :
    ∃ c : Call, s.calls[k]? = some c ∧ (c.ph = .replied ∨ c.ph = .done true) := by
  have key : Ev.loopReturn ∉ es → inCallback s' ∧ ∀ (k : Nat) (c' : Call), s'.calls[k]? = some c' → c'.ph = .replied ∨ c'.ph = .done true →
      ∃ c : Call, s.calls[k]? = some c ∧ (c.ph = .replied ∨ c.ph = .done true) := by
    refine runT_ind (P := fun es s' => Ev.loopReturn ∉ es → inCallback s' ∧ ∀ (k : Nat) (c' : Call), s'.calls[k]? = some c' → c'.ph = .replied ∨ c'.ph = .done true →
      ∃ c : Call, s.calls[k]? = some c ∧ (c.ph = .replied ∨ c.ph = .done true)) ?_ ?_ es s' h
    · intro _; exact ⟨hs, fun k c hc hp => ⟨c, hc, hp⟩⟩
    · intro es t e t' _ ih ht hno
      simp only [List.mem_append, List.mem_singleton, not_or] at hno
      obtain ⟨hcb, hall⟩ := ih hno.1
      refine ⟨?_, ?_⟩
      · rcases step_loop ht with h1 | ⟨_, h1⟩ | ⟨_, _, i, h1⟩ | ⟨_, _, _, i, h1⟩ | ⟨_, a, r, _, h1⟩ | ⟨_, r, j, _, h1, _⟩ | ⟨h1, _⟩
        · unfold inCallback at hcb ⊢; rw [h1]; exact hcb
        · rcases hcb with ⟨r, h2⟩ | ⟨r, j, h2⟩ <;> (rw [h1] at h2; simp at h2)
        · rcases hcb with ⟨r, h2⟩ | ⟨r, j, h2⟩ <;> (rw [h1] at h2; simp at h2)
        · rcases hcb with ⟨r, h2⟩ | ⟨r, j, h2⟩ <;> (rw [h1] at h2; simp at h2)
        · rcases h1 with h1 | h1
          · exact .inl ⟨r, h1⟩
          · exact .inr ⟨r, _, h1⟩
        · exact .inl ⟨r, h1⟩
        · exact absurd h1.symm hno.2
      · intro k c' hc' hp
        cases hk : t.calls[k]? with
        | none => obtain ⟨_, hw, _⟩ := step_new ht hk hc'; rw [hw] at hp; simp at hp
        | some c =>
          rcases step_call ht hk with h1 | ⟨p, h1, h2⟩
          · rw [hc', Option.some.injEq] at h1; subst h1; exact hall k c' hk hp
          · rw [hc', Option.some.injEq] at h1; subst h1
            simp only at hp
            rcases h2 with ⟨_, _, _, h3⟩ | ⟨f, _, _, h3⟩ | ⟨_, _, h3, _⟩ | ⟨_, h3⟩ | ⟨_, r, j, _, h3, _⟩ | ⟨_, h3⟩ | ⟨_, h3, _⟩
            · rcases h3 with ⟨h3, _⟩ | ⟨h3, _⟩ <;> (rw [h3] at hp; simp at hp)
            · rw [h3] at hp; simp at hp
            · rw [h3] at hp; simp at hp
            · rcases h3 with ⟨_, _, h3⟩ | ⟨_, _, _, h3⟩ <;> (rw [h3] at hp; simp at hp)
            · rw [h3] at hp; simp at hp
            · rcases h3 with ⟨h4, _⟩ | ⟨_, h3⟩ | ⟨_, h3⟩
              · exact hall k c hk (.inl h4)
              · rw [h3] at hp; simp at hp
              · rw [h3] at hp; simp at hp
            · rcases hcb with ⟨r, h2⟩ | ⟨r, j, h2⟩ <;> (rw [h3] at h2; simp at h2)
  exact (key hr).2 k c' hc' hp

/-- A command sent by a function that the event loop calls (a synchronous advertising handler; the error handler, if the failure is in an event) never succeeds. -/
theorem loop_callback_command_fails {es : List Ev} {s : St} {i : Nat} {c : Call} (h : run es = some s) (hc : s.calls[i]? = some c) (hw : c.who = .loop) :
    c.ph ≠ .replied ∧ c.ph ≠ .done true := by
  have key : ∀ (k : Nat) (c : Call), s.calls[k]? = some c → c.who = .loop → c.ph = .done false ∨ ((∃ r, s.loop = .blocked r k) ∧ c.ph ≠ .replied ∧ c.ph ≠ .done true) := by
    refine runT_ind (P := fun _ s => ∀ (k : Nat) (c : Call), s.calls[k]? = some c → c.who = .loop → c.ph = .done false ∨ ((∃ r, s.loop = .blocked r k) ∧ c.ph ≠ .replied ∧ c.ph ≠ .done true)) ?_ ?_ es s h
    · intro k c hc; simp at hc
    · intro es t e t' _ ih ht k c' hc' hw
      cases hk : t.calls[k]? with
      | none =>
        obtain ⟨_, hp, h2⟩ := step_new ht hk hc'
        rcases h2 with ⟨_, _, h2⟩ | ⟨_, _, _, _, _, h2, _⟩ | ⟨_, _, oc, r, _, h2⟩
        · rw [hw] at h2; simp at h2
        · rw [hw] at h2; simp at h2
        · right; exact ⟨⟨r, h2⟩, by rw [hp]; simp, by rw [hp]; simp⟩
      | some c =>
        have hwc : c.who = .loop := by
          rcases step_call ht hk with h1 | ⟨p, h1, _⟩ <;> (rw [hc', Option.some.injEq] at h1; subst h1; exact hw)
        rcases ih k c hk hwc with hd | ⟨⟨r, hl⟩, hn1, hn2⟩
        · left
          rcases step_call ht hk with h1 | ⟨p, h1, h2⟩
          · rw [hc', Option.some.injEq] at h1; subst h1; exact hd
          · rw [hd] at h2; simp at h2
        · rcases step_call ht hk with h1 | ⟨p, h1, h2⟩
          · rw [hc', Option.some.injEq] at h1; subst h1
            rcases step_loop ht with h3 | ⟨_, h3⟩ | ⟨_, _, i, h3⟩ | ⟨_, _, _, i, h3⟩ | ⟨_, a, r', h3, _⟩ | ⟨_, r', j, h3, _, h4⟩ | ⟨_, _, h3⟩
            · exact .inr ⟨⟨r, by rw [h3, hl]⟩, hn1, hn2⟩
            all_goals try (rw [hl] at h3; simp at h3; done)
            rw [hl] at h3
            simp only [Loop.blocked.injEq] at h3
            obtain ⟨-, h3⟩ := h3; subst h3
            obtain ⟨d, ok, hd, hok⟩ := h4
            rw [hk, Option.some.injEq] at hd; subst hd
            cases ok with
            | true => exact absurd hok hn2
            | false => exact .inl hok
          · rw [hc', Option.some.injEq] at h1; subst h1
            simp only
            have hloop : e ≠ .hand → e ≠ .loopResume → (∃ r, t'.loop = .blocked r k) := by
              intro e1 e2
              rcases step_loop ht with h3 | ⟨_, h3⟩ | ⟨h3, _⟩ | ⟨_, _, _, i, h3⟩ | ⟨_, a, r', h3, _⟩ | ⟨h3, _⟩ | ⟨_, _, h3⟩
              · exact ⟨r, by rw [h3, hl]⟩
              all_goals first
                | (rw [hl] at h3; simp at h3; done)
                | exact absurd h3 e1
                | exact absurd h3 e2
            rcases h2 with ⟨he, _, _, h3⟩ | ⟨f, he, _, h3⟩ | ⟨he, _, h3, _⟩ | ⟨he, h3⟩ | ⟨he, r', j, _, h3, _⟩ | ⟨he, h3⟩ | ⟨_, h3, _⟩
            · rcases h3 with ⟨h3, _⟩ | ⟨h3, _⟩
              · right; exact ⟨hloop (by simp [he]) (by simp [he]), by simp [h3], by simp [h3]⟩
              · left; exact h3
            · right; exact ⟨hloop (by simp [he]) (by simp [he]), by simp [h3], by simp [h3]⟩
            · right; exact ⟨hloop (by simp [he]) (by simp [he]), by simp [h3], by simp [h3]⟩
            · right
              rcases h3 with ⟨_, _, h3⟩ | ⟨_, _, _, h3⟩ <;> exact ⟨hloop (by simp [he]) (by simp [he]), by simp [h3], by simp [h3]⟩
            · right; exact ⟨hloop (by simp [he]) (by simp [he]), by simp [h3], by simp [h3]⟩
            · rcases h3 with ⟨h4, _⟩ | ⟨_, h3⟩ | ⟨_, h3⟩
              · exact absurd h4 hn1
              · exact .inl h3
              · exact .inl h3
            · rw [hl] at h3; simp at h3
  rcases key i c hc hw with h1 | ⟨_, h2⟩
  · rw [h1]; simp
  · exact h2

/-! ## The error handler of a call that got no answer -/

/-- Call `j` waits for the lock that call `i` has, and call `i` waits for call `j`: neither goes on, whatever happens. -/
theorem stuck_forever {s s' : St} {es : List Ev} (hI : LockInv s) {i j : Nat} {ci cj : Call} {r : List Act} (hi : s.calls[i]? = some ci) (hb : ci.ph = .blocked r j)
    (hj : s.calls[j]? = some cj) (hw : cj.ph = .want) (hk : key cj.oc = key ci.oc) (h : runT step s es = some s') :
    s'.calls[i]? = some ci ∧ s'.calls[j]? = some cj := by
  refine (runT_ind (P := fun _ s' => LockInv s' ∧ s'.calls[i]? = some ci ∧ s'.calls[j]? = some cj) ⟨hI, hi, hj⟩ ?_ es s' h).2
  rintro _ t e t' _ ⟨hI, hi, hj⟩ ht
  have hown := hI.held i ci hi (by rw [hb]; rfl)
  refine ⟨lockInv_step hI ht, ?_, ?_⟩
  · rcases step_call ht hi with h1 | ⟨p, _, h2⟩
    · exact h1
    · rw [hb] at h2
      simp at h2
      obtain ⟨_, r', j', ⟨_, hjj⟩, _, d, ok, hd, hok⟩ := h2
      subst hjj
      rw [hj, Option.some.injEq] at hd; subst hd
      rw [hw] at hok; simp at hok
  · rcases step_call ht hj with h1 | ⟨p, _, h2⟩
    · exact h1
    · rw [hw, hk, hown] at h2; simp at h2

theorem LockInv.init : LockInv {} := ⟨by simp, by simp⟩

/-- **The error handler sends a command with the opcode of the command that got no answer**: both calls hang for ever, even if the controller answers later or the device is closed. -/
theorem handler_same_opcode_deadlock {es es' : List Ev} {s s' : St} (h : run es = some s) {i : Nat} {c : Call} {oc : Nat} {r : List Act} (hc : s.calls[i]? = some c)
    (hr : c.ph = .running (.cmd oc :: r)) (hk : key oc = key c.oc) (h' : runT step s (.act i :: es') = some s') :
    ¬ returned s' i ∧ ¬ returned s' s.calls.length := by
  simp only [runT] at h'
  split at h'
  · simp at h'
  rename_i t ht
  have hI := lockInv_step (lockInv h) ht
  have ht' := ht
  simp only [step] at ht
  rcases c with ⟨w, oc0, ph⟩
  simp only at hr hk; subst hr
  rw [hc] at ht
  simp only [Option.some.injEq] at ht
  have hlt : i < s.calls.length := by
    rcases Nat.lt_or_ge i s.calls.length with h | h
    · exact h
    · rw [List.getElem?_eq_none h] at hc; simp at hc
  have h1 : t.calls[i]? = some ⟨w, oc0, .blocked r s.calls.length⟩ := by
    rw [← ht]; simp only
    rw [List.getElem?_append_left (by rw [at_len]; exact hlt), at_get]; simp [hc]
  have h2 : t.calls[s.calls.length]? = some ⟨.handler i, oc, .want⟩ := by
    rw [← ht]; simp only
    rw [List.getElem?_append_right (by rw [at_len]; omega), at_len]; simp
  obtain ⟨h3, h4⟩ := stuck_forever hI h1 rfl h2 rfl hk h'
  constructor
  · rintro ⟨c, ok, hc, hok⟩; rw [h3, Option.some.injEq] at hc; subst hc; simp at hok
  · rintro ⟨c, ok, hc, hok⟩; rw [h4, Option.some.injEq] at hc; subst hc; simp at hok

theorem at_self {s : St} {i : Nat} {c : Call} (h : s.calls[i]? = some c) : s.at_ i c.ph = s := by
  have : (s.at_ i c.ph).calls = s.calls := by
    apply List.ext_getElem?
    intro k
    rw [at_get]
    split
    · rename_i hk; subst hk; rw [h]; rfl
    · rfl
  cases s
  simp only [St.at_] at this ⊢
  rw [this]

theorem acts_run {s : St} {i oc : Nat} {w : Who} {pre r : List Act} (hp : quiet pre) (hc : s.calls[i]? = some ⟨w, oc, .running (pre ++ r)⟩) :
    runT step s (List.replicate pre.length (.act i)) = some (s.at_ i (.running r)) := by
  induction pre generalizing s with
  | nil => simp only [List.length_nil, List.replicate_zero, runT, Option.some.injEq]; exact (at_self hc).symm
  | cons a pre ih =>
    have ha : a = .other := hp a (by simp)
    subst ha
    have hst : step s (.act i) = some (s.at_ i (.running (pre ++ r))) := by simp only [step]; rw [hc]; rfl
    simp only [List.length_cons, List.replicate_succ, runT, hst]
    have h1 : (s.at_ i (.running (pre ++ r))).calls[i]? = some ⟨w, oc, .running (pre ++ r)⟩ := by rw [at_get]; simp [hc]
    rw [ih (fun x hx => hp x (by simp [hx])) h1]
    simp [St.at_, List.modify_modify_eq, Function.comp_def]

/-- A call times out and its handler goes on to its first command. -/
theorem timeout_run {s : St} {i oc oc' : Nat} {w : Who} {pre post : List Act} (hp : quiet pre) (ho : s.isOpen = true) (hc : s.calls[i]? = some ⟨w, oc, .waiting⟩) :
    ∃ t, runT step s (.timeout i (pre ++ .cmd oc' :: post) :: (List.replicate pre.length (.act i) ++ [.act i])) = some t ∧ t.isOpen = true ∧ t.lock = s.lock ∧
      t.calls.length = s.calls.length + 1 ∧
      t.calls[i]? = some ⟨w, oc, .blocked post s.calls.length⟩ ∧ t.calls[s.calls.length]? = some ⟨.handler i, oc', .want⟩ ∧ ∀ k, k ≠ i → k < s.calls.length → t.calls[k]? = s.calls[k]? := by
  have hlt : i < s.calls.length := by
    rcases Nat.lt_or_ge i s.calls.length with h | h
    · exact h
    · rw [List.getElem?_eq_none h] at hc; simp at hc
  have hst : step s (.timeout i (pre ++ .cmd oc' :: post)) = some (s.at_ i (.running (pre ++ .cmd oc' :: post))) := by
    simp only [step]; rw [hc]; simp [ho]
  simp only [runT, hst]
  have h1 : (s.at_ i (.running (pre ++ .cmd oc' :: post))).calls[i]? = some ⟨w, oc, .running (pre ++ .cmd oc' :: post)⟩ := by rw [at_get]; simp [hc]
  have h2 := acts_run hp h1
  rw [show (s.at_ i (.running (pre ++ .cmd oc' :: post))).at_ i (.running (.cmd oc' :: post)) = s.at_ i (.running (.cmd oc' :: post)) by
    simp [St.at_, List.modify_modify_eq, Function.comp_def]] at h2
  have h3 : (s.at_ i (.running (.cmd oc' :: post))).calls[i]? = some ⟨w, oc, .running (.cmd oc' :: post)⟩ := by rw [at_get]; simp [hc]
  have h4 : step (s.at_ i (.running (.cmd oc' :: post))) (.act i) = some { s.at_ i (.blocked post s.calls.length) with
      calls := (s.at_ i (.blocked post s.calls.length)).calls ++ [⟨.handler i, oc', .want⟩] } := by
    simp only [step]; rw [h3]
    simp [St.at_, List.modify_modify_eq, Function.comp_def]
  refine ⟨_, runT_snoc.2 ⟨_, h2, h4⟩, ho, rfl, ?_, ?_, ?_, ?_⟩
  · simp [at_len]
  · simp only; rw [List.getElem?_append_left (by rw [at_len]; exact hlt), at_get]; simp [hc]
  · simp only; rw [List.getElem?_append_right (by rw [at_len]; omega), at_len]; simp
  · intro k hk hkl
    simp only; rw [List.getElem?_append_left (by rw [at_len]; exact hkl), at_get]; simp [Ne.symm hk]

/-- A call that waits for a call that never returns never returns. -/
theorem parent_stuck {s : St} {i j : Nat} {c : Call} {r : List Act} (hc : s.calls[i]? = some c) (hb : c.ph = .blocked r j)
    (hj : ∀ es t, runT step s es = some t → ¬ returned t j) : ∀ es t, runT step s es = some t → ¬ returned t i := by
  intro es t h
  have key : t.calls[i]? = some c := by
    refine runT_ind (P := fun _ t => t.calls[i]? = some c) hc ?_ es t h
    intro es u e u' hu hi hs
    rcases step_call hs hi with h1 | ⟨p, _, h2⟩
    · exact h1
    · rw [hb] at h2
      simp at h2
      obtain ⟨_, r', j', ⟨_, hjj⟩, _, hd⟩ := h2
      subst hjj
      exact absurd hd (hj es u hu)
  rintro ⟨d, ok, hd, hok⟩
  rw [key, Option.some.injEq] at hd; subst hd
  rw [hb] at hok; simp at hok

/-- **Whatever command the error handler sends**, if the controller stops answering there is a run — one call, and the steps the library takes by itself — after which that call never returns, even if the controller
answers later or the device is closed: the handler's own command gets no answer either, so the handler runs again, and waits for the lock its first run has. -/
theorem dead_controller_hangs_call (oc oc' : Nat) (pre post : List Act) (hp : quiet pre) :
    ∃ es s, run (.call oc :: es) = some s ∧ (∀ e ∈ es, ∃ i, e = .lock i ∨ e = .act i ∨ e = .timeout i (pre ++ .cmd oc' :: post)) ∧
      ∀ es' s', runT step s es' = some s' → ¬ returned s' 0 := by
  -- the first call is waiting
  let s1 : St := ({ ({} : St) with lock := upd (fun _ => none) (key oc) (some 0), sent := upd (fun _ => none) (key oc) (some 0), calls := [⟨.app, oc, .waiting⟩] })
  have r1 : run [.call oc, .lock 0] = some s1 := by
    simp [run, runT, step, St.at_, s1]
  have hacts : ∀ i, ∀ e ∈ Ev.timeout i (pre ++ .cmd oc' :: post) :: (List.replicate pre.length (Ev.act i) ++ [.act i]), ∃ i, e = .lock i ∨ e = .act i ∨ e = .timeout i (pre ++ .cmd oc' :: post) := by
    intro i e he
    simp only [List.mem_cons, List.mem_append, List.mem_replicate, List.not_mem_nil, or_false] at he
    rcases he with he | ⟨_, he⟩ | he
    · exact ⟨i, .inr (.inr he)⟩
    · exact ⟨i, .inr (.inl he)⟩
    · exact ⟨i, .inr (.inl he)⟩
  obtain ⟨s2, r2, o2, l2, n2, c20, c21, _⟩ := timeout_run (s := s1) (i := 0) (oc := oc) (w := .app) (oc' := oc') (post := post) hp rfl rfl
  have hI2 : LockInv s2 := lockInv_run (lockInv r1) r2
  have hl1 : s1.calls.length = 1 := rfl
  rw [hl1] at n2 c20 c21
  have r12 : run ([.call oc, .lock 0] ++ (.timeout 0 (pre ++ .cmd oc' :: post) :: (List.replicate pre.length (.act 0) ++ [.act 0]))) = some s2 := runT_append.2 ⟨s1, r1, r2⟩
  by_cases hk : key oc' = key oc
  · refine ⟨Ev.lock 0 :: Ev.timeout 0 (pre ++ .cmd oc' :: post) :: (List.replicate pre.length (Ev.act 0) ++ [Ev.act 0]), s2, r12, ?_, ?_⟩
    · intro e he
      rcases List.mem_cons.1 he with he | he
      · exact ⟨0, .inl he⟩
      · exact hacts 0 e he
    · intro es' s' h'
      obtain ⟨h3, _⟩ := stuck_forever hI2 c20 rfl c21 rfl hk h'
      rintro ⟨c, ok, hc, hok⟩; rw [h3, Option.some.injEq] at hc; subst hc; simp at hok
  · have hlk : s2.lock (key oc') = none := by rw [l2]; simp [s1, upd, hk]
    let s3 : St := { s2 with lock := upd s2.lock (key oc') (some 1), sent := upd s2.sent (key oc') (some 1) }.at_ 1 .waiting
    have hst : step s2 (.lock 1) = some s3 := by
      simp only [step]; rw [c21]; simp only [hlk, o2, if_true, s3]
    have c30 : s3.calls[0]? = some ⟨.app, oc, .blocked post 1⟩ := by
      simp only [s3]; rw [at_get]; simp [c20]
    have c31 : s3.calls[1]? = some ⟨.handler 0, oc', .waiting⟩ := by
      simp only [s3]; rw [at_get]; simp [c21]
    have n3 : s3.calls.length = 2 := by simp only [s3]; rw [at_len]; exact n2
    obtain ⟨s4, r4, o4, l4, n4, c41, c42, hsame⟩ := timeout_run (s := s3) (i := 1) (oc' := oc') (post := post) hp o2 c31
    rw [n3] at n4 c41 c42 hsame
    have c40 : s4.calls[0]? = some ⟨.app, oc, .blocked post 1⟩ := by rw [hsame 0 (by omega) (by omega), c30]
    have hI4 : LockInv s4 := lockInv_run (lockInv_step hI2 hst) r4
    have r123 := runT_snoc.2 ⟨s2, r12, hst⟩
    have r1234 := runT_append.2 ⟨s3, r123, r4⟩
    refine ⟨Ev.lock 0 :: Ev.timeout 0 (pre ++ .cmd oc' :: post) :: (List.replicate pre.length (Ev.act 0) ++ [Ev.act 0] ++ [Ev.lock 1] ++
      (Ev.timeout 1 (pre ++ .cmd oc' :: post) :: (List.replicate pre.length (Ev.act 1) ++ [Ev.act 1]))), s4, r1234, ?_, ?_⟩
    · intro e he
      simp only [List.mem_cons, List.mem_append, List.mem_replicate, List.not_mem_nil, or_false] at he
      rcases he with he | he | ((⟨_, he⟩ | he) | he) | he | ⟨_, he⟩ | he
      · exact ⟨0, .inl he⟩
      · exact ⟨0, .inr (.inr he)⟩
      · exact ⟨0, .inr (.inl he)⟩
      · exact ⟨0, .inr (.inl he)⟩
      · exact ⟨1, .inl he⟩
      · exact ⟨1, .inr (.inr he)⟩
      · exact ⟨1, .inr (.inl he)⟩
      · exact ⟨1, .inr (.inl he)⟩
    · refine parent_stuck c40 rfl ?_
      intro es' s' h'
      obtain ⟨h3, _⟩ := stuck_forever hI4 c41 rfl c42 rfl rfl h'
      rintro ⟨c, ok, hc, hok⟩; rw [h3, Option.some.injEq] at hc; subst hc; simp at hok

/-- **It is not a matter of scheduling**: as long as the controller does not answer and the device is not closed, with an error handler that sends commands no call returns, in any run. -/
theorem dead_controller_no_call_returns {es : List Ev} {s : St} (h : run es = some s) (hr : ∀ k, Ev.raise (.reply k) ∉ es) (hcl : Ev.close ∉ es) (hf : ∀ i f, Ev.timeout i f ∈ es → ¬ quiet f) (i : Nat) :
    ¬ returned s i := by
  have key : (∀ k, Ev.raise (.reply k) ∉ es) → Ev.close ∉ es → (∀ i f, Ev.timeout i f ∈ es → ¬ quiet f) →
      s.isOpen = true ∧ (∀ k, Msg.reply k ∉ s.evq) ∧ (∀ k, s.loop ≠ .handing k) ∧
      ∀ (k : Nat) (c : Call), s.calls[k]? = some c → c.ph = .want ∨ c.ph = .waiting ∨ (∃ r, c.ph = .running r ∧ ¬ quiet r) ∨ ∃ r j, c.ph = .blocked r j := by
    refine runT_ind (P := fun es s => (∀ k, Ev.raise (.reply k) ∉ es) → Ev.close ∉ es → (∀ i f, Ev.timeout i f ∈ es → ¬ quiet f) →
      s.isOpen = true ∧ (∀ k, Msg.reply k ∉ s.evq) ∧ (∀ k, s.loop ≠ .handing k) ∧
      ∀ (k : Nat) (c : Call), s.calls[k]? = some c → c.ph = .want ∨ c.ph = .waiting ∨ (∃ r, c.ph = .running r ∧ ¬ quiet r) ∨ ∃ r j, c.ph = .blocked r j) ?_ ?_ es s h
    · intro _ _ _; simp
    · intro es t e t' _ ih ht hr hcl hf
      obtain ⟨ho, hq, hl, hall⟩ := ih (fun k hk => hr k (by simp [hk])) (fun hk => hcl (by simp [hk])) (fun i f hk => hf i f (by simp [hk]))
      have hr' : ∀ k, e ≠ .raise (.reply k) := fun k hk => hr k (by simp [hk])
      have hcl' : e ≠ .close := fun hk => hcl (by simp [hk])
      have hf' : ∀ i f, e = .timeout i f → ¬ quiet f := fun i f hk => hf i f (by simp [hk])
      have hnr : ∀ j, ¬ returned t j := by
        rintro j ⟨c, ok, hc, hok⟩
        rcases hall j c hc with h1 | h1 | ⟨r, h1, _⟩ | ⟨r, j, h1⟩ <;> (rw [hok] at h1; simp at h1)
      refine ⟨?_, ?_, ?_, ?_⟩
      · cases e with
        | close => exact absurd rfl hcl'
        | call oc => simp only [step, Option.some.injEq] at ht; subst ht; exact ho
        | raise m => simp only [step, Option.some.injEq] at ht; subst ht; exact ho
        | _ =>
          simp only [step] at ht
          (repeat' split at ht)
          all_goals first
            | (simp at ht; done)
            | (simp only [Option.some.injEq] at ht; subst ht; simpa [St.at_] using ho)
      · intro k
        cases e with
        | close => exact absurd rfl hcl'
        | call oc => simp only [step, Option.some.injEq] at ht; subst ht; exact hq k
        | raise m =>
          simp only [step, Option.some.injEq] at ht; subst ht
          simp only [List.mem_append, List.mem_singleton, not_or]
          exact ⟨hq k, fun hk => hr' k (by rw [hk])⟩
        | take =>
          simp only [step] at ht
          split at ht
          · rename_i _ he; simp only [Option.some.injEq] at ht; subst ht
            intro hk; exact hq k (by rw [he]; simp [hk])
          · rename_i _ he; simp only [Option.some.injEq] at ht; subst ht
            intro hk; exact hq k (by rw [he]; simp [hk])
          · simp at ht
        | _ =>
          simp only [step] at ht
          (repeat' split at ht)
          all_goals first
            | (simp at ht; done)
            | (simp only [Option.some.injEq] at ht; subst ht; simpa [St.at_] using hq k)
      · intro k
        rcases step_loop ht with h1 | ⟨he, h1⟩ | ⟨_, h1, _⟩ | ⟨_, h1, _⟩ | ⟨_, a, r, _, h1⟩ | ⟨_, r, j, _, h1, _⟩ | ⟨_, h1, _⟩
        · rw [h1]; exact hl k
        · subst he
          simp only [step, h1] at ht
          split at ht
          · rename_i k' q _ he; exact absurd (by rw [he]; simp) (hq k')
          · simp only [Option.some.injEq] at ht; subst ht; simp
          · simp at ht
        · rw [h1]; simp
        · rw [h1]; simp
        · rcases h1 with h1 | h1 <;> (rw [h1]; simp)
        · rw [h1]; simp
        · rw [h1]; simp
      · intro k c' hc'
        cases hk : t.calls[k]? with
        | none => obtain ⟨_, hw, _⟩ := step_new ht hk hc'; exact .inl hw
        | some c =>
          have hc0 := hall k c hk
          rcases step_call ht hk with h1 | ⟨p, h1, h2⟩
          · rw [hc', Option.some.injEq] at h1; subst h1; exact hc0
          · rw [hc', Option.some.injEq] at h1; subst h1
            simp only
            rcases h2 with ⟨_, _, _, h3⟩ | ⟨f, he, _, h3⟩ | ⟨_, _, _, h3⟩ | ⟨_, h3⟩ | ⟨_, r, j, _, _, h3⟩ | ⟨_, h3⟩ | ⟨_, h3, _⟩
            · rcases h3 with ⟨h3, _⟩ | ⟨_, h3⟩
              · exact .inr (.inl h3)
              · rw [ho] at h3; simp at h3
            · rw [ho] at h3
              exact .inr (.inr (.inl ⟨f, h3, hf' k f he⟩))
            · rw [ho] at h3; simp at h3
            · rcases h3 with ⟨r, h4, h3⟩ | ⟨oc, r, h4, h3⟩
              · refine .inr (.inr (.inl ⟨r, h3, ?_⟩))
                rcases hc0 with h5 | h5 | ⟨r', h5, h6⟩ | ⟨r', j, h5⟩
                all_goals try (rw [h4] at h5; simp at h5; done)
                rw [h4] at h5; simp only [Phase.running.injEq] at h5; subst h5
                intro hr; apply h6; intro a ha
                rcases List.mem_cons.1 ha with ha | ha
                · exact ha
                · exact hr a ha
              · exact .inr (.inr (.inr ⟨r, _, h3⟩))
            · exact absurd h3 (hnr j)
            · rcases h3 with ⟨h4, _⟩ | ⟨h4, _⟩ | ⟨h4, _⟩
              · rw [h4] at hc0; simp at hc0
              · rw [h4] at hc0; simp at hc0
              · rw [h4] at hc0; simp [quiet] at hc0
            · exact absurd h3 (hl k)
  obtain ⟨_, _, _, hall⟩ := key hr hcl hf
  rintro ⟨c, ok, hc, hok⟩
  rcases hall i c hc with h1 | h1 | ⟨r, h1, _⟩ | ⟨r, j, h1⟩ <;> (rw [hok] at h1; simp at h1)

/-! ## What holds -/

/-- A step the library takes by itself, without the controller: a call gets its lock, gives up after three seconds (the error handler then does `g`), goes on in the error handler, returns. -/
def ownStep (g : List Act) (e : Ev) : Prop := ∃ k, e = .lock k ∨ e = .timeout k g ∨ e = .act k ∨ e = .finish k

/-- No call waits for a command of its error handler. -/
def QuietInv (s : St) : Prop := ∀ (k : Nat) (c : Call), s.calls[k]? = some c → (∀ r j, c.ph ≠ .blocked r j) ∧ ∀ r, c.ph = .running r → quiet r

theorem quietInv_step {s s' : St} {e : Ev} (hf : ∀ i f, e = .timeout i f → quiet f) (hI : QuietInv s) (h : step s e = some s') : QuietInv s' := by
  intro k c' hc'
  cases hk : s.calls[k]? with
  | none => obtain ⟨_, hw, _⟩ := step_new h hk hc'; rw [hw]; simp
  | some c =>
    obtain ⟨h0, h0'⟩ := hI k c hk
    rcases step_call h hk with h1 | ⟨p, h1, h2⟩
    · rw [hc', Option.some.injEq] at h1; subst h1; exact ⟨h0, h0'⟩
    · rw [hc', Option.some.injEq] at h1; subst h1
      simp only
      rcases h2 with ⟨_, _, _, h3⟩ | ⟨f, he, _, h3⟩ | ⟨_, _, h3, _⟩ | ⟨_, h3⟩ | ⟨_, r, j, h4, _, _⟩ | ⟨_, h3⟩ | ⟨_, _, _, h3⟩
      · rcases h3 with ⟨h3, _⟩ | ⟨h3, _⟩ <;> (rw [h3]; simp)
      · rw [h3]
        refine ⟨by simp, ?_⟩
        intro r hr
        simp only [Phase.running.injEq] at hr; subst hr
        split
        · exact hf k f he
        · intro a ha; simp at ha
      · rw [h3]; simp
      · rcases h3 with ⟨r, h4, h3⟩ | ⟨oc, r, h4, h3⟩
        · rw [h3]
          refine ⟨by simp, ?_⟩
          intro r' hr
          simp only [Phase.running.injEq] at hr; subst hr
          intro a ha
          exact h0' _ h4 a (by simp [ha])
        · have := h0' _ h4 (.cmd oc) (by simp)
          simp at this
      · exact absurd h4 (h0 r j)
      · rcases h3 with ⟨_, h3⟩ | ⟨_, h3⟩ | ⟨_, h3⟩ <;> (rw [h3]; simp)
      · rw [h3]; simp

theorem quietInv {s : St} {es : List Ev} (h : run es = some s) (hf : ∀ i f, Ev.timeout i f ∈ es → quiet f) : QuietInv s := by
  refine runT_ind (P := fun es s => (∀ i f, Ev.timeout i f ∈ es → quiet f) → QuietInv s) ?_ ?_ es s h hf
  · intro _ k c hc; simp at hc
  · intro es t e t' _ ih ht hf
    exact quietInv_step (fun i f he => hf i f (by simp [he])) (ih fun i f he => hf i f (by simp [he])) ht

theorem finish_run {s : St} {i : Nat} {c : Call} (hc : s.calls[i]? = some c) (hp : c.ph = .replied ∨ c.ph = .closed ∨ c.ph = .running []) :
    ∃ t, step s (.finish i) = some t ∧ returned t i ∧ t.lock (key c.oc) = none ∧ ∀ k, k ≠ i → t.calls[k]? = s.calls[k]? := by
  rcases c with ⟨w, oc, ph⟩
  simp only at hp
  rcases hp with hp | hp | hp <;> subst hp
  · refine ⟨_, by simp only [step]; rw [hc], ⟨⟨w, oc, .done true⟩, true, ?_, rfl⟩, ?_, ?_⟩
    · rw [at_get]; simp [hc]
    · rw [at_lock]; simp [upd]
    · intro k hk; rw [at_get]; simp [Ne.symm hk]
  · refine ⟨_, by simp only [step]; rw [hc], ⟨⟨w, oc, .done false⟩, false, ?_, rfl⟩, ?_, ?_⟩
    · rw [at_get]; simp [hc]
    · rw [at_lock]; simp [upd]
    · intro k hk; rw [at_get]; simp [Ne.symm hk]
  · refine ⟨_, by simp only [step]; rw [hc], ⟨⟨w, oc, .done false⟩, false, ?_, rfl⟩, ?_, ?_⟩
    · rw [at_get]; simp [hc]
    · rw [at_lock]; simp [upd]
    · intro k hk; rw [at_get]; simp [Ne.symm hk]

/-- A call in an error handler that sends no commands, and its return. -/
theorem running_run {s : St} {g : List Act} {i oc : Nat} {w : Who} {r : List Act} (hr : quiet r) (hc : s.calls[i]? = some ⟨w, oc, .running r⟩) :
    ∃ es t, runT step s es = some t ∧ (∀ e ∈ es, ownStep g e) ∧ returned t i ∧ t.lock (key oc) = none ∧ ∀ k, k ≠ i → t.calls[k]? = s.calls[k]? := by
  have h1 := acts_run (r := []) hr (by simpa using hc)
  have h2 : (s.at_ i (.running [])).calls[i]? = some ⟨w, oc, .running []⟩ := by rw [at_get]; simp [hc]
  obtain ⟨t, ht, hret, hl, hsame⟩ := finish_run h2 (.inr (.inr rfl))
  refine ⟨_, t, runT_snoc.2 ⟨_, h1, ht⟩, ?_, hret, hl, ?_⟩
  · intro e he
    simp only [List.mem_append, List.mem_replicate, List.mem_singleton] at he
    rcases he with ⟨_, he⟩ | he
    · exact ⟨i, .inr (.inr (.inl he))⟩
    · exact ⟨i, .inr (.inr (.inr he))⟩
  · intro k hk; rw [hsame k hk, at_get]; simp [Ne.symm hk]

/-- A call that has its lock can return. -/
theorem holder_run {s : St} {g : List Act} (hg : quiet g) (hQ : QuietInv s) {i : Nat} {c : Call} (hc : s.calls[i]? = some c) (hh : holds c.ph = true) :
    ∃ es t, runT step s es = some t ∧ (∀ e ∈ es, ownStep g e) ∧ returned t i ∧ t.lock (key c.oc) = none ∧ ∀ k, k ≠ i → t.calls[k]? = s.calls[k]? := by
  have hq := hQ i c hc
  rcases c with ⟨w, oc, ph⟩
  cases ph with
  | want => simp [holds] at hh
  | done ok => simp [holds] at hh
  | blocked r j => exact absurd rfl (hq.1 r j)
  | running r => exact running_run (hq.2 r rfl) hc
  | replied =>
    obtain ⟨t, ht, h1, h2, h3⟩ := finish_run hc (.inl rfl)
    exact ⟨[.finish i], t, by simp [runT, ht], by simp [ownStep], h1, h2, h3⟩
  | closed =>
    obtain ⟨t, ht, h1, h2, h3⟩ := finish_run hc (.inr (.inl rfl))
    exact ⟨[.finish i], t, by simp [runT, ht], by simp [ownStep], h1, h2, h3⟩
  | waiting =>
    have hst : step s (.timeout i g) = some (s.at_ i (.running (if s.isOpen then g else []))) := by simp only [step]; rw [hc]
    have h1 : (s.at_ i (.running (if s.isOpen then g else []))).calls[i]? = some ⟨w, oc, .running (if s.isOpen then g else [])⟩ := by rw [at_get]; simp [hc]
    have hgq : quiet (if s.isOpen then g else []) := by
      split
      · exact hg
      · intro a ha; simp at ha
    obtain ⟨es, t, h2, h3, h4, h5, h6⟩ := running_run (g := g) hgq h1
    refine ⟨.timeout i g :: es, t, by simp [runT, hst, h2], ?_, h4, h5, ?_⟩
    · intro e he
      rcases List.mem_cons.1 he with he | he
      · exact ⟨i, .inr (.inl he)⟩
      · exact h3 e he
    · intro k hk; rw [h6 k hk, at_get]; simp [Ne.symm hk]

/-- **If the error handler sends no commands**, every call can return, whatever has happened and without the controller — also the commands of functions that the event loop calls. Partial: the property also allows
error handlers that send commands; then calls hang (`dead_controller_hangs_call`, `handler_same_opcode_deadlock`). -/
theorem calls_can_return_partial {es : List Ev} {s : St} (h : run es = some s) (hf : ∀ i f, Ev.timeout i f ∈ es → quiet f) {g : List Act} (hg : quiet g) {i : Nat} (hi : i < s.calls.length) :
    ∃ es' s', runT step s es' = some s' ∧ (∀ e ∈ es', ownStep g e) ∧ returned s' i := by
  have hQ := quietInv h hf
  have hI := lockInv h
  have hown : ∀ e : Ev, ownStep g e → ∀ i f, e = .timeout i f → quiet f := by
    rintro e ⟨k, he⟩ i f hef
    rw [hef] at he
    simp at he
    rw [he.2]; exact hg
  obtain ⟨c, hc⟩ : ∃ c, s.calls[i]? = some c := ⟨s.calls[i], by simp [hi]⟩
  by_cases hh : holds c.ph = true
  · obtain ⟨es', t, h1, h2, h3, _⟩ := holder_run hg hQ hc hh
    exact ⟨es', t, h1, h2, h3⟩
  · -- waiting for the lock, or returned
    rcases c with ⟨w, oc, ph⟩
    cases ph with
    | done ok => exact ⟨[], s, rfl, by simp, _, ok, hc, rfl⟩
    | want =>
      -- once the lock is free
      have free : ∀ t : St, QuietInv t → t.calls[i]? = some ⟨w, oc, .want⟩ → t.lock (key oc) = none →
          ∃ es' s', runT step t es' = some s' ∧ (∀ e ∈ es', ownStep g e) ∧ returned s' i := by
        intro t hQt hct hlt
        cases ho : t.isOpen with
        | false =>
          refine ⟨[.lock i], t.at_ i (.done false), ?_, by simp [ownStep], ⟨w, oc, .done false⟩, false, ?_, rfl⟩
          · simp only [runT, step]; rw [hct]; simp [hlt, ho]
          · rw [at_get]; simp [hct]
        | true =>
          let u : St := { t with lock := upd t.lock (key oc) (some i), sent := upd t.sent (key oc) (some i) }.at_ i .waiting
          have hst : step t (.lock i) = some u := by simp only [step]; rw [hct]; simp [hlt, ho, u]
          have hcu : u.calls[i]? = some ⟨w, oc, .waiting⟩ := by simp only [u]; rw [at_get]; simp [hct]
          have hQu : QuietInv u := quietInv_step (by simp) hQt hst
          obtain ⟨es', s', h1, h2, h3, _⟩ := holder_run hg hQu hcu rfl
          refine ⟨.lock i :: es', s', by simp [runT, hst, h1], ?_, h3⟩
          intro e he
          rcases List.mem_cons.1 he with he | he
          · exact ⟨i, .inl he⟩
          · exact h2 e he
      cases hl : s.lock (key oc) with
      | none => exact free s hQ hc hl
      | some m =>
        obtain ⟨d, hd, hkd, hdh⟩ := hI.owner _ _ hl
        have hmi : i ≠ m := by
          rintro rfl
          rw [hc, Option.some.injEq] at hd; subst hd; simp [holds] at hdh
        obtain ⟨es1, t, h1, h2, _, h4, h5⟩ := holder_run hg hQ hd hdh
        have hQt : QuietInv t := by
          refine runT_ind (P := fun es s => (∀ e ∈ es, ownStep g e) → QuietInv s) (fun _ => hQ) ?_ es1 t h1 h2
          intro es' a e a' _ ih ha hes
          exact quietInv_step (hown e (hes e (by simp))) (ih fun x hx => hes x (by simp [hx])) ha
        obtain ⟨es2, s', h6, h7, h8⟩ := free t hQt (by rw [h5 i hmi, hc]) (by rw [← hkd]; exact h4)
        refine ⟨es1 ++ es2, s', runT_append.2 ⟨t, h1, h6⟩, ?_, h8⟩
        intro e he
        rcases List.mem_append.1 he with he | he
        · exact h2 e he
        · exact h7 e he
    | _ => simp [holds] at hh

/-- The same for a function that the event loop calls: it can return, so the loop goes on, if the error handler sends no commands (the function itself may). -/
theorem loop_callback_returns_partial {es : List Ev} {s : St} (h : run es = some s) (hf : ∀ i f, Ev.timeout i f ∈ es → quiet f) (hs : inCallback s) :
    ∃ es' s', runT step s es' = some s' ∧ s'.loop = .idle := by
  -- the calls of the application's function return, and the loop stays where it is
  have hret : ∀ (es : List Ev) (s : St), run es = some s → (∀ i f, Ev.timeout i f ∈ es → quiet f) → ∀ i, i < s.calls.length →
      ∃ es' s', runT step s es' = some s' ∧ s'.loop = s.loop ∧ returned s' i ∧ ∀ i f, Ev.timeout i f ∈ es' → quiet f := by
    intro es s h hf i hi
    obtain ⟨es', s', h1, h2, h3⟩ := calls_can_return_partial h hf (g := []) (by intro a ha; simp at ha) hi
    refine ⟨es', s', h1, ?_, h3, ?_⟩
    · refine runT_ind (P := fun es' s' => (∀ e ∈ es', ownStep [] e) → s'.loop = s.loop) (fun _ => rfl) ?_ es' s' h1 h2
      intro es'' a e a' _ ih ha hes
      rw [← ih fun x hx => hes x (by simp [hx])]
      obtain ⟨k, he⟩ := hes e (by simp)
      rcases step_loop ha with h4 | ⟨h4, _⟩ | ⟨h4, _⟩ | ⟨h4, _⟩ | ⟨h4, _⟩ | ⟨h4, _⟩ | ⟨h4, _⟩
      · exact h4
      all_goals (subst h4; simp at he)
    · intro i f hif
      obtain ⟨k, he⟩ := h2 _ hif
      simp at he
      rw [he.2]; intro a ha; simp at ha
  have run_from : ∀ (r : List Act) (es : List Ev) (s : St), run es = some s → (∀ i f, Ev.timeout i f ∈ es → quiet f) → s.loop = .running r →
      ∃ es' s', runT step s es' = some s' ∧ s'.loop = .idle := by
    intro r
    induction r with
    | nil =>
      intro es s _ _ hl
      exact ⟨[.loopReturn], _, by simp only [runT, step, hl]; rfl, rfl⟩
    | cons a r ih =>
      intro es s h hf hl
      cases a with
      | other =>
        have hst : step s .loopAct = some { s with loop := .running r } := by simp only [step, hl]
        obtain ⟨es', s', h1, h2⟩ := ih (es ++ [.loopAct]) _ (runT_snoc.2 ⟨s, h, hst⟩) (by intro i f hif; simp at hif; exact hf i f hif) rfl
        exact ⟨.loopAct :: es', s', by simp [runT, hst, h1], h2⟩
      | cmd oc =>
        let t : St := { s with loop := .blocked r s.calls.length, calls := s.calls ++ [⟨.loop, oc, .want⟩] }
        have hst : step s .loopAct = some t := by simp only [step, hl, t]
        have ht := runT_snoc.2 ⟨s, h, hst⟩
        have hft : ∀ i f, Ev.timeout i f ∈ es ++ [.loopAct] → quiet f := by intro i f hif; simp at hif; exact hf i f hif
        obtain ⟨es1, u, h1, h2, h3, h4⟩ := hret _ t ht hft s.calls.length (by simp [t])
        have hlu : u.loop = .blocked r s.calls.length := h2
        obtain ⟨⟨w, o, ph⟩, ok, hcu, hok⟩ := h3
        simp only at hok; subst hok
        have hst2 : step u .loopResume = some { u with loop := .running r } := by simp only [step, hlu]; rw [hcu]
        have hu := runT_snoc.2 ⟨u, runT_append.2 ⟨t, ht, h1⟩, hst2⟩
        obtain ⟨es2, s', h5, h6⟩ := ih _ _ hu (by
          intro i f hif
          simp at hif
          rcases hif with hif | hif
          · exact hf i f hif
          · exact h4 i f hif) rfl
        refine ⟨.loopAct :: (es1 ++ (.loopResume :: es2)), s', ?_, h6⟩
        simp only [runT, hst]
        exact runT_append.2 ⟨u, h1, by simp [runT, hst2, h5]⟩
  rcases hs with ⟨r, hl⟩ | ⟨r, j, hl⟩
  · exact run_from r es s h hf hl
  · -- the call the loop waits for exists
    have hj : j < s.calls.length := by
      refine runT_ind (P := fun _ s => ∀ r j, s.loop = .blocked r j → j < s.calls.length) (by intro r j hl; simp at hl) ?_ es s h r j hl
      intro es a e a' _ ih ha r j hl
      have hlen : a.calls.length ≤ a'.calls.length := by
        rcases Nat.lt_or_ge a'.calls.length a.calls.length with h1 | h1
        · have h2 : a.calls[a'.calls.length]? = some a.calls[a'.calls.length] := by simp [h1]
          rcases step_call ha h2 with h3 | ⟨p, h3, _⟩ <;> (rw [List.getElem?_eq_none (Nat.le_refl _)] at h3; simp at h3)
        · exact h1
      rcases step_loop ha with h4 | ⟨he, h4⟩ | ⟨_, h4, _⟩ | ⟨_, h4, _⟩ | ⟨he, x, r', h5, h4⟩ | ⟨_, r', j', _, h4, _⟩ | ⟨_, h4, _⟩
      · exact Nat.lt_of_lt_of_le (ih r j (by rw [← h4, hl])) hlen
      · subst he
        simp only [step, h4] at ha
        split at ha
        · simp only [Option.some.injEq] at ha; subst ha; simp only at hl; split at hl <;> simp at hl
        · simp only [Option.some.injEq] at ha; subst ha; simp at hl
        · simp at ha
      · rw [h4] at hl; simp at hl
      · rw [h4] at hl; simp at hl
      · subst he
        simp only [step, h5] at ha
        split at ha
        · simp only [Option.some.injEq] at ha; subst ha; simp at hl
        · simp only [Option.some.injEq] at ha; subst ha; simp only [Loop.blocked.injEq] at hl; simp [← hl.2]
        · simp at ha
      · rw [h4] at hl; simp at hl
      · rw [h4] at hl; simp at hl
    obtain ⟨es1, u, h1, h2, h3, h4⟩ := hret es s h hf j hj
    obtain ⟨⟨w, o, ph⟩, ok, hcu, hok⟩ := h3
    simp only at hok; subst hok
    have hlu : u.loop = .blocked r j := by rw [h2, hl]
    have hst2 : step u .loopResume = some { u with loop := .running r } := by simp only [step, hlu]; rw [hcu]
    have hu := runT_snoc.2 ⟨u, runT_append.2 ⟨s, h, h1⟩, hst2⟩
    obtain ⟨es2, s', h5, h6⟩ := run_from r _ _ hu (by
      intro i f hif
      simp at hif
      rcases hif with hif | hif
      · exact hf i f hif
      · exact h4 i f hif) rfl
    exact ⟨es1 ++ (.loopResume :: es2), s', runT_append.2 ⟨u, h1, by simp [runT, hst2, h5]⟩, h6⟩

/-- **A command of an error handler that runs outside the event loop, with an opcode nobody is using**, is answered if the controller answers it, and the handler goes on. Partial: with an opcode in use — always if it is the one that
failed — the handler waits for it. -/
theorem handler_command_answered_partial {s : St} (ho : s.isOpen = true) (hl : s.loop = .idle) (hq : s.evq = []) {i oc oc' : Nat} {w : Who} {r : List Act}
    (hc : s.calls[i]? = some ⟨w, oc, .running (.cmd oc' :: r)⟩) (hk : s.lock (key oc') = none) :
    ∃ s', runT step s [.act i, .lock s.calls.length, .raise (.reply (key oc')), .take, .hand, .finish s.calls.length, .resume i] = some s' ∧
      s'.calls[i]? = some ⟨w, oc, .running r⟩ ∧ s'.calls[s.calls.length]? = some ⟨.handler i, oc', .done true⟩ ∧ s'.loop = .idle ∧ s'.lock (key oc') = none := by
  have hlt : i < s.calls.length := by
    rcases Nat.lt_or_ge i s.calls.length with h | h
    · exact h
    · rw [List.getElem?_eq_none h] at hc; simp at hc
  have hne : i ≠ s.calls.length := by omega
  have hnl : (s.calls.modify i fun c => { c with ph := .blocked r s.calls.length }).length = s.calls.length := by simp
  have e1 : step s (.act i) = some { s.at_ i (.blocked r s.calls.length) with calls := (s.at_ i (.blocked r s.calls.length)).calls ++ [⟨.handler i, oc', .want⟩] } := by
    simp only [step]; rw [hc]
  generalize hs1 : ({ s.at_ i (.blocked r s.calls.length) with calls := (s.at_ i (.blocked r s.calls.length)).calls ++ [⟨.handler i, oc', .want⟩] } : St) = s1 at e1
  have c1i : s1.calls[i]? = some ⟨w, oc, .blocked r s.calls.length⟩ := by
    rw [← hs1]; simp only; rw [List.getElem?_append_left (by rw [at_len]; exact hlt), at_get]; simp [hc]
  have c1n : s1.calls[s.calls.length]? = some ⟨.handler i, oc', .want⟩ := by
    rw [← hs1]; simp only; rw [List.getElem?_append_right (by rw [at_len]; omega), at_len]; simp
  have f1 : s1.isOpen = true ∧ s1.loop = .idle ∧ s1.evq = [] ∧ s1.lock (key oc') = none := by rw [← hs1]; exact ⟨ho, hl, hq, hk⟩
  have e2 : step s1 (.lock s.calls.length) = some ({ s1 with lock := upd s1.lock (key oc') (some s.calls.length), sent := upd s1.sent (key oc') (some s.calls.length) }.at_ s.calls.length .waiting) := by
    simp only [step]; rw [c1n]; simp [f1]
  generalize hs2 : ({ s1 with lock := upd s1.lock (key oc') (some s.calls.length), sent := upd s1.sent (key oc') (some s.calls.length) } : St).at_ s.calls.length .waiting = s2 at e2
  have c2i : s2.calls[i]? = some ⟨w, oc, .blocked r s.calls.length⟩ := by rw [← hs2, at_get]; simp [Ne.symm hne, c1i]
  have c2n : s2.calls[s.calls.length]? = some ⟨.handler i, oc', .waiting⟩ := by rw [← hs2, at_get]; simp [c1n]
  have f2 : s2.loop = .idle ∧ s2.evq = [] ∧ s2.sent (key oc') = some s.calls.length := by
    rw [← hs2, at_loop, at_evq, at_sent]; exact ⟨f1.2.1, f1.2.2.1, by simp [upd]⟩
  have e3 : step s2 (.raise (.reply (key oc'))) = some { s2 with evq := [.reply (key oc')] } := by simp [step, f2]
  have e4 : step { s2 with evq := [.reply (key oc')] } .take = some { s2 with evq := [], loop := .handing s.calls.length } := by simp [step, f2]
  have e5 : step { s2 with evq := [], loop := .handing s.calls.length } .hand = some { ({ s2 with evq := [], loop := .handing s.calls.length } : St).at_ s.calls.length .replied with loop := .idle } := by
    simp only [step]; rw [c2n]
  generalize hs3 : ({ ({ s2 with evq := [], loop := .handing s.calls.length } : St).at_ s.calls.length .replied with loop := .idle } : St) = s3 at e5
  have c3i : s3.calls[i]? = some ⟨w, oc, .blocked r s.calls.length⟩ := by rw [← hs3]; simp only; rw [at_get]; simp [Ne.symm hne, c2i]
  have c3n : s3.calls[s.calls.length]? = some ⟨.handler i, oc', .replied⟩ := by rw [← hs3]; simp only; rw [at_get]; simp [c2n]
  have f3 : s3.loop = .idle := by rw [← hs3]
  have e6 : step s3 (.finish s.calls.length) = some ({ s3 with lock := upd s3.lock (key oc') none, sent := upd s3.sent (key oc') none }.at_ s.calls.length (.done true)) := by
    simp only [step]; rw [c3n]
  generalize hs4 : ({ s3 with lock := upd s3.lock (key oc') none, sent := upd s3.sent (key oc') none } : St).at_ s.calls.length (.done true) = s4 at e6
  have c4i : s4.calls[i]? = some ⟨w, oc, .blocked r s.calls.length⟩ := by rw [← hs4, at_get]; simp [Ne.symm hne, c3i]
  have c4n : s4.calls[s.calls.length]? = some ⟨.handler i, oc', .done true⟩ := by rw [← hs4, at_get]; simp [c3n]
  have e7 : step s4 (.resume i) = some (s4.at_ i (.running r)) := by simp only [step]; rw [c4i]; simp only; rw [c4n]
  refine ⟨s4.at_ i (.running r), by simp [runT, e1, e2, e3, e4, e5, e6, e7], ?_, ?_, ?_, ?_⟩
  · rw [at_get]; simp [c4i]
  · rw [at_get]; simp [hne, c4n]
  · rw [at_loop, ← hs4, at_loop]; exact f3
  · rw [at_lock, ← hs4, at_lock]; simp [upd]

/-- **A reply that arrives after its call has given up**, for instance while the error handler runs, blocks the event loop until the device is closed: no call gets a reply any more. -/
theorem late_reply_blocks_loop {s s' : St} {es : List Ev} {i : Nat} {c : Call} (ho : s.isOpen = true) (hl : s.loop = .handing i) (hc : s.calls[i]? = some c) (hp : c.ph ≠ .want ∧ c.ph ≠ .waiting)
    (hcl : Ev.close ∉ es) (h : runT step s es = some s') : s'.loop = .handing i := by
  have key : Ev.close ∉ es → s'.isOpen = true ∧ s'.loop = .handing i ∧ ∃ c : Call, s'.calls[i]? = some c ∧ c.ph ≠ .want ∧ c.ph ≠ .waiting := by
    refine runT_ind (P := fun es s' => Ev.close ∉ es → s'.isOpen = true ∧ s'.loop = .handing i ∧ ∃ c : Call, s'.calls[i]? = some c ∧ c.ph ≠ .want ∧ c.ph ≠ .waiting) (fun _ => ⟨ho, hl, c, hc, hp⟩) ?_ es s' h
    intro es t e t' _ ih ht hno
    simp only [List.mem_append, List.mem_singleton, not_or] at hno
    obtain ⟨ho, hl, d, hd, hd1, hd2⟩ := ih hno.1
    have hnh : e ≠ .hand := by
      rintro rfl
      simp only [step, hl] at ht
      rcases d with ⟨w, oc, ph⟩
      rw [hd] at ht
      cases ph with
      | waiting => exact hd2 rfl
      | _ => simp at ht
    refine ⟨?_, ?_, ?_⟩
    · cases e with
      | close => exact absurd rfl hno.2
      | call oc => simp only [step, Option.some.injEq] at ht; subst ht; exact ho
      | raise m => simp only [step, Option.some.injEq] at ht; subst ht; exact ho
      | _ =>
        simp only [step] at ht
        (repeat' split at ht)
        all_goals first
          | (simp at ht; done)
          | (simp only [Option.some.injEq] at ht; subst ht; simpa [St.at_] using ho)
    · rcases step_loop ht with h1 | ⟨_, h1⟩ | ⟨h1, _⟩ | ⟨_, _, h1, _⟩ | ⟨_, a, r, h1, _⟩ | ⟨_, r, j, h1, _⟩ | ⟨_, _, h1⟩
      · rw [h1, hl]
      all_goals first
        | exact absurd h1 hnh
        | (rw [hl] at h1; simp at h1; done)
        | (rw [ho] at h1; simp at h1; done)
    · rcases step_call ht hd with h1 | ⟨p, h1, h2⟩
      · exact ⟨d, h1, hd1, hd2⟩
      · refine ⟨_, h1, ?_⟩
        simp only
        rcases h2 with ⟨_, h3, _⟩ | ⟨f, _, h3, _⟩ | ⟨_, h3, _⟩ | ⟨_, h3⟩ | ⟨_, r, j, _, h3, _⟩ | ⟨_, h3⟩ | ⟨_, _, h3, _⟩
        · exact absurd h3 hd1
        · exact absurd h3 hd2
        · exact absurd h3 hd2
        · rcases h3 with ⟨_, _, h3⟩ | ⟨_, _, _, h3⟩ <;> (rw [h3]; simp)
        · rw [h3]; simp
        · rcases h3 with ⟨_, h3⟩ | ⟨_, h3⟩ | ⟨_, h3⟩ <;> (rw [h3]; simp)
        · exact absurd h3 hd2
  exact (key hcl).2.1

/-! ## Concrete cases -/

/-- A synchronous advertising handler stops scanning (opcode 0x200c): the controller answers at once, the answer waits behind the handler, the handler's call fails after three seconds. -/
theorem sync_handler_example : ∃ s, run [.raise (.callback [.cmd 0x200c]), .take, .loopAct, .lock 0, .raise (.reply 0x200c), .timeout 0 [], .finish 0, .loopResume, .loopReturn, .take] = some s ∧
    s.calls = [⟨.loop, 0x200c, .done false⟩] ∧ s.loop = .idle ∧ s.evq = [] := by
  refine ⟨_, rfl, rfl, rfl, rfl⟩

/-- The same handler and a call of another goroutine (0x2008) that is answered at once and fails. -/
theorem sync_handler_other_call_example : ∃ s, run [.raise (.callback [.cmd 0x200c]), .take, .loopAct, .call 0x2008, .lock 1, .raise (.reply 0x2008), .timeout 1 [], .finish 1] = some s ∧
    inCallback s ∧ s.calls[1]? = some ⟨.app, 0x2008, .done false⟩ := by
  exact ⟨_, rfl, .inr ⟨[], 0, rfl⟩, rfl⟩

/-- A handler that resets the controller (0x0c03) after a command (0x200c) failed, answered. -/
theorem handler_example : ∃ s, run [.call 0x200c, .lock 0, .timeout 0 [.cmd 0xc03], .act 0, .lock 1, .raise (.reply 0xc03), .take, .hand, .finish 1, .resume 0, .finish 0] = some s ∧
    s.calls = [⟨.app, 0x200c, .done false⟩, ⟨.handler 0, 0xc03, .done true⟩] := by
  refine ⟨_, rfl, rfl⟩

/-- The late answer to the first command arrives while the handler runs: nobody takes it. -/
theorem late_reply_example : ∃ s, run [.call 0x200c, .lock 0, .timeout 0 [.cmd 0xc03], .act 0, .raise (.reply 0x200c), .take] = some s ∧ s.loop = .handing 0 ∧
    s.calls[0]? = some ⟨.app, 0x200c, .blocked [] 1⟩ := by
  refine ⟨_, rfl, rfl, rfl⟩

/-- The hypotheses of `handler_same_opcode_deadlock`. -/
theorem same_opcode_example : ∃ s, run [.call 0x200c, .lock 0, .timeout 0 [.cmd 0x200c]] = some s ∧ s.calls[0]? = some ⟨.app, 0x200c, .running [.cmd 0x200c]⟩ ∧
    ∀ es s', runT step s (.act 0 :: es) = some s' → ¬ returned s' 0 := by
  refine ⟨_, rfl, rfl, ?_⟩
  intro es s' h
  exact (handler_same_opcode_deadlock (es := [.call 0x200c, .lock 0, .timeout 0 [.cmd 0x200c]]) rfl (c := ⟨.app, 0x200c, .running [.cmd 0x200c]⟩) rfl rfl rfl h).1

end Ble.Reenter
