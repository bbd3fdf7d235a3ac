import Verif.Client.Interrupt
set_option autoImplicit false

/-!
# Interrupts during calls (C128)
-/

namespace Ble.Interrupt

variable {handles : Nat → Bool}

/-- A call is in progress whose context carries the application's function. -/
def Guarded (handles : Nat → Bool) (s : St) (i : Nat) : Prop := s.inCall i = true ∧ handles (s.ctxOf i) = true

structure Inv (handles : Nat → Bool) (es : List Ev) (s : St) : Prop where
  fresh : ∀ i, s.n ≤ i → s.inCall i = false ∧ s.reg i = false ∧ s.buf i = false ∧ s.gor i = .none
  reg : ∀ i, s.reg i = true ↔ Guarded handles s i
  gor : ∀ i, i < s.n → (s.gor i = .none ↔ handles (s.ctxOf i) = false)
  gone : ∀ i, s.gor i = .gone → s.ended (s.ctxOf i) = true
  fired : ∀ i, s.gor i = .called ↔ Ev.fire i ∈ es
  once : ∀ i, es.count (.fire i) ≤ 1
  cause : ∀ i, s.buf i = true ∨ s.gor i = .called → ∃ a b t, es = a ++ .signal :: b ∧ run handles {} a = some t ∧ Guarded handles t i

theorem inv_init : Inv handles [] {} := by
  constructor <;> simp [Guarded]

theorem any_reg {s : St} {es : List Ev} (h : Inv handles es s) : (List.range s.n).any s.reg = true ↔ ∃ i, Guarded handles s i := by
  simp only [List.any_eq_true, List.mem_range]
  constructor
  · rintro ⟨i, -, hi⟩; exact ⟨i, (h.reg i).1 hi⟩
  · rintro ⟨i, hi⟩
    refine ⟨i, ?_, (h.reg i).2 hi⟩
    apply Classical.byContradiction
    intro hn
    have := (h.fresh i (by omega)).1
    rw [hi.1] at this; cases this

theorem inv_step {es : List Ev} {s s' : St} {e : Ev} (hr : run handles {} es = some s) (h : Inv handles es s) (hs : step handles s e = some s') : Inv handles (es ++ [e]) s' := by
  have hgrow : ∀ i, (∃ a b t, es = a ++ .signal :: b ∧ run handles {} a = some t ∧ Guarded handles t i) → ∃ a b t, es ++ [e] = a ++ .signal :: b ∧ run handles {} a = some t ∧ Guarded handles t i := by
    rintro i ⟨a, b, t, rfl, h1, h2⟩
    exact ⟨a, b ++ [e], t, by simp, h1, h2⟩
  have hcount : ∀ i, (es ++ [e]).count (.fire i) = es.count (.fire i) + if e = .fire i then 1 else 0 := by
    intro i; rw [List.count_append, List.count_singleton]; simp only [beq_iff_eq]
  have hmem : ∀ i, Ev.fire i ∈ es ++ [e] ↔ Ev.fire i ∈ es ∨ e = .fire i := by
    intro i; simp [eq_comm]
  have hfr := h.fresh
  have hreg := h.reg
  have hgor := h.gor
  have hgone := h.gone
  have hfired := h.fired
  have honce := h.once
  have hcause := h.cause
  cases e with
  | enter c =>
    simp only [step] at hs
    split at hs
    · cases hs
    · simp only [Option.some.injEq] at hs; subst hs
      refine ⟨?_, ?_, ?_, ?_, ?_, ?_, ?_⟩
      · intro i hi
        have := hfr i (by simp only at hi; omega)
        simp only [upd] at *
        have : i ≠ s.n := by omega
        simp_all
      · intro i
        have := hreg i
        simp only [upd, Guarded] at *
        by_cases hi : i = s.n <;> simp_all
      · intro i hi
        simp only [upd] at *
        by_cases hi' : i = s.n
        · simp only [hi', if_true]; split <;> simp_all
        · simp only [hi', if_false]; exact hgor i (by omega)
      · intro i hi
        simp only [upd] at *
        by_cases hi' : i = s.n
        · simp only [hi', if_true] at hi; split at hi <;> cases hi
        · simp only [hi', if_false] at hi ⊢; exact hgone i hi
      · intro i
        rw [hmem, ← hfired i]
        simp only [upd, reduceCtorEq, or_false]
        by_cases hi' : i = s.n
        · have := (hfr i (by omega)).2.2.2
          rw [this]; simp only [hi', if_true]; split <;> simp
        · simp [hi']
      · intro i; rw [hcount]; simpa using honce i
      · intro i hi
        refine hgrow i (hcause i ?_)
        simp only [upd] at hi
        by_cases hi' : i = s.n
        · simp only [hi', if_true] at hi
          rcases hi with hi | hi
          · exact Or.inl (by rw [hi']; exact hi)
          · split at hi <;> cases hi
        · simpa [hi'] using hi
  | ret j =>
    simp only [step] at hs
    split at hs
    · rename_i hj
      simp only [Option.some.injEq] at hs; subst hs
      refine ⟨?_, ?_, hgor, hgone, ?_, ?_, fun i hi => hgrow i (hcause i hi)⟩
      · intro i hi
        have := hfr i hi
        simp only [upd]; split <;> simp_all
      · intro i
        have := hreg i
        simp only [upd, Guarded] at *
        split <;> simp_all
      · intro i; rw [hmem, ← hfired i]; simp
      · intro i; rw [hcount]; simpa using honce i
    · cases hs
  | signal =>
    simp only [step] at hs
    split at hs
    · cases hs
    · split at hs
      · simp only [Option.some.injEq] at hs; subst hs
        refine ⟨?_, hreg, hgor, hgone, ?_, ?_, ?_⟩
        · intro i hi
          have := hfr i hi
          simp_all
        · intro i; rw [hmem, ← hfired i]; simp
        · intro i; rw [hcount]; simpa using honce i
        · intro i hi
          simp only [Bool.or_eq_true] at hi
          by_cases hri : s.reg i = true
          · exact ⟨es, [], s, rfl, hr, (hreg i).1 hri⟩
          · exact hgrow i (hcause i (by simpa [hri] using hi))
      · simp only [Option.some.injEq] at hs; subst hs
        refine ⟨hfr, hreg, hgor, hgone, ?_, ?_, fun i hi => hgrow i (hcause i hi)⟩
        · intro i; rw [hmem, ← hfired i]; simp
        · intro i; rw [hcount]; simpa using honce i
  | fire j =>
    simp only [step] at hs
    split at hs
    · rename_i hj
      simp only [Bool.and_eq_true, beq_iff_eq, Bool.not_eq_true'] at hj
      simp only [Option.some.injEq] at hs; subst hs
      refine ⟨?_, hreg, ?_, ?_, ?_, ?_, ?_⟩
      · intro i hi
        have := hfr i hi
        simp only [upd]; split <;> simp_all
      · intro i hi
        simp only [upd]
        by_cases hij : i = j
        · subst hij
          simp only [if_true, reduceCtorEq, false_iff]
          have := hgor i hi
          rw [hj.1.2] at this
          simpa using this
        · simp only [hij, if_false]; exact hgor i hi
      · intro i hi
        simp only [upd] at hi
        split at hi
        · cases hi
        · exact hgone i hi
      · intro i
        rw [hmem, ← hfired i]
        simp only [upd, Ev.fire.injEq]
        by_cases hij : i = j
        · simp [hij]
        · simp [hij, Ne.symm hij]
      · intro i
        rw [hcount]
        by_cases hij : j = i
        · subst hij
          have : Ev.fire j ∉ es := by rw [← hfired j, hj.1.2]; simp
          rw [List.count_eq_zero.2 this]; simp
        · simpa [hij] using honce i
      · intro i hi
        refine hgrow i ?_
        by_cases hij : i = j
        · subst hij; exact hcause i (Or.inl hj.2)
        · exact hcause i (by simpa [upd, hij] using hi)
    · cases hs
  | quit j =>
    simp only [step] at hs
    split at hs
    · rename_i hj
      simp only [Bool.and_eq_true, beq_iff_eq, Bool.not_eq_true'] at hj
      simp only [Option.some.injEq] at hs; subst hs
      refine ⟨?_, hreg, ?_, ?_, ?_, ?_, ?_⟩
      · intro i hi
        have := hfr i hi
        simp only [upd]; split <;> simp_all
      · intro i hi
        simp only [upd]
        by_cases hij : i = j
        · subst hij
          simp only [if_true, reduceCtorEq, false_iff]
          have := hgor i hi
          rw [hj.1.2] at this
          simpa using this
        · simp only [hij, if_false]; exact hgor i hi
      · intro i hi
        simp only [upd] at hi
        split at hi
        · rename_i hij; subst hij; exact hj.2
        · exact hgone i hi
      · intro i
        rw [hmem, ← hfired i]
        simp only [upd, reduceCtorEq, or_false]
        by_cases hij : i = j
        · subst hij; simp [hj.1.2]
        · simp [hij]
      · intro i; rw [hcount]; simpa using honce i
      · intro i hi
        refine hgrow i (hcause i ?_)
        by_cases hij : i = j
        · subst hij
          rcases hi with hi | hi
          · exact Or.inl hi
          · simp [upd] at hi
        · simpa [upd, hij] using hi
    · cases hs
  | endCtx c =>
    simp only [step] at hs
    split at hs
    · cases hs
    · simp only [Option.some.injEq] at hs; subst hs
      refine ⟨hfr, hreg, hgor, ?_, ?_, ?_, fun i hi => hgrow i (hcause i hi)⟩
      · intro i hi
        simp only [upd]
        split
        · rfl
        · exact hgone i hi
      · intro i; rw [hmem, ← hfired i]; simp
      · intro i; rw [hcount]; simpa using honce i

theorem inv {es : List Ev} {s : St} (h : run handles {} es = some s) : Inv handles es s :=
  runT_ind (P := Inv handles) inv_init (fun _ _ _ _ hr hp hs => inv_step hr hp hs) es s h

/-- **C128, soundness.** Whatever calls are made and return, whatever contexts end and whenever signals come: the function is called on behalf of a call only if a signal came while that call was in progress. -/
theorem handler_needs_interrupt {es : List Ev} {s : St} (h : run handles {} es = some s) (i : Nat) (hf : Ev.fire i ∈ es) :
    ∃ a b t, es = a ++ .signal :: b ∧ run handles {} a = some t ∧ Guarded handles t i :=
  (inv h).cause i (Or.inr (((inv h).fired i).2 hf))

/-- … and at most once per call, however many signals come. -/
theorem handler_at_most_once {es : List Ev} {s : St} (h : run handles {} es = some s) (i : Nat) : es.count (.fire i) ≤ 1 := (inv h).once i

/-- **C128, the process.** A signal ends the process exactly if no call is in progress whose context carries a function. In particular it does so again after all calls have returned. -/
theorem interrupt_kills_iff {es : List Ev} {s s' : St} (h : run handles {} es = some s) (hs : step handles s .signal = some s') : s'.killed = true ↔ ∀ i, ¬ Guarded handles s i := by
  have ha := any_reg (inv h)
  simp only [step] at hs
  split at hs
  · cases hs
  · rename_i hk
    split at hs
    · rename_i hr
      simp only [Option.some.injEq] at hs; subst hs
      obtain ⟨i, hi⟩ := ha.1 hr
      constructor
      · intro h; exact absurd h hk
      · intro h; exact absurd hi (h i)
    · rename_i hr
      simp only [Option.some.injEq] at hs; subst hs
      simp only [true_iff]
      intro i hi
      exact hr (ha.2 ⟨i, hi⟩)

/-- What holds from the moment a signal is in the channel of a call that has not been interrupted before. -/
structure Pending (c i : Nat) (s : St) : Prop where
  lt : i < s.n
  ctx : s.ctxOf i = c
  live : s.ended c = false
  fires : s.gor i = .called ∨ (s.gor i = .waiting ∧ s.buf i = true)

theorem pending_step {c i : Nat} {s s' : St} {e : Ev} (h : Pending c i s) (he : e ≠ .endCtx c) (hs : step handles s e = some s') : Pending c i s' := by
  obtain ⟨h1, h2, h3, h4⟩ := h
  cases e with
  | enter d =>
    simp only [step] at hs
    split at hs
    · cases hs
    · simp only [Option.some.injEq] at hs; subst hs
      have : i ≠ s.n := by omega
      exact ⟨by simp only; omega, by simp [upd, this, h2], h3, by simpa only [upd, this, if_false] using h4⟩
  | ret j =>
    simp only [step] at hs
    split at hs
    · simp only [Option.some.injEq] at hs; subst hs; exact ⟨h1, h2, h3, h4⟩
    · cases hs
  | signal =>
    simp only [step] at hs
    split at hs
    · cases hs
    · split at hs
      · simp only [Option.some.injEq] at hs; subst hs
        exact ⟨h1, h2, h3, by rcases h4 with h4 | ⟨h4, h5⟩ <;> simp [*]⟩
      · simp only [Option.some.injEq] at hs; subst hs; exact ⟨h1, h2, h3, h4⟩
  | fire j =>
    simp only [step] at hs
    split at hs
    · simp only [Option.some.injEq] at hs; subst hs
      refine ⟨h1, h2, h3, ?_⟩
      by_cases hij : i = j
      · simp [upd, hij]
      · simpa only [upd, hij, if_false] using h4
    · cases hs
  | quit j =>
    simp only [step] at hs
    split at hs
    · rename_i hj
      simp only [Option.some.injEq] at hs; subst hs
      refine ⟨h1, h2, h3, ?_⟩
      by_cases hij : i = j
      · subst hij; rw [h2, h3] at hj; simp at hj
      · simpa only [upd, hij, if_false] using h4
    · cases hs
  | endCtx d =>
    simp only [step] at hs
    split at hs
    · cases hs
    · simp only [Option.some.injEq] at hs; subst hs
      refine ⟨h1, h2, ?_, h4⟩
      have : c ≠ d := fun e => he (by rw [e])
      simp [upd, this, h3]

/-- **C128, progress.** A signal that comes while a call is in progress whose context carries a function and goes on does not end the process, and from then on, as long as the context goes on and the process lives, the function has been
called for this call or its goroutine can call it; nothing else can take the signal away. -/
theorem interrupt_reaches_handler {es : List Ev} {s : St} (h : run handles {} es = some s) (hk : s.killed = false) (i : Nat) (hg : Guarded handles s i) (hc : s.ended (s.ctxOf i) = false) :
    ∃ s1, step handles s .signal = some s1 ∧ s1.killed = false ∧ ∀ fs s2, run handles s1 fs = some s2 → Ev.endCtx (s.ctxOf i) ∉ fs → s2.killed = false →
      s2.gor i = .called ∨ (step handles s2 (.fire i)).isSome = true := by
  have hi := inv h
  have hany := (any_reg hi).2 ⟨i, hg⟩
  have hlt : i < s.n := by
    apply Classical.byContradiction; intro hn
    have := (hi.fresh i (by omega)).1
    rw [hg.1] at this; cases this
  have hw : s.gor i = .called ∨ s.gor i = .waiting := by
    have h1 := hi.gor i hlt
    have h2 := hi.gone i
    cases hgi : s.gor i with
    | none => rw [hgi, hg.2] at h1; simp at h1
    | waiting => exact Or.inr rfl
    | called => exact Or.inl rfl
    | gone => rw [hc] at h2; exact absurd (h2 hgi) (by simp)
  refine ⟨{ s with buf := fun i => s.buf i || s.reg i }, by simp [step, hk, hany], hk, ?_⟩
  intro fs s2 hr hne hk2
  have hp : Pending (s.ctxOf i) i { s with buf := fun i => s.buf i || s.reg i } :=
    ⟨hlt, rfl, hc, by rcases hw with hw | hw <;> simp [hw, (hi.reg i).2 hg]⟩
  have key : ∀ (fs : List Ev) (t t2 : St), Pending (s.ctxOf i) i t → run handles t fs = some t2 → Ev.endCtx (s.ctxOf i) ∉ fs → Pending (s.ctxOf i) i t2 := by
    intro fs
    induction fs with
    | nil => intro t t2 hp hr _; cases hr; exact hp
    | cons e fs ih =>
      intro t t2 hp hr hne
      simp only [run, runT] at hr
      split at hr
      · cases hr
      · rename_i u hu
        exact ih u t2 (pending_step hp (fun e' => hne (by simp [e'])) hu) hr fun hm => hne (by simp [hm])
  obtain ⟨-, -, -, h4⟩ := key fs _ s2 hp hr hne
  rcases h4 with h4 | ⟨h4, h5⟩
  · exact Or.inl h4
  · exact Or.inr (by simp [step, hk2, h4, h5])

/-- The full claim C128 adds that the function is called during the call and that nothing of the call remains; proved is what holds when the call is still in progress at the moment the goroutine runs: the function is called for a call in
progress, for a signal that came during it. Missing, and false of the code: `handler_called_late`, `goroutines_remain`. -/
theorem interrupt_partial {es : List Ev} {s s' : St} (h : run handles {} es = some s) (i : Nat) (hs : step handles s (.fire i) = some s') (hin : s.inCall i = true) :
    Guarded handles s i ∧ Ev.signal ∈ es := by
  have hi := inv h
  simp only [step] at hs
  split at hs
  · rename_i hj
    simp only [Bool.and_eq_true, beq_iff_eq, Bool.not_eq_true'] at hj
    obtain ⟨a, b, t, e1, -, -⟩ := hi.cause i (Or.inl hj.2)
    refine ⟨⟨hin, ?_⟩, by rw [e1]; simp⟩
    have hlt : i < s.n := by
      apply Classical.byContradiction; intro hn
      have := (hi.fresh i (by omega)).1
      rw [hin] at this; cases this
    have := hi.gor i hlt
    rw [hj.1.2] at this
    simpa using this
  · cases hs

/-- FALSE of the code: the function can be called after the call has returned (and been told to return for another reason). -/
theorem handler_called_late : ∃ s, run (fun _ => true) {} [.enter 0, .signal, .ret 0, .fire 0] = some s ∧ s.inCall 0 = false ∧ s.gor 0 = .called := ⟨_, rfl, rfl, rfl⟩

/-- `Find` is two calls: one signal calls the function twice. -/
theorem find_calls_handler_twice : ∃ s, run (fun _ => true) {} [.enter 0, .enter 0, .signal, .fire 1, .fire 0] = some s ∧ s.gor 0 = .called ∧ s.gor 1 = .called := ⟨_, rfl, rfl, rfl⟩

/-- A second signal during a call is swallowed: it neither ends the process nor is the function called for that call again. -/
theorem second_interrupt_swallowed {es fs : List Ev} {s s1 s2 : St} (h : run handles {} es = some s) (i : Nat) (hg : Guarded handles s i) (hf : s.gor i = .called)
    (hs : step handles s .signal = some s1) (h2 : run handles s1 fs = some s2) : s1.killed = false ∧ Ev.fire i ∉ fs := by
  have hk : s1.killed = false := by
    cases hk : s1.killed with
    | false => rfl
    | true => exact absurd hg ((interrupt_kills_iff h hs).1 hk i)
  refine ⟨hk, fun hm => ?_⟩
  have hr : run handles {} (es ++ ([.signal] ++ fs)) = some s2 := runT_append.2 ⟨s, h, runT_append.2 ⟨s1, by simp [runT, hs], h2⟩⟩
  have h1 := (inv hr).once i
  have h3 : Ev.fire i ∈ es := ((inv h).fired i).1 hf
  rw [List.count_append, List.count_append] at h1
  have a1 := List.count_pos_iff.2 h3
  have a2 := List.count_pos_iff.2 hm
  omega

/-- FALSE of the code: when a call returns without a signal and its context goes on, its goroutine waits until the context ends, if it ever does. -/
theorem goroutine_waits_for_context {s s' : St} {fs : List Ev} (i : Nat) (hlt : i < s.n) (hgi : s.gor i = .waiting) (hb : s.buf i = false) (hreg : s.reg i = false)
    (hc : s.ended (s.ctxOf i) = false) (hr : run handles s fs = some s') (hne : Ev.endCtx (s.ctxOf i) ∉ fs) : s'.gor i = .waiting := by
  have key : ∀ (fs : List Ev) (t t2 : St), (i < t.n ∧ t.gor i = .waiting ∧ t.buf i = false ∧ t.reg i = false ∧ t.ctxOf i = s.ctxOf i ∧ t.ended (s.ctxOf i) = false) → run handles t fs = some t2 →
      Ev.endCtx (s.ctxOf i) ∉ fs → t2.gor i = .waiting := by
    intro fs
    induction fs with
    | nil => intro t t2 hp hr _; cases hr; exact hp.2.1
    | cons e fs ih =>
      intro t t2 hp hr hne
      simp only [run, runT] at hr
      split at hr
      · cases hr
      · rename_i u hu
        refine ih u t2 ?_ hr fun hm => hne (by simp [hm])
        obtain ⟨p1, p2, p3, p4, p5, p6⟩ := hp
        have hne' : e ≠ .endCtx (s.ctxOf i) := fun e' => hne (by simp [e'])
        cases e with
        | enter d =>
          simp only [step] at hu
          split at hu
          · cases hu
          · simp only [Option.some.injEq] at hu; subst hu
            have : i ≠ t.n := by omega
            simp only [upd, this, if_false]
            exact ⟨by omega, p2, p3, p4, p5, p6⟩
        | ret j =>
          simp only [step] at hu
          split at hu
          · simp only [Option.some.injEq] at hu; subst hu
            refine ⟨p1, p2, p3, ?_, p5, p6⟩
            simp only [upd]; split
            · rfl
            · exact p4
          · cases hu
        | signal =>
          simp only [step] at hu
          split at hu
          · cases hu
          · split at hu
            · simp only [Option.some.injEq] at hu; subst hu
              exact ⟨p1, p2, by simp [p3, p4], p4, p5, p6⟩
            · simp only [Option.some.injEq] at hu; subst hu; exact ⟨p1, p2, p3, p4, p5, p6⟩
        | fire j =>
          simp only [step] at hu
          split at hu
          · rename_i hj
            simp only [Option.some.injEq] at hu; subst hu
            have : i ≠ j := by intro e; subst e; rw [p3] at hj; simp at hj
            simp only [upd, this, if_false]
            exact ⟨p1, p2, p3, p4, p5, p6⟩
          · cases hu
        | quit j =>
          simp only [step] at hu
          split at hu
          · rename_i hj
            simp only [Option.some.injEq] at hu; subst hu
            have : i ≠ j := by intro e; subst e; rw [p5, p6] at hj; simp at hj
            simp only [upd, this, if_false]
            exact ⟨p1, p2, p3, p4, p5, p6⟩
          · cases hu
        | endCtx d =>
          simp only [step] at hu
          split at hu
          · cases hu
          · simp only [Option.some.injEq] at hu; subst hu
            have : s.ctxOf i ≠ d := fun e => hne' (by rw [e])
            exact ⟨p1, p2, p3, p4, p5, by simp [upd, this, p6]⟩
  exact key fs s s' ⟨hlt, hgi, hb, hreg, rfl, hc⟩ hr hne

/-- So goroutines pile up: after any number `k` of calls with one context that goes on, all of them returned, `k` goroutines wait. -/
theorem goroutines_remain (k : Nat) : ∃ es s, run (fun _ => true) {} es = some s ∧ s.n = k ∧ s.killed = false ∧ (∀ i, s.inCall i = false) ∧ ∀ i, i < k → s.gor i = .waiting := by
  induction k with
  | zero => exact ⟨[], {}, rfl, rfl, rfl, fun _ => rfl, fun i hi => absurd hi (by omega)⟩
  | succ k ih =>
    obtain ⟨es, s, h1, h2, h3, h4, h5⟩ := ih
    refine ⟨es ++ [.enter 0, .ret k], { s with n := s.n + 1, ctxOf := upd s.ctxOf s.n 0, inCall := upd (upd s.inCall s.n true) k false, reg := upd (upd s.reg s.n true) k false, gor := upd s.gor s.n .waiting },
      runT_append.2 ⟨s, h1, ?_⟩, ?_⟩
    · simp [runT, step, h3, h2, upd]
    · refine ⟨by simp [h2], h3, ?_, ?_⟩
      · intro i; simp only [upd, h2]; split <;> simp_all
      · intro i hi
        simp only [upd, h2]
        split
        · rfl
        · exact h5 i (by omega)

/-- Non-vacuity: two calls with different contexts, one of which carries a function; a signal during both; the function is called once; then both return and the next signal ends the process. -/
theorem interrupt_example : ∃ s, run (fun c => c == 1) {} [.enter 0, .enter 1, .signal, .fire 1, .endCtx 1, .ret 1, .ret 0, .signal] = some s ∧ s.killed = true ∧ s.gor 1 = .called ∧ s.gor 0 = .none := ⟨_, rfl, rfl, rfl, rfl⟩

/-- C128: a process that a signal has ended does nothing any more. -/
theorem killed_is_end (handles : Nat → Bool) (s : St) (hk : s.killed = true) (e : Ev) : step handles s e = none := by
  cases e <;> simp [step, hk]

end Ble.Interrupt
