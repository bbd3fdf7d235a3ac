import Verif.Hci.Shutdown
set_option autoImplicit false

/-! # C67: closing the device and losing the transport -/

namespace Ble.Props

open Ble.Shutdown

/-! ## Specification -/

/-- The calls of the application, in the order in which they were made. -/
def started (es : List Shutdown.Ev) : List Shutdown.Ev :=
  es.filter fun
    | .send _ | .dial | .accept => true
    | _ => false

/-- Steps of call `i` itself, none of which needs the controller, another goroutine or a timer. -/
def ownStep (i : Nat) : Shutdown.Ev → Bool
  | .wake j | .enter j => i = j
  | _ => false

/-- The call has not returned. -/
def Pending (s : Shutdown.St) (i : Nat) : Prop := ∃ c, s.calls[i]? = some c ∧ ∀ r, c ≠ .ret r

namespace ShutdownAux

theorem run_snoc {s s' : Shutdown.St} {es : List Shutdown.Ev} {e : Shutdown.Ev} : run s (es ++ [e]) = some s' ↔ ∃ t, run s es = some t ∧ step t e = some s' := by
  induction es generalizing s with
  | nil =>
    simp only [List.nil_append, run, Option.some.injEq, exists_eq_left']
    split <;> simp_all
  | cons x xs ih =>
    simp only [List.cons_append, run]
    split
    · simp
    · exact ih

theorem run_ind {s0 : Shutdown.St} {P : List Shutdown.Ev → Shutdown.St → Prop} (h0 : P [] s0)
    (hs : ∀ es s e s', run s0 es = some s → P es s → step s e = some s' → P (es ++ [e]) s') : ∀ es s, run s0 es = some s → P es s := by
  have key : ∀ es pre s s', run s0 pre = some s → P pre s → run s es = some s' → P (pre ++ es) s' := by
    intro es
    induction es with
    | nil => intro pre s s' _ hp h; simp [run] at h; subst h; simpa using hp
    | cons x xs ih =>
      intro pre s s' hpre hp h
      simp only [run] at h
      split at h
      · simp at h
      · rename_i t ht
        have := ih (pre ++ [x]) t s' (run_snoc.2 ⟨s, hpre, ht⟩) (hs _ _ _ _ hpre hp ht) h
        simpa using this
  intro es s h
  simpa using key es [] s0 s rfl h0 h

theorem run_append {s t u : Shutdown.St} {a b : List Shutdown.Ev} (h1 : run s a = some t) (h2 : run t b = some u) : run s (a ++ b) = some u := by
  induction a generalizing s with
  | nil => simp [run] at h1; subst h1; exact h2
  | cons x xs ih =>
    simp only [run, List.cons_append] at h1 ⊢
    split at h1
    · simp at h1
    · exact ih h1

theorem set_get {s : Shutdown.St} {i : Nat} {c c' : Call} (h : s.calls[i]? = some c) : (s.calls.set i c')[i]? = some c' := by
  have := (List.getElem?_eq_some_iff.1 h).1
  simp [this]

/-- The wake-up of a call that waits. -/
theorem wake_step {s : Shutdown.St} {i : Nat} {c c' : Call} (hd : s.done = true) (hc : s.calls[i]? = some c) (hw : woken s.err c = some c') : step s (.wake i) = some { s with calls := s.calls.set i c' } := by
  simp [step, hc, hw, hd]

theorem woken_ne {e : Option Err} {c c' : Call} (h : woken e c = some c') : c' ≠ .accept := by
  cases c <;> simp only [woken, Option.some.injEq, reduceCtorEq] at h <;> (try subst h) <;> split <;> simp

theorem started_append (a b : List Shutdown.Ev) : started (a ++ b) = started a ++ started b := by simp [started]

theorem begin_calls (s : Shutdown.St) (w : Call) : (begin s w).done = s.done ∧ (begin s w).answered = s.answered ∧ ∃ c, (c = w ∨ c = .ret .err) ∧ (begin s w).calls = s.calls ++ [c] := by
  simp only [begin]
  repeat' split
  all_goals simp

/-- What has become of the calls of `Send`. -/
structure Inv (es : List Shutdown.Ev) (s : Shutdown.St) : Prop where
  len : s.calls.length = (started es).length
  send : ∀ i b, (started es)[i]? = some (.send b) → s.calls[i]? = some (.send b) ∨ s.calls[i]? = some (.ret .err) ∨ (s.calls[i]? = some (.ret .ok) ∧ (i ∈ s.answered ∨ (b = false ∧ s.done = true)))

theorem inv_same {es : List Shutdown.Ev} {s s' : Shutdown.St} {e : Shutdown.Ev} (hi : Inv es s) (he : started [e] = []) (h1 : s'.calls = s.calls) (h2 : s'.answered = s.answered) (h3 : s.done = true → s'.done = true) : Inv (es ++ [e]) s' := by
  refine ⟨by rw [started_append, he, h1]; simpa using hi.len, ?_⟩
  intro i b hs
  rw [started_append, he, List.append_nil] at hs
  have := hi.send i b hs
  rw [h1, h2]
  grind

theorem inv_push {es : List Shutdown.Ev} {s s' : Shutdown.St} {e : Shutdown.Ev} {c : Call} (hi : Inv es s) (he : started [e] = [e]) (h1 : s'.calls = s.calls ++ [c]) (h2 : s'.answered = s.answered) (h3 : s'.done = s.done)
    (hc : ∀ b, e = .send b → c = .send b ∨ c = .ret .err) : Inv (es ++ [e]) s' := by
  have hl := hi.len
  refine ⟨by rw [started_append, he, h1]; simp [hl], ?_⟩
  intro i b hs
  rw [started_append, he] at hs
  rw [h1, h2, h3]
  by_cases hlt : i < (started es).length
  · rw [List.getElem?_append_left hlt] at hs
    rw [List.getElem?_append_left (by omega)]
    exact hi.send i b hs
  · have hle : (started es).length ≤ i := by omega
    rw [List.getElem?_append_right hle] at hs
    rw [List.getElem?_append_right (by omega), hl]
    have hz : i - (started es).length = 0 := by
      have := (List.getElem?_eq_some_iff.1 hs).1
      simp at this; omega
    rw [hz] at hs ⊢
    simp at hs
    rcases hc b hs with rfl | rfl <;> simp

theorem inv_set {es : List Shutdown.Ev} {s s' : Shutdown.St} {e : Shutdown.Ev} {j : Nat} {c c' : Call} (hi : Inv es s) (he : started [e] = []) (hj : s.calls[j]? = some c) (h1 : s'.calls = s.calls.set j c') (h2 : ∀ x ∈ s.answered, x ∈ s'.answered)
    (h3 : s'.done = s.done) (hc : ∀ b, c = .send b → c' = .ret .err ∨ (c' = .ret .ok ∧ (j ∈ s'.answered ∨ (b = false ∧ s.done = true)))) (hc2 : ∀ r, c ≠ .ret r) : Inv (es ++ [e]) s' := by
  have hlt := (List.getElem?_eq_some_iff.1 hj).1
  refine ⟨by rw [started_append, he, h1]; simpa using hi.len, ?_⟩
  intro i b hs
  rw [started_append, he, List.append_nil] at hs
  have := hi.send i b hs
  rw [h1, h3, List.getElem?_set]
  split
  · rename_i heq; subst heq
    rw [hj] at this
    simp only [Option.some.injEq] at this ⊢
    rcases this with rfl | rfl | ⟨rfl, _⟩
    · rcases hc b rfl with rfl | ⟨rfl, h⟩
      · simp
      · simp [h]
    · exact absurd rfl (hc2 _)
    · exact absurd rfl (hc2 _)
  · grind

theorem inv : ∀ es s, run Shutdown.init es = some s → Inv es s := by
  apply run_ind
  · exact ⟨rfl, by simp [started]⟩
  · intro es s e s' _ hi hs
    cases e with
    | send b =>
      simp only [step, Option.some.injEq] at hs; subst hs
      obtain ⟨h1, h2, c, h3, h4⟩ := begin_calls s (.send b)
      exact inv_push hi rfl h4 h2 h1 (by intro b' hb; injection hb with hb; subst hb; exact h3)
    | dial =>
      simp only [step, Option.some.injEq] at hs; subst hs
      obtain ⟨h1, h2, c, h3, h4⟩ := begin_calls s .dialSend
      exact inv_push hi rfl h4 h2 h1 (by intro b' hb; cases hb)
    | accept =>
      simp only [step, Option.some.injEq] at hs; subst hs
      exact inv_push hi rfl rfl rfl rfl (by intro b' hb; cases hb)
    | handle =>
      simp only [step] at hs
      split at hs
      · rename_i i rest _ _
        injection hs with hs; subst hs
        simp only [handle]
        split
        · split
          · rename_i hc
            exact inv_set hi rfl hc rfl (by simp; grind) rfl (by intro b hb; right; simp) (by simp)
          · rename_i hc
            exact inv_set hi rfl hc rfl (by simp; grind) rfl (by intro b hb; cases hb) (by simp)
          · exact inv_same hi rfl rfl rfl id
        all_goals exact inv_same hi rfl rfl rfl id
      · simp at hs
    | wake i =>
      simp only [step] at hs
      split at hs
      · simp at hs
      · rename_i c hc
        split at hs
        · rename_i c' hw
          split at hs
          · rename_i hd
            injection hs with hs; subst hs
            refine inv_set hi rfl hc rfl (fun _ h => h) rfl ?_ ?_
            · intro b hb; subst hb
              simp only [woken, Option.some.injEq] at hw
              subst hw
              cases b <;> cases s.err <;> simp [hd]
            · intro r hr; subst hr; simp [woken] at hw
          · simp at hs
        · simp at hs
    | enter i =>
      simp only [step] at hs
      split at hs
      · rename_i hc
        injection hs with hs; subst hs
        exact inv_set hi rfl hc rfl (fun _ h => h) rfl (by intro b hb; cases hb) (by simp)
      · simp at hs
    | deliver i =>
      simp only [step] at hs
      split at hs
      · rename_i hc
        injection hs with hs; subst hs
        exact inv_set hi rfl hc.2 rfl (fun _ h => h) rfl (by intro b hb; cases hb) (by simp)
      · simp at hs
    | connected i =>
      simp only [step] at hs
      split at hs
      · rename_i hc
        split at hs
        · injection hs with hs; subst hs
          exact inv_set hi rfl hc rfl (fun _ h => h) rfl (by intro b hb; cases hb) (by simp)
        · split at hs
          · injection hs with hs; subst hs
            exact inv_set hi rfl hc rfl (fun _ h => h) rfl (by intro b hb; cases hb) (by simp)
          · simp at hs
      · simp at hs
    | giveUp i =>
      simp only [step] at hs
      split at hs
      · simp at hs
      · simp at hs
      · simp at hs
      · rename_i c hr _ hc
        injection hs with hs; subst hs
        exact inv_set hi rfl hc rfl (fun _ h => h) rfl (by intro b hb; left; rfl) (by intro r hr'; subst hr'; exact hr _ rfl)
    | close => simp only [step, Option.some.injEq] at hs; subst hs; exact inv_same hi rfl rfl rfl (fun _ => rfl)
    | _ =>
      simp only [step] at hs
      (repeat' split at hs) <;> simp only [Option.some.injEq, reduceCtorEq] at hs <;> subst hs <;> exact inv_same hi rfl rfl rfl id

theorem reader_inv : ∀ es s, run Shutdown.init es = some s → s.reader = false → s.rxClosed = true := by
  apply run_ind
  · simp [Shutdown.init]
  · intro es t e t' _ ih hs
    cases e with
    | handle =>
      simp only [step] at hs
      split at hs
      · injection hs with hs; subst hs
        simp only [handle]
        (repeat' split) <;> exact ih
      · simp at hs
    | send b => simp only [step, begin, Option.some.injEq] at hs; (repeat' split at hs) <;> subst hs <;> exact ih
    | dial => simp only [step, begin, Option.some.injEq] at hs; (repeat' split at hs) <;> subst hs <;> exact ih
    | _ =>
      simp only [step] at hs
      (repeat' split at hs) <;> simp only [Option.some.injEq, reduceCtorEq] at hs <;> subst hs <;> (try exact ih) <;> grind

end ShutdownAux

open ShutdownAux

/-! ## Close -/

/-- After `Close` every call returns by itself: no answer of the controller, other goroutine or timer is needed. -/
theorem closed_calls_return (s : Shutdown.St) (hd : s.done = true) (i : Nat) (hp : Pending s i) :
    ∃ es s', run s es = some s' ∧ es.length ≤ 3 ∧ es.all (ownStep i) = true ∧ ∃ r, s'.calls[i]? = some (.ret r) := by
  obtain ⟨c, hc, hr⟩ := hp
  have hwait : ∀ (s : Shutdown.St) b, s.done = true → s.calls[i]? = some (.dialWait b) → ∃ s', step s (.wake i) = some s' ∧ ∃ r, s'.calls[i]? = some (.ret r) := by
    intro s b hd hc
    refine ⟨_, wake_step hd hc rfl, ?_⟩
    simp only [set_get hc]
    split <;> simp
  have hdialling : ∀ (s : Shutdown.St), s.done = true → s.calls[i]? = some .dialling → ∃ s', run s [.enter i, .wake i] = some s' ∧ ∃ r, s'.calls[i]? = some (.ret r) := by
    intro s hd hc
    have h1 : step s (.enter i) = some { s with calls := s.calls.set i (.dialWait (s.proc ≠ .finished)) } := by simp [step, hc]
    obtain ⟨s', h2, h3⟩ := hwait { s with calls := s.calls.set i (.dialWait (s.proc ≠ .finished)) } _ hd (set_get hc)
    refine ⟨s', ?_, h3⟩
    simp only [run, h1, h2]
  cases c with
  | ret r => exact absurd rfl (hr r)
  | dialWait b =>
    obtain ⟨s', h1, h2⟩ := hwait s b hd hc
    exact ⟨[.wake i], s', by simp [run, h1], by simp, by simp [ownStep], h2⟩
  | dialling =>
    obtain ⟨s', h1, h2⟩ := hdialling s hd hc
    exact ⟨_, s', h1, by simp, by simp [ownStep], h2⟩
  | accept =>
    refine ⟨[.wake i], _, by simp only [run, wake_step hd hc rfl]; rfl, by simp, by simp [ownStep], ?_⟩
    simp only [set_get hc]
    split <;> simp
  | send reply =>
    refine ⟨[.wake i], _, by simp only [run, wake_step hd hc rfl]; rfl, by simp, by simp [ownStep], ?_⟩
    simp only [set_get hc]
    split <;> simp
  | dialSend =>
    by_cases he : s.err.isSome = true
    · refine ⟨[.wake i], _, by simp only [run, wake_step hd hc rfl]; rfl, by simp, by simp [ownStep], ?_⟩
      simp [set_get hc, he]
    · have h1 := wake_step (c' := .dialling) hd hc (by simp [woken, he])
      obtain ⟨s', h2, h3⟩ := hdialling { s with calls := s.calls.set i .dialling } hd (set_get hc)
      refine ⟨[.wake i] ++ [.enter i, .wake i], s', run_append (by simp only [run, h1]) h2, by simp, by simp [ownStep], h3⟩

/-- A command or a `Dial` after `Close` fails at once. -/
theorem closed_new_call_fails (s : Shutdown.St) (hd : s.done = true) (e : Shutdown.Ev) (he : e = .dial ∨ ∃ r, e = .send r) :
    ∃ s', step s e = some s' ∧ s'.calls = s.calls ++ [.ret .err] := by
  rcases he with rfl | ⟨r, rfl⟩ <;> cases h : s.err <;> simp [step, begin, hd, h]

/-- A command whose return parameters the caller wants succeeds only if the controller has answered it. -/
theorem reply_means_answered (es : List Shutdown.Ev) (s : Shutdown.St) (hr : run Shutdown.init es = some s) (i : Nat) (hs : (started es)[i]? = some (.send true)) (hok : s.calls[i]? = some (.ret .ok)) : i ∈ s.answered := by
  rcases (inv es s hr).send i true hs with h | h | ⟨_, h | h⟩
  · simp [hok] at h
  · simp [hok] at h
  · exact h
  · simp at h

/-- Any other command succeeds only if the controller has answered it or the device has been closed. -/
theorem success_means_answered_partial (es : List Shutdown.Ev) (s : Shutdown.St) (hr : run Shutdown.init es = some s) (i : Nat) (b : Bool) (hs : (started es)[i]? = some (.send b)) (hok : s.calls[i]? = some (.ret .ok)) :
    i ∈ s.answered ∨ s.done = true := by
  rcases (inv es s hr).send i b hs with h | h | ⟨_, h | h⟩
  · simp [hok] at h
  · simp [hok] at h
  · exact .inl h
  · exact .inr h.2

/-- The second case is real: whenever such a command waits and no error is recorded, `Close` makes it report success although the controller has not answered it. -/
theorem close_reports_success (es : List Shutdown.Ev) (s : Shutdown.St) (hr : run Shutdown.init es = some s) (i : Nat) (hc : s.calls[i]? = some (.send false)) (he : s.err = none) (hna : i ∉ s.answered) :
    ∃ s', run Shutdown.init (es ++ [.close, .wake i]) = some s' ∧ s'.calls[i]? = some (.ret .ok) ∧ i ∉ s'.answered := by
  refine ⟨{ s with done := true, calls := s.calls.set i (.ret .ok) }, run_append hr ?_, set_get hc, hna⟩
  have := wake_step (s := { s with done := true }) (c' := .ret .ok) rfl hc (by simp [woken, he])
  simp only [run, step] at this ⊢
  rw [this]

/-- After `Close` the device shuts down within two steps of its event loop, unless the loop is handing over a connection of a new central. -/
theorem close_cleans_up (s : Shutdown.St) (hd : s.done = true) (hp : s.proc ≠ .offering) :
    (s.proc = .finished ∨ ∃ es s', run s es = some s' ∧ es.length ≤ 2 ∧ s'.proc = .finished ∧ s'.skt = false ∧ s'.cleaned = true) := by
  cases h : s.proc with
  | finished => exact .inl rfl
  | offering => exact absurd h hp
  | leaving => exact .inr ⟨[.cleanup], _, by simp only [run, step, h, if_true]; rfl, by simp, rfl, rfl, rfl⟩
  | loop => exact .inr ⟨[.procDone, .cleanup], _, by simp only [run, step, h, hd, if_true, and_self]; rfl, by simp, rfl, rfl, rfl⟩

/-- If it is, and nobody is accepting, then unless somebody calls `Accept` it hangs for ever: the connections are never announced as disconnected. -/
theorem close_hangs_on_new_central (s : Shutdown.St) (hp : s.proc = .offering) (hna : ∀ i : Nat, s.calls[i]? ≠ some .accept) (es : List Shutdown.Ev) (hes : Shutdown.Ev.accept ∉ es) (s' : Shutdown.St) (hr : run s es = some s') :
    s'.proc = .offering ∧ s'.cleaned = s.cleaned ∧ (s.broken = false → .fail ∉ es → s'.skt = s.skt) := by
  have key : ∀ es s', run s es = some s' → (Shutdown.Ev.accept ∉ es → s'.proc = .offering ∧ s'.cleaned = s.cleaned ∧ (∀ i : Nat, s'.calls[i]? ≠ some .accept) ∧ (s.broken = false → .fail ∉ es → s'.broken = false ∧ (s.skt = true → s'.skt = true) ∧ (s.skt = false → s'.skt = false))) := by
    apply run_ind
    · exact fun _ => ⟨hp, rfl, hna, fun h _ => ⟨h, id, id⟩⟩
    · intro es t e t' _ ih hs hne
      obtain ⟨h1, h2, h3, h4⟩ := ih (fun h => hne (by simp [h]))
      have h4' : s.broken = false → Shutdown.Ev.fail ∉ es ++ [e] → e ≠ .fail ∧ t.broken = false ∧ (s.skt = true → t.skt = true) ∧ (s.skt = false → t.skt = false) := by
        intro hb hf
        exact ⟨fun h => hf (by simp [h]), h4 hb (fun h => hf (by simp [h]))⟩
      clear h4
      cases e with
      | send b =>
        simp only [step, begin, Option.some.injEq] at hs
        (repeat' split at hs) <;> subst hs <;> refine ⟨h1, h2, ?_, ?_⟩ <;> grind
      | dial =>
        simp only [step, begin, Option.some.injEq] at hs
        (repeat' split at hs) <;> subst hs <;> refine ⟨h1, h2, ?_, ?_⟩ <;> grind
      | handle => simp [step, h1] at hs
      | accept => exact absurd (by simp) hne
      | _ =>
        simp only [step] at hs
        (repeat' split at hs) <;> simp only [Option.some.injEq, reduceCtorEq] at hs <;> subst hs <;> grind [woken_ne]
  obtain ⟨h1, h2, _, h3⟩ := key es s' hr hes
  refine ⟨h1, h2, fun hb hf => ?_⟩
  obtain ⟨_, h4, h5⟩ := h3 hb hf
  cases h : s.skt
  · exact h5 h
  · exact h4 h

/-! ## Losing the transport -/

/-- The transport fails: the device shuts down after handling what it has read, if no new central is among that. -/
theorem failure_cleans_up (es : List Shutdown.Ev) (s : Shutdown.St) (hreach : run Shutdown.init es = some s) (hf : s.broken = true) (hp : s.proc = .loop) (hno : Shutdown.Item.slave ∉ s.rx) :
    ∃ es s', run s es = some s' ∧ es.length ≤ s.rx.length + 3 ∧ s'.proc = .finished ∧ s'.skt = false ∧ s'.cleaned = true := by
  have hrd := reader_inv es s hreach
  have key : ∀ (rx : List Shutdown.Item) (s : Shutdown.St), s.rx = rx → s.rxClosed = true → s.proc = .loop → Shutdown.Item.slave ∉ rx →
      ∃ es s', run s es = some s' ∧ es.length ≤ rx.length + 2 ∧ s'.proc = .finished ∧ s'.skt = false ∧ s'.cleaned = true := by
    intro rx
    induction rx with
    | nil =>
      intro s h1 h2 h3 _
      exact ⟨[.procClosed, .cleanup], _, by simp only [run, step, h1, h2, h3, if_true, and_self]; rfl, by simp, rfl, rfl, rfl⟩
    | cons x xs ih =>
      intro s h1 h2 h3 h4
      have h5 : step s .handle = some (handle { s with rx := xs } x) := by simp [step, h3, h1]
      obtain ⟨es, s', h6, h7, h8⟩ := ih (handle { s with rx := xs } x) (by cases x <;> simp only [handle] <;> split <;> rfl) (by cases x <;> simp only [handle] <;> (try split) <;> simp [h2])
        (by cases x <;> simp only [handle] <;> (try split) <;> simp_all) (by simp at h4; exact h4.2)
      exact ⟨.handle :: es, s', by simp only [run, h5]; exact h6, by simp; omega, h8⟩
  cases hr : s.reader with
  | false =>
    obtain ⟨es, s', h1, h2, h3⟩ := key s.rx s rfl (hrd hr) hp hno
    exact ⟨es, s', h1, by omega, h3⟩
  | true =>
    have h0 : step s .readFail = some { s with err := some .read, rxClosed := true, reader := false } := by simp [step, hr, hf]
    obtain ⟨es, s', h1, h2, h3⟩ := key s.rx { s with err := some .read, rxClosed := true, reader := false } rfl rfl hp hno
    exact ⟨.readFail :: es, s', by simp only [run, h0]; exact h1, by simp; omega, h3⟩

/-- `h.err` after the shutdown is nil, and the only thing the error handler of the application is ever told by the event loop is nil: neither says that, or why, the transport failed. -/
theorem failure_forgotten (es : List Shutdown.Ev) (s s' : Shutdown.St) (hr : run Shutdown.init es = some s) (hc : step s .cleanup = some s') : s'.err = none ∧ ∀ e ∈ s'.told, e = none := by
  have key : ∀ es s, run Shutdown.init es = some s → ∀ e ∈ s.told, e = none := by
    apply run_ind
    · simp [Shutdown.init]
    · intro es t e t' _ ih hs
      cases e with
      | handle =>
        simp only [step] at hs
        split at hs
        · injection hs with hs; subst hs
          simp only [handle]
          (repeat' split) <;> exact ih
        · simp at hs
      | send b => simp only [step, begin, Option.some.injEq] at hs; (repeat' split at hs) <;> subst hs <;> exact ih
      | dial => simp only [step, begin, Option.some.injEq] at hs; (repeat' split at hs) <;> subst hs <;> exact ih
      | _ =>
        simp only [step] at hs
        (repeat' split at hs) <;> simp only [Option.some.injEq, reduceCtorEq] at hs <;> subst hs <;> (try exact ih) <;> grind
  have h2 := key _ _ (run_snoc.2 ⟨s, hr, hc⟩)
  refine ⟨?_, h2⟩
  simp only [step] at hc
  split at hc
  · injection hc with hc; subst hc; rfl
  · simp at hc

/-- After the transport has failed and the device has shut down, `Accept` never returns, unless it has a timeout or `Close` is called. -/
theorem accept_hangs_after_failure (s : Shutdown.St) (hf : s.proc = .finished) (hd : s.done = false) (i : Nat) (ha : s.calls[i]? = some .accept ∨ s.calls[i]? = some (.dialWait false)) (es : List Shutdown.Ev) (h1 : Shutdown.Ev.close ∉ es)
    (h2 : Shutdown.Ev.giveUp i ∉ es) (s' : Shutdown.St) (hr : run s es = some s') : s'.calls[i]? = s.calls[i]? := by
  have key : ∀ es s', run s es = some s' → (Shutdown.Ev.close ∉ es → Shutdown.Ev.giveUp i ∉ es → s'.proc = .finished ∧ s'.done = false ∧ s'.calls[i]? = s.calls[i]?) := by
    apply run_ind
    · exact fun _ _ => ⟨hf, hd, rfl⟩
    · intro es t e t' _ ih hs hc hg
      obtain ⟨k1, k2, k3⟩ := ih (fun h => hc (by simp [h])) (fun h => hg (by simp [h]))
      have k4 : e ≠ .close := fun h => hc (by simp [h])
      have k5 : e ≠ .giveUp i := fun h => hg (by simp [h])
      have k6 : i < t.calls.length := by
        apply Classical.byContradiction; intro hh
        rw [List.getElem?_eq_none (by omega)] at k3
        rw [← k3] at ha; simp at ha
      cases e with
      | handle => simp [step, k1] at hs
      | send b => simp only [step, begin, Option.some.injEq] at hs; (repeat' split at hs) <;> subst hs <;> exact ⟨k1, k2, by rw [List.getElem?_append_left k6]; exact k3⟩
      | dial => simp only [step, begin, Option.some.injEq] at hs; (repeat' split at hs) <;> subst hs <;> exact ⟨k1, k2, by rw [List.getElem?_append_left k6]; exact k3⟩
      | accept => simp only [step, Option.some.injEq] at hs; subst hs; exact ⟨k1, k2, by rw [List.getElem?_append_left k6]; exact k3⟩
      | _ =>
        simp only [step] at hs
        (repeat' split at hs) <;> simp only [Option.some.injEq, reduceCtorEq] at hs <;> (try subst hs) <;> grind
  exact (key es s' hr h1 h2).2.2

/-- After the transport has failed and the device has shut down, no call succeeds before `Close` is called, except a `Dial` whose connection was already waiting for it. -/
theorem no_success_after_failure (s : Shutdown.St) (hf : s.proc = .finished) (hd : s.done = false) (es : List Shutdown.Ev) (h1 : Shutdown.Ev.close ∉ es) (s' : Shutdown.St) (hr : run s es = some s') (i : Nat)
    (hok : s'.calls[i]? = some (.ret .ok)) : s.calls[i]? = some (.ret .ok) ∨ (s.calls[i]? = some (.dialWait true) ∧ s.master = true) := by
  have key : ∀ es s', run s es = some s' → (Shutdown.Ev.close ∉ es → s'.proc = .finished ∧ s'.done = false ∧ (s'.master = true → s.master = true) ∧ s.calls.length ≤ s'.calls.length ∧
      ∀ i : Nat, (s'.calls[i]? = some (.ret .ok) → s.calls[i]? = some (.ret .ok) ∨ (s.calls[i]? = some (.dialWait true) ∧ s.master = true)) ∧ (s'.calls[i]? = some (.dialWait true) → s.calls[i]? = some (.dialWait true))) := by
    apply run_ind
    · exact fun _ => ⟨hf, hd, id, Nat.le_refl _, fun i => ⟨.inl, id⟩⟩
    · intro es t e t' _ ih hs hc
      obtain ⟨k1, k2, k3, k4, k5⟩ := ih (fun h => hc (by simp [h]))
      have k6 : e ≠ .close := fun h => hc (by simp [h])
      cases e with
      | handle => simp [step, k1] at hs
      | close => exact absurd rfl k6
      | send b => simp only [step, begin, Option.some.injEq] at hs; (repeat' split at hs) <;> subst hs <;> grind
      | dial => simp only [step, begin, Option.some.injEq] at hs; (repeat' split at hs) <;> subst hs <;> grind
      | accept => simp only [step, Option.some.injEq] at hs; subst hs; grind
      | _ =>
        simp only [step] at hs
        (repeat' split at hs) <;> simp only [Option.some.injEq, reduceCtorEq] at hs <;> (try subst hs) <;> grind
  exact ((key es s' hr h1).2.2.2.2 i).1 hok

/-! ## Examples -/

/-- The loop that has stopped and has not cleaned up yet has recorded an error. -/
theorem leaving_inv : ∀ es s, run Shutdown.init es = some s → s.proc = .leaving → s.err.isSome = true := by
  apply run_ind
  · simp [Shutdown.init]
  · intro es t e t' _ ih hs
    cases e <;> simp only [step, handle, begin] at hs <;> grind

/-- Between the end of the event loop and the clean-up no call can succeed: a new command or dial is refused, and a command that waits fails if it is woken. -/
theorem stopping_calls_fail (es : List Shutdown.Ev) (s : Shutdown.St) (hr : run Shutdown.init es = some s) (hp : s.proc = .leaving) :
    (∀ e, (e = .dial ∨ ∃ r, e = .send r) → ∃ s', step s e = some s' ∧ s'.calls = s.calls ++ [.ret .err]) ∧
    (∀ (i : Nat) s', step s (.wake i) = some s' → s'.calls[i]? = some (.ret .err)) := by
  have he := leaving_inv es s hr hp
  obtain ⟨x, hx⟩ := Option.isSome_iff_exists.1 he
  refine ⟨?_, ?_⟩
  · rintro e (rfl | ⟨r, rfl⟩) <;> simp [step, begin, hx]
  · intro i s' hs
    simp only [step] at hs
    split at hs
    · cases hs
    · rename_i c hc
      split at hs
      · rename_i c' hw
        split at hs
        · cases hs
          simp only [set_get hc]
          cases c <;> simp_all [woken]
        · cases hs
      · cases hs

example : ∃ s, run Shutdown.init [.send false, .fail, .readFail, .procClosed] = some s ∧ s.proc = .leaving := ⟨_, rfl, rfl⟩

/-- A command waits for its answer; `Close`; it reports success. A second one, made later, fails. -/
theorem example_close : ∃ s, run Shutdown.init [.send false, .close, .wake 0, .send false] = some s ∧ s.calls = [.ret .ok, .ret .err] ∧ s.answered = [] := ⟨_, rfl, by decide, by decide⟩

/-- `Close` while the event of a new central is on its way: the device accepts no more and the event loop hangs. -/
theorem example_close_hangs : ∃ s, run Shutdown.init [.accept, .read .slave, .close, .wake 0, .handle] = some s ∧ s.proc = .offering ∧ s.done = true ∧ (∀ i : Nat, s.calls[i]? ≠ some .accept) ∧ s.cleaned = false ∧ s.skt = true := by
  refine ⟨_, rfl, by decide, by decide, ?_, by decide, by decide⟩
  intro i
  match i with
  | 0 => decide
  | n + 1 => exact (by simp : ([Call.ret Res.nothing] : List Call)[n + 1]? ≠ some Call.accept)

/-- The transport fails: the error is forgotten, a waiting `Accept` and a `Dial` whose command was just answered wait for ever, a command sent then fails only by its timer, and the next at once. -/
theorem example_failure : ∃ s, run Shutdown.init [.accept, .dial, .read (.reply 1), .handle, .fail, .readFail, .procClosed, .cleanup, .enter 1] = some s ∧ s.proc = .finished ∧ s.done = false ∧ s.err = none ∧ s.told = [none] ∧
    s.calls = [.accept, .dialWait false] ∧ ∃ s', run s [.send false, .send false, .giveUp 2] = some s' ∧ s'.calls = [.accept, .dialWait false, .ret .err, .ret .err] :=
  ⟨_, rfl, by decide, by decide, by decide, by decide, by decide, _, rfl, by decide⟩

end Ble.Props
