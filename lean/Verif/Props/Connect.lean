import Verif.Hci.Connect
set_option autoImplicit false

/-! # C68: connecting to, and finding, advertisers that match a filter -/

namespace Ble.Props

open Ble.Connect

variable {α : Type}

/-! ## Specification -/

/-- Advertiser `a` was reported in this history, and the application's filter accepts it. -/
def Reported (f : α → Bool) (es : List (Connect.Ev α)) (a : α) : Prop := Connect.Ev.report a ∈ es ∧ f a = true

/-- No report of this history is accepted by the filter. -/
def NoMatch (f : α → Bool) (es : List (Connect.Ev α)) : Prop := ∀ a, Connect.Ev.report a ∈ es → f a = false

/-- `Connect` has decided to connect to `a`: it dials, or has returned a client. -/
def Chosen (s : Connect.St α) (a : α) : Prop := s.phase = .dialling a ∨ s.phase = .returned (some a)

/-- The scan goes on: the command that stops it has not been answered. -/
def InScan (s : Connect.St α) : Prop := s.phase = .starting ∨ s.phase = .scanning ∨ s.phase = .stopping

namespace ConnectAux

theorem run_snoc {f : α → Bool} {sync : Bool} {s s' : Connect.St α} {es : List (Connect.Ev α)} {e : Connect.Ev α} : run f sync s (es ++ [e]) = some s' ↔ ∃ t, run f sync s es = some t ∧ step f sync t e = some s' := by
  induction es generalizing s with
  | nil =>
    simp only [List.nil_append, run, Option.some.injEq, exists_eq_left']
    split <;> simp_all
  | cons x xs ih =>
    simp only [List.cons_append, run]
    split
    · simp
    · exact ih

theorem run_append {f : α → Bool} {sync : Bool} {s s' : Connect.St α} {a b : List (Connect.Ev α)} : run f sync s (a ++ b) = some s' ↔ ∃ t, run f sync s a = some t ∧ run f sync t b = some s' := by
  induction a generalizing s with
  | nil => simp [run]
  | cons x xs ih =>
    simp only [List.cons_append, run]
    split
    · simp
    · exact ih

theorem run_ind {f : α → Bool} {sync : Bool} {s0 : Connect.St α} {P : List (Connect.Ev α) → Connect.St α → Prop} (h0 : P [] s0)
    (hs : ∀ es s e s', run f sync s0 es = some s → P es s → step f sync s e = some s' → P (es ++ [e]) s') : ∀ es s, run f sync s0 es = some s → P es s := by
  have key : ∀ es pre s s', run f sync s0 pre = some s → P pre s → run f sync s es = some s' → P (pre ++ es) s' := by
    intro es
    induction es with
    | nil => intro pre s s' _ hp h; simp [run] at h; subst h; simpa using hp
    | cons x xs ih =>
      intro pre s s' hpre hp h
      simp only [run] at h
      split at h
      · simp at h
      · rename_i t ht
        have := ih (pre ++ [x]) t s' (run_snoc.2 ⟨s, hpre, ht⟩) (hs _ _ _ _ hpre hp ht) h
        simpa using this
  intro es s h
  simpa using key es [] s0 s rfl h0 h

theorem count_eraseIdx [DecidableEq α] {l : List α} {i : Nat} {a b : α} (h : l[i]? = some a) : (l.eraseIdx i).count b + (if a = b then 1 else 0) = l.count b := by
  induction l generalizing i with
  | nil => simp at h
  | cons x xs ih =>
    cases i with
    | zero =>
      simp at h
      subst h
      simp [List.count_cons]
    | succ i =>
      simp at h
      have := ih h
      simp only [List.eraseIdx_cons_succ, List.count_cons]
      omega

/-- Where the advertisements of a state come from. -/
def Sound (f : α → Bool) (es : List (Connect.Ev α)) (s : Connect.St α) : Prop :=
  (∀ a ∈ s.spawned, Connect.Ev.report a ∈ es) ∧ (∀ a ∈ s.offers, Reported f es a) ∧ (∀ a, s.blocked = some a → Reported f es a) ∧ ∀ a, Chosen s a → Reported f es a

theorem sound_mono {f : α → Bool} {es : List (Connect.Ev α)} {s : Connect.St α} (e : Connect.Ev α) (h : Sound f es s) : Sound f (es ++ [e]) s := by
  simp only [Sound, Reported, List.mem_append] at *
  grind

theorem sound_step {f : α → Bool} {sync : Bool} {es : List (Connect.Ev α)} {s s' : Connect.St α} {e : Connect.Ev α} (h : Sound f es s) (hs : step f sync s e = some s') : Sound f (es ++ [e]) s' := by
  have h' := sound_mono e h
  simp only [Sound, Chosen] at *
  cases e <;> simp only [step, accept] at hs <;> (repeat' split at hs) <;> simp only [Option.some.injEq, reduceCtorEq, Prod.mk.injEq, Bool.true_eq_false, Bool.false_eq_true, false_and, true_and] at * <;> (try subst hs) <;> grind [Reported, List.mem_of_mem_eraseIdx, List.mem_of_getElem?]

theorem sound {f : α → Bool} {sync : Bool} {es : List (Connect.Ev α)} {s : Connect.St α} (h : run f sync {} es = some s) : Sound f es s :=
  run_ind (P := Sound f) (by simp [Sound, Chosen]) (fun _ _ _ _ _ hp hs => sound_step hp hs) es s h

end ConnectAux

open ConnectAux

/-- The advertisers counted as reported are those of the history, all of them, in order. -/
theorem connect_reported {f : α → Bool} {sync : Bool} {es : List (Connect.Ev α)} {s : Connect.St α} (h : run f sync {} es = some s) :
    s.reported = es.filterMap fun | .report a => some a | _ => none := by
  refine run_ind (P := fun es s => s.reported = es.filterMap fun | .report a => some a | _ => none) rfl ?_ es s h
  intro es s e s' _ hp hs
  rw [List.filterMap_append, ← hp]
  cases e <;> simp only [step, accept] at hs <;> (repeat' split at hs) <;> simp only [Option.some.injEq, reduceCtorEq, Prod.mk.injEq, Bool.true_eq_false, Bool.false_eq_true, false_and, true_and] at * <;> (try subst hs) <;> grind

/-- `Connect` only ever dials, and only ever returns a client of, an advertiser that was reported during its scan and that the filter accepts; whichever way the reports, the handlers, the contexts and the controller's answers interleave. -/
theorem connect_only_matching {f : α → Bool} {sync : Bool} {es : List (Connect.Ev α)} {s : Connect.St α} (h : run f sync {} es = some s) {a : α} (hc : Chosen s a) : Reported f es a :=
  (sound h).2.2.2 a hc

/-- Every report the filter accepts is in one place: its handler has not run yet, or it waits to be taken, or `Connect` has taken it. So no advertisement is taken twice, and until the
connection attempt ends none is lost. -/
theorem connect_each_report_once [DecidableEq α] {f : α → Bool} {sync : Bool} {es : List (Connect.Ev α)} {s : Connect.St α} (h : run f sync {} es = some s) (a : α) (ha : f a = true) :
    s.spawned.count a + s.offers.count a + (if s.blocked = some a then 1 else 0) + (if s.phase = .dialling a ∨ s.phase = .returned (some a) then 1 else 0) ≤ es.countP (fun | .report b => b = a | _ => false) ∧
    (InScan s ∨ s.phase = .receiving ∨ (∃ b, s.phase = .dialling b) →
      s.spawned.count a + s.offers.count a + (if s.blocked = some a then 1 else 0) + (if s.phase = .dialling a then 1 else 0) = es.countP fun | .report b => b = a | _ => false) := by
  refine run_ind (P := fun es s =>
    s.spawned.count a + s.offers.count a + (if s.blocked = some a then 1 else 0) + (if s.phase = .dialling a ∨ s.phase = .returned (some a) then 1 else 0) ≤ es.countP (fun | .report b => b = a | _ => false) ∧
    (InScan s ∨ s.phase = .receiving ∨ (∃ b, s.phase = .dialling b) →
      s.spawned.count a + s.offers.count a + (if s.blocked = some a then 1 else 0) + (if s.phase = .dialling a then 1 else 0) = es.countP fun | .report b => b = a | _ => false)) ?_ ?_ es s h
  · simp
  · intro es s e s' _ hp hs
    have hce := fun (i : Nat) (b : α) (hb : s.offers[i]? = some b) => count_eraseIdx (b := a) hb
    rw [List.countP_append]
    simp only [InScan] at *
    have hcount : (es.countP fun | .report b => b = a | _ => false) + ([e].countP fun | .report b => b = a | _ => false) =
        (es.countP fun | .report b => b = a | _ => false) + (if e = .report a then 1 else 0) := by
      cases e <;> simp [List.countP_cons]
    rw [hcount]
    generalize (es.countP fun | .report b => b = a | _ => false) = n at hp
    by_cases hr : ∃ b, (e = .report b ∨ (e = .handler ∧ s.spawned.head? = some b))
    · obtain ⟨b, hr⟩ := hr
      rcases hr with rfl | ⟨rfl, hb⟩
      · cases hfb : f b <;> simp only [step, accept, hfb, if_true, if_false, Bool.false_eq_true] at hs <;> (repeat' split at hs) <;>
          simp only [Option.some.injEq, reduceCtorEq] at hs <;> (try subst hs) <;>
          simp only [List.count_append, List.count_cons, List.count_nil, beq_iff_eq, Ev.report.injEq] at * <;> grind
      · cases hsp : s.spawned with
        | nil => rw [hsp] at hb; cases hb
        | cons x rest =>
          rw [hsp] at hb
          simp only [List.head?_cons, Option.some.injEq] at hb
          subst hb
          rw [hsp] at hp
          cases hfb : f x <;> simp only [step, accept, hsp, hfb, if_true, if_false, Bool.false_eq_true, Option.some.injEq] at hs <;> (try subst hs) <;>
            simp only [List.count_append, List.count_cons, List.count_nil, beq_iff_eq] at * <;> grind
    · cases e <;> simp only [step] at hs <;> (repeat' split at hs) <;> simp only [Option.some.injEq, reduceCtorEq] at hs <;> (try subst hs) <;> grind

/-- What an event does to the caller's context. -/
def causeOf : Connect.Ev α → Option Ctx
  | .cancel => some .canceled
  | .expire _ => some .deadline
  | _ => none

/-- The caller's context ends with the first cause, and that of the scan with it. -/
theorem connect_cause {f : α → Bool} {sync : Bool} {es : List (Connect.Ev α)} {s : Connect.St α} (h : run f sync {} es = some s) :
    s.ctx = (es.findSome? causeOf).getD .active ∧ (s.ctx ≠ .active → s.ctx2 ≠ .active) := by
  have h' : (s.ctx = .active ↔ es.findSome? causeOf = none) ∧ (∀ c, es.findSome? causeOf = some c → s.ctx = c) ∧ (s.ctx ≠ .active → s.ctx2 ≠ .active) := by
    refine run_ind (P := fun es s => (s.ctx = .active ↔ es.findSome? causeOf = none) ∧ (∀ c, es.findSome? causeOf = some c → s.ctx = c) ∧ (s.ctx ≠ .active → s.ctx2 ≠ .active)) (by simp) ?_ es s h
    intro es s e s' _ hp hs
    rw [List.findSome?_append]
    generalize es.findSome? causeOf = x at hp
    cases e <;> simp only [step, accept, endCtx] at hs <;> (repeat' split at hs) <;> simp only [Option.some.injEq, reduceCtorEq, Prod.mk.injEq, Bool.true_eq_false, Bool.false_eq_true, false_and, true_and] at * <;> (try subst hs) <;> simp only [List.findSome?_cons, List.findSome?_nil, causeOf] at * <;> cases x <;> grind
  refine ⟨?_, h'.2.2⟩
  cases hx : es.findSome? causeOf with
  | none => exact h'.1.2 hx
  | some c => exact h'.2.1 c hx

/-- When the deadline of the caller's context passes while `Connect` scans, no handler having been called, `Connect` returns an error once scanning has been stopped or could not be stopped.
(`raced = false`: see `connect_hangs_at_deadline` for the other case.) -/
theorem connect_deadline_partial {f : α → Bool} {sync : Bool} {s : Connect.St α} (hp : s.phase = .scanning) (hc : s.ctx = .active) (h2 : s.ctx2 = .active) (hb : s.blocked = none) :
    (∃ s', run f sync s [.expire false, .wake, .stopped] = some s' ∧ s'.phase = .returned none) ∧ ∃ s', run f sync s [.expire false, .wake, .stopFailed] = some s' ∧ s'.phase = .returned none := by
  simp [run, step, endCtx, hp, hc, h2, hb]

namespace ConnectAux

/-- The states in which `Connect` waits for ever. -/
def Stuck (f : α → Bool) (s : Connect.St α) : Prop := s.phase = .receiving ∧ s.offers = [] ∧ s.blocked = none ∧ ∀ a ∈ s.spawned, f a = false

theorem stuck_step {f : α → Bool} {sync : Bool} {s s' : Connect.St α} {e : Connect.Ev α} (h : Stuck f s) (he : ∀ a, e = .report a → f a = false) (hs : step f sync s e = some s') : Stuck f s' := by
  simp only [Stuck] at *
  cases e <;> simp only [step, accept] at hs <;> (repeat' split at hs) <;> simp only [Option.some.injEq, reduceCtorEq, Prod.mk.injEq, Bool.true_eq_false, Bool.false_eq_true, false_and, true_and] at * <;> (try subst hs) <;> grind

theorem stuck_run {f : α → Bool} {sync : Bool} {s s' : Connect.St α} {es : List (Connect.Ev α)} (h : Stuck f s) (he : NoMatch f es) (hs : run f sync s es = some s') : Stuck f s' := by
  induction es generalizing s with
  | nil => simp [run] at hs; subst hs; exact h
  | cons e es ih =>
    simp only [run] at hs
    split at hs
    · simp at hs
    · rename_i t ht
      exact ih (stuck_step h (fun a ha => he a (by simp [ha])) ht) (fun a ha => he a (by simp [ha])) hs

end ConnectAux

/-- A caller that cancels its context before a matching advertiser has been reported does not get its call back: whatever happens afterwards, `Connect` waits until a matching report comes; and scanning has been stopped. -/
theorem connect_hangs_on_cancel {f : α → Bool} {sync : Bool} {es : List (Connect.Ev α)} {s : Connect.St α} (h : run f sync {} ([.started true, .cancel, .wake, .stopped] ++ es) = some s) (hn : NoMatch f es) : s.phase = .receiving := by
  obtain ⟨t, h1, h2⟩ := run_append.1 h
  have : Stuck f t := by
    simp [run, step, endCtx] at h1
    subst h1
    simp [Stuck]
  exact (stuck_run this hn h2).1

/-- The same happens at the caller's deadline, when the goroutine that watches the context cancels the scan's context before the deadline is passed on to it. -/
theorem connect_hangs_at_deadline {f : α → Bool} {sync : Bool} {es : List (Connect.Ev α)} {s : Connect.St α} (h : run f sync {} ([.started true, .expire true, .wake, .stopped] ++ es) = some s) (hn : NoMatch f es) : s.phase = .receiving := by
  obtain ⟨t, h1, h2⟩ := run_append.1 h
  have : Stuck f t := by
    simp [run, step, endCtx] at h1
    subst h1
    simp [Stuck]
  exact (stuck_run this hn h2).1

namespace ConnectAux

theorem handlers_run {f : α → Bool} {s : Connect.St α} (hp : s.phase = .scanning) (hb : s.blocked = none) (h2 : s.ctx2 ≠ .deadline) :
    ∃ s', run f false s (List.replicate s.spawned.length .handler) = some s' ∧ s'.phase = .scanning ∧ s'.spawned = [] ∧ s'.blocked = none ∧ s'.offers = s.offers ++ s.spawned.filter f ∧ s'.ctx2 ≠ .deadline ∧ ((∃ a ∈ s.spawned, f a = true) → s'.ctx2 = .canceled) ∧ (s.ctx2 = .canceled → s'.ctx2 = .canceled) := by
  cases hsp : s.spawned with
  | nil => exact ⟨s, by simp [run], hp, hsp, hb, by simp, h2, by simp, by simp⟩
  | cons a rest =>
    cases hf : f a with
    | true =>
      obtain ⟨s', h1, h2, h3, h4, h5, h6, h7, h8⟩ := handlers_run (f := f) (s := { s with ctx2 := endCtx s.ctx2 .canceled, spawned := rest, offers := s.offers ++ [a] }) (by simpa using hp) (by simpa using hb) (by cases hc : s.ctx2 <;> simp_all [endCtx])
      have hc : endCtx s.ctx2 .canceled = .canceled := by cases hc : s.ctx2 <;> simp_all [endCtx]
      refine ⟨s', ?_, h2, h3, h4, by simp [h5, hf], h6, fun _ => h8 hc, fun _ => h8 hc⟩
      simpa [run, step, hsp, accept, hf, List.replicate_succ] using h1
    | false =>
      obtain ⟨s', h1, h2, h3, h4, h5, h6, h7, h8⟩ := handlers_run (f := f) (s := { s with spawned := rest }) (by simpa using hp) (by simpa using hb) (by simpa using h2)
      refine ⟨s', ?_, h2, h3, h4, by simp [h5, hf], h6, fun ⟨b, hb, hfb⟩ => h7 ?_, h8⟩
      · simpa [run, step, hsp, accept, hf, List.replicate_succ] using h1
      · simp at hb
        rcases hb with rfl | hb
        · simp [hf] at hfb
        · exact ⟨b, hb, hfb⟩
termination_by s.spawned.length
decreasing_by all_goals simp [hsp]

end ConnectAux

/-- Handlers called asynchronously: while `Connect` scans and its context goes on, a matching report is enough. Once it has been handled and the handlers that were started have run, the scan can be stopped and `Connect` goes on to dial any of the offered advertisers, among them this one. -/
theorem connect_reaches_dial {f : α → Bool} {s : Connect.St α} (hp : s.phase = .scanning) (hb : s.blocked = none) (h2 : s.ctx2 ≠ .deadline) {a : α} (ha : f a = true) :
    ∃ n i s', run f false s (.report a :: List.replicate n .handler ++ [.wake, .stopped, .receive i]) = some s' ∧ s'.phase = .dialling a := by
  obtain ⟨t, h1, h3, h4, h5, h6, h7, h8, -⟩ := handlers_run (f := f) (s := { s with reported := s.reported ++ [a], spawned := s.spawned ++ [a] }) (by simpa using hp) (by simpa using hb) (by simpa using h2)
  have hm : a ∈ t.offers := by simp [h6, ha]
  obtain ⟨i, hi, hget⟩ := List.getElem_of_mem hm
  have hc : t.ctx2 = .canceled := h8 ⟨a, by simp, ha⟩
  have hg : t.offers[i]? = some a := by simp [hi, hget]
  refine ⟨(s.spawned ++ [a]).length, i, { t with phase := .dialling a, offers := t.offers.eraseIdx i }, ?_, rfl⟩
  have e1 : run f false s [.report a] = some { s with reported := s.reported ++ [a], spawned := s.spawned ++ [a] } := by simp [run, step, hb]
  have e3 : run f false t [.wake, .stopped, .receive i] = some { t with phase := .dialling a, offers := t.offers.eraseIdx i } := by
    simp [run, step, h3, hc, h5, hg]
  have e2 := run_append.2 ⟨_, e1, run_append.2 ⟨_, h1, e3⟩⟩
  simpa using e2

/-- Once `Connect` has returned, it never takes an offer again: the goroutines of the other matching reports, and of those that still come, wait for ever. -/
theorem connect_leaks_handlers {f : α → Bool} {sync : Bool} {s s' : Connect.St α} {es : List (Connect.Ev α)} {r : Option α} (hp : s.phase = .returned r) (h : run f sync s es = some s') :
    s'.phase = .returned r ∧ (∃ more, s'.offers = s.offers ++ more) ∧ ∀ a, s.blocked = some a → s'.blocked = some a := by
  induction es generalizing s with
  | nil => simp [run] at h; subst h; exact ⟨hp, ⟨[], by simp⟩, fun _ h => h⟩
  | cons e es ih =>
    simp only [run] at h
    split at h
    · simp at h
    · rename_i t ht
      have key : t.phase = .returned r ∧ s.offers <+: t.offers ∧ ∀ a, s.blocked = some a → t.blocked = some a := by
        clear ih h
        cases e <;> simp only [step, accept, hp] at ht <;> (repeat' split at ht) <;> simp only [Option.some.injEq, reduceCtorEq, Prod.mk.injEq, Bool.true_eq_false, Bool.false_eq_true, false_and, true_and] at * <;> (try subst ht) <;> grind [List.prefix_append, List.prefix_rfl]
      obtain ⟨h1, ⟨m1, h2⟩, h3⟩ := key
      obtain ⟨g1, ⟨m2, g2⟩, g3⟩ := ih h1 h
      exact ⟨g1, ⟨m1 ++ m2, by simp [g2, ← h2]⟩, fun a ha => g3 a (h3 a ha)⟩

/-- Every matching report whose handler runs beyond the first is such a goroutine: two matching reports, one of them connected to, leave one waiting. -/
theorem connect_leak_example (a b : α) : ∃ s, run (fun _ => true) false {} [.started true, .report a, .report b, .handler, .handler, .wake, .stopped, .receive 0, .dialled true] = some s ∧ s.phase = .returned (some a) ∧ s.offers = [b] := by
  simp [run, step, accept, endCtx]

/-! ### Handlers called by the event loop itself -/

/-- With handlers called synchronously, a matching report that is handled while the scan goes on defeats `Connect`: the event loop waits for `Connect` to take the offer, and `Connect` for the event loop to handle the answer to the command that stops the scan. `Connect` can only ever return an error, and the event loop never handles another event, not even after `Connect` has returned. -/
theorem connect_sync_deadlock {f : α → Bool} {s s' : Connect.St α} {es : List (Connect.Ev α)} {a : α} (hp : InScan s) (hb : s.blocked = some a) (h : run f true s es = some s') :
    s'.blocked = some a ∧ s'.reported = s.reported ∧ (InScan s' ∨ s'.phase = .returned none) := by
  suffices H : ∀ (es : List (Connect.Ev α)) (s : Connect.St α), (InScan s ∨ s.phase = .returned none) → s.blocked = some a → run f true s es = some s' → s'.blocked = some a ∧ s'.reported = s.reported ∧ (InScan s' ∨ s'.phase = .returned none) from H es s (.inl hp) hb h
  intro es
  induction es with
  | nil => intro s hp hb h; simp [run] at h; subst h; exact ⟨hb, rfl, hp⟩
  | cons e es ih =>
    intro s hp hb h
    simp only [run] at h
    split at h
    · simp at h
    · rename_i t ht
      have key : t.blocked = some a ∧ t.reported = s.reported ∧ (InScan t ∨ t.phase = .returned none) := by
        simp only [InScan] at hp ⊢
        cases e <;> simp only [step, accept, hb] at ht <;> (repeat' split at ht) <;> simp only [Option.some.injEq, reduceCtorEq, Prod.mk.injEq, Bool.true_eq_false, Bool.false_eq_true, false_and, true_and] at * <;> (try subst ht) <;> grind
      obtain ⟨k1, k2, k3⟩ := key
      have := ih t k3 k1 h
      exact ⟨this.1, this.2.1.trans k2, this.2.2⟩

namespace ConnectAux

/-- What holds of `Connect` with handlers called synchronously. -/
def SyncInv (f : α → Bool) (es : List (Connect.Ev α)) (s : Connect.St α) : Prop :=
  s.spawned = [] ∧ s.offers = [] ∧ (InScan s → s.blocked = none → NoMatch f es) ∧
  (s.phase = .receiving → ∃ p q, es = p ++ .stopped :: q ∧ NoMatch f p ∧ (∃ e ∈ p, e = .cancel ∨ e = .expire true ∨ e = .expire false) ∧ ∀ a, s.blocked = some a → .report a ∈ q) ∧
  (∀ a, Chosen s a → ∃ p q, es = p ++ .stopped :: q ∧ NoMatch f p ∧ (∃ e ∈ p, e = .cancel ∨ e = .expire true ∨ e = .expire false) ∧ .report a ∈ q) ∧
  (InScan s → s.ctx2 ≠ .active → s.blocked = none → ∃ e ∈ es, e = .cancel ∨ e = .expire true ∨ e = .expire false)

theorem syncInv_step {f : α → Bool} {es : List (Connect.Ev α)} {s s' : Connect.St α} {e : Connect.Ev α} (h : SyncInv f es s) (hs : step f true s e = some s') : SyncInv f (es ++ [e]) s' := by
  obtain ⟨h1, h2, h3, h4, h5, h6⟩ := h
  have h4' : s.phase = .receiving → ∃ p q, es ++ [e] = p ++ .stopped :: q ∧ NoMatch f p ∧ (∃ e ∈ p, e = .cancel ∨ e = .expire true ∨ e = .expire false) ∧ (∀ a, s.blocked = some a → .report a ∈ q) ∧ ∀ a, e = .report a → .report a ∈ q := by
    intro hp
    obtain ⟨p, q, he, hn, hc, hb⟩ := h4 hp
    exact ⟨p, q ++ [e], by simp [he], hn, hc, fun a ha => by simp [hb a ha], fun a ha => by simp [ha]⟩
  have h5' : ∀ a, Chosen s a → ∃ p q, es ++ [e] = p ++ .stopped :: q ∧ NoMatch f p ∧ (∃ e ∈ p, e = .cancel ∨ e = .expire true ∨ e = .expire false) ∧ .report a ∈ q := by
    intro a hp
    obtain ⟨p, q, he, hn, hc, hb⟩ := h5 a hp
    exact ⟨p, q ++ [e], by simp [he], hn, hc, by simp [hb]⟩
  clear h4 h5
  simp only [SyncInv, InScan, Chosen, NoMatch] at *
  cases e with
  | stopped =>
    simp only [step] at hs
    split at hs
    · simp only [Option.some.injEq] at hs
      subst hs
      rename_i hp hb
      refine ⟨h1, h2, ?_, ?_, ?_, ?_⟩
      · split <;> simp
      · intro hr
        exact ⟨es, [], rfl, h3 (by simp [hp]) hb, h6 (by simp [hp]) (by split at hr <;> simp_all) hb, by simp [hb]⟩
      · intro a; split <;> simp
      · split <;> simp
    · simp at hs
  | _ => simp only [step, accept] at hs <;> (repeat' split at hs) <;> simp only [Option.some.injEq, reduceCtorEq, Prod.mk.injEq, Bool.true_eq_false, Bool.false_eq_true, false_and, true_and] at * <;> (try subst hs) <;> grind

end ConnectAux

/-- With handlers called synchronously, the only way `Connect` succeeds is the one the caller does not want: the caller's context has ended, and the scan has been stopped, before the matching report came. -/
theorem connect_sync_only_late {f : α → Bool} {es : List (Connect.Ev α)} {s : Connect.St α} (h : run f true {} es = some s) {a : α} (hc : Chosen s a) :
    ∃ p q, es = p ++ .stopped :: q ∧ NoMatch f p ∧ (∃ e ∈ p, e = .cancel ∨ e = .expire true ∨ e = .expire false) ∧ .report a ∈ q := by
  have := run_ind (P := SyncInv f) (by simp [SyncInv, Chosen, NoMatch]) (fun _ _ _ _ _ hp hs => syncInv_step hp hs) es s h
  exact this.2.2.2.2.1 a hc

/-- The deadlock is reached by the ordinary course of events. -/
theorem connect_sync_example (a : α) : ∃ s, run (fun _ => true) true {} [.started true, .report a, .wake, .stopFailed] = some s ∧ s.phase = .returned none ∧ s.blocked = some a := by
  simp [run, step, accept, endCtx]

/-! ## Find -/

namespace ConnectAux

theorem findRun_append {f : α → Bool} {s s' : Found α} {a b : List (FindEv α)} : findRun f s (a ++ b) = some s' ↔ ∃ t, findRun f s a = some t ∧ findRun f t b = some s' := by
  induction a generalizing s with
  | nil => simp [findRun]
  | cons x xs ih =>
    simp only [List.cons_append, findRun]
    split
    · simp
    · exact ih

theorem findRun_inv {f : α → Bool} {P : Found α → Prop} (hs : ∀ s e s', P s → findStep f s e = some s' → P s') {es : List (FindEv α)} {s s' : Found α} (h0 : P s) (h : findRun f s es = some s') : P s' := by
  induction es generalizing s with
  | nil => simp [findRun] at h; subst h; exact h0
  | cons e es ih =>
    simp only [findRun] at h
    split at h
    · simp at h
    · rename_i t ht
      exact ih (hs _ _ _ h0 ht) h

def reportsOf (es : List (FindEv α)) : List α := es.filterMap fun | .report a => some a | _ => none

theorem findRun_reported {f : α → Bool} {es : List (FindEv α)} {s s' : Found α} (h : findRun f s es = some s') : s'.reported = s.reported ++ reportsOf es := by
  induction es generalizing s with
  | nil => simp [findRun] at h; subst h; simp [reportsOf]
  | cons e es ih =>
    simp only [findRun] at h
    split at h
    · simp at h
    · rename_i t ht
      rw [ih h]
      cases e <;> simp only [findStep] at ht <;> (repeat' split at ht) <;> simp only [Option.some.injEq, reduceCtorEq] at ht <;> subst ht <;> simp [reportsOf]

theorem map_eraseIdx' {β : Type} (g : α → β) (l : List α) (i : Nat) : (l.eraseIdx i).map g = (l.map g).eraseIdx i := by
  induction l generalizing i with
  | nil => rfl
  | cons x xs ih => cases i <;> simp [ih]

end ConnectAux

open ConnectAux in
/-- `Find` reports nothing that it did not see: every advertisement in its list was reported during the scan and is accepted by the filter, and it is listed at most as often as it was reported. -/
theorem find_sound [DecidableEq α] {f : α → Bool} {es : List (FindEv α)} {s : Found α} (h : findRun f {} es = some s) (a : α) :
    (a ∈ s.advs → f a = true) ∧ s.advs.count a ≤ (es.filterMap fun | .report b => some b | _ => none).count a := by
  have hinv := findRun_inv (f := f) (P := fun s : Found α => ((∀ b ∈ s.advs, f b = true) ∧ ∀ p ∈ s.loaded, f p.2 = true ∧ ∀ b ∈ p.1, f b = true) ∧
      (∀ b, s.advs.count b + s.spawned.count b + (s.loaded.map (·.2)).count b ≤ s.reported.count b) ∧
      ∀ p ∈ s.loaded, ∀ b, p.1.count b + s.spawned.count b + (s.loaded.map (·.2)).count b ≤ s.reported.count b) ?_ (s := {}) (by simp) h
  · have hr := findRun_reported h
    simp only [List.nil_append, reportsOf] at hr
    refine ⟨fun ha => hinv.1.1 a ha, ?_⟩
    have := hinv.2.1 a
    rw [hr] at this
    exact Nat.le_trans (by omega) this
  · intro s e s' ⟨⟨p1, p2⟩, p3, p4⟩ hs
    cases e with
    | report a =>
      simp only [findStep, Option.some.injEq] at hs
      subst hs
      refine ⟨⟨p1, p2⟩, fun b => ?_, fun p hp b => ?_⟩
      · have := p3 b; simp only [List.count_append]; omega
      · have := p4 p hp b; simp only [List.count_append]; omega
    | load i =>
      simp only [findStep] at hs
      split at hs
      · simp at hs
      rename_i a ha
      split at hs <;> simp only [Option.some.injEq] at hs <;> subst hs
      · rename_i hf
        have hc : ∀ b, ((s.loaded ++ [(s.advs, a)]).map (·.2)).count b = (s.loaded.map (·.2)).count b + if a = b then 1 else 0 := by
          intro b; simp [List.count_append, List.count_cons]
        refine ⟨⟨p1, ?_⟩, fun b => ?_, fun p hp b => ?_⟩
        · intro p hp
          simp only [List.mem_append, List.mem_singleton] at hp
          rcases hp with hp | rfl
          · exact p2 p hp
          · exact ⟨hf, p1⟩
        · have := p3 b; have := count_eraseIdx (b := b) ha; simp only [hc]; omega
        · simp only [List.mem_append, List.mem_singleton] at hp
          have := count_eraseIdx (b := b) ha
          simp only [hc]
          rcases hp with hp | rfl
          · have := p4 p hp b; omega
          · have := p3 b; simp only; omega
      · refine ⟨⟨p1, p2⟩, fun b => ?_, fun p hp b => ?_⟩
        · have := p3 b; have := count_eraseIdx (b := b) ha; simp only; omega
        · have := p4 p hp b; have := count_eraseIdx (b := b) ha; simp only; omega
    | store i =>
      simp only [findStep] at hs
      split at hs
      · simp at hs
      rename_i xs a ha
      simp only [Option.some.injEq] at hs
      subst hs
      have hmem := List.mem_of_getElem? ha
      have hc : ∀ b, ((s.loaded.eraseIdx i).map (·.2)).count b + (if a = b then 1 else 0) = (s.loaded.map (·.2)).count b := by
        intro b
        rw [map_eraseIdx']
        exact count_eraseIdx (by simp [ha])
      refine ⟨⟨?_, fun p hp => p2 p (List.mem_of_mem_eraseIdx hp)⟩, fun b => ?_, fun p hp b => ?_⟩
      · intro b hb
        simp only [List.mem_append, List.mem_singleton] at hb
        rcases hb with hb | rfl
        · exact (p2 _ hmem).2 b hb
        · exact (p2 _ hmem).1
      · have := p4 _ hmem b
        have := hc b
        simp only [List.count_append, List.count_cons, List.count_nil, beq_iff_eq] at *
        omega
      · have := p4 p (List.mem_of_mem_eraseIdx hp) b
        have := hc b
        simp only
        omega

namespace ConnectAux

theorem count_filter_eraseIdx [DecidableEq α] {f : α → Bool} {l : List α} {i : Nat} {a : α} (h : l[i]? = some a) (b : α) : ((l.eraseIdx i).filter f).count b + (if a = b ∧ f a = true then 1 else 0) = (l.filter f).count b := by
  have := count_eraseIdx (b := b) h
  cases hf : f b with
  | true =>
    rw [List.count_filter hf, List.count_filter hf]
    by_cases hab : a = b <;> simp_all
  | false =>
    have h1 : ∀ l : List α, (l.filter f).count b = 0 := fun l => List.count_eq_zero.2 (by simp [hf])
    rw [h1, h1]
    by_cases hab : a = b <;> simp_all

theorem seq_inv [DecidableEq α] {f : α → Bool} {es : List (FindEv α)} {s s' : Found α} (hseq : ∀ p t, p <+: es → findRun f s p = some t → t.loaded.length ≤ 1)
    (hl : ∀ p ∈ s.loaded, p.1 = s.advs) (hi : ∀ b, s.advs.count b + (s.spawned.filter f).count b + (s.loaded.map (·.2)).count b = (s.reported.filter f).count b) (h : findRun f s es = some s') :
    ∀ b, s'.advs.count b + (s'.spawned.filter f).count b + (s'.loaded.map (·.2)).count b = (s'.reported.filter f).count b := by
  induction es generalizing s with
  | nil => simp [findRun] at h; subst h; exact hi
  | cons e es ih =>
    simp only [findRun] at h
    split at h
    · simp at h
    rename_i t ht
    have h0 := hseq [] s (by simp) (by simp [findRun])
    refine ih (s := t) ?_ ?_ ?_ h
    · intro p u hp hu
      exact hseq (e :: p) u (by simpa using hp) (by simp [findRun, ht, hu])
    · have h1 := hseq [e] t (by simp) (by simp [findRun, ht])
      cases e <;> simp only [findStep] at ht <;> (repeat' split at ht) <;> simp only [Option.some.injEq, reduceCtorEq] at ht <;> subst ht
      · simpa using hl
      · intro p hp
        simp only [List.mem_append, List.mem_singleton] at hp
        rcases hp with hp | rfl
        · exact hl p hp
        · rfl
      · simpa using hl
      · rename_i i _ xs a ha
        intro p hp
        obtain ⟨hlt, -⟩ := List.getElem?_eq_some_iff.1 ha
        have hlen := List.length_eraseIdx_of_lt hlt
        have : (s.loaded.eraseIdx i).length = 0 := by omega
        rw [List.length_eq_zero_iff.1 this] at hp
        simp at hp
    · intro b
      have hb := hi b
      cases e <;> simp only [findStep] at ht <;> (repeat' split at ht) <;> simp only [Option.some.injEq, reduceCtorEq] at ht <;> subst ht
      · simp only [List.filter_append, List.count_append] at *
        omega
      · rename_i a ha hf
        have := count_filter_eraseIdx (f := f) ha b
        simp only [List.map_append, List.map_cons, List.map_nil, List.count_append, List.count_cons, List.count_nil, beq_iff_eq, hf, and_true] at *
        omega
      · rename_i a ha hf
        have := count_filter_eraseIdx (f := f) ha b
        simp only [hf, and_false, if_false, Bool.false_eq_true] at *
        omega
      · rename_i i _ xs a ha
        have hc : ((s.loaded.eraseIdx i).map (·.2)).count b + (if a = b then 1 else 0) = (s.loaded.map (·.2)).count b := by
          rw [map_eraseIdx']
          exact count_eraseIdx (by simp [ha])
        have hx : xs = s.advs := hl _ (List.mem_of_getElem? ha)
        subst hx
        simp only [List.count_append, List.count_cons, List.count_nil, beq_iff_eq] at *
        omega

end ConnectAux

open ConnectAux in
/-- If no two handlers overlap (at every moment at most one of them is in the middle of its append), and all have run, `Find` lists every accepted report, each as often as it came, in some order. -/
theorem find_complete_if_sequential [DecidableEq α] {f : α → Bool} {es : List (FindEv α)} {s : Found α} (h : findRun f {} es = some s)
    (hseq : ∀ p t, p <+: es → findRun f {} p = some t → t.loaded.length ≤ 1) (hs : s.spawned = []) (hl : s.loaded = []) :
    (findResult false s).Perm ((es.filterMap fun | .report b => some b | _ => none).filter f) := by
  have hr := findRun_reported h
  simp only [List.nil_append, reportsOf] at hr
  rw [List.perm_iff_count]
  intro b
  have := seq_inv hseq (by simp) (by simp) h b
  rw [hr] at this
  simpa [findResult, hs, hl] using this

/-- If two handlers do overlap, an advertiser is lost: both were reported, both are accepted, all handlers have run, and only one is listed. -/
theorem find_loses (a b : α) : ∃ s : Found α, findRun (fun _ => true) {} [.report a, .report b, .load 0, .load 0, .store 0, .store 0] = some s ∧ s.spawned = [] ∧ s.loaded = [] ∧ findResult false s = [b] := by
  simp [findRun, findStep, findResult]

/-- A schedule without overlap, in which the handlers run in the other order. -/
theorem find_example (a b : α) : ∃ s : Found α, findRun (fun _ => true) {} [.report a, .report b, .load 1, .store 0, .load 0, .store 0] = some s ∧ s.spawned = [] ∧ s.loaded = [] ∧ findResult false s = [b, a] := by
  simp [findRun, findStep, findResult]

/-- The order in which `Find` reads its list and calls the function that fills it is not specified by the language; read first, the list is empty whatever was found. -/
theorem find_empty_if_read_first {f : α → Bool} {es : List (FindEv α)} {s : Found α} (_ : findRun f {} es = some s) : findResult true s = [] := rfl

end Ble.Props
