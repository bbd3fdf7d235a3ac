import Verif.Client.Ending
set_option autoImplicit false

/-!
# C205: the goroutines of a dialled connection end with it
-/

namespace Ble.Ending

/-! ## Specification -/

/-- Steps of the library's goroutines, and calls that return: everything but the controller and new calls. -/
def Own : Ev → Prop
  | .arrive _ | .down | .call => False
  | _ => True

/-- Nothing the library does is left to do. -/
def AtRest (s : State) : Prop := ∀ e, Own e → step s e = none

/-- All five goroutines have ended and no call waits. -/
def AllEnded (s : State) : Prop := s.rdr = .ended ∧ s.connClosed = true ∧ s.loop = .ended ∧ s.async = .ended ∧ s.worker = .ended ∧ s.call = false

/-- All but the recombining goroutine, which waits for room in a queue nobody reads any more. -/
def Leaked (s : State) : Prop := (∃ k, s.rdr = .sending k) ∧ s.pdus.length = 16 ∧ s.connClosed = true ∧ s.loop = .ended ∧ s.async = .ended ∧ s.worker = .ended ∧ s.call = false

/-- PDUs received that `Loop` has not read. -/
def unread (s : State) : Nat := s.pkts.length + (match s.rdr with | .sending _ => 1 | _ => 0) + s.pdus.length

/-! ## Invariant -/

structure Inv (s : State) : Prop where
  down : s.connClosed = true → s.up = false
  pdus : s.pdus.length ≤ 16
  rdr : s.rdr = .ended → s.up = false ∧ s.pkts = []
  worker : s.worker = .ended → s.loop = .ended ∧ s.work = 0

theorem inv_init (b : Bool) : Inv (init b) := by constructor <;> simp [init]

theorem inv_step {s s' : State} {e : Ev} (hi : Inv s) (h : step s e = some s') : Inv s' := by
  obtain ⟨h1, h2, h3, h4⟩ := hi
  cases e <;> simp only [step] at h <;> (repeat' split at h) <;> first
    | (cases h; done)
    | (obtain rfl := Option.some.inj h
       constructor <;> simp_all <;> first | omega | grind)

theorem inv_run {s : State} {b : Bool} {es : List Ev} (h : run (init b) es = some s) : Inv s :=
  runT_ind (P := fun (_ : List Ev) (s : State) => Inv s) (inv_init b) (fun _ _ _ _ _ hi hs => inv_step hi hs) es s h

/-! ## Measure -/

def mRdr : Rec → Nat
  | .idle => 1
  | .sending _ => 2
  | .ended => 0

def mLoop : Loop → Nat
  | .ended => 0
  | .top => 1
  | .confirm => 2
  | .dispatch _ => 10
  | .got _ => 11
  | .reading => 12

def mAsync : Async → Nat
  | .ended => 0
  | .top => 1
  | .wantBuf => 2
  | .handling => 3
  | .waiting => 4

def mWorker : Worker → Nat
  | .ended => 0
  | .idle => 1
  | .running => 2

/-- A bound for the number of steps that are left once `connClosed` is closed. -/
def left (s : State) : Nat := 3 * s.pkts.length + mRdr s.rdr + mLoop s.loop + mAsync s.async + 3 * s.work + mWorker s.worker + (if s.call then 1 else 0)

theorem left_step {s s' : State} {e : Ev} (ho : Own e) (hc : s.connClosed = true) (h : step s e = some s') : left s' < left s ∧ s'.connClosed = true := by
  cases e <;> simp only [Own] at ho <;> simp only [step] at h <;> (repeat' split at h) <;> first
    | (cases h; done)
    | (obtain rfl := Option.some.inj h
       simp_all [left, mRdr, mLoop, mAsync, mWorker]
       try (first | omega | grind))


theorem left_run {s s' : State} {es : List Ev} (ho : ∀ e ∈ es, Own e) (hc : s.connClosed = true) (h : run s es = some s') : es.length + left s' ≤ left s ∧ s'.connClosed = true := by
  induction es generalizing s with
  | nil =>
    simp only [run, runT, Option.some.injEq] at h
    subst h
    exact ⟨by simp, hc⟩
  | cons e es ih =>
    simp only [run, runT] at h
    split at h
    · cases h
    · next t ht =>
      obtain ⟨h1, h2⟩ := left_step (ho e (List.mem_cons_self ..)) hc ht
      obtain ⟨h3, h4⟩ := ih (fun x hx => ho x (List.mem_cons_of_mem _ hx)) h2 h
      refine ⟨?_, h4⟩
      simp only [List.length_cons]
      omega

/-- What is left when nothing more happens. -/
theorem rest {s : State} (hi : Inv s) (hd : s.up = false) (hr : AtRest s) : AllEnded s ∨ Leaked s := by
  have hcl : s.connClosed = true := by
    have := hr .close trivial
    simp only [step] at this
    split at this
    · cases this
    · simp_all
  have hcall : s.call = false := by
    have := hr .giveUp trivial
    simp only [step] at this
    cases hc : s.call <;> simp_all
  have hrdr : s.rdr = .ended ∨ ((∃ k, s.rdr = .sending k) ∧ s.pdus.length = 16) := by
    have h1 := hr .take trivial
    have h2 := hr .push trivial
    have h3 := hr .recEnd trivial
    simp only [step] at h1 h2 h3
    cases hx : s.rdr with
    | ended => exact Or.inl rfl
    | sending k =>
      right
      refine ⟨⟨k, rfl⟩, ?_⟩
      rw [hx] at h2
      simp only at h2
      split at h2
      · cases h2
      · have := hi.pdus; omega
    | idle =>
      rw [hx] at h1 h3
      cases hp : s.pkts with
      | nil => simp [hp, hd] at h3
      | cons k r => rw [hp] at h1; cases h1
  have hloop : s.loop = .ended := by
    have h1 := hr .loopTop trivial
    have h2 := hr .loopRead trivial
    have h3 := hr .loopCheck trivial
    have h4 := hr .loopQuit trivial
    have h5 := hr .loopConfirm trivial
    simp only [step] at h1 h2 h3 h4 h5
    cases hl : s.loop with
    | ended => rfl
    | top => simp [hl] at h1
    | confirm => simp [hl] at h5
    | dispatch k => simp [hl, hcl] at h4
    | got k => cases k <;> simp [hl] at h3
    | reading =>
      rw [if_pos hl] at h2
      rcases hrdr with hx | ⟨_, hx⟩
      · cases hp : s.pdus with
        | nil => simp [hp, hx] at h2
        | cons k r => rw [hp] at h2; cases h2
      · cases hp : s.pdus with
        | nil => rw [hp] at hx; cases hx
        | cons k r => rw [hp] at h2; cases h2
  have hasync : s.async = .ended := by
    have h1 := hr .asyncTop trivial
    have h2 := hr .asyncTake trivial
    have h3 := hr (.asyncHandle true) trivial
    have h4 := hr .asyncSend trivial
    simp only [step] at h1 h2 h3 h4
    cases ha : s.async with
    | ended => rfl
    | top => simp [ha] at h1
    | waiting =>
      rw [if_pos ha] at h2
      cases hn : s.inc with
      | zero => simp [hn, hloop] at h2
      | succ n => rw [hn] at h2; cases h2
    | handling => simp [ha] at h3
    | wantBuf => simp [ha, hcall] at h4
  have hworker : s.worker = .ended := by
    have h1 := hr .workerTake trivial
    have h2 := hr .workerDone trivial
    have h3 := hr .workerEnd trivial
    simp only [step] at h1 h2 h3
    cases hw : s.worker with
    | ended => rfl
    | running => simp [hw] at h2
    | idle =>
      by_cases hn : s.work = 0
      · simp [hw, hn, hloop] at h3
      · rw [if_pos ⟨hw, by omega⟩] at h1
        cases h1
  rcases hrdr with hx | ⟨hx, hy⟩
  · exact Or.inl ⟨hx, hcl, hloop, hasync, hworker, hcall⟩
  · exact Or.inr ⟨hx, hy, hcl, hloop, hasync, hworker, hcall⟩

theorem step_down {s s' : State} {e : Ev} (hd : s.up = false) (h : step s e = some s') : s'.up = false ∧ unread s' ≤ unread s := by
  cases e <;> simp only [step] at h <;> (repeat' split at h) <;> first
    | (cases h; done)
    | (obtain rfl := Option.some.inj h
       simp_all [unread]
       try (first | omega | grind))

theorem run_down {s s' : State} {es : List Ev} (hd : s.up = false) (h : run s es = some s') : s'.up = false ∧ unread s' ≤ unread s := by
  induction es generalizing s with
  | nil => simp only [run, runT, Option.some.injEq] at h; subst h; exact ⟨hd, Nat.le_refl _⟩
  | cons e es ih =>
    simp only [run, runT] at h
    split at h
    · cases h
    · next t ht =>
      obtain ⟨h1, h2⟩ := step_down hd ht
      obtain ⟨h3, h4⟩ := ih h1 h
      exact ⟨h3, Nat.le_trans h4 h2⟩

/-- One for a `Loop` that waits for a PDU. -/
def reads (s : State) : Nat := if s.loop = .reading then 1 else 0

theorem step_reads {s s' : State} {e : Ev} (hd : s.up = false) (hc : s.connClosed = true) (h : step s e = some s') : s'.connClosed = true ∧ unread s + reads s' ≤ unread s' + reads s := by
  cases e <;> simp only [step] at h <;> (repeat' split at h) <;> first
    | (cases h; done)
    | (obtain rfl := Option.some.inj h
       simp_all [unread, reads]
       try (first | omega | grind))

theorem run_reads {s s' : State} {es : List Ev} (hd : s.up = false) (hc : s.connClosed = true) (h : run s es = some s') : s'.connClosed = true ∧ unread s + reads s' ≤ unread s' + reads s := by
  induction es generalizing s with
  | nil => simp only [run, runT, Option.some.injEq] at h; subst h; exact ⟨hc, Nat.le_refl _⟩
  | cons e es ih =>
    simp only [run, runT] at h
    split at h
    · cases h
    · next t ht =>
      obtain ⟨h1, h2⟩ := step_reads hd hc ht
      obtain ⟨h3, h4⟩ := ih (step_down hd ht).1 h1 h
      exact ⟨h3, by omega⟩

/-! ## Theorems -/

/-- **C205** Once the connection has ended, the goroutine that waits for this can always tell the others; from then on the library comes to rest within a bounded number of steps, in every order of the steps; and where it comes to rest,
either all goroutines have ended and every call has returned, or all but the recombining one. -/
theorem comes_to_rest (b : Bool) (pre : List Ev) (s : State) (h : run (init b) pre = some s) (hd : s.up = false) :
    (s.connClosed = false → step s .close ≠ none) ∧
    (s.connClosed = true → ∀ es s', (∀ e ∈ es, Own e) → run s es = some s' → es.length ≤ left s) ∧
    (AtRest s → AllEnded s ∨ Leaked s) := by
  refine ⟨fun hc => by simp [step, hd, hc], fun hc es s' ho hr => ?_, rest (inv_run h) hd⟩
  have := (left_run ho hc hr).1
  omega

/-- **C205** Whatever the state in which a connection ends, the library has a way to come to rest. -/
theorem can_rest (b : Bool) (pre : List Ev) (s : State) (_h : run (init b) pre = some s) (hd : s.up = false) : ∃ es s', (∀ e ∈ es, Own e) ∧ run s es = some s' ∧ AtRest s' := by
  have key : ∀ n (t : State), t.connClosed = true → left t ≤ n → ∃ es s', (∀ e ∈ es, Own e) ∧ run t es = some s' ∧ AtRest s' := by
    intro n
    induction n with
    | zero =>
      intro t hc hl
      refine ⟨[], t, by simp, rfl, fun e he => ?_⟩
      cases hs : step t e with
      | none => rfl
      | some t' => have := (left_step he hc hs).1; omega
    | succ n ih =>
      intro t hc hl
      by_cases hr : AtRest t
      · exact ⟨[], t, by simp, rfl, hr⟩
      · obtain ⟨e, he⟩ := Classical.not_forall.1 hr
        obtain ⟨he, hs⟩ := Classical.not_imp.1 he
        obtain ⟨t', ht'⟩ := Option.ne_none_iff_exists'.1 hs
        obtain ⟨h1, h2⟩ := left_step he hc ht'
        obtain ⟨es, s', h3, h4, h5⟩ := ih t' h2 (by omega)
        refine ⟨e :: es, s', ?_, ?_, h5⟩
        · intro x hx
          rcases List.mem_cons.1 hx with rfl | hx
          · exact he
          · exact h3 x hx
        · simp only [run, runT, ht']
          exact h4
  cases hc : s.connClosed with
  | true => exact key _ s hc (Nat.le_refl _)
  | false =>
    have hs : step s .close = some { s with connClosed := true } := by simp [step, hd, hc]
    obtain ⟨es, s', h3, h4, h5⟩ := key _ { s with connClosed := true } rfl (Nat.le_refl _)
    refine ⟨.close :: es, s', ?_, ?_, h5⟩
    · intro x hx
      rcases List.mem_cons.1 hx with rfl | hx
      · trivial
      · exact h3 x hx
    · simp only [run, runT, hs]
      exact h4

/-- **C205** If no more than 16 received PDUs are unread when the connection ends, all goroutines of the connection end and all calls return.
Missing: with more, the recombining goroutine stays (`leak_iff`, `goroutine_leaks`). -/
theorem all_end_partial (b : Bool) (pre : List Ev) (s : State) (h : run (init b) pre = some s) (hd : s.up = false) (hu : unread s ≤ 16) (es : List Ev) (s' : State) (hr : run s es = some s') (hrest : AtRest s') :
    AllEnded s' := by
  obtain ⟨h1, h2⟩ := run_down hd hr
  have hi : Inv s' := inv_run (es := pre ++ es) (b := b) (runT_append.2 ⟨s, h, hr⟩)
  rcases rest hi h1 hrest with h3 | h3
  · exact h3
  · exfalso
    obtain ⟨⟨k, hk⟩, hp, _⟩ := h3
    have : unread s' = s'.pkts.length + 1 + 16 := by simp only [unread, hk, hp]
    omega

/-- **C205** Exactly when the recombining goroutine stays: when more than 16 PDUs are unread in the end; and after `connClosed` is closed at most one more is read, namely if `Loop` is in `Read`. So it stays if more than 17 are unread at that time, and ends if no more than 16 are. -/
theorem leak_iff (b : Bool) (pre : List Ev) (s : State) (h : run (init b) pre = some s) (hc : s.connClosed = true) (es : List Ev) (s' : State) (hr : run s es = some s') (hrest : AtRest s') :
    (Leaked s' ↔ 16 < unread s') ∧ unread s' ≤ unread s ∧ unread s ≤ unread s' + (if s.loop = .reading then 1 else 0) := by
  have hd := (inv_run h).down hc
  have hi : Inv s' := inv_run (es := pre ++ es) (b := b) (runT_append.2 ⟨s, h, hr⟩)
  obtain ⟨h1, h2⟩ := run_down hd hr
  obtain ⟨_, h3⟩ := run_reads hd hc hr
  refine ⟨⟨?_, ?_⟩, h2, ?_⟩
  · rintro ⟨⟨k, hk⟩, hp, _⟩
    simp only [unread, hk, hp]
    omega
  · intro hu
    rcases rest hi h1 hrest with h4 | h4
    · exfalso
      have := hi.rdr h4.1
      have hp := hi.pdus
      simp only [unread, h4.1, this.2] at hu
      simp at hu
      omega
    · exact h4
  · simp only [reads] at h3
    omega

/-- **C205** A goroutine that stays, stays for ever. -/
theorem leaked_for_ever (s : State) (hd : s.up = false) (hl : Leaked s) (es : List Ev) (s' : State) (hr : run s es = some s') : s'.rdr = s.rdr ∧ s'.rdr ≠ .ended := by
  have key : ∀ (es : List Ev) (t : State), t.up = false → (∃ k, t.rdr = .sending k) → t.pdus.length = 16 → t.loop = .ended → run t es = some s' → s'.rdr = t.rdr := by
    intro es
    induction es with
    | nil => intro t _ _ _ _ h; simp only [run, runT, Option.some.injEq] at h; rw [h]
    | cons e es ih =>
      intro t h1 h2 h3 h4 h
      simp only [run, runT] at h
      split at h
      · cases h
      · next u hu =>
        have : u.up = false ∧ u.rdr = t.rdr ∧ u.pdus.length = 16 ∧ u.loop = .ended := by
          obtain ⟨k, hk⟩ := h2
          cases e <;> simp only [step] at hu <;> (repeat' split at hu) <;> first
            | (cases hu; done)
            | (obtain rfl := Option.some.inj hu
               simp_all)
        rw [ih u this.1 (this.2.1 ▸ h2) this.2.2.1 this.2.2.2 h, this.2.1]
  obtain ⟨h1, h2, _, h3, _⟩ := hl
  have := key es s hd h1 h2 h3 hr
  refine ⟨this, ?_⟩
  obtain ⟨k, hk⟩ := h1
  rw [this, hk]
  simp

/-- A step of `Loop`. -/
def isLoop : Ev → Bool
  | .loopTop | .loopRead | .loopCheck | .loopGo | .loopQuit | .loopConfirm => true
  | _ => false

def pLoop : Loop → Nat
  | .ended => 0
  | .got none => 1
  | .reading => 2
  | .top => 3
  | .confirm => 4
  | .dispatch _ => 5
  | .got (some _) => 6

/-- A bound for the number of steps of `Loop` that are left when the connection has ended, whether or not this has been noticed. -/
def loopLeft (s : State) : Nat := 5 * unread s + pLoop s.loop

theorem loopLeft_step {s s' : State} {e : Ev} (hd : s.up = false) (h : step s e = some s') : loopLeft s' + (if isLoop e then 1 else 0) ≤ loopLeft s := by
  have := step_down hd h
  cases e <;> simp only [step] at h <;> (repeat' split at h) <;> first
    | (cases h; done)
    | (obtain rfl := Option.some.inj h
       simp_all [loopLeft, unread, isLoop, pLoop]
       try (first | omega | grind))

/-- **C205** `Loop` does not go round for ever once the connection has ended, even before `connClosed` is closed: the number of its steps is bounded, in every order of the steps. -/
theorem loop_steps_bounded (s : State) (hd : s.up = false) (es : List Ev) (s' : State) (h : run s es = some s') : (es.filter isLoop).length ≤ loopLeft s := by
  have key : ∀ (es : List Ev) (t : State), t.up = false → run t es = some s' → (es.filter isLoop).length + loopLeft s' ≤ loopLeft t := by
    intro es
    induction es with
    | nil => intro t _ h; simp only [run, runT, Option.some.injEq] at h; subst h; simp
    | cons e es ih =>
      intro t ht h
      simp only [run, runT] at h
      split at h
      · cases h
      · next u hu =>
        have h1 := loopLeft_step ht hu
        have h2 := ih u (step_down ht hu).1 h
        cases he : isLoop e <;> simp only [List.filter_cons, he, if_true, List.length_cons] at h1 ⊢ <;> simp at h1 ⊢ <;> omega
  have := key es s hd h
  omega

/-- A peer sends a response nobody waits for and 17 PDUs more, then the connection is lost. -/
def flood : List Ev := [.arrive .rsp, .take, .push, .loopTop, .loopRead, .loopCheck] ++ (List.replicate 16 [Ev.arrive .val, .take, .push]).flatten ++ [.arrive .val, .take, .down, .close, .loopQuit, .workerEnd]

/-- The state after that. -/
def floodEnd : State :=
  { up := false, pkts := [], rdr := .sending .val, pdus := List.replicate 16 .val, connClosed := true, loop := .ended, inc := 0, async := .ended, work := 0, worker := .ended, call := false }

/-- **C205 is false without the restriction**: a state in which the recombining goroutine waits for ever. -/
theorem goroutine_leaks : run (init false) flood = some floodEnd ∧ floodEnd.up = false ∧ Leaked floodEnd :=
  ⟨by decide, rfl, ⟨.val, rfl⟩, rfl, rfl, rfl, rfl, rfl, rfl⟩

/-- A call, a request, a notification and a response are under way when the connection ends. -/
def busy : List Ev := [.asyncTop, .call, .arrive .req, .take, .push, .loopTop, .loopRead, .loopCheck, .loopGo, .asyncTake, .asyncHandle true, .arrive .val, .take, .push, .loopTop, .loopRead, .loopCheck, .loopGo, .loopConfirm, .workerTake, .arrive .rsp, .take, .push, .loopTop, .loopRead, .loopCheck, .arrive .val, .down]

def busyEnd : State :=
  { up := false, pkts := [.val], rdr := .idle, pdus := [], connClosed := false, loop := .dispatch .rsp, inc := 0, async := .wantBuf, work := 0, worker := .running, call := true }

/-- In this case everything ends (`all_end_partial`, `can_rest`). -/
theorem ending_example : run (init true) busy = some busyEnd ∧ unread busyEnd = 1 ∧ ∃ es s', (∀ e ∈ es, Own e) ∧ run busyEnd es = some s' ∧ AtRest s' ∧ AllEnded s' := by
  have hb : run (init true) busy = some busyEnd := by decide
  refine ⟨hb, by decide, ?_⟩
  obtain ⟨es, s', h1, h2, h3⟩ := can_rest true busy busyEnd hb rfl
  exact ⟨es, s', h1, h2, h3, all_end_partial true busy busyEnd hb rfl (by decide) es s' h2 h3⟩

end Ble.Ending
