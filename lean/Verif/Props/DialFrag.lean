import Verif.Client.DialFrag
import Verif.Props.Ending
set_option autoImplicit false

/-!
# C212: a dialled connection, PDUs in fragments
-/

namespace Ble.DialFrag

open Ble.Ending (Kind)

/-! ## Specification -/

/-- How many ATT PDUs a list of packets completes when a PDU `st` is begun: a PDU is made of its first packet and of as many continuing ones as it takes. Nothing counts after an ATT PDU that is too big or a packet that is not continuing within a PDU; these end the connection. -/
def completed : Option (Option Kind × Nat) → List Frag → Nat
  | _, [] => 0
  | none, f :: fs =>
    if f.big then 0
    else if f.more = 0 then f.pdu.toList.length + completed none fs
    else completed (some (f.pdu, f.more)) fs
  | some (p, k), f :: fs =>
    if f.cont = false then 0
    else if k ≤ 1 then p.toList.length + completed none fs
    else completed (some (p, k - 1)) fs

/-- Steps of the library's goroutines, and calls that return. -/
def Own : Ev → Prop
  | .arrive _ => False
  | .other e => Ending.Own e
  | _ => True

/-- Nothing the library does is left to do. -/
def AtRest (s : State) : Prop := ∀ e, Own e → step s e = none

/-- PDUs received completely that `Loop` has not read. -/
def unread (s : State) : Nat := (if s.base.rdr = .ended then 0 else completed s.part s.frags) + (match s.base.rdr with | .sending _ => 1 | _ => 0) + s.base.pdus.length

/-! ## Steps of the other goroutines -/

theorem other_eq {s s' : State} {e : Ending.Ev} (h : step s (.other e) = some s') : ∃ b, Ending.step s.base e = some b ∧ s' = { s with base := b } ∧ (∀ k, e ≠ .arrive k) ∧ e ≠ .take ∧ e ≠ .recEnd := by
  cases e <;> simp only [step] at h <;> first
    | (cases h; done)
    | (split at h
       · rename_i b hb
         cases h
         exact ⟨b, hb, rfl, by simp, by simp, by simp⟩
       · cases h)

theorem other_none {s : State} {e : Ending.Ev} (h : step s (.other e) = none) (h1 : ∀ k, e ≠ .arrive k) (h2 : e ≠ .take) (h3 : e ≠ .recEnd) : Ending.step s.base e = none := by
  cases e <;> simp only [step] at h <;> first
    | (exact absurd rfl (h1 _))
    | (exact absurd rfl h2)
    | (exact absurd rfl h3)
    | (split at h
       · cases h
       · assumption)

theorem other_base {b b' : Ending.State} {e : Ending.Ev} (h1 : ∀ k, e ≠ .arrive k) (h2 : e ≠ .take) (h3 : e ≠ .recEnd) (h : Ending.step b e = some b') : b'.pkts = b.pkts ∧ (b'.rdr = .ended ↔ b.rdr = .ended) := by
  cases e with
  | arrive k => exact absurd rfl (h1 k)
  | take => exact absurd rfl h2
  | recEnd => exact absurd rfl h3
  | _ =>
    simp only [Ending.step] at h
    (repeat' split at h) <;> first
      | (cases h; done)
      | (obtain rfl := Option.some.inj h
         simp_all)

/-! ## Invariant -/

structure Inv (s : State) : Prop where
  base : Ending.Inv s.base
  pkts : s.base.pkts = []

theorem inv_complete {s : State} (hi : Inv s) (hr : s.base.rdr = .idle) (p : Option Kind) : Inv (complete s p) := by
  obtain ⟨⟨h1, h2, h3, h4⟩, h5⟩ := hi
  cases p with
  | none => exact ⟨⟨h1, h2, h3, h4⟩, h5⟩
  | some k => exact ⟨⟨h1, h2, by simp [complete], h4⟩, h5⟩

theorem inv_fail {s : State} (hi : Inv s) : Inv (fail s) := by
  obtain ⟨⟨h1, h2, h3, h4⟩, h5⟩ := hi
  exact ⟨⟨fun _ => rfl, h2, fun _ => ⟨rfl, h5⟩, h4⟩, h5⟩

theorem inv_init (b : Bool) : Inv (init b) := ⟨Ending.inv_init b, rfl⟩

/-- What taking a packet does. -/
theorem take_cases {s s' : State} (h : step s .take = some s') : s.base.rdr = .idle ∧ ∃ f rest, s.frags = f :: rest ∧
    ((s' = fail { s with frags := rest } ∧ completed s.part s.frags = 0) ∨ (∃ p : Option Kind, s' = complete { s with frags := rest } p ∧ completed s.part s.frags = p.toList.length + completed none rest) ∨
      (∃ x, s' = { s with frags := rest, part := some x } ∧ completed s.part s.frags = completed (some x) rest)) := by
  simp only [step] at h
  split at h
  · rename_i hi
    refine ⟨hi, ?_⟩
    split at h
    · rename_i f rest hp hf
      refine ⟨f, rest, hf, ?_⟩
      rw [hp, hf]
      split at h
      · rename_i hb; cases h; exact .inl ⟨rfl, by simp [completed, hb]⟩
      · rename_i hb
        split at h
        · rename_i hm; cases h; exact .inr (.inl ⟨_, rfl, by simp [completed, hb, hm]⟩)
        · rename_i hm; cases h; exact .inr (.inr ⟨_, rfl, by simp [completed, hb, hm]⟩)
    · rename_i p k f rest hp hf
      refine ⟨f, rest, hf, ?_⟩
      rw [hp, hf]
      split at h
      · rename_i hb; cases h; exact .inl ⟨rfl, by simp [completed, hb]⟩
      · rename_i hb
        split at h
        · rename_i hm; cases h; exact .inr (.inl ⟨_, rfl, by simp [completed, hb, hm]⟩)
        · rename_i hm; cases h; exact .inr (.inr ⟨_, rfl, by simp only [completed, if_neg hb, if_neg hm]⟩)
    · cases h
  · cases h

theorem inv_step {s s' : State} {e : Ev} (hi : Inv s) (h : step s e = some s') : Inv s' := by
  cases e with
  | arrive f =>
    simp only [step] at h
    split at h
    · cases h; exact ⟨hi.base, hi.pkts⟩
    · cases h
  | take =>
    obtain ⟨hr, f, rest, hf, ⟨rfl, -⟩ | ⟨p, rfl, -⟩ | ⟨x, rfl, -⟩⟩ := take_cases h
    · exact inv_fail (s := { s with frags := rest }) ⟨hi.base, hi.pkts⟩
    · exact inv_complete (s := { s with frags := rest }) ⟨hi.base, hi.pkts⟩ hr p
    · exact ⟨hi.base, hi.pkts⟩
  | recEnd =>
    simp only [step] at h
    split at h
    · rename_i hc
      cases h
      obtain ⟨⟨h1, h2, h3, h4⟩, h5⟩ := hi
      exact ⟨⟨h1, h2, fun _ => ⟨hc.2.2, h5⟩, h4⟩, h5⟩
    · cases h
  | other e =>
    obtain ⟨b, hb, rfl, h1, h2, h3⟩ := other_eq h
    exact ⟨Ending.inv_step hi.base hb, by rw [← hi.pkts]; exact (other_base h1 h2 h3 hb).1⟩

theorem inv_run {s : State} {b : Bool} {es : List Ev} (h : run (init b) es = some s) : Inv s :=
  runT_ind (P := fun (_ : List Ev) (s : State) => Inv s) (inv_init b) (fun _ _ _ _ _ hi hs => inv_step hi hs) es s h

/-! ## Measure -/

/-- A bound for the number of steps that are left once `connClosed` is closed. -/
def left (s : State) : Nat := 3 * s.frags.length + Ending.left s.base

theorem left_step {s s' : State} {e : Ev} (ho : Own e) (hc : s.base.connClosed = true) (h : step s e = some s') : left s' < left s ∧ s'.base.connClosed = true := by
  cases e with
  | arrive f => cases ho
  | take =>
    obtain ⟨hr, f, rest, hf, ⟨rfl, -⟩ | ⟨p, rfl, -⟩ | ⟨x, rfl, -⟩⟩ := take_cases h
    · refine ⟨?_, hc⟩
      cases hw : s.base.call <;> simp [left, fail, Ending.left, hf, hr, Ending.mRdr, hw] <;> omega
    · cases p with
      | none => refine ⟨?_, hc⟩; simp only [left, complete, hf, List.length_cons]; omega
      | some k =>
        refine ⟨?_, hc⟩
        cases hw : s.base.call <;> simp [left, complete, Ending.left, hf, hr, Ending.mRdr, hw] <;> omega
    · refine ⟨?_, hc⟩
      simp only [left, hf, List.length_cons]
      omega
  | recEnd =>
    simp only [step] at h
    split at h
    · rename_i hx
      cases h
      refine ⟨?_, hc⟩
      cases hw : s.base.call <;> simp [left, Ending.left, hx.1, Ending.mRdr, hw]
    · cases h
  | other e =>
    obtain ⟨b, hb, rfl, h1, h2, h3⟩ := other_eq h
    have ho' : Ending.Own e := ho
    obtain ⟨h4, h5⟩ := Ending.left_step ho' hc hb
    exact ⟨by simp only [left]; omega, h5⟩

theorem left_run {s s' : State} {es : List Ev} (ho : ∀ e ∈ es, Own e) (hc : s.base.connClosed = true) (h : run s es = some s') : es.length + left s' ≤ left s ∧ s'.base.connClosed = true := by
  induction es generalizing s with
  | nil =>
    simp only [run, runT, Option.some.injEq] at h
    subst h
    simp [hc]
  | cons e es ih =>
    simp only [run, runT] at h
    split at h
    · cases h
    · next t ht =>
      obtain ⟨h1, h2⟩ := left_step (ho e (List.mem_cons_self ..)) hc ht
      obtain ⟨h3, h4⟩ := ih (fun x hx => ho x (List.mem_cons_of_mem _ hx)) h2 h
      refine ⟨?_, h4⟩
      simp only [List.length_cons]
      omega

/-! ## Rest -/

theorem rest {s : State} (hi : Inv s) (hd : s.base.up = false) (hr : AtRest s) : Ending.AllEnded s.base ∨ Ending.Leaked s.base := by
  have hni : s.base.rdr ≠ .idle := by
    intro hx
    have h1 := hr .take trivial
    have h2 := hr .recEnd trivial
    simp only [step, hx] at h1 h2
    cases hf : s.frags with
    | nil => simp [hf, hd] at h2
    | cons f rest =>
      rw [hf] at h1
      cases hp : s.part with
      | none => rw [hp] at h1; simp only [if_true] at h1; (repeat' split at h1) <;> cases h1
      | some x => rw [hp] at h1; obtain ⟨p, k⟩ := x; simp only [if_true] at h1; (repeat' split at h1) <;> cases h1
  refine Ending.rest hi.base hd fun e ho => ?_
  cases e with
  | arrive k => cases ho
  | take =>
    simp only [Ending.step]
    cases hx : s.base.rdr with
    | idle => exact absurd hx hni
    | _ => rfl
  | recEnd => simp [Ending.step, hni]
  | _ => exact other_none (hr (.other _) ho) (by simp) (by simp) (by simp)

/-! ## What is unread -/

theorem unread_eq (s : State) (hp : s.base.pkts = []) : unread s = (if s.base.rdr = .ended then 0 else completed s.part s.frags) + Ending.unread s.base := by
  simp only [unread, Ending.unread, hp, List.length_nil]
  cases s.base.rdr <;> simp <;> omega

theorem unread_take {s s' : State} (h : step s .take = some s') : unread s' = unread s := by
  obtain ⟨hr, f, rest, hf, ⟨rfl, h1⟩ | ⟨p, rfl, h1⟩ | ⟨x, rfl, h1⟩⟩ := take_cases h
  · simp [unread, fail, hr, h1]
  · cases p with
    | none => simp [unread, complete, hr, h1]
    | some k => simp [unread, complete, hr, h1]; omega
  · simp [unread, hr, h1]

theorem unread_recEnd {s s' : State} (h : step s .recEnd = some s') : unread s' = unread s := by
  simp only [step] at h
  split at h
  · rename_i hc
    cases h
    have : completed s.part s.frags = 0 := by rw [hc.2.1]; cases s.part <;> rfl
    simp [unread, hc.1, this]
  · cases h

theorem step_down {s s' : State} {e : Ev} (hi : Inv s) (hd : s.base.up = false) (h : step s e = some s') : s'.base.up = false ∧ unread s' ≤ unread s := by
  cases e with
  | arrive f => simp [step, hd] at h
  | take =>
    refine ⟨?_, Nat.le_of_eq (unread_take h)⟩
    obtain ⟨hr, f, rest, hf, ⟨rfl, h1⟩ | ⟨p, rfl, h1⟩ | ⟨x, rfl, h1⟩⟩ := take_cases h
    · rfl
    · cases p <;> exact hd
    · exact hd
  | recEnd =>
    refine ⟨?_, Nat.le_of_eq (unread_recEnd h)⟩
    simp only [step] at h
    split at h
    · cases h; exact hd
    · cases h
  | other e =>
    have hi' := inv_step hi h
    obtain ⟨b, hb, rfl, h1, h2, h3⟩ := other_eq h
    obtain ⟨h4, h5⟩ := Ending.step_down hd hb
    refine ⟨h4, ?_⟩
    rw [unread_eq _ hi.pkts, unread_eq _ hi'.pkts]
    have := (other_base h1 h2 h3 hb).2
    by_cases hx : s.base.rdr = .ended
    · simp only [hx, this.2 hx, if_true]; omega
    · simp only [hx, if_neg (fun hy => hx (this.1 hy)), if_false]; omega

theorem run_down {s s' : State} {es : List Ev} (hi : Inv s) (hd : s.base.up = false) (h : run s es = some s') : s'.base.up = false ∧ unread s' ≤ unread s := by
  induction es generalizing s with
  | nil => simp only [run, runT, Option.some.injEq] at h; subst h; exact ⟨hd, Nat.le_refl _⟩
  | cons e es ih =>
    simp only [run, runT] at h
    split at h
    · cases h
    · next t ht =>
      obtain ⟨h1, h2⟩ := step_down hi hd ht
      obtain ⟨h3, h4⟩ := ih (inv_step hi ht) h1 h
      exact ⟨h3, by omega⟩

theorem step_reads {s s' : State} {e : Ev} (hi : Inv s) (hd : s.base.up = false) (hc : s.base.connClosed = true) (h : step s e = some s') :
    s'.base.connClosed = true ∧ unread s + Ending.reads s'.base ≤ unread s' + Ending.reads s.base := by
  cases e with
  | arrive f => simp [step, hd] at h
  | take =>
    rw [unread_take h]
    obtain ⟨hr, f, rest, hf, ⟨rfl, h1⟩ | ⟨p, rfl, h1⟩ | ⟨x, rfl, h1⟩⟩ := take_cases h
    · exact ⟨hc, Nat.le_refl _⟩
    · cases p <;> exact ⟨hc, Nat.le_refl _⟩
    · exact ⟨hc, Nat.le_refl _⟩
  | recEnd =>
    rw [unread_recEnd h]
    simp only [step] at h
    split at h
    · cases h; exact ⟨hc, Nat.le_refl _⟩
    · cases h
  | other e =>
    have hi' := inv_step hi h
    obtain ⟨b, hb, rfl, h1, h2, h3⟩ := other_eq h
    obtain ⟨h4, h5⟩ := Ending.step_reads hd hc hb
    refine ⟨h4, ?_⟩
    rw [unread_eq _ hi.pkts, unread_eq _ hi'.pkts]
    have := (other_base h1 h2 h3 hb).2
    by_cases hx : s.base.rdr = .ended
    · simp only [hx, this.2 hx, if_true]; omega
    · simp only [hx, if_neg (fun hy => hx (this.1 hy)), if_false]; omega

theorem run_reads {s s' : State} {es : List Ev} (hi : Inv s) (hd : s.base.up = false) (hc : s.base.connClosed = true) (h : run s es = some s') :
    s'.base.connClosed = true ∧ unread s + Ending.reads s'.base ≤ unread s' + Ending.reads s.base := by
  induction es generalizing s with
  | nil => simp only [run, runT, Option.some.injEq] at h; subst h; exact ⟨hc, Nat.le_refl _⟩
  | cons e es ih =>
    simp only [run, runT] at h
    split at h
    · cases h
    · next t ht =>
      obtain ⟨h1, h2⟩ := step_reads hi hd hc ht
      obtain ⟨h3, h4⟩ := ih (inv_step hi ht) (step_down hi hd ht).1 h1 h
      exact ⟨h3, by omega⟩

/-! ## Theorems -/

/-- **C212** Once the connection has ended, also in the middle of a PDU or because of a PDU or packet that the library does not accept, the goroutine that waits for this can always tell the others; from then on the library comes to rest within a bounded number of steps, in every order
of the steps; and where it comes to rest, either all goroutines have ended and every call has returned, or all but the recombining one. -/
theorem comes_to_rest (b : Bool) (pre : List Ev) (s : State) (h : run (init b) pre = some s) (hd : s.base.up = false) :
    (s.base.connClosed = false → step s (.other .close) ≠ none) ∧
    (s.base.connClosed = true → ∀ es s', (∀ e ∈ es, Own e) → run s es = some s' → es.length ≤ left s) ∧
    (AtRest s → Ending.AllEnded s.base ∨ Ending.Leaked s.base) := by
  refine ⟨fun hc => by simp [step, Ending.step, hd, hc], fun hc es s' ho hr => ?_, rest (inv_run h) hd⟩
  have := (left_run ho hc hr).1
  omega

/-- **C212** Whatever the state in which a connection ends, the library has a way to come to rest. -/
theorem can_rest (b : Bool) (pre : List Ev) (s : State) (_h : run (init b) pre = some s) (hd : s.base.up = false) : ∃ es s', (∀ e ∈ es, Own e) ∧ run s es = some s' ∧ AtRest s' := by
  have key : ∀ n (t : State), t.base.connClosed = true → left t ≤ n → ∃ es s', (∀ e ∈ es, Own e) ∧ run t es = some s' ∧ AtRest s' := by
    intro n
    induction n with
    | zero =>
      intro t hc hl
      refine ⟨[], t, by simp, rfl, fun e he => ?_⟩
      cases hs : step t e with
      | none => rfl
      | some t' => have := (left_step he hc hs).1; omega
    | succ n ih =>
      intro t hc hl
      by_cases hr : AtRest t
      · exact ⟨[], t, by simp, rfl, hr⟩
      · obtain ⟨e, he⟩ := Classical.not_forall.1 hr
        obtain ⟨he, hs⟩ := Classical.not_imp.1 he
        obtain ⟨t', ht'⟩ := Option.ne_none_iff_exists'.1 hs
        obtain ⟨h1, h2⟩ := left_step he hc ht'
        obtain ⟨es, s', h3, h4, h5⟩ := ih t' h2 (by omega)
        refine ⟨e :: es, s', ?_, ?_, h5⟩
        · intro x hx
          rcases List.mem_cons.1 hx with rfl | hx
          · exact he
          · exact h3 x hx
        · simp only [run, runT, ht']
          exact h4
  cases hc : s.base.connClosed with
  | true => exact key _ s hc (Nat.le_refl _)
  | false =>
    have hs : step s (.other .close) = some { s with base := { s.base with connClosed := true } } := by simp [step, Ending.step, hd, hc]
    obtain ⟨es, s', h3, h4, h5⟩ := key _ { s with base := { s.base with connClosed := true } } rfl (Nat.le_refl _)
    refine ⟨.other .close :: es, s', ?_, ?_, h5⟩
    · intro x hx
      rcases List.mem_cons.1 hx with rfl | hx
      · trivial
      · exact h3 x hx
    · simp only [run, runT, hs]
      exact h4

/-- **C212** If no more than 16 PDUs that were received completely are unread when the connection ends, all goroutines of the connection end and all calls return.
Missing: with more, the recombining goroutine stays (`leak_iff`, `goroutine_leaks`). -/
theorem all_end_partial (b : Bool) (pre : List Ev) (s : State) (h : run (init b) pre = some s) (hd : s.base.up = false) (hu : unread s ≤ 16) (es : List Ev) (s' : State) (hr : run s es = some s') (hrest : AtRest s') :
    Ending.AllEnded s'.base := by
  obtain ⟨h1, h2⟩ := run_down (inv_run h) hd hr
  have hi : Inv s' := inv_run (es := pre ++ es) (b := b) (runT_append.2 ⟨s, h, hr⟩)
  rcases rest hi h1 hrest with h3 | h3
  · exact h3
  · exfalso
    obtain ⟨⟨k, hk⟩, hp, _⟩ := h3
    have : 17 ≤ unread s' := by simp only [unread, hk, hp]; omega
    omega

/-- **C212** Exactly when the recombining goroutine stays: when more than 16 complete PDUs are unread in the end; and after `connClosed` is closed at most one more is read, namely if `Loop` is in `Read`. -/
theorem leak_iff (b : Bool) (pre : List Ev) (s : State) (h : run (init b) pre = some s) (hc : s.base.connClosed = true) (es : List Ev) (s' : State) (hr : run s es = some s') (hrest : AtRest s') :
    (Ending.Leaked s'.base ↔ 16 < unread s') ∧ unread s' ≤ unread s ∧ unread s ≤ unread s' + (if s.base.loop = .reading then 1 else 0) := by
  have hi0 := inv_run h
  have hd := hi0.base.down hc
  have hi : Inv s' := inv_run (es := pre ++ es) (b := b) (runT_append.2 ⟨s, h, hr⟩)
  obtain ⟨h1, h2⟩ := run_down hi0 hd hr
  obtain ⟨_, h3⟩ := run_reads hi0 hd hc hr
  refine ⟨⟨?_, ?_⟩, h2, ?_⟩
  · rintro ⟨⟨k, hk⟩, hp, _⟩
    simp only [unread, hk, hp]
    omega
  · intro hu
    rcases rest hi h1 hrest with h4 | h4
    · exfalso
      have hp := hi.base.pdus
      simp [unread, h4.1] at hu
      omega
    · exact h4
  · simp only [Ending.reads] at h3
    omega

/-- **C212** A goroutine that stays, stays for ever. -/
theorem leaked_for_ever (s : State) (hd : s.base.up = false) (hl : Ending.Leaked s.base) (es : List Ev) (s' : State) (hr : run s es = some s') : s'.base.rdr = s.base.rdr ∧ s'.base.rdr ≠ .ended := by
  have key : ∀ (es : List Ev) (t : State), t.base.up = false → (∃ k, t.base.rdr = .sending k) → t.base.pdus.length = 16 → t.base.loop = .ended → run t es = some s' → s'.base.rdr = t.base.rdr := by
    intro es
    induction es with
    | nil => intro t _ _ _ _ h; simp only [run, runT, Option.some.injEq] at h; rw [h]
    | cons e es ih =>
      intro t hu hs hp hlp h
      simp only [run, runT] at h
      split at h
      · cases h
      · next u hu' =>
        have hx : u.base.up = false ∧ u.base.rdr = t.base.rdr ∧ u.base.pdus = t.base.pdus ∧ u.base.loop = t.base.loop := by
          obtain ⟨k, hk⟩ := hs
          cases e with
          | arrive f => simp [step, hu] at hu'
          | take => simp [step, hk] at hu'
          | recEnd => simp [step, hk] at hu'
          | other e =>
            obtain ⟨b, hb, rfl, -⟩ := other_eq hu'
            cases e <;> simp only [Ending.step] at hb <;> (repeat' split at hb) <;> first
              | (cases hb; done)
              | (obtain rfl := Option.some.inj hb
                 simp_all)
        rw [← hx.2.1]
        exact ih u hx.1 (by rw [hx.2.1]; exact hs) (by rw [hx.2.2.1]; exact hp) (by rw [hx.2.2.2]; exact hlp) h
  have hk := key es s hd hl.1 hl.2.1 hl.2.2.2.1 hr
  obtain ⟨⟨k, hk'⟩, _⟩ := hl
  exact ⟨hk, by rw [hk, hk']; simp⟩

/-- A notification that takes `k` packets more. -/
def val (k : Nat) : Frag := ⟨false, some .val, false, k⟩

/-- A continuing packet; read as a first one it would be a PDU of an unknown channel. -/
def more : Frag := ⟨true, none, false, 0⟩

/-- A notification in three packets is read between PDUs of other channels; the connection is lost within a second one. -/
def busy : List Ev := [.other .asyncTop, .arrive ⟨false, none, false, 1⟩, .arrive more, .take, .take, .arrive (val 2), .arrive more, .take, .take, .arrive more, .take, .other .push, .other .loopTop, .other .loopRead, .other .loopCheck, .other .loopGo,
  .other .workerTake, .other .call, .arrive (val 0), .arrive (val 1), .other .down]

/-- In this case everything ends (`all_end_partial`, `can_rest`): one complete PDU is unread, the unfinished one does not count. -/
theorem fragments_example : ∃ s, run (init true) busy = some s ∧ s.base.up = false ∧ unread s = 1 ∧ s.base.loop = .confirm ∧ ∃ es s', (∀ e ∈ es, Own e) ∧ run s es = some s' ∧ AtRest s' ∧ Ending.AllEnded s'.base := by
  have hb : ∃ s, run (init true) busy = some s ∧ s.base.up = false ∧ unread s = 1 ∧ s.base.loop = .confirm := ⟨_, rfl, rfl, rfl, rfl⟩
  obtain ⟨s, hb, hd, hu, hl⟩ := hb
  obtain ⟨es, s', h1, h2, h3⟩ := can_rest true busy s hb hd
  exact ⟨s, hb, hd, hu, hl, es, s', h1, h2, h3, all_end_partial true busy s hb hd (by omega) es s' h2 h3⟩

/-- A PDU interrupted by the first packet of another one ends the connection. -/
theorem interrupted_example : ∃ s, run (init false) [.arrive (val 1), .arrive (val 0), .take, .take] = some s ∧ s.base.up = false ∧ s.base.rdr = .ended ∧ unread s = 0 := ⟨_, rfl, rfl, rfl, rfl⟩

/-- **C212 is false without the restriction**: a state in which the recombining goroutine waits for ever, here with notifications in two packets each. -/
theorem goroutine_leaks : ∃ es s, run (init false) es = some s ∧ s.base.up = false ∧ Ending.Leaked s.base := by
  refine ⟨[.arrive ⟨false, some .rsp, false, 0⟩, .take, .other .push, .other .loopTop, .other .loopRead, .other .loopCheck] ++ (List.replicate 16 [Ev.arrive (val 1), .arrive more, .take, .take, .other .push]).flatten ++
    [.arrive (val 1), .arrive more, .take, .take, .other .down, .other .close, .other .loopQuit, .other .workerEnd], _, rfl, rfl, ⟨_, rfl⟩, rfl, rfl, rfl, rfl, rfl, rfl⟩

end Ble.DialFrag
