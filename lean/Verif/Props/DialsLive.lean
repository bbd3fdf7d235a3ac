import Verif.Props.Dials
set_option autoImplicit false

/-!
# C132: overlapping calls of `Dial` all return
-/

namespace Ble.Dials

/-- Call `c` has returned. -/
def Call.returned (c : Call) : Bool := match c.phase with | .done _ => true | _ => false

namespace DialsLive

open DialsAux

def isCreate : Cmd → Bool | .create _ => true | .cancel => false
def isCancel : Cmd → Bool | .create _ => false | .cancel => true
def isCreated : In → Bool | .created _ => true | _ => false
def isCancelled : In → Bool | .cancelled _ => true | _ => false

/-- Each lock that is held has one command or answer under way. -/
structure Inv (s : St) : Prop where
  lockC : ∀ i, s.createLock = some i ↔ ∃ c, s.calls[i]? = some c ∧ c.phase = .creating
  lockX : ∀ i, s.cancelLock = some i ↔ ∃ c, s.calls[i]? = some c ∧ c.phase = .cancelling
  oneC : s.cmds.countP isCreate + s.evq.countP isCreated = s.createLock.toList.length
  oneX : s.cmds.countP isCancel + s.evq.countP isCancelled = s.cancelLock.toList.length

/-- How far a call is from returning. -/
def dist : Phase → Nat
  | .called => 8 | .typed => 7 | .ready => 6 | .creating => 5 | .waiting => 4 | .wantCancel => 3 | .cancelling => 2 | .grace => 1 | .done _ => 0

def wCmd : Cmd → Nat | .create _ => 4 | .cancel => 2
def wIn : In → Nat | _ => 1
def wCtl : Option Target → Nat | some _ => 2 | none => 0

/-- A bound on the number of steps. -/
def measure (s : St) : Nat := (s.calls.map fun c => 5 * dist c.phase).sum + (s.cmds.map wCmd).sum + (s.evq.map wIn).sum + wCtl s.ctl

theorem sum_modify (l : List Call) (i : Nat) (c : Call) (h : l[i]? = some c) (p : Phase) :
    ((l.modify i fun c => { c with phase := p }).map fun c => 5 * dist c.phase).sum + 5 * dist c.phase = (l.map fun c => 5 * dist c.phase).sum + 5 * dist p := by
  induction l generalizing i with
  | nil => simp at h
  | cons x xs ih =>
    cases i with
    | zero =>
      simp only [List.getElem?_cons_zero, Option.some.injEq] at h
      subst h
      simp only [List.modify_zero_cons, List.map_cons, List.sum_cons]; omega
    | succ i =>
      simp only [List.getElem?_cons_succ] at h
      have := ih i h
      simp only [List.modify_succ_cons, List.map_cons, List.sum_cons]; omega

theorem measure_at (s : St) (i : Nat) (c : Call) (h : s.calls[i]? = some c) (p : Phase) : measure (s.at i p) + 5 * dist c.phase = measure s + 5 * dist p := by
  have := sum_modify s.calls i c h p
  simp only [measure, St.at]; omega

/-- A call moves on without touching a lock. -/
theorem Inv.move {s t : St} (hi : Inv s) (hc : t.calls = s.calls) (h1 : t.createLock = s.createLock) (h2 : t.cancelLock = s.cancelLock) (h3 : t.cmds = s.cmds) (h4 : t.evq = s.evq)
    {i : Nat} {c : Call} {p : Phase} (h : s.calls[i]? = some c) (hn : c.phase ≠ .creating ∧ c.phase ≠ .cancelling) (hp : p ≠ .creating ∧ p ≠ .cancelling) : Inv (t.at i p) := by
  refine ⟨?_, ?_, ?_, ?_⟩
  · intro j
    show t.createLock = some j ↔ _
    rw [h1, hi.lockC j, at_call, hc]
    by_cases hij : i = j
    · subst hij
      rw [if_pos rfl, h]
      simp [hn, hp]
    · rw [if_neg hij]
  · intro j
    show t.cancelLock = some j ↔ _
    rw [h2, hi.lockX j, at_call, hc]
    by_cases hij : i = j
    · subst hij
      rw [if_pos rfl, h]
      simp [hn, hp]
    · rw [if_neg hij]
  · show t.cmds.countP isCreate + t.evq.countP isCreated = t.createLock.toList.length
    rw [h1, h3, h4]; exact hi.oneC
  · show t.cmds.countP isCancel + t.evq.countP isCancelled = t.cancelLock.toList.length
    rw [h2, h3, h4]; exact hi.oneX

theorem inv_step {s s' : St} {e : Ev} (hi : Inv s) (h : step s e = some s') : Inv s' := by
  cases e with
  | dial t =>
    simp only [step, Option.some.injEq] at h
    subst h
    have key : ∀ (j : Nat) (q : Phase), q ≠ .called → ((∃ c, s.calls[j]? = some c ∧ c.phase = q) ↔ ∃ c, (s.calls ++ [⟨t, .called⟩])[j]? = some c ∧ c.phase = q) := by
      intro j q hq
      constructor
      · rintro ⟨c, h1, h2⟩
        exact ⟨c, by rw [List.getElem?_append_left (List.getElem?_eq_some_iff.1 h1).1]; exact h1, h2⟩
      · rintro ⟨c, h1, h2⟩
        rcases Nat.lt_or_ge j s.calls.length with hj | hj
        · rw [List.getElem?_append_left hj] at h1; exact ⟨c, h1, h2⟩
        · rw [List.getElem?_append_right hj] at h1
          obtain ⟨_, h1⟩ := List.getElem?_eq_some_iff.1 h1
          simp at h1; subst h1; exact absurd h2.symm hq
    exact ⟨fun j => (hi.lockC j).trans (key j .creating (by simp)), fun j => (hi.lockX j).trans (key j .cancelling (by simp)), hi.oneC, hi.oneX⟩
  | setType i =>
    simp only [step] at h
    split at h
    · rename_i c hc
      split at h <;> simp only [Option.some.injEq, reduceCtorEq] at h
      rename_i hp
      subst h
      exact hi.move (t := { s with shared := { s.shared with random := c.want.random } }) (p := .typed) rfl rfl rfl rfl rfl hc (by simp [hp]) (by simp)
    · cases h
  | setAddr i =>
    simp only [step] at h
    split at h
    · rename_i c hc
      split at h <;> simp only [Option.some.injEq, reduceCtorEq] at h
      rename_i hp
      subst h
      exact hi.move (t := { s with shared := { s.shared with addr := c.want.addr } }) (p := .ready) rfl rfl rfl rfl rfl hc (by simp [hp]) (by simp)
    · cases h
  | sendCreate i =>
    simp only [step] at h
    split at h
    · rename_i c hc hl
      split at h <;> simp only [Option.some.injEq, reduceCtorEq] at h
      rename_i hp
      subst h
      refine ⟨?_, ?_, ?_, ?_⟩
      · intro j
        show some i = some j ↔ _
        rw [at_call]
        have := hi.lockC j
        by_cases hij : i = j
        · subst hij; simp [hc]
        · rw [if_neg hij, ← this, hl]; simp [hij]
      · intro j
        show s.cancelLock = some j ↔ _
        rw [at_call, hi.lockX j]
        by_cases hij : i = j
        · subst hij; simp [hc, hp]
        · rw [if_neg hij]
      · have := hi.oneC
        rw [hl] at this
        simp only [St.at, List.countP_append, List.countP_cons, List.countP_nil, isCreate, isCancel, isCreated, isCancelled, Option.toList_none, Option.toList_some, List.length_nil, List.length_cons, Bool.false_eq_true, if_true, if_false] at this ⊢
        omega
      · have := hi.oneX
        simpa [St.at, isCancel, List.countP_append] using this
    · cases h
  | sendCancel i =>
    simp only [step] at h
    split at h
    · rename_i c hc hl
      split at h <;> simp only [Option.some.injEq, reduceCtorEq] at h
      rename_i hp
      subst h
      refine ⟨?_, ?_, ?_, ?_⟩
      · intro j
        show s.createLock = some j ↔ _
        rw [at_call, hi.lockC j]
        by_cases hij : i = j
        · subst hij; simp [hc, hp]
        · rw [if_neg hij]
      · intro j
        show some i = some j ↔ _
        rw [at_call]
        have := hi.lockX j
        by_cases hij : i = j
        · subst hij; simp [hc]
        · rw [if_neg hij, ← this, hl]; simp [hij]
      · have := hi.oneC
        simpa [St.at, isCreate, List.countP_append] using this
      · have := hi.oneX
        rw [hl] at this
        simp only [St.at, List.countP_append, List.countP_cons, List.countP_nil, isCreate, isCancel, isCreated, isCancelled, Option.toList_none, Option.toList_some, List.length_nil, List.length_cons, Bool.false_eq_true, if_true, if_false] at this ⊢
        omega
    · cases h
  | ctlCmd =>
    simp only [step] at h
    split at h
    · rename_i t r hcm
      have h1 := hi.oneC
      have h2 := hi.oneX
      rw [hcm] at h1 h2
      simp only [List.countP_append, List.countP_cons, List.countP_nil, isCreate, isCancel, isCreated, isCancelled, Option.toList_none, Option.toList_some, List.length_nil, List.length_cons, Bool.false_eq_true, if_true, if_false] at h1 h2
      split at h <;> simp only [Option.some.injEq] at h <;> subst h <;> refine ⟨hi.lockC, hi.lockX, ?_, ?_⟩ <;> simp only [List.countP_append, List.countP_cons, List.countP_nil, isCreate, isCancel, isCreated, isCancelled, Option.toList_none, Option.toList_some, List.length_nil, List.length_cons, Bool.false_eq_true, if_true, if_false] <;> omega
    · rename_i r hcm
      have h1 := hi.oneC
      have h2 := hi.oneX
      rw [hcm] at h1 h2
      simp only [List.countP_append, List.countP_cons, List.countP_nil, isCreate, isCancel, isCreated, isCancelled, Option.toList_none, Option.toList_some, List.length_nil, List.length_cons, Bool.false_eq_true, if_true, if_false] at h1 h2
      simp only [Option.some.injEq] at h; subst h; refine ⟨hi.lockC, hi.lockX, ?_, ?_⟩ <;> simp only [List.countP_append, List.countP_cons, List.countP_nil, isCreate, isCancel, isCreated, isCancelled, Option.toList_none, Option.toList_some, List.length_nil, List.length_cons, Bool.false_eq_true, if_true, if_false] <;> omega
    · cases h
  | ctlConnect =>
    simp only [step] at h
    split at h
    · simp only [Option.some.injEq] at h; subst h
      have h1 := hi.oneC
      have h2 := hi.oneX
      refine ⟨hi.lockC, hi.lockX, ?_, ?_⟩ <;> simp [List.countP_append, isCreated, isCancelled] <;> assumption
    · cases h
  | event =>
    simp only [step] at h
    split at h
    · rename_i ok r hev
      split at h
      · rename_i i hl
        simp only [Option.some.injEq] at h; subst h
        obtain ⟨c, hc, hp⟩ := (hi.lockC i).1 hl
        have h1 := hi.oneC
        have h2 := hi.oneX
        rw [hev] at h1 h2
        rw [hl] at h1
        simp only [List.countP_append, List.countP_cons, List.countP_nil, isCreate, isCancel, isCreated, isCancelled, Option.toList_none, Option.toList_some, List.length_nil, List.length_cons, Bool.false_eq_true, if_true, if_false] at h1 h2
        refine ⟨?_, ?_, ?_, ?_⟩
        · intro j
          show none = some j ↔ _
          rw [at_call]
          by_cases hij : i = j
          · subst hij; simp [hc]; split <;> simp
          · rw [if_neg hij]
            show none = some j ↔ ∃ c, s.calls[j]? = some c ∧ _
            rw [← hi.lockC j, hl]; simp [hij]
        · intro j
          show s.cancelLock = some j ↔ _
          rw [at_call, hi.lockX j]
          by_cases hij : i = j
          · subst hij; simp [hc, hp]; split <;> simp
          · rw [if_neg hij]
        · simp only [St.at, List.countP_append, List.countP_cons, List.countP_nil, isCreate, isCancel, isCreated, isCancelled, Option.toList_none, Option.toList_some, List.length_nil, List.length_cons, Bool.false_eq_true, if_true, if_false]; omega
        · simp only [St.at, List.countP_append, List.countP_cons, List.countP_nil, isCreate, isCancel, isCreated, isCancelled, Option.toList_none, Option.toList_some, List.length_nil, List.length_cons, Bool.false_eq_true, if_true, if_false]; omega
      · cases h
    · rename_i ok r hev
      split at h
      · rename_i i hl
        simp only [Option.some.injEq] at h; subst h
        obtain ⟨c, hc, hp⟩ := (hi.lockX i).1 hl
        have h1 := hi.oneC
        have h2 := hi.oneX
        rw [hev] at h1 h2
        rw [hl] at h2
        simp only [List.countP_append, List.countP_cons, List.countP_nil, isCreate, isCancel, isCreated, isCancelled, Option.toList_none, Option.toList_some, List.length_nil, List.length_cons, Bool.false_eq_true, if_true, if_false] at h1 h2
        refine ⟨?_, ?_, ?_, ?_⟩
        · intro j
          show s.createLock = some j ↔ _
          rw [at_call, hi.lockC j]
          by_cases hij : i = j
          · subst hij; simp [hc, hp]; split <;> simp
          · rw [if_neg hij]
        · intro j
          show none = some j ↔ _
          rw [at_call]
          by_cases hij : i = j
          · subst hij; simp [hc]; split <;> simp
          · rw [if_neg hij]
            show none = some j ↔ ∃ c, s.calls[j]? = some c ∧ _
            rw [← hi.lockX j, hl]; simp [hij]
        · simp only [St.at, List.countP_append, List.countP_cons, List.countP_nil, isCreate, isCancel, isCreated, isCancelled, Option.toList_none, Option.toList_some, List.length_nil, List.length_cons, Bool.false_eq_true, if_true, if_false]; omega
        · simp only [St.at, List.countP_append, List.countP_cons, List.countP_nil, isCreate, isCancel, isCreated, isCancelled, Option.toList_none, Option.toList_some, List.length_nil, List.length_cons, Bool.false_eq_true, if_true, if_false]; omega
      · cases h
    · rename_i c r hev
      split at h <;> simp only [Option.some.injEq, reduceCtorEq] at h
      subst h
      have h1 := hi.oneC
      have h2 := hi.oneX
      rw [hev] at h1 h2
      simp only [List.countP_append, List.countP_cons, List.countP_nil, isCreate, isCancel, isCreated, isCancelled, Option.toList_none, Option.toList_some, List.length_nil, List.length_cons, Bool.false_eq_true, if_true, if_false] at h1 h2
      exact ⟨hi.lockC, hi.lockX, h1, h2⟩
    · cases h
  | drop =>
    simp only [step] at h
    split at h
    · rename_i c r k hev hch
      simp only [Option.some.injEq] at h
      subst h
      have h1 := hi.oneC
      have h2 := hi.oneX
      rw [hev] at h1 h2
      simp only [List.countP_append, List.countP_cons, List.countP_nil, isCreate, isCancel, isCreated, isCancelled, Option.toList_none, Option.toList_some, List.length_nil, List.length_cons, Bool.false_eq_true, if_true, if_false] at h1 h2
      exact ⟨hi.lockC, hi.lockX, h1, h2⟩
    · cases h
  | take i =>
    simp only [step] at h
    split at h
    · rename_i c k hc hch
      split at h <;> simp only [Option.some.injEq, reduceCtorEq] at h
      rename_i hp
      subst h
      exact hi.move (t := { s with chan := none }) (p := .done (some k)) rfl rfl rfl rfl rfl hc (by rcases hp with hp | hp <;> simp [hp]) (by simp)
    · cases h
  | interrupt i =>
    simp only [step] at h
    split at h
    · rename_i c hc
      split at h <;> simp only [Option.some.injEq, reduceCtorEq] at h
      rename_i hp
      subst h
      exact hi.move rfl rfl rfl rfl rfl hc (by simp [hp]) ⟨nofun, nofun⟩
    · cases h
  | giveUp i =>
    simp only [step] at h
    split at h
    · rename_i c hc hch
      split at h <;> simp only [Option.some.injEq, reduceCtorEq] at h
      rename_i hp
      subst h
      exact hi.move rfl rfl rfl rfl rfl hc (by simp [hp]) ⟨nofun, nofun⟩
    · cases h

theorem inv_run {es : List Ev} {s : St} (h : runT step init es = some s) : Inv s :=
  runT_ind (P := fun _ s => Inv s) ⟨by simp [init], by simp [init], rfl, rfl⟩ (fun _ _ _ _ _ hp hs => inv_step hp hs) es s h

theorem measure_step {s s' : St} {e : Ev} (hi : Inv s) (h : step s e = some s') (he : ∀ t, e ≠ .dial t) : measure s' < measure s := by
  -- a call moves on, the rest grows by less
  have mv : ∀ (t : St) (i : Nat) (c : Call) (p : Phase), t.calls = s.calls → s.calls[i]? = some c →
      (t.cmds.map wCmd).sum + (t.evq.map wIn).sum + wCtl t.ctl + 5 * dist p < (s.cmds.map wCmd).sum + (s.evq.map wIn).sum + wCtl s.ctl + 5 * dist c.phase → measure (t.at i p) < measure s := by
    intro t i c p h1 h2 h3
    have h4 := measure_at t i c (by rw [h1]; exact h2) p
    simp only [measure, h1] at h4 ⊢
    omega
  cases e with
  | dial t => exact absurd rfl (he t)
  | setType i =>
    simp only [step] at h
    split at h
    · rename_i c hc
      split at h <;> simp only [Option.some.injEq, reduceCtorEq] at h
      rename_i hp
      subst h
      exact mv _ i c .typed rfl hc (by simp [hp, dist])
    · cases h
  | setAddr i =>
    simp only [step] at h
    split at h
    · rename_i c hc
      split at h <;> simp only [Option.some.injEq, reduceCtorEq] at h
      rename_i hp
      subst h
      exact mv _ i c .ready rfl hc (by simp [hp, dist])
    · cases h
  | sendCreate i =>
    simp only [step] at h
    split at h
    · rename_i c hc hl
      split at h <;> simp only [Option.some.injEq, reduceCtorEq] at h
      rename_i hp
      subst h
      exact mv _ i c .creating rfl hc (by simp [hp, dist, wCmd]; omega)
    · cases h
  | sendCancel i =>
    simp only [step] at h
    split at h
    · rename_i c hc hl
      split at h <;> simp only [Option.some.injEq, reduceCtorEq] at h
      rename_i hp
      subst h
      exact mv _ i c .cancelling rfl hc (by simp [hp, dist, wCmd]; omega)
    · cases h
  | ctlCmd =>
    simp only [step] at h
    split at h
    · rename_i t r hcm
      split at h <;> simp only [Option.some.injEq] at h <;> subst h
      · rename_i hn; simp [measure, hcm, hn, wCmd, wIn, wCtl]; omega
      · simp [measure, hcm, wCmd, wIn]; omega
    · rename_i r hcm
      simp only [Option.some.injEq] at h; subst h
      simp [measure, hcm, wCmd, wIn, wCtl]
      split <;> omega
    · cases h
  | ctlConnect =>
    simp only [step] at h
    split at h
    · rename_i t ht
      simp only [Option.some.injEq] at h; subst h
      simp [measure, ht, wIn, wCtl]; omega
    · cases h
  | event =>
    simp only [step] at h
    split at h
    · rename_i ok r hev
      split at h
      · rename_i i hl
        simp only [Option.some.injEq] at h; subst h
        obtain ⟨c, hc, hp⟩ := (hi.lockC i).1 hl
        refine mv _ i c _ rfl hc ?_
        cases ok <;> simp [hev, hp, dist, wIn] <;> omega
      · cases h
    · rename_i ok r hev
      split at h
      · rename_i i hl
        simp only [Option.some.injEq] at h; subst h
        obtain ⟨c, hc, hp⟩ := (hi.lockX i).1 hl
        refine mv _ i c _ rfl hc ?_
        cases ok <;> simp [hev, hp, dist, wIn] <;> omega
      · cases h
    · rename_i c r hev
      split at h <;> simp only [Option.some.injEq, reduceCtorEq] at h
      subst h
      simp [measure, hev, wIn]
    · cases h
  | drop =>
    simp only [step] at h
    split at h
    · rename_i c r k hev hch
      simp only [Option.some.injEq] at h
      subst h
      simp [measure, hev, wIn]
    · cases h
  | take i =>
    simp only [step] at h
    split at h
    · rename_i c k hc hch
      split at h <;> simp only [Option.some.injEq, reduceCtorEq] at h
      rename_i hp
      subst h
      exact mv _ i c (.done (some k)) rfl hc (by rcases hp with hp | hp <;> simp [hp, dist])
    · cases h
  | interrupt i =>
    simp only [step] at h
    split at h
    · rename_i c hc
      split at h <;> simp only [Option.some.injEq, reduceCtorEq] at h
      rename_i hp
      subst h
      exact mv _ i c .wantCancel rfl hc (by simp [hp, dist])
    · cases h
  | giveUp i =>
    simp only [step] at h
    split at h
    · rename_i c hc hch
      split at h <;> simp only [Option.some.injEq, reduceCtorEq] at h
      rename_i hp
      subst h
      exact mv _ i c (.done none) rfl hc (by simp [hp, dist])
    · cases h

/-- The event loop can handle the next event. -/
theorem loop_goes {s : St} (hi : Inv s) (h : s.evq ≠ []) : ∃ e s', (∀ t, e ≠ .dial t) ∧ step s e = some s' := by
  cases hev : s.evq with
  | nil => exact absurd hev h
  | cons x r =>
    cases x with
    | created ok =>
      have h1 := hi.oneC
      rw [hev] at h1
      simp only [List.countP_cons, isCreated, if_true] at h1
      cases hl : s.createLock with
      | none => rw [hl] at h1; simp at h1
      | some i => exact ⟨.event, _, by simp, by simp only [step, hev, hl]; rfl⟩
    | cancelled ok =>
      have h1 := hi.oneX
      rw [hev] at h1
      simp only [List.countP_cons, isCancelled, if_true] at h1
      cases hl : s.cancelLock with
      | none => rw [hl] at h1; simp at h1
      | some i => exact ⟨.event, _, by simp, by simp only [step, hev, hl]; rfl⟩
    | conn c =>
      cases hc : s.chan with
      | none => exact ⟨.event, _, by simp, by simp only [step, hev, hc, if_true]; rfl⟩
      | some k => exact ⟨.drop, _, by simp, by simp only [step, hev, hc]; rfl⟩

theorem ctl_goes {s : St} (h : s.cmds ≠ []) : ∃ e s', (∀ t, e ≠ .dial t) ∧ step s e = some s' := by
  cases hc : s.cmds with
  | nil => exact absurd hc h
  | cons x r =>
    cases x with
    | create t =>
      by_cases hn : s.ctl = none
      · exact ⟨.ctlCmd, _, by simp, by simp only [step, hc, if_pos hn]; rfl⟩
      · exact ⟨.ctlCmd, _, by simp, by simp only [step, hc, if_neg hn]; rfl⟩
    | cancel => exact ⟨.ctlCmd, _, by simp, by simp only [step, hc]; rfl⟩

/-- A lock that is held will be released. -/
theorem lock_goes {s : St} (hi : Inv s) (h : s.createLock ≠ none ∨ s.cancelLock ≠ none) : ∃ e s', (∀ t, e ≠ .dial t) ∧ step s e = some s' := by
  by_cases h1 : s.evq = []
  · by_cases h2 : s.cmds = []
    · have h3 := hi.oneC
      have h4 := hi.oneX
      rw [h1, h2] at h3 h4
      cases hc : s.createLock <;> cases hx : s.cancelLock <;> simp_all
    · exact ctl_goes h2
  · exact loop_goes hi h1

theorem progress {s : St} (hi : Inv s) (h : ∃ c ∈ s.calls, c.returned = false) : ∃ e s', (∀ t, e ≠ .dial t) ∧ step s e = some s' := by
  obtain ⟨c, hm, hr⟩ := h
  obtain ⟨i, hc⟩ := List.mem_iff_getElem?.1 hm
  rcases c with ⟨w, p⟩
  cases p with
  | done r => simp [Call.returned] at hr
  | called => exact ⟨.setType i, _, by simp, by simp only [step, hc, if_true]; rfl⟩
  | typed => exact ⟨.setAddr i, _, by simp, by simp only [step, hc, if_true]; rfl⟩
  | ready =>
    cases hl : s.createLock with
    | none => exact ⟨.sendCreate i, _, by simp, by simp only [step, hc, hl, if_true]; rfl⟩
    | some j => exact lock_goes hi (by simp [hl])
  | creating => exact lock_goes hi (by rw [(hi.lockC i).2 ⟨_, hc, rfl⟩]; simp)
  | waiting => exact ⟨.interrupt i, _, by simp, by simp only [step, hc, if_true]; rfl⟩
  | wantCancel =>
    cases hl : s.cancelLock with
    | none => exact ⟨.sendCancel i, _, by simp, by simp only [step, hc, hl, if_true]; rfl⟩
    | some j => exact lock_goes hi (by simp [hl])
  | cancelling => exact lock_goes hi (by rw [(hi.lockX i).2 ⟨_, hc, rfl⟩]; simp)
  | grace =>
    cases hch : s.chan with
    | none => exact ⟨.giveUp i, _, by simp, by simp only [step, hc, hch, if_true]; rfl⟩
    | some k => exact ⟨.take i, _, by simp, by simp only [step, hc, hch, or_true, if_true]; rfl⟩

end DialsLive

open DialsLive in
/-- C132: **overlapping calls of `Dial` all return.** However the calls have run so far, there is a bound on the number of steps until nothing but a new call can happen, and then every call has returned: none waits for ever for another's
lock, for the channel, or for an event loop that waits for the channel. (Contexts end: a step of a call that waits for a connection.) -/
theorem dials_all_return (es : List Ev) (s : St) (h : runT step init es = some s) :
    ∃ n, ∀ es' s', (∀ e ∈ es', ∀ t, e ≠ .dial t) → runT step s es' = some s' →
      es'.length ≤ n ∧ ((∀ e, (∀ t, e ≠ .dial t) → step s' e = none) → ∀ c ∈ s'.calls, c.returned = true) := by
  refine ⟨measure s, ?_⟩
  intro es' s' hno h'
  have hi : DialsLive.Inv s := DialsLive.inv_run h
  have key : (∀ e ∈ es', ∀ t, e ≠ .dial t) → DialsLive.Inv s' ∧ es'.length + measure s' ≤ measure s := by
    refine runT_ind (P := fun es' s' => (∀ e ∈ es', ∀ t, e ≠ .dial t) → DialsLive.Inv s' ∧ es'.length + measure s' ≤ measure s) (fun _ => ⟨hi, by simp⟩) ?_ es' s' h'
    intro es1 t e t' _ ih ht hno
    obtain ⟨h1, h2⟩ := ih fun x hx => hno x (by simp [hx])
    have h3 := measure_step h1 ht (hno e (by simp))
    refine ⟨DialsLive.inv_step h1 ht, ?_⟩
    simp only [List.length_append, List.length_cons, List.length_nil]; omega
  obtain ⟨h1, h2⟩ := key hno
  refine ⟨by omega, ?_⟩
  intro hstop c hc
  cases hr : c.returned with
  | true => rfl
  | false =>
    obtain ⟨e, u, h3, h4⟩ := progress h1 ⟨c, hc, hr⟩
    rw [hstop e h3] at h4; cases h4

/-- C132: a call whose context ends before a connection is made stops the attempt: it writes LE Create Connection Cancel as soon as no other cancel is under way, and the controller stops trying. -/
theorem interrupted_dial_cancels (es : List Ev) (s : St) (h : runT step init es = some s) (i : Nat) (w : Target) (hc : s.calls[i]? = some ⟨w, .waiting⟩) (hq : s.cmds = [] ∧ s.evq = []) (t : Target) (ht : s.ctl = some t) :
    ∃ s', runT step s [.interrupt i, .sendCancel i, .ctlCmd, .event] = some s' ∧ s'.ctl = none ∧ s'.calls[i]? = some ⟨w, .done none⟩ ∧ s'.made = s.made := by
  have hi := DialsLive.inv_run h
  have hx : s.cancelLock = none := by
    have h1 := hi.oneX
    rw [hq.1, hq.2] at h1
    cases hl : s.cancelLock with
    | none => rfl
    | some j => rw [hl] at h1; simp at h1
  have e1 : step s (.interrupt i) = some (s.at i .wantCancel) := by simp only [step, hc, if_true]
  have c1 : (s.at i .wantCancel).calls[i]? = some ⟨w, .wantCancel⟩ := by rw [DialsAux.at_call]; simp [hc]
  have e2 : step (s.at i .wantCancel) (.sendCancel i) = some ({ s.at i .wantCancel with cancelLock := some i, cmds := [Cmd.cancel] }.at i .cancelling) := by
    simp only [step, c1]; simp [St.at, hx, hq.1]
  generalize hs2 : ({ s.at i .wantCancel with cancelLock := some i, cmds := [Cmd.cancel] } : St).at i .cancelling = s2 at e2
  have c2 : s2.calls[i]? = some ⟨w, .cancelling⟩ := by rw [← hs2, DialsAux.at_call]; simp [c1]
  have f2 : s2.cmds = [.cancel] ∧ s2.ctl = some t ∧ s2.evq = [] ∧ s2.cancelLock = some i ∧ s2.made = s.made := by rw [← hs2]; exact ⟨rfl, ht, hq.2, rfl, rfl⟩
  have e3 : step s2 .ctlCmd = some { s2 with cmds := [], ctl := none, evq := [.cancelled true] } := by simp [step, f2]
  have e4 : step { s2 with cmds := [], ctl := none, evq := [.cancelled true] } .event = some ({ s2 with cmds := [], ctl := none, evq := [], cancelLock := none }.at i (.done none)) := by
    simp [step, f2]
  refine ⟨{ s2 with cmds := [], ctl := none, evq := [], cancelLock := none }.at i (.done none), by simp only [runT, e1, e2, e3, e4], rfl, ?_, f2.2.2.2.2⟩
  rw [DialsAux.at_call]; simp [c2]

/-- Two calls, both interrupted while the second waits for the first one's lock. -/
theorem dials_live_example : ∃ s, runT step init [.dial ⟨true, [1]⟩, .dial ⟨false, [2]⟩, .setType 0, .setAddr 0, .sendCreate 0, .setType 1, .setAddr 1, .ctlCmd, .event] = some s ∧ s.calls[0]? = some ⟨⟨true, [1]⟩, .waiting⟩ ∧
    s.ctl = some ⟨true, [1]⟩ ∧ s.cmds = [] ∧ s.evq = [] ∧ ∃ s', runT step s [.interrupt 0, .sendCancel 0, .ctlCmd, .event, .sendCreate 1, .ctlCmd, .event, .interrupt 1, .sendCancel 1, .ctlConnect, .ctlCmd, .event, .event, .take 1] = some s' ∧
      s'.calls = [⟨⟨true, [1]⟩, .done none⟩, ⟨⟨false, [2]⟩, .done (some 0)⟩] := by
  refine ⟨_, rfl, rfl, rfl, rfl, rfl, _, rfl, rfl⟩

end Ble.Dials
