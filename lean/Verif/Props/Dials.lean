import Verif.Hci.Dials
set_option autoImplicit false

/-!
# C126: overlapping calls of `Dial`
-/

namespace Ble.Dials

/-! ## Specification -/

/-- The connections clients were returned on, one entry per successful call. -/
def returned (s : St) : List Nat := s.calls.filterMap fun c => match c.phase with | .done (some k) => some k | _ => none

/-- Connections announced and not handled yet. -/
def queued (s : St) : List Nat := s.evq.filterMap fun e => match e with | .conn k => some k | _ => none

/-- Call `i`, for `a`, has returned a client of `b`. -/
def Got (s : St) (i : Nat) (a b : Target) : Prop := ∃ k, s.calls[i]? = some ⟨a, .done (some k)⟩ ∧ s.made[k]? = some b

namespace DialsAux

/-! ## Each connection goes to one place -/

def got : Call → Option Nat := fun c => match c.phase with | .done (some k) => some k | _ => none

theorem returned_eq (s : St) : returned s = s.calls.filterMap got := rfl

theorem modify_perm (l : List Call) (i : Nat) (c : Call) (h : l[i]? = some c) (p : Phase) :
    ((l.modify i fun c => { c with phase := p }).filterMap got ++ (got c).toList).Perm ((got { c with phase := p }).toList ++ l.filterMap got) := by
  induction l generalizing i with
  | nil => simp at h
  | cons x xs ih =>
    cases i with
    | zero =>
      simp only [List.getElem?_cons_zero, Option.some.injEq] at h
      subst h
      simp only [List.modify_zero_cons, List.filterMap_cons]
      cases h1 : got { x with phase := p } <;> cases h2 : got x <;> simp
    | succ i =>
      simp only [List.getElem?_cons_succ] at h
      have := ih i h
      simp only [List.modify_succ_cons, List.filterMap_cons]
      cases h1 : got x with
      | none => exact this
      | some y =>
        simp only [List.cons_append]
        refine (List.Perm.cons y this).trans ?_
        exact (List.perm_middle (a := y) (l₁ := (got { c with phase := p }).toList) (l₂ := xs.filterMap got)).symm

def all (s : St) : List Nat := returned s ++ s.chan.toList ++ queued s ++ s.dropped

/-- Where calls are when they hold locks. -/
structure Inv (s : St) : Prop where
  perm : (all s).Perm (List.range s.made.length)
  lockC : ∀ i, s.createLock = some i → ∃ c, s.calls[i]? = some c ∧ c.phase = .creating
  lockX : ∀ i, s.cancelLock = some i → ∃ c, s.calls[i]? = some c ∧ c.phase = .cancelling

theorem perm_of_count {a b : List Nat} (h : ∀ k, a.count k = b.count k) : a.Perm b := List.perm_iff_count.2 h

theorem at_returned (s : St) (i : Nat) (c : Call) (h : s.calls[i]? = some c) (p : Phase) (hn : got c = none) (k : Nat) :
    (returned (s.at i p)).count k = (returned s).count k + (got { c with phase := p }).toList.count k := by
  have := (List.perm_iff_count.1 (modify_perm s.calls i c h p)) k
  rw [hn] at this
  simp only [Option.toList_none, List.append_nil, List.count_append] at this
  show List.count k ((s.calls.modify i _).filterMap got) = _
  rw [this, Nat.add_comm]
  rfl

theorem at_call (s : St) (i j : Nat) (p : Phase) : (s.at i p).calls[j]? = if i = j then (s.calls[j]?).map fun c => { c with phase := p } else s.calls[j]? := by
  simp only [St.at, List.getElem?_modify]
  split
  · rfl
  · simp

set_option maxHeartbeats 4000000 in
theorem inv_step {s s' : St} {e : Ev} (i : Inv s) (h : step s e = some s') : Inv s' := by
  obtain ⟨perm, lockC, lockX⟩ := i
  have pc := List.perm_iff_count.1 perm
  have move : ∀ (t : St) (i : Nat) (c : Call) (p : Phase), t.calls = s.calls → s.calls[i]? = some c → got c = none →
      (∀ k, (t.chan.toList ++ queued t ++ t.dropped).count k + (got { c with phase := p }).toList.count k = (s.chan.toList ++ queued s ++ s.dropped).count k) → t.made = s.made →
      (all (t.at i p)).Perm (List.range (t.at i p).made.length) := by
    intro t i c p h1 h2 h3 h4 h5
    apply perm_of_count
    intro k
    have h6 := at_returned t i c (by rw [h1]; exact h2) p h3 k
    have h7 : returned t = returned s := by simp only [returned, h1]
    have h8 := pc k
    have h9 := h4 k
    show List.count k (returned (t.at i p) ++ t.chan.toList ++ queued t ++ t.dropped) = List.count k (List.range t.made.length)
    rw [h5, ← h8]
    simp only [all, List.count_append, h6, h7] at h9 ⊢
    omega
  have lockMove : ∀ (i j : Nat) (c : Call) (p q : Phase), s.calls[i]? = some c → c.phase ≠ q → (∃ d, s.calls[j]? = some d ∧ d.phase = q) →
      ∀ t : St, t.calls = s.calls → ∃ d, (t.at i p).calls[j]? = some d ∧ d.phase = q := by
    intro i j c p q h1 h2 ⟨d, h3, h4⟩ t ht
    rw [at_call, ht]
    by_cases hij : i = j
    · subst hij; rw [h1] at h3; cases h3; exact absurd h4 h2
    · rw [if_neg hij]; exact ⟨d, h3, h4⟩
  cases e with
  | dial t =>
    simp only [step, Option.some.injEq] at h
    subst h
    refine ⟨?_, ?_, ?_⟩
    · have : all { s with calls := s.calls ++ [⟨t, .called⟩] } = all s := by simp [all, returned, queued]
      rw [this]; exact perm
    · intro i hi
      obtain ⟨c, h1, h2⟩ := lockC i hi
      exact ⟨c, by simp only; rw [List.getElem?_append_left (List.getElem?_eq_some_iff.1 h1).1]; exact h1, h2⟩
    · intro i hi
      obtain ⟨c, h1, h2⟩ := lockX i hi
      exact ⟨c, by simp only; rw [List.getElem?_append_left (List.getElem?_eq_some_iff.1 h1).1]; exact h1, h2⟩
  | setType i =>
    simp only [step] at h
    split at h
    · rename_i c hc
      split at h <;> simp only [Option.some.injEq, reduceCtorEq] at h
      rename_i hp
      subst h
      refine ⟨move { s with shared := { s.shared with random := c.want.random } } i c .typed rfl hc (by simp [got, hp]) (by intro k; simp [got]; rfl) rfl, fun j hj => ?_, fun j hj => ?_⟩
      · exact lockMove i j c _ _ hc (by rw [hp]; simp) (lockC j hj) _ rfl
      · exact lockMove i j c _ _ hc (by rw [hp]; simp) (lockX j hj) _ rfl
    · cases h
  | setAddr i =>
    simp only [step] at h
    split at h
    · rename_i c hc
      split at h <;> simp only [Option.some.injEq, reduceCtorEq] at h
      rename_i hp
      subst h
      refine ⟨move { s with shared := { s.shared with addr := c.want.addr } } i c .ready rfl hc (by simp [got, hp]) (by intro k; simp [got]; rfl) rfl, fun j hj => ?_, fun j hj => ?_⟩
      · exact lockMove i j c _ _ hc (by rw [hp]; simp) (lockC j hj) _ rfl
      · exact lockMove i j c _ _ hc (by rw [hp]; simp) (lockX j hj) _ rfl
    · cases h
  | sendCreate i =>
    simp only [step] at h
    split at h
    · rename_i c hc hl
      split at h <;> simp only [Option.some.injEq, reduceCtorEq] at h
      rename_i hp
      subst h
      refine ⟨move { s with createLock := some i, cmds := s.cmds ++ [.create s.shared] } i c .creating rfl hc (by simp [got, hp]) (by intro k; simp [got]; rfl) rfl, fun j hj => ?_, fun j hj => ?_⟩
      · have : i = j := by simpa [St.at] using hj
        subst this
        exact ⟨{ c with phase := .creating }, by rw [at_call, if_pos rfl]; simp [hc], rfl⟩
      · exact lockMove i j c _ _ hc (by rw [hp]; simp) (lockX j hj) _ rfl
    · cases h
  | sendCancel i =>
    simp only [step] at h
    split at h
    · rename_i c hc hl
      split at h <;> simp only [Option.some.injEq, reduceCtorEq] at h
      rename_i hp
      subst h
      refine ⟨move { s with cancelLock := some i, cmds := s.cmds ++ [.cancel] } i c .cancelling rfl hc (by simp [got, hp]) (by intro k; simp [got]; rfl) rfl, fun j hj => ?_, fun j hj => ?_⟩
      · exact lockMove i j c _ _ hc (by rw [hp]; simp) (lockC j hj) _ rfl
      · have : i = j := by simpa [St.at] using hj
        subst this
        exact ⟨{ c with phase := .cancelling }, by rw [at_call, if_pos rfl]; simp [hc], rfl⟩
    · cases h
  | ctlCmd =>
    simp only [step] at h
    split at h
    · split at h <;> simp only [Option.some.injEq] at h <;> subst h <;> exact ⟨by simpa [all, returned, queued] using perm, lockC, lockX⟩
    · simp only [Option.some.injEq] at h
      subst h
      exact ⟨by simpa [all, returned, queued] using perm, lockC, lockX⟩
    · cases h
  | ctlConnect =>
    simp only [step] at h
    split at h
    · rename_i t ht
      simp only [Option.some.injEq] at h
      subst h
      refine ⟨?_, lockC, lockX⟩
      apply perm_of_count
      intro k
      have := pc k
      simp only [all, returned, queued, List.count_append, List.filterMap_append, List.filterMap_cons, List.filterMap_nil, List.length_append, List.length_singleton, List.range_succ] at this ⊢
      omega
    · cases h
  | event =>
    simp only [step] at h
    split at h
    · rename_i ok r hq
      split at h
      · rename_i i hl
        simp only [Option.some.injEq] at h
        subst h
        obtain ⟨c, hc, hp⟩ := lockC i hl
        refine ⟨move { s with evq := r, createLock := none } i c _ rfl hc (by simp [got, hp]) (by intro k; cases ok <;> simp [got, queued, hq]) rfl, fun j hj => by simp [St.at] at hj, fun j hj => ?_⟩
        exact lockMove i j c _ _ hc (by rw [hp]; simp) (lockX j hj) _ rfl
      · cases h
    · rename_i ok r hq
      split at h
      · rename_i i hl
        simp only [Option.some.injEq] at h
        subst h
        obtain ⟨c, hc, hp⟩ := lockX i hl
        refine ⟨move { s with evq := r, cancelLock := none } i c _ rfl hc (by simp [got, hp]) (by intro k; cases ok <;> simp [got, queued, hq]) rfl, fun j hj => ?_, fun j hj => by simp [St.at] at hj⟩
        exact lockMove i j c _ _ hc (by rw [hp]; simp) (lockC j hj) _ rfl
      · cases h
    · rename_i c r hq
      split at h <;> simp only [Option.some.injEq, reduceCtorEq] at h
      rename_i hch
      subst h
      refine ⟨?_, lockC, lockX⟩
      apply perm_of_count
      intro k
      have := pc k
      simp only [all, returned, queued, hq, hch, List.count_append, List.filterMap_cons, Option.toList_none, Option.toList_some, List.count_nil, List.count_cons] at this ⊢
      omega
    · cases h
  | drop =>
    simp only [step] at h
    split at h
    · rename_i c r d hq hch
      simp only [Option.some.injEq] at h
      subst h
      refine ⟨?_, lockC, lockX⟩
      apply perm_of_count
      intro k
      have := pc k
      simp only [all, returned, queued, hq, List.count_append, List.filterMap_cons, List.count_nil, List.count_cons] at this ⊢
      omega
    · cases h
  | take i =>
    simp only [step] at h
    split at h
    · rename_i c m hc hch
      split at h <;> simp only [Option.some.injEq, reduceCtorEq] at h
      rename_i hp
      subst h
      refine ⟨move { s with chan := none } i c _ rfl hc (by rcases hp with hp | hp <;> simp [got, hp]) ?_ rfl, fun j hj => ?_, fun j hj => ?_⟩
      · intro k
        simp only [got, queued, hch, List.count_append, Option.toList_none, Option.toList_some, List.count_nil]
        omega
      · exact lockMove i j c _ _ hc (by rcases hp with hp | hp <;> rw [hp] <;> simp) (lockC j hj) _ rfl
      · exact lockMove i j c _ _ hc (by rcases hp with hp | hp <;> rw [hp] <;> simp) (lockX j hj) _ rfl
    · cases h
  | interrupt i =>
    simp only [step] at h
    split at h
    · rename_i c hc
      split at h <;> simp only [Option.some.injEq, reduceCtorEq] at h
      rename_i hp
      subst h
      refine ⟨move s i c _ rfl hc (by simp [got, hp]) (by intro k; simp [got]) rfl, fun j hj => ?_, fun j hj => ?_⟩
      · exact lockMove i j c _ _ hc (by rw [hp]; simp) (lockC j hj) _ rfl
      · exact lockMove i j c _ _ hc (by rw [hp]; simp) (lockX j hj) _ rfl
    · cases h
  | giveUp i =>
    simp only [step] at h
    split at h
    · rename_i c hc hch
      split at h <;> simp only [Option.some.injEq, reduceCtorEq] at h
      rename_i hp
      subst h
      refine ⟨move s i c _ rfl hc (by simp [got, hp]) (by intro k; simp [got]) rfl, fun j hj => ?_, fun j hj => ?_⟩
      · exact lockMove i j c _ _ hc (by rw [hp]; simp) (lockC j hj) _ rfl
      · exact lockMove i j c _ _ hc (by rw [hp]; simp) (lockX j hj) _ rfl
    · cases h

theorem inv_run {es : List Ev} {s : St} (h : runT step init es = some s) : Inv s :=
  runT_ind (P := fun _ s => Inv s) ⟨List.Perm.refl _, fun i hi => by (cases hi), fun i hi => by cases hi⟩ (fun _ _ _ _ _ hp hs => inv_step hp hs) es s h

/-! ## Who is dialled -/

/-- The address type is that of one call and the address that of one. -/
def OK (ws : List Target) (t : Target) : Prop := (∃ w ∈ ws, w.random = t.random) ∧ ∃ w ∈ ws, w.addr = t.addr

theorem OK.mono {ws : List Target} {t : Target} (h : OK ws t) (vs : List Target) : OK (ws ++ vs) t :=
  ⟨h.1.elim fun w hw => ⟨w, by simp [hw.1], hw.2⟩, h.2.elim fun w hw => ⟨w, by simp [hw.1], hw.2⟩⟩

def wants (s : St) : List Target := s.calls.map (·.want)

structure Known (s : St) : Prop where
  typed : (∃ c ∈ s.calls, c.phase ≠ .called) → ∃ w ∈ wants s, w.random = s.shared.random
  addr : (∃ c ∈ s.calls, c.phase ≠ .called ∧ c.phase ≠ .typed) → ∃ w ∈ wants s, w.addr = s.shared.addr
  cmds : ∀ t, Cmd.create t ∈ s.cmds → OK (wants s) t
  ctl : ∀ t, s.ctl = some t → OK (wants s) t
  made : ∀ t ∈ s.made, OK (wants s) t

theorem wants_at (s : St) (i : Nat) (p : Phase) : wants (s.at i p) = wants s := by
  unfold wants St.at
  apply List.ext_getElem?
  intro j
  simp only [List.getElem?_map, List.getElem?_modify]
  cases s.calls[j]? with
  | none => rfl
  | some c => simp only [Option.map_some]; split <;> rfl

theorem mem_at {s : St} {i : Nat} {p : Phase} {c : Call} (h : c ∈ (s.at i p).calls) : c ∈ s.calls ∨ ∃ d, s.calls[i]? = some d ∧ c = { d with phase := p } := by
  obtain ⟨j, hj⟩ := List.mem_iff_getElem?.1 h
  rw [at_call] at hj
  split at hj
  · rename_i hij
    subst hij
    cases hd : s.calls[i]? with
    | none => rw [hd] at hj; cases hj
    | some d => rw [hd] at hj; simp only [Option.map_some, Option.some.injEq] at hj; exact .inr ⟨d, rfl, hj.symm⟩
  · exact .inl (List.mem_iff_getElem?.2 ⟨j, hj⟩)

/-- A call that moves on from a phase after writing changes nothing. -/
theorem known_move {s t : St} (k : Known s) (hc : t.calls = s.calls) (hs : t.shared = s.shared) (i : Nat) (p : Phase) (c : Call) (h : s.calls[i]? = some c)
    (h1 : c.phase ≠ .called) (h2 : c.phase ≠ .typed) (hcm : ∀ x, Cmd.create x ∈ t.cmds → OK (wants s) x) (hct : ∀ x, t.ctl = some x → OK (wants s) x) (hm : ∀ x ∈ t.made, OK (wants s) x) :
    Known (t.at i p) := by
  have hw : wants (t.at i p) = wants s := by rw [wants_at]; simp only [wants, hc]
  have hmem := List.mem_of_getElem? h
  have e1 := k.typed ⟨c, hmem, h1⟩
  have e2 := k.addr ⟨c, hmem, h1, h2⟩
  refine ⟨fun _ => ?_, fun _ => ?_, ?_, ?_, ?_⟩ <;> rw [hw]
  · show ∃ w ∈ wants s, w.random = t.shared.random
    rw [hs]; exact e1
  · show ∃ w ∈ wants s, w.addr = t.shared.addr
    rw [hs]; exact e2
  · exact hcm
  · exact hct
  · exact hm

set_option maxHeartbeats 4000000 in
theorem known_step {s s' : St} {e : Ev} (i : Inv s) (k : Known s) (h : step s e = some s') : Known s' := by
  cases e with
  | dial t =>
    simp only [step, Option.some.injEq] at h
    subst h
    have hw : wants { s with calls := s.calls ++ [⟨t, .called⟩] } = wants s ++ [t] := by simp [wants]
    refine ⟨?_, ?_, ?_, ?_, ?_⟩ <;> rw [hw]
    · rintro ⟨c, hc, hp⟩
      simp only [List.mem_append, List.mem_singleton] at hc
      rcases hc with hc | rfl
      · obtain ⟨w, h1, h2⟩ := k.typed ⟨c, hc, hp⟩; exact ⟨w, by simp [h1], h2⟩
      · exact absurd rfl hp
    · rintro ⟨c, hc, hp⟩
      simp only [List.mem_append, List.mem_singleton] at hc
      rcases hc with hc | rfl
      · obtain ⟨w, h1, h2⟩ := k.addr ⟨c, hc, hp⟩; exact ⟨w, by simp [h1], h2⟩
      · exact absurd rfl hp.1
    · exact fun x hx => (k.cmds x hx).mono _
    · exact fun x hx => (k.ctl x hx).mono _
    · exact fun x hx => (k.made x hx).mono _
  | setType i =>
    simp only [step] at h
    split at h
    · rename_i c hc
      split at h <;> simp only [Option.some.injEq, reduceCtorEq] at h
      rename_i hp
      subst h
      have hmem := List.mem_of_getElem? hc
      refine ⟨fun _ => ?_, ?_, ?_, ?_, ?_⟩ <;> rw [wants_at]
      · exact ⟨c.want, List.mem_map.2 ⟨c, hmem, rfl⟩, rfl⟩
      · rintro ⟨d, hd, h1, h2⟩
        rcases mem_at hd with hd | ⟨d', hd', rfl⟩
        · exact k.addr ⟨d, hd, h1, h2⟩
        · exact absurd rfl h2
      · exact k.cmds
      · exact k.ctl
      · exact k.made
    · cases h
  | setAddr i =>
    simp only [step] at h
    split at h
    · rename_i c hc
      split at h <;> simp only [Option.some.injEq, reduceCtorEq] at h
      rename_i hp
      subst h
      have hmem := List.mem_of_getElem? hc
      have e1 := k.typed ⟨c, hmem, by rw [hp]; simp⟩
      refine ⟨fun _ => ?_, fun _ => ?_, ?_, ?_, ?_⟩ <;> rw [wants_at]
      · exact e1
      · exact ⟨c.want, List.mem_map.2 ⟨c, hmem, rfl⟩, rfl⟩
      · exact k.cmds
      · exact k.ctl
      · exact k.made
    · cases h
  | sendCreate i =>
    simp only [step] at h
    split at h
    · rename_i c hc hl
      split at h <;> simp only [Option.some.injEq, reduceCtorEq] at h
      rename_i hp
      subst h
      have hmem := List.mem_of_getElem? hc
      refine known_move (s := s) k (by rfl) (by rfl) i _ c hc (by rw [hp]; simp) (by rw [hp]; simp) ?_ (by exact k.ctl) (by exact k.made)
      intro x hx
      simp only [List.mem_append, List.mem_singleton, Cmd.create.injEq] at hx
      rcases hx with hx | rfl
      · exact k.cmds x hx
      · exact ⟨k.typed ⟨c, hmem, by rw [hp]; simp⟩, k.addr ⟨c, hmem, by rw [hp]; simp, by rw [hp]; simp⟩⟩
    · cases h
  | sendCancel i =>
    simp only [step] at h
    split at h
    · rename_i c hc hl
      split at h <;> simp only [Option.some.injEq, reduceCtorEq] at h
      rename_i hp
      subst h
      refine known_move (s := s) k (by rfl) (by rfl) i _ c hc (by rw [hp]; simp) (by rw [hp]; simp) ?_ (by exact k.ctl) (by exact k.made)
      intro x hx
      simp only [List.mem_append, List.mem_singleton, reduceCtorEq, or_false] at hx
      exact k.cmds x hx
    · cases h
  | ctlCmd =>
    simp only [step] at h
    split at h
    · rename_i t r hq
      split at h <;> simp only [Option.some.injEq] at h <;> subst h
      · exact ⟨k.typed, k.addr, fun x hx => k.cmds x (by rw [hq]; exact List.mem_cons_of_mem _ hx), fun x hx => by cases hx; exact k.cmds _ (by rw [hq]; simp), k.made⟩
      · exact ⟨k.typed, k.addr, fun x hx => k.cmds x (by rw [hq]; exact List.mem_cons_of_mem _ hx), k.ctl, k.made⟩
    · rename_i r hq
      simp only [Option.some.injEq] at h
      subst h
      exact ⟨k.typed, k.addr, fun x hx => k.cmds x (by rw [hq]; exact List.mem_cons_of_mem _ hx), fun x hx => by (cases hx), k.made⟩
    · cases h
  | ctlConnect =>
    simp only [step] at h
    split at h
    · rename_i t ht
      simp only [Option.some.injEq] at h
      subst h
      refine ⟨k.typed, k.addr, k.cmds, fun x hx => by (cases hx), fun x hx => ?_⟩
      simp only [List.mem_append, List.mem_singleton] at hx
      rcases hx with hx | rfl
      · exact k.made x hx
      · exact k.ctl _ ht
    · cases h
  | event =>
    simp only [step] at h
    split at h
    · split at h
      · rename_i j hl
        simp only [Option.some.injEq] at h
        subst h
        obtain ⟨c, hc, hp⟩ := i.lockC j hl
        exact known_move (s := s) k (by rfl) (by rfl) j _ c hc (by rw [hp]; simp) (by rw [hp]; simp) (by exact k.cmds) (by exact k.ctl) (by exact k.made)
      · cases h
    · split at h
      · rename_i j hl
        simp only [Option.some.injEq] at h
        subst h
        obtain ⟨c, hc, hp⟩ := i.lockX j hl
        exact known_move (s := s) k (by rfl) (by rfl) j _ c hc (by rw [hp]; simp) (by rw [hp]; simp) (by exact k.cmds) (by exact k.ctl) (by exact k.made)
      · cases h
    · split at h <;> simp only [Option.some.injEq, reduceCtorEq] at h
      subst h
      exact ⟨k.typed, k.addr, k.cmds, k.ctl, k.made⟩
    · cases h
  | drop =>
    simp only [step] at h
    split at h
    · simp only [Option.some.injEq] at h
      subst h
      exact ⟨k.typed, k.addr, k.cmds, k.ctl, k.made⟩
    · cases h
  | take i =>
    simp only [step] at h
    split at h
    · rename_i c m hc hch
      split at h <;> simp only [Option.some.injEq, reduceCtorEq] at h
      rename_i hp
      subst h
      exact known_move (s := s) k (by rfl) (by rfl) i _ c hc (by rcases hp with hp | hp <;> rw [hp] <;> simp) (by rcases hp with hp | hp <;> rw [hp] <;> simp) (by exact k.cmds) (by exact k.ctl) (by exact k.made)
    · cases h
  | interrupt i =>
    simp only [step] at h
    split at h
    · rename_i c hc
      split at h <;> simp only [Option.some.injEq, reduceCtorEq] at h
      rename_i hp
      subst h
      exact known_move (s := s) k (by rfl) (by rfl) i _ c hc (by rw [hp]; simp) (by rw [hp]; simp) (by exact k.cmds) (by exact k.ctl) (by exact k.made)
    · cases h
  | giveUp i =>
    simp only [step] at h
    split at h
    · rename_i c hc hch
      split at h <;> simp only [Option.some.injEq, reduceCtorEq] at h
      rename_i hp
      subst h
      exact known_move (s := s) k (by rfl) (by rfl) i _ c hc (by rw [hp]; simp) (by rw [hp]; simp) (by exact k.cmds) (by exact k.ctl) (by exact k.made)
    · cases h

theorem known_run {es : List Ev} {s : St} (h : runT step init es = some s) : Known s :=
  (runT_ind (P := fun _ s => Inv s ∧ Known s)
    ⟨inv_run (es := []) rfl, ⟨fun ⟨_, h, _⟩ => by (cases h), fun ⟨_, h, _⟩ => by (cases h), fun _ h => by (cases h), fun _ h => by (cases h), fun _ h => by (cases h)⟩⟩
    (fun _ _ _ _ _ hp hs => ⟨inv_step hp.1 hs, known_step hp.1 hp.2 hs⟩) es s h).2

end DialsAux

open DialsAux

/-- C126: whatever calls overlap, each connection the controller has made is in exactly one place: on its way to the host, waiting to be taken, given up by the host, or the connection of the client of exactly one call. No two
calls share a connection and none is forgotten. -/
theorem dials_each_connection_once (es : List Ev) (s : St) (h : runT step init es = some s) : (returned s ++ s.chan.toList ++ queued s ++ s.dropped).Perm (List.range s.made.length) :=
  (inv_run h).perm

/-- C126: two calls never return clients on the same connection. -/
theorem dials_distinct (es : List Ev) (s : St) (h : runT step init es = some s) (i j k : Nat) (a b : Target) (hi : s.calls[i]? = some ⟨a, .done (some k)⟩) (hj : s.calls[j]? = some ⟨b, .done (some k)⟩) :
    i = j := by
  have hp := dials_each_connection_once es s h
  have hn : (returned s).Nodup := by
    have := hp.symm.nodup List.nodup_range
    simp only [List.append_assoc] at this
    exact (List.nodup_append.1 this).1
  rw [returned_eq] at hn
  apply Classical.byContradiction
  intro hne
  have key : ∀ (l : List Call) (i j : Nat), i < j → l[i]? = some ⟨a, .done (some k)⟩ → l[j]? = some ⟨b, .done (some k)⟩ → (l.filterMap got).Nodup → False := by
    intro l
    induction l with
    | nil => intro i j _ h; simp at h
    | cons x xs ih =>
      intro i j hij h1 h2 h3
      cases j with
      | zero => omega
      | succ j =>
        cases i with
        | zero =>
          simp only [List.getElem?_cons_zero, Option.some.injEq] at h1
          subst h1
          have hx : got ⟨a, .done (some k)⟩ = some k := rfl
          rw [List.filterMap_cons, hx] at h3
          simp only [List.nodup_cons] at h3
          exact h3.1 (List.mem_filterMap.2 ⟨_, List.mem_of_getElem? h2, rfl⟩)
        | succ i =>
          simp only [List.getElem?_cons_succ] at h1 h2
          refine ih i j (by omega) h1 h2 ?_
          rw [List.filterMap_cons] at h3
          split at h3
          · exact h3
          · exact (List.nodup_cons.1 h3).2
  have key2 : ∀ (l : List Call) (i j : Nat), i < j → l[i]? = some ⟨b, .done (some k)⟩ → l[j]? = some ⟨a, .done (some k)⟩ → (l.filterMap got).Nodup → False := by
    intro l
    induction l with
    | nil => intro i j _ h; simp at h
    | cons x xs ih =>
      intro i j hij h1 h2 h3
      cases j with
      | zero => omega
      | succ j =>
        cases i with
        | zero =>
          simp only [List.getElem?_cons_zero, Option.some.injEq] at h1
          subst h1
          have hx : got ⟨b, .done (some k)⟩ = some k := rfl
          rw [List.filterMap_cons, hx] at h3
          simp only [List.nodup_cons] at h3
          exact h3.1 (List.mem_filterMap.2 ⟨_, List.mem_of_getElem? h2, rfl⟩)
        | succ i =>
          simp only [List.getElem?_cons_succ] at h1 h2
          refine ih i j (by omega) h1 h2 ?_
          rw [List.filterMap_cons] at h3
          split at h3
          · exact h3
          · exact (List.nodup_cons.1 h3).2
  rcases Nat.lt_or_ge i j with hlt | hge
  · exact key _ i j hlt hi hj hn
  · exact key2 _ j i (by omega) hj hi hn

/-- C126: the client of a successful call is a client of a peer with the address of one of the calls and the address type of one of the calls. -/
theorem dials_some_peer (es : List Ev) (s : St) (h : runT step init es = some s) (i : Nat) (a b : Target) (hg : Got s i a b) :
    (∃ c ∈ s.calls, c.want.addr = b.addr) ∧ ∃ c ∈ s.calls, c.want.random = b.random := by
  obtain ⟨k, _, hk⟩ := hg
  have := (known_run h).made b (List.mem_of_getElem? hk)
  simp only [OK, wants, List.mem_map] at this
  obtain ⟨⟨w, ⟨c, hc, rfl⟩, h1⟩, ⟨w', ⟨c', hc', rfl⟩, h2⟩⟩ := this
  exact ⟨⟨c', hc', h2⟩, c, hc, h1⟩

/-- C126, the full statement: a successful call returns a client of the peer it was called for. It does, with any overlap, if all calls so far are for one peer.
Missing: calls for different peers that overlap, for which it is false (`dial_gets_other_peer`, `dial_swaps`, `dial_torn_target`). -/
theorem dials_right_peer_partial (es : List Ev) (s : St) (h : runT step init es = some s) (t : Target) (hall : ∀ c ∈ s.calls, c.want = t) (i : Nat) (a b : Target) (hg : Got s i a b) : b = a := by
  obtain ⟨⟨c, hc, h1⟩, ⟨d, hd, h2⟩⟩ := dials_some_peer es s h i a b hg
  obtain ⟨k, hi, _⟩ := hg
  have e1 := hall c hc
  have e2 := hall d hd
  have e3 := hall _ (List.mem_of_getElem? hi)
  simp only at e3
  subst e3
  rw [e1] at h1
  rw [e2] at h2
  cases a; cases b; simp_all

/-- C126 is false for overlapping calls: whatever two peers are dialled, the first call can return a client of the second's peer (and the second an error). -/
theorem dial_gets_other_peer (a b : Target) :
    ∃ s, runT step init [.dial a, .dial b, .setType 0, .setAddr 0, .setType 1, .setAddr 1, .sendCreate 0, .ctlCmd, .event, .sendCreate 1, .ctlCmd, .event, .ctlConnect, .event, .take 0] = some s ∧
      Got s 0 a b ∧ s.calls[1]? = some ⟨b, .done none⟩ := by
  refine ⟨_, rfl, ⟨0, rfl, rfl⟩, rfl⟩

/-- C126: even when neither overwrites the other's parameters, the two can get each other's connections: the second is called after the first one's connection has been made. -/
theorem dial_swaps (a b : Target) :
    ∃ s, runT step init [.dial a, .setType 0, .setAddr 0, .sendCreate 0, .ctlCmd, .event, .ctlConnect, .event, .dial b, .setType 1, .setAddr 1, .sendCreate 1, .ctlCmd, .event, .take 1, .ctlConnect, .event, .take 0] = some s ∧
      Got s 0 a b ∧ Got s 1 b a := by
  refine ⟨_, rfl, ⟨1, rfl, rfl⟩, ⟨0, rfl, rfl⟩⟩

/-- C126: and a connection can be made to a peer nobody asked for: the address of one call as an address of the other's type. -/
theorem dial_torn_target (a b : Target) :
    ∃ s, runT step init [.dial a, .dial b, .setType 0, .setType 1, .setAddr 1, .setAddr 0, .sendCreate 0, .ctlCmd, .event, .ctlConnect, .event, .take 0] = some s ∧ Got s 0 a ⟨b.random, a.addr⟩ := by
  refine ⟨_, rfl, ⟨0, rfl, rfl⟩⟩

/-- Overlapping calls for one peer: one connects, one is refused. -/
example : ∃ s, runT step init [.dial ⟨true, [1]⟩, .dial ⟨true, [1]⟩, .setType 0, .setType 1, .setAddr 1, .setAddr 0, .sendCreate 1, .ctlCmd, .event, .sendCreate 0, .ctlCmd, .ctlConnect, .event, .event, .take 1] = some s ∧
    (∀ c ∈ s.calls, c.want = ⟨true, [1]⟩) ∧ Got s 1 ⟨true, [1]⟩ ⟨true, [1]⟩ := by
  refine ⟨_, rfl, by decide, ⟨0, rfl, rfl⟩⟩

/-- C126: a connection is given up only while another one waits to be taken. -/
theorem dials_drop_only_if_full (s : St) (e : Ev) (s' : St) (h : step s e = some s') (hd : s'.dropped ≠ s.dropped) : s.chan ≠ none := by
  intro hc
  apply hd
  cases e <;> simp only [step, hc, St.at] at h <;> (repeat' split at h) <;> simp_all <;> (subst h; simp_all)

end Ble.Dials
