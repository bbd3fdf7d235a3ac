import Verif.Locks.Code
set_option autoImplicit false

/-! # A lock discipline, checked on functions and kept by interleavings -/

namespace Ble.Locks

variable {T V : Type} [DecidableEq T]

theorem drop_self (h : List (T × Bool)) (x : T × Bool) : drop (x :: h) x = h := by simp [drop]
theorem drop_ne (h : List (T × Bool)) {x y : T × Bool} (e : y ≠ x) : drop (y :: h) x = y :: drop h x := by
  unfold drop; rw [List.erase_cons_tail (by simpa using e)]
theorem mem_drop {h : List (T × Bool)} {x y : T × Bool} (hm : y ∈ drop h x) : y ∈ h := List.mem_of_mem_erase hm

/-- One step under the discipline: mutexes are locked in the order of `rank`, only held ones are unlocked, guarded variables are read with their mutex held and written with it held exclusively. The result is what is held then. -/
def disc (rank : T → Nat) (guard : V → Option T) (h : List (T × Bool)) : Act T V → Option (List (T × Bool))
  | .lock m => if h.all (fun x => decide (rank x.1 < rank m)) then some ((m, true) :: h) else none
  | .rlock m => if h.all (fun x => decide (rank x.1 < rank m)) then some ((m, false) :: h) else none
  | .unlock m => if (m, true) ∈ h then some (drop h (m, true)) else none
  | .runlock m => if (m, false) ∈ h then some (drop h (m, false)) else none
  | .read v => match guard v with
    | none => some h
    | some m => if (m, true) ∈ h ∨ (m, false) ∈ h then some h else none
  | .write v => match guard v with
    | none => some h
    | some m => if (m, true) ∈ h then some h else none
  | .other => some h

/-- Several steps. -/
def follow (rank : T → Nat) (guard : V → Option T) : List (T × Bool) → List (Act T V) → Option (List (T × Bool))
  | h, [] => some h
  | h, a :: as => (disc rank guard h a).bind fun h' => follow rank guard h' as

theorem follow_append (rank : T → Nat) (guard : V → Option T) : ∀ (as bs : List (Act T V)) (h : List (T × Bool)),
    follow rank guard h (as ++ bs) = (follow rank guard h as).bind fun h' => follow rank guard h' bs
  | [], bs, h => by simp [follow]
  | a :: as, bs, h => by
    show (disc rank guard h a).bind _ = ((disc rank guard h a).bind _).bind _
    cases disc rank guard h a with
    | none => rfl
    | some h' => exact follow_append rank guard as bs h'

/-- The order in which mutexes are locked. -/
def rank : Mutex → Nat
  | .client => 0
  | .server => 1
  | .cache => 2
  | .bond => 3
  | .coc => 4
  | .opcode => 5
  | .opcodes => 6
  | .sent => 7
  | .closing => 8
  | .conns => 9
  | .params => 10
  | .pool => 11
  | .sktClose => 12
  | .sktRead => 13
  | .sktWrite => 14
  | .sig => 15

/-- The mutex that guards a variable. -/
def guard : Var → Option Mutex
  | .sent => some .sent
  | .conns => some .conns
  | .opcodes => some .opcodes
  | .sigRsp => some .sig
  | .channels => some .coc
  | .nextCid => some .coc
  | .subs => some .client
  | .cacheFile => some .cache
  | _ => none

/-- The discipline for all sequences of steps of a function. -/
def check : Prog → List (Mutex × Bool) → Option (List (Mutex × Bool))
  | .nil, h => some h
  | .act a, h => disc rank guard h a
  | .seq p q, h => (check p h).bind fun h' => check q h'
  | .alt p q, h => if check p h = check q h then check p h else none
  | .star p, h => if check p h = some h then some h else none

theorem check_path {p : Prog} {as : List (Act Mutex Var)} (hp : p.Path as) : ∀ {h h' : List (Mutex × Bool)}, check p h = some h' → follow rank guard h as = some h' := by
  induction hp with
  | nil => intro h h' hc; exact hc
  | act a =>
    intro h h' hc
    show (disc rank guard h a).bind _ = _
    have hc : disc rank guard h a = some h' := hc
    rw [hc]; rfl
  | seq _ _ ih1 ih2 =>
    intro h h' hc
    obtain ⟨k, h1, h2⟩ := Option.bind_eq_some_iff.1 (show (check _ h).bind _ = some h' from hc)
    rw [follow_append, ih1 h1]
    exact ih2 h2
  | left _ ih =>
    intro h h' hc
    simp only [check] at hc
    split at hc
    · exact ih hc
    · cases hc
  | right _ ih =>
    intro h h' hc
    simp only [check] at hc
    split at hc
    · next he => exact ih (he ▸ hc)
    · cases hc
  | none =>
    intro h h' hc
    simp only [check] at hc
    split at hc
    · exact hc
    · cases hc
  | more _ _ ih1 ih2 =>
    intro h h' hc
    have hc' := hc
    simp only [check] at hc
    split at hc
    · next he =>
      rw [follow_append, ih1 he]
      exact ih2 hc'
    · cases hc

/-- The order and the guards of the single mutexes and variables. -/
def rankC (m : Mutex × Nat) : Nat := rank m.1
def guardC (v : Var × Nat) : Option (Mutex × Nat) := (guard v.1).map fun m => (m, v.2)

/-- The mutex of a kind, for a subject. -/
def at_ (o : Subject) (x : Mutex × Bool) : (Mutex × Nat) × Bool := ((x.1, x.1.of o), x.2)

theorem at_inj (o : Subject) {x y : Mutex × Bool} (h : at_ o x = at_ o y) : x = y := by
  rcases x with ⟨a, b⟩; rcases y with ⟨c, d⟩
  simp only [at_, Prod.mk.injEq] at h
  rw [h.1.1, h.2]

theorem mem_at (o : Subject) (h : List (Mutex × Bool)) (x : Mutex × Bool) : at_ o x ∈ h.map (at_ o) ↔ x ∈ h := by
  rw [List.mem_map]
  constructor
  · rintro ⟨y, hy, e⟩; rw [← at_inj o e]; exact hy
  · intro hx; exact ⟨x, hx, rfl⟩

theorem erase_at (o : Subject) (x : Mutex × Bool) : ∀ h : List (Mutex × Bool), drop (h.map (at_ o)) (at_ o x) = (drop h x).map (at_ o)
  | [] => rfl
  | y :: h => by
    by_cases e : y = x
    · subst e; rw [List.map_cons, drop_self, drop_self]
    · have e' : at_ o y ≠ at_ o x := fun c => e (at_inj o c)
      rw [List.map_cons, drop_ne _ e', drop_ne _ e, List.map_cons, erase_at o x h]

theorem guard_of (o : Subject) (v : Var) : guardC (v, v.of o) = (guard v).map fun m => (m, m.of o) := by
  cases v <;> rfl

theorem disc_on (o : Subject) {h h' : List (Mutex × Bool)} {a : Act Mutex Var} (hd : disc rank guard h a = some h') :
    disc rankC guardC (h.map (at_ o)) (a.on o) = some (h'.map (at_ o)) := by
  cases a with
  | lock m =>
    simp only [disc] at hd
    split at hd
    · next hc =>
      obtain rfl := Option.some.inj hd
      simp only [Act.on, disc]
      rw [if_pos]
      · rfl
      · rw [List.all_eq_true] at hc ⊢
        intro x hx
        obtain ⟨y, hy, rfl⟩ := List.mem_map.1 hx
        exact hc y hy
    · cases hd
  | rlock m =>
    simp only [disc] at hd
    split at hd
    · next hc =>
      obtain rfl := Option.some.inj hd
      simp only [Act.on, disc]
      rw [if_pos]
      · rfl
      · rw [List.all_eq_true] at hc ⊢
        intro x hx
        obtain ⟨y, hy, rfl⟩ := List.mem_map.1 hx
        exact hc y hy
    · cases hd
  | unlock m =>
    simp only [disc] at hd
    split at hd
    · next hc =>
      obtain rfl := Option.some.inj hd
      simp only [Act.on, disc]
      rw [if_pos (show ((m, Mutex.of o m), true) ∈ h.map (at_ o) from (mem_at o h (m, true)).2 hc)]
      exact congrArg some (erase_at o (m, true) h)
    · cases hd
  | runlock m =>
    simp only [disc] at hd
    split at hd
    · next hc =>
      obtain rfl := Option.some.inj hd
      simp only [Act.on, disc]
      rw [if_pos (show ((m, Mutex.of o m), false) ∈ h.map (at_ o) from (mem_at o h (m, false)).2 hc)]
      exact congrArg some (erase_at o (m, false) h)
    · cases hd
  | read v =>
    simp only [disc] at hd
    simp only [Act.on, disc, guard_of]
    cases hg : guard v with
    | none => rw [hg] at hd; simp only at hd; obtain rfl := Option.some.inj hd; rfl
    | some m =>
      rw [hg] at hd
      simp only at hd
      split at hd
      · next hc =>
        obtain rfl := Option.some.inj hd
        simp only [Option.map_some]
        rw [if_pos]
        rcases hc with hc | hc
        · exact Or.inl ((mem_at o h (m, true)).2 hc)
        · exact Or.inr ((mem_at o h (m, false)).2 hc)
      · cases hd
  | write v =>
    simp only [disc] at hd
    simp only [Act.on, disc, guard_of]
    cases hg : guard v with
    | none => rw [hg] at hd; simp only at hd; obtain rfl := Option.some.inj hd; rfl
    | some m =>
      rw [hg] at hd
      simp only at hd
      split at hd
      · next hc =>
        obtain rfl := Option.some.inj hd
        simp only [Option.map_some]
        rw [if_pos (show ((m, Mutex.of o m), true) ∈ h.map (at_ o) from (mem_at o h (m, true)).2 hc)]
      · cases hd
  | other => simp only [disc] at hd; obtain rfl := Option.some.inj hd; rfl

theorem follow_on (o : Subject) : ∀ (as : List (Act Mutex Var)) {h h' : List (Mutex × Bool)}, follow rank guard h as = some h' →
    follow rankC guardC (h.map (at_ o)) (as.map (Act.on o)) = some (h'.map (at_ o))
  | [], h, h', hf => by obtain rfl := Option.some.inj hf; rfl
  | a :: as, h, h', hf => by
    obtain ⟨k, h1, h2⟩ := Option.bind_eq_some_iff.1 (show (disc rank guard h a).bind _ = some h' from hf)
    show (disc rankC guardC _ _).bind _ = _
    rw [disc_on o h1]
    exact follow_on o as h2

/-- Every function of the library keeps the discipline and unlocks what it locks. -/
theorem library_checked : ∀ p ∈ library, check p [] = some [] := by decide

theorem runs_follow {as : List Step} (hr : Runs as) : follow rankC guardC [] as = some [] := by
  induction hr with
  | nil => rfl
  | call o hp hpath _ ih =>
    rw [follow_append, show ([] : List ((Mutex × Nat) × Bool)) = ([] : List (Mutex × Bool)).map (at_ o) from rfl, follow_on o _ (check_path hpath (library_checked _ hp))]
    exact ih

/-! ## Interleavings -/

/-- Every goroutine keeps the discipline to its end, and no mutex that is held exclusively is held by another goroutine. -/
structure Inv (s : St) : Prop where
  ok : ∀ (i : Nat) (t : Thread), s[i]? = some t → follow rankC guardC t.held t.todo = some []
  excl : ∀ (i j : Nat) (t u : Thread) (m : Mutex × Nat) (b : Bool), i ≠ j → s[i]? = some t → s[j]? = some u → (m, true) ∈ t.held → (m, b) ∉ u.held

theorem inv_start {s : St} (hp : Program s) : Inv s := by
  constructor
  · intro i t ht
    have := hp t (List.mem_of_getElem? ht)
    rw [this.1]; exact runs_follow this.2
  · intro i j t u m b _ ht _ hm
    rw [(hp t (List.mem_of_getElem? ht)).1] at hm
    cases hm

theorem get_set {s : St} {i j : Nat} {t t' u : Thread} (hi : s[i]? = some t) (hj : (s.set i t')[j]? = some u) : (j = i ∧ u = t') ∨ (j ≠ i ∧ s[j]? = some u) := by
  rw [List.getElem?_set] at hj
  split at hj
  · next e =>
    split at hj
    · left; exact ⟨e.symm, (Option.some.inj hj).symm⟩
    · cases hj
  · next e => right; exact ⟨fun c => e c.symm, hj⟩

/-- A step that leaves the discipline to be kept, and adds at most a mutex that is free. -/
theorem inv_set {s : St} {i : Nat} {t t' : Thread} (h : Inv s) (hi : s[i]? = some t) (hok : follow rankC guardC t'.held t'.todo = some [])
    (hh : ∀ (m : Mutex × Nat) (b : Bool), (m, b) ∈ t'.held → (m, b) ∈ t.held ∨ (b = true ∧ ¬ Held s m) ∨ (b = false ∧ ¬ HeldExcl s m)) : Inv (s.set i t') := by
  constructor
  · intro j u hj
    rcases get_set hi hj with ⟨rfl, rfl⟩ | ⟨_, hj⟩
    · exact hok
    · exact h.ok j u hj
  · intro j k u w m b hjk hj hk hm hb
    rcases get_set hi hj with ⟨rfl, rfl⟩ | ⟨hji, hj'⟩ <;> rcases get_set hi hk with ⟨rfl, rfl⟩ | ⟨hki, hk'⟩
    · exact hjk rfl
    · rcases hh m true hm with h1 | ⟨_, h1⟩ | ⟨h1, _⟩
      · exact h.excl _ _ _ _ m b hjk hi hk' h1 hb
      · exact h1 ⟨k, w, b, hk', hb⟩
      · cases h1
    · rcases hh m b hb with h1 | ⟨_, h1⟩ | ⟨_, h1⟩
      · exact h.excl _ _ _ _ m b hjk hj' hi hm h1
      · exact h1 ⟨j, u, true, hj', hm⟩
      · exact h1 ⟨j, u, hj', hm⟩
    · exact h.excl _ _ _ _ m b hjk hj' hk' hm hb

theorem follow_cons {t : Thread} {a : Step} {rest : List Step} (h : follow rankC guardC t.held t.todo = some []) (ht : t.todo = a :: rest) :
    ∃ k, disc rankC guardC t.held a = some k ∧ follow rankC guardC k rest = some [] := by
  rw [ht] at h
  exact Option.bind_eq_some_iff.1 h

theorem inv_next {s s' : St} {i : Nat} (h : Inv s) (hn : Next s i s') : Inv s' := by
  cases hn with
  | lock t m rest hi ht hf =>
    obtain ⟨k, h1, h2⟩ := follow_cons (h.ok i t hi) ht
    refine inv_set h hi (t' := ⟨(m, true) :: t.held, rest⟩) ?_ ?_
    · simp only [disc] at h1
      split at h1
      · obtain rfl := Option.some.inj h1; exact h2
      · cases h1
    · intro m' b hm
      rcases List.mem_cons.1 hm with e | hm
      · cases e; exact Or.inr (Or.inl ⟨rfl, hf⟩)
      · exact Or.inl hm
  | rlock t m rest hi ht hf =>
    obtain ⟨k, h1, h2⟩ := follow_cons (h.ok i t hi) ht
    refine inv_set h hi (t' := ⟨(m, false) :: t.held, rest⟩) ?_ ?_
    · simp only [disc] at h1
      split at h1
      · obtain rfl := Option.some.inj h1; exact h2
      · cases h1
    · intro m' b hm
      rcases List.mem_cons.1 hm with e | hm
      · cases e; exact Or.inr (Or.inr ⟨rfl, hf⟩)
      · exact Or.inl hm
  | unlock t m rest hi ht =>
    obtain ⟨k, h1, h2⟩ := follow_cons (h.ok i t hi) ht
    refine inv_set h hi (t' := ⟨drop t.held (m, true), rest⟩) ?_ (fun _ _ hm => Or.inl (mem_drop hm))
    simp only [disc] at h1
    split at h1
    · obtain rfl := Option.some.inj h1; exact h2
    · cases h1
  | runlock t m rest hi ht =>
    obtain ⟨k, h1, h2⟩ := follow_cons (h.ok i t hi) ht
    refine inv_set h hi (t' := ⟨drop t.held (m, false), rest⟩) ?_ (fun _ _ hm => Or.inl (mem_drop hm))
    simp only [disc] at h1
    split at h1
    · obtain rfl := Option.some.inj h1; exact h2
    · cases h1
  | read t v rest hi ht =>
    obtain ⟨k, h1, h2⟩ := follow_cons (h.ok i t hi) ht
    refine inv_set h hi (t' := ⟨t.held, rest⟩) ?_ (fun _ _ hm => Or.inl hm)
    simp only [disc] at h1
    split at h1
    · obtain rfl := Option.some.inj h1; exact h2
    · split at h1
      · obtain rfl := Option.some.inj h1; exact h2
      · cases h1
  | write t v rest hi ht =>
    obtain ⟨k, h1, h2⟩ := follow_cons (h.ok i t hi) ht
    refine inv_set h hi (t' := ⟨t.held, rest⟩) ?_ (fun _ _ hm => Or.inl hm)
    simp only [disc] at h1
    split at h1
    · obtain rfl := Option.some.inj h1; exact h2
    · split at h1
      · obtain rfl := Option.some.inj h1; exact h2
      · cases h1
  | other t rest hi ht =>
    obtain ⟨k, h1, h2⟩ := follow_cons (h.ok i t hi) ht
    refine inv_set h hi (t' := ⟨t.held, rest⟩) ?_ (fun _ _ hm => Or.inl hm)
    simp only [disc] at h1
    obtain rfl := Option.some.inj h1; exact h2

theorem inv_reaches {s s' : St} (hr : Reaches s s') (h : Inv s) : Inv s' := by
  induction hr with
  | start => exact h
  | step _ hn ih => exact inv_next ih hn

end Ble.Locks
