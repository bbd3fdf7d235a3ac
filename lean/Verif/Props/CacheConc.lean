import Verif.Props.Cache
import Verif.Props.CacheProf
import Verif.Store.CacheConc
set_option autoImplicit false

/-!
# Concurrent use of the profile cache and crashes (C194, C195)
-/

namespace Ble.CacheConc

open Ble.Store Ble.Store.CacheConc Ble.Props

variable {α : Type} {J : Json α}

/-! ## The calls one after the other -/

theorem callAll_snoc (J : Json α) : ∀ (xs : List (CacheEnv × CacheOp α)) (f : File) (e : CacheEnv) (o : CacheOp α),
    callAll J f (xs ++ [(e, o)]) = ((callOne J e (callAll J f xs).1 o).1, (callAll J f xs).2 ++ [(callOne J e (callAll J f xs).1 o).2]) := by
  intro xs
  induction xs with
  | nil => intro f e o; rfl
  | cons x xs ih => intro f e o; obtain ⟨e', o'⟩ := x; simp only [List.cons_append, callAll, ih]

theorem loadExisting_env (J : Json α) (e e' : CacheEnv) (h : e.read = e'.read) (f : File) : loadExisting J e f = loadExisting J e' f := by
  cases f <;> simp [loadExisting, h]

/-- A call that comes to `WriteFile` does nothing else to the file. -/
theorem callOne_text {e : CacheEnv} {f : File} {o : CacheOp α} {out : Bytes} (h : text J e f o = some out) (w : Write) :
    exclusive o = true ∧ callOne J { e with write := w } f o = ((writeFile w f out).1, .done (if (writeFile w f out).2 then .ok () else .err ())) := by
  cases o with
  | load a => simp [text] at h
  | clear => simp [text] at h
  | store a p r =>
    refine ⟨rfl, ?_⟩
    simp only [text] at h
    cases hl : loadExisting J e f with
    | none => rw [hl] at h; simp at h
    | some om =>
      rw [hl] at h
      cases om with
      | none => simp at h
      | some m =>
        simp only at h
        split at h
        · simp at h
        · rename_i hc
          cases p with
          | none => simp at h
          | some p =>
            simp only [Option.map_some, Option.some.injEq] at h
            subst h
            have hl' : loadExisting J { e with write := w } f = some (some m) := by rw [← hl]; exact loadExisting_env J _ _ rfl f
            simp only [callOne, cacheStore, hl', Option.getD_some, hc]
            cases w <;> simp [writeFile]

/-! ## The book of calls -/

/-- The call has not taken effect. -/
def Phase.pending : Phase α → Prop
  | .start => True
  | .locked => True
  | .writing _ _ => True
  | _ => False

/-- The call has taken effect with this result. -/
def Phase.result : Phase α → Option (Res α)
  | .returning r => some r
  | .done r => some r
  | _ => none

structure Book (s : St α) : Prop where
  logged : ∀ (i : Nat) c p, s.threads[i]? = some (c, p) → Phase.pending p → ∀ x ∈ s.log, x.id ≠ i
  ended : ∀ (i : Nat) c p r, s.threads[i]? = some (c, p) → Phase.result p = some r → (⟨i, c.env, c.op, r⟩ : Entry α) ∈ s.log
  back : ∀ x ∈ s.log, ∃ c p, s.threads[x.id]? = some (c, p) ∧ x.op = c.op ∧
    ((x.env = c.env ∧ (Phase.result p = some x.res ∨ p = .dead)) ∨ (p = .dead ∧ ∃ n, x.env = { c.env with write := .torn n }))
  once : (s.log.map (·.id)).Nodup

theorem get_set {β : Type} {l : List β} {i j : Nat} {x y : β} (h : (l.set i x)[j]? = some y) : (i = j ∧ y = x) ∨ (i ≠ j ∧ l[j]? = some y) := by
  by_cases hij : i = j
  · subst hij
    left
    rw [List.getElem?_set_self'] at h
    cases hl : l[i]? with
    | none => rw [hl] at h; simp at h
    | some z => rw [hl] at h; simp at h; exact ⟨rfl, h.symm⟩
  · right
    rw [List.getElem?_set_ne hij] at h
    exact ⟨hij, h⟩

theorem set_self {β : Type} {l : List β} {i : Nat} {x y : β} (h : l[i]? = some y) : (l.set i x)[i]? = some x := by
  rw [List.getElem?_set_self', h]; rfl

theorem book_quiet {s : St α} (h : Book s) {i : Nat} {c : Call α} {p p' : Phase α} (hi : s.threads[i]? = some (c, p)) (hp : Phase.pending p' → Phase.pending p) (hr : Phase.result p' = Phase.result p)
    (hd : p ≠ .dead) (f : File) : Book { file := f, threads := s.threads.set i (c, p'), log := s.log } := by
  refine ⟨?_, ?_, ?_, h.once⟩
  · intro j c' q hj hq
    rcases get_set hj with ⟨rfl, he⟩ | ⟨_, hj⟩
    · obtain ⟨rfl, rfl⟩ := Prod.mk.inj he; exact h.logged i _ _ hi (hp hq)
    · exact h.logged j _ _ hj hq
  · intro j c' q r hj hq
    rcases get_set hj with ⟨rfl, he⟩ | ⟨_, hj⟩
    · obtain ⟨rfl, rfl⟩ := Prod.mk.inj he; exact h.ended i _ _ _ hi (hr ▸ hq)
    · exact h.ended j _ _ _ hj hq
  · intro x hx
    obtain ⟨c', q, h1, h2, h3⟩ := h.back x hx
    by_cases hij : i = x.id
    · subst hij
      rw [hi] at h1
      obtain ⟨rfl, rfl⟩ := Prod.mk.inj (Option.some.inj h1)
      refine ⟨c, p', set_self hi, h2, ?_⟩
      rcases h3 with ⟨h4, h5 | h5⟩ | ⟨h4, _⟩
      · exact .inl ⟨h4, .inl (hr.trans h5)⟩
      · exact absurd h5 hd
      · exact absurd h4 hd
    · exact ⟨c', q, by rw [List.getElem?_set_ne hij]; exact h1, h2, h3⟩

theorem book_log {s : St α} (h : Book s) {i : Nat} {c : Call α} {p : Phase α} (hi : s.threads[i]? = some (c, p)) (hp : Phase.pending p) (r : Res α) (f : File) :
    Book { file := f, threads := s.threads.set i (c, .returning r), log := s.log ++ [⟨i, c.env, c.op, r⟩] } := by
  have hn := h.logged i c p hi hp
  refine ⟨?_, ?_, ?_, ?_⟩
  · intro j c' q hj hq x hx
    rcases get_set hj with ⟨_, he⟩ | ⟨hij, hj⟩
    · obtain ⟨rfl, rfl⟩ := Prod.mk.inj he; exact hq.elim
    · rcases List.mem_append.1 hx with hx | hx
      · exact h.logged j _ _ hj hq x hx
      · simp at hx; subst hx; exact hij
  · intro j c' q r' hj hq
    rcases get_set hj with ⟨rfl, he⟩ | ⟨_, hj⟩
    · obtain ⟨rfl, rfl⟩ := Prod.mk.inj he
      obtain rfl : r = r' := Option.some.inj hq
      simp
    · exact List.mem_append_left _ (h.ended j _ _ _ hj hq)
  · intro x hx
    rcases List.mem_append.1 hx with hx | hx
    · obtain ⟨c', q, h1, h2, h3⟩ := h.back x hx
      exact ⟨c', q, by rw [List.getElem?_set_ne (fun hij => hn x hx hij.symm)]; exact h1, h2, h3⟩
    · simp at hx; subst hx
      exact ⟨c, .returning r, set_self hi, rfl, .inl ⟨rfl, .inl rfl⟩⟩
  · show ((s.log ++ [(⟨i, c.env, c.op, r⟩ : Entry α)]).map (·.id)).Nodup
    rw [List.map_append, List.nodup_append]
    refine ⟨h.once, by simp, ?_⟩
    intro a ha b hb
    simp at hb; subst hb
    obtain ⟨x, hx, rfl⟩ := List.mem_map.1 ha
    exact hn x hx

/-! ## The invariant -/

/-- The file after the calls that took effect, one after the other. -/
def eff (J : Json α) (f0 : File) (s : St α) : File := (callAll J f0 (order s)).1

structure Inv (J : Json α) (f0 : File) (s : St α) : Prop where
  book : Book s
  res : (callAll J f0 (order s)).2 = s.log.map (·.res)
  writing : ∀ (i : Nat) c out n, s.threads[i]? = some (c, .writing out n) → text J c.env (eff J f0 s) c.op = some out ∧ ∀ k, n = some k → s.file = some (out.take k) ∧ reaches c.env.write k = true
  quiet : (∀ (i : Nat) c out n, s.threads[i]? ≠ some (c, .writing out (some n))) → s.file = eff J f0 s
  mutex : ∀ (i j : Nat) ci cj pi pj, i ≠ j → s.threads[i]? = some (ci, pi) → s.threads[j]? = some (cj, pj) → pi.holds = true → pj.holds = true → exclusive ci.op = false

theorem order_snoc (s : St α) (f : File) (ts : List (Call α × Phase α)) (x : Entry α) : order ({ file := f, threads := ts, log := s.log ++ [x] } : St α) = order s ++ [(x.env, x.op)] := by
  simp [order]

theorem free_spec {ts : List (Call α × Phase α)} {c : Call α} (h : free ts c = true) {j : Nat} {d : Call α} {p : Phase α} (hj : ts[j]? = some (d, p)) (hp : p.holds = true) (ho : d.obj = c.obj) :
    exclusive c.op = false ∧ exclusive d.op = false := by
  have := List.all_eq_true.1 h (d, p) (List.mem_of_getElem? hj)
  simp only [hp, ho, beq_self_eq_true, Bool.true_and, Bool.not_eq_true'] at this
  simpa using this

theorem mutex_set {s : St α} {i : Nat} {c : Call α} {p p' : Phase α} (hi : s.threads[i]? = some (c, p)) (hh : p'.holds = true → p.holds = true)
    (h : ∀ (i j : Nat) ci cj pi pj, i ≠ j → s.threads[i]? = some (ci, pi) → s.threads[j]? = some (cj, pj) → pi.holds = true → pj.holds = true → exclusive ci.op = false) :
    ∀ (a b : Nat) ca cb pa pb, a ≠ b → (s.threads.set i (c, p'))[a]? = some (ca, pa) → (s.threads.set i (c, p'))[b]? = some (cb, pb) → pa.holds = true → pb.holds = true → exclusive ca.op = false := by
  intro a b ca cb pa pb hab ha hb hpa hpb
  rcases get_set ha with ⟨h1, h2⟩ | ⟨_, h2⟩
  · obtain ⟨rfl, rfl⟩ := Prod.mk.inj h2
    rcases get_set hb with ⟨h3, _⟩ | ⟨_, h3⟩
    · exact absurd (h1.symm.trans h3) hab
    · exact h a b _ _ _ _ hab (h1 ▸ hi) h3 (hh hpa) hpb
  · rcases get_set hb with ⟨h3, h4⟩ | ⟨_, h3⟩
    · obtain ⟨rfl, rfl⟩ := Prod.mk.inj h4
      exact h a b _ _ _ _ hab h2 (h3 ▸ hi) hpa (hh hpb)
    · exact h a b _ _ _ _ hab h2 h3 hpa hpb

/-- While a call that excludes others holds the lock no other one writes. -/
theorem Inv.alone {f0 : File} {s : St α} (h : Inv J f0 s) {i : Nat} {c : Call α} {p : Phase α} (hi : s.threads[i]? = some (c, p)) (hp : p.holds = true)
    {j : Nat} {d : Call α} {out : Bytes} {n : Option Nat} (hj : s.threads[j]? = some (d, .writing out n)) : i = j := by
  refine Classical.byContradiction fun hij => ?_
  have h1 := (callOne_text (h.writing j d out n hj).1 .done).1
  have h2 := h.mutex j i d c _ _ (Ne.symm hij) hj hi rfl hp
  rw [h1] at h2; simp at h2

theorem zipIdx_filterMap_none {β γ : Type} (f : β × Nat → Option γ) : ∀ (l : List β) (k : Nat), (∀ (i : Nat) x, l[i]? = some x → f (x, k + i) = none) → (l.zipIdx k).filterMap f = [] := by
  intro l
  induction l with
  | nil => intro k _; rfl
  | cons x l ih =>
    intro k h
    rw [List.zipIdx_cons, List.filterMap_cons, show f (x, k) = none from h 0 x rfl]
    exact ih (k + 1) fun i y hy => by have := h (i + 1) y hy; rwa [show k + (i + 1) = k + 1 + i by omega] at this

theorem zipIdx_filterMap_one {β γ : Type} (f : β × Nat → Option γ) : ∀ (l : List β) (k i : Nat) (x : β) (y : γ), l[i]? = some x → f (x, k + i) = some y →
    (∀ (j : Nat) z, l[j]? = some z → j ≠ i → f (z, k + j) = none) → (l.zipIdx k).filterMap f = [y] := by
  intro l
  induction l with
  | nil => intro k i x y h; simp at h
  | cons a l ih =>
    intro k i x y hi hf ho
    rw [List.zipIdx_cons, List.filterMap_cons]
    cases i with
    | zero =>
      simp at hi; subst hi
      rw [show f (a, k) = some y from hf]
      simp only
      rw [zipIdx_filterMap_none f l (k + 1)]
      intro j z hz
      have := ho (j + 1) z hz (by omega)
      rwa [show k + (j + 1) = k + 1 + j by omega] at this
    | succ i =>
      rw [show f (a, k) = none from ho 0 a rfl (by omega)]
      refine ih (k + 1) i x y hi (by rwa [show k + 1 + i = k + (i + 1) by omega]) fun j z hz hji => ?_
      have := ho (j + 1) z hz (by omega)
      rwa [show k + (j + 1) = k + 1 + j by omega] at this

theorem crash_holds (p : Phase α) : p.crash.holds = false := by
  cases p <;> rfl

theorem crash_result {p : Phase α} {r : Res α} (h : Phase.result p.crash = some r) : Phase.result p = some r := by
  cases p <;> simp_all [Phase.crash, Phase.holds, Phase.result]

theorem crash_pending {p : Phase α} (h : Phase.pending p.crash) : Phase.pending p := by
  cases p <;> simp_all [Phase.crash, Phase.holds, Phase.pending]

theorem get_crash {ts : List (Call α × Phase α)} {i : Nat} {c : Call α} {q : Phase α} (h : (ts.map fun t => (t.1, t.2.crash))[i]? = some (c, q)) : ∃ p, ts[i]? = some (c, p) ∧ q = p.crash := by
  rw [List.getElem?_map] at h
  cases ht : ts[i]? with
  | none => rw [ht] at h; simp at h
  | some t =>
    rw [ht] at h
    simp at h
    obtain ⟨rfl, rfl⟩ := h
    exact ⟨t.2, rfl, rfl⟩

theorem crash_get {ts : List (Call α × Phase α)} {i : Nat} {c : Call α} {p : Phase α} (h : ts[i]? = some (c, p)) : (ts.map fun t => (t.1, t.2.crash))[i]? = some (c, p.crash) := by
  rw [List.getElem?_map, h]; rfl

/-- The book after a crash, for entries of interrupted calls. -/
theorem book_crash {s : St α} (h : Book s) (l : List (Entry α)) (hl : l = [] ∨ ∃ i c out n, s.threads[i]? = some (c, .writing out (some n)) ∧ l = [⟨i, { c.env with write := .torn n }, c.op, .done (.err ())⟩]) (f : File) :
    Book { file := f, threads := s.threads.map fun t => (t.1, t.2.crash), log := s.log ++ l } := by
  have hnew : ∀ x ∈ l, ∃ i c out n, s.threads[i]? = some (c, .writing out (some n)) ∧ x = ⟨i, { c.env with write := .torn n }, c.op, .done (.err ())⟩ := by
    intro x hx
    rcases hl with rfl | ⟨i, c, out, n, h1, rfl⟩
    · simp at hx
    · simp at hx; exact ⟨i, c, out, n, h1, hx⟩
  refine ⟨?_, ?_, ?_, ?_⟩
  · intro j c q hj hq x hx hid
    obtain ⟨p, h1, rfl⟩ := get_crash hj
    rcases List.mem_append.1 hx with hx | hx
    · exact h.logged j c p h1 (crash_pending hq) x hx hid
    · obtain ⟨i, d, out, n, h2, rfl⟩ := hnew x hx
      obtain rfl : i = j := hid
      rw [h2] at h1
      obtain ⟨rfl, rfl⟩ := Prod.mk.inj (Option.some.inj h1)
      exact hq
  · intro j c q r hj hq
    obtain ⟨p, h1, rfl⟩ := get_crash hj
    exact List.mem_append_left _ (h.ended j c p r h1 (crash_result hq))
  · intro x hx
    rcases List.mem_append.1 hx with hx | hx
    · obtain ⟨c, p, h1, h2, h3⟩ := h.back x hx
      refine ⟨c, p.crash, crash_get h1, h2, ?_⟩
      rcases h3 with ⟨h4, h5 | h5⟩ | ⟨h4, h5⟩
      · refine .inl ⟨h4, ?_⟩
        cases p <;> simp_all [Phase.crash, Phase.holds, Phase.result]
      · subst h5; exact .inl ⟨h4, .inr rfl⟩
      · subst h4; exact .inr ⟨rfl, h5⟩
    · obtain ⟨i, d, out, n, h2, rfl⟩ := hnew x hx
      exact ⟨d, .dead, crash_get h2, rfl, .inr ⟨rfl, n, rfl⟩⟩
  · show ((s.log ++ l).map (·.id)).Nodup
    rw [List.map_append, List.nodup_append]
    refine ⟨h.once, ?_, ?_⟩
    · rcases hl with rfl | ⟨i, c, out, n, _, rfl⟩ <;> simp
    · intro a ha b hb
      obtain ⟨x, hx, rfl⟩ := List.mem_map.1 ha
      obtain ⟨y, hy, rfl⟩ := List.mem_map.1 hb
      obtain ⟨i, d, out, n, h2, rfl⟩ := hnew y hy
      exact h.logged i _ _ h2 trivial x hx

/-- Calls of different devices do not hold their locks at the same time. -/
def NoOverlap (s : St α) : Prop := ∀ (i j : Nat) c d p q, s.threads[i]? = some (c, p) → s.threads[j]? = some (d, q) → p.holds = true → q.holds = true → c.obj = d.obj

theorem step_inv {f0 : File} {s s' : St α} (h : Inv J f0 s) (a : Ev) (hs : step J s a = some s') (hno : NoOverlap s') : Inv J f0 s' ∧ s.log <+: s'.log := by
  cases a with
  | acquire i =>
    simp only [step] at hs
    split at hs
    · rename_i c hi
      split at hs
      · rename_i hfree
        obtain rfl := Option.some.inj hs
        refine ⟨⟨book_quiet (p' := .locked) h.book hi (fun _ => trivial) rfl (by simp) _, h.res, ?_, ?_, ?_⟩, List.prefix_refl _⟩
        · intro j d out n hj
          rcases get_set hj with ⟨_, h2⟩ | ⟨_, h2⟩
          · simp at h2
          · exact h.writing j d out n h2
        · intro hq
          refine h.quiet fun j d out n hj => hq j d out n ?_
          have hij : i ≠ j := by rintro rfl; rw [hi] at hj; simp at hj
          show (s.threads.set i _)[j]? = _
          rw [List.getElem?_set_ne hij]; exact hj
        · intro a b ca cb pa pb hab ha hb hpa hpb
          rcases get_set ha with ⟨h1, h2⟩ | ⟨_, h2⟩
          · obtain ⟨rfl, rfl⟩ := Prod.mk.inj h2
            rcases get_set hb with ⟨h3, _⟩ | ⟨_, h3⟩
            · exact absurd (h1.symm.trans h3) hab
            · exact (free_spec hfree h3 hpb (hno _ _ _ _ _ _ hb ha hpb hpa)).1
          · rcases get_set hb with ⟨h3, h4⟩ | ⟨_, h3⟩
            · have := hno _ _ _ _ _ _ ha hb hpa hpb
              obtain ⟨rfl, rfl⟩ := Prod.mk.inj h4
              exact (free_spec hfree h2 hpa this).2
            · exact h.mutex a b _ _ _ _ hab h2 h3 hpa hpb
      · simp at hs
    · simp at hs
  | load i =>
    simp only [step] at hs
    split at hs
    · rename_i c hi
      have hnw : ∀ (j : Nat) d out n, s.threads[j]? ≠ some (d, .writing out n) := by
        intro j d out n hj
        obtain rfl := h.alone hi rfl hj
        rw [hi] at hj; simp at hj
      have hfile : s.file = eff J f0 s := h.quiet fun j d out n => hnw j d out (some n)
      split at hs
      · rename_i out ht
        obtain rfl := Option.some.inj hs
        refine ⟨⟨book_quiet (p' := .writing out none) h.book hi (fun _ => trivial) rfl (by simp) _, h.res, ?_, fun _ => hfile, mutex_set hi (fun _ => rfl) h.mutex⟩, List.prefix_refl _⟩
        intro j d o n hj
        rcases get_set hj with ⟨_, h2⟩ | ⟨_, h2⟩
        · simp only [Prod.mk.injEq, Phase.writing.injEq] at h2
          obtain ⟨rfl, rfl, rfl⟩ := h2
          exact ⟨hfile ▸ ht, by simp⟩
        · exact absurd h2 (hnw j d o n)
      · obtain rfl := Option.some.inj hs
        refine ⟨⟨book_log h.book hi trivial _ _, ?_, ?_, ?_, mutex_set hi (fun _ => rfl) h.mutex⟩, List.prefix_append _ _⟩
        · rw [order_snoc, callAll_snoc, h.res, hfile]; simp [eff]
        · intro j d o n hj
          rcases get_set hj with ⟨_, h2⟩ | ⟨_, h2⟩
          · simp at h2
          · exact absurd h2 (hnw j d o n)
        · intro _
          show (callOne J c.env s.file c.op).1 = _
          unfold eff
          rw [order_snoc, callAll_snoc, hfile]; rfl
    · simp at hs
  | chunk i n =>
    simp only [step] at hs
    split at hs
    · rename_i c out m hi
      split at hs
      · rename_i hr
        obtain rfl := Option.some.inj hs
        refine ⟨⟨book_quiet (p' := .writing out (some n)) h.book hi (fun _ => trivial) rfl (by simp) _, h.res, ?_, ?_, mutex_set hi (fun _ => rfl) h.mutex⟩, List.prefix_refl _⟩
        · intro j d o k hj
          rcases get_set hj with ⟨_, h2⟩ | ⟨hij, h2⟩
          · simp only [Prod.mk.injEq, Phase.writing.injEq] at h2
            obtain ⟨rfl, rfl, rfl⟩ := h2
            refine ⟨(h.writing i d o m hi).1, ?_⟩
            intro k hk
            obtain rfl := Option.some.inj hk
            exact ⟨rfl, hr⟩
          · exact absurd (h.alone hi rfl h2) hij
        · intro hq
          exact absurd (set_self hi) (hq i c out n)
      · simp at hs
    · simp at hs
  | written i =>
    simp only [step] at hs
    split at hs
    · rename_i c out m hi
      obtain rfl := Option.some.inj hs
      have hnw : ∀ (j : Nat) d o n, i ≠ j → s.threads[j]? ≠ some (d, .writing o n) := fun j d o n hij hj => hij (h.alone hi rfl hj)
      obtain ⟨ht, hm⟩ := h.writing i c out m hi
      have hcall := (callOne_text ht c.env.write).2
      have hw : (writeFile c.env.write s.file out) = (writeFile c.env.write (eff J f0 s) out) := by
        cases hcw : c.env.write with
        | done => rfl
        | torn k => rfl
        | refused =>
          cases m with
          | some k => have := (hm k rfl).2; rw [hcw] at this; simp [reaches] at this
          | none =>
            rw [h.quiet]
            intro j d o n hj
            by_cases hij : i = j
            · subst hij; rw [hi] at hj; simp at hj
            · exact hnw j d o _ hij hj
      refine ⟨⟨book_log h.book hi trivial _ _, ?_, ?_, ?_, mutex_set hi (fun _ => rfl) h.mutex⟩, List.prefix_append _ _⟩
      · rw [order_snoc, callAll_snoc, h.res, hw]
        simp only [List.map_append, List.map_singleton]
        exact congrArg (fun x : File × Res α => s.log.map (·.res) ++ [x.2]) hcall
      · intro j d o n hj
        rcases get_set hj with ⟨_, h2⟩ | ⟨hij, h2⟩
        · simp at h2
        · exact absurd h2 (hnw j d o n hij)
      · intro _
        show (writeFile c.env.write s.file out).1 = _
        unfold eff
        rw [order_snoc, callAll_snoc, hw]
        exact (congrArg Prod.fst hcall).symm
    · simp at hs
  | ret i =>
    simp only [step] at hs
    split at hs
    · rename_i c r hi
      obtain rfl := Option.some.inj hs
      refine ⟨⟨book_quiet (p' := .done r) h.book hi (fun hp => False.elim hp) rfl (by simp) _, h.res, ?_, ?_, mutex_set hi (fun _ => rfl) h.mutex⟩, List.prefix_refl _⟩
      · intro j d out n hj
        rcases get_set hj with ⟨_, h2⟩ | ⟨_, h2⟩
        · simp at h2
        · exact h.writing j d out n h2
      · intro hq
        refine h.quiet fun j d out n hj => hq j d out n ?_
        have hij : i ≠ j := by rintro rfl; rw [hi] at hj; simp at hj
        show (s.threads.set i _)[j]? = _
        rw [List.getElem?_set_ne hij]; exact hj
    · simp at hs
  | crash =>
    simp only [step] at hs
    obtain rfl := Option.some.inj hs
    refine ⟨?_, List.prefix_append _ _⟩
    have hmut : ∀ (a b : Nat) ca cb pa pb, a ≠ b → (s.threads.map fun t => (t.1, t.2.crash))[a]? = some (ca, pa) → (s.threads.map fun t => (t.1, t.2.crash))[b]? = some (cb, pb) →
        pa.holds = true → pb.holds = true → exclusive ca.op = false := by
      intro a b ca cb pa pb _ ha _ hpa
      obtain ⟨p, _, rfl⟩ := get_crash ha
      rw [crash_holds] at hpa; simp at hpa
    have hwr : ∀ (j : Nat) d out n, (s.threads.map fun t => (t.1, t.2.crash))[j]? ≠ some (d, .writing out n) := by
      intro j d out n hj
      obtain ⟨p, _, hp⟩ := get_crash hj
      have := crash_holds p
      rw [← hp] at this; simp [Phase.holds] at this
    by_cases hex : ∃ (i : Nat) (c : Call α) (out : Bytes) (n : Nat), s.threads[i]? = some (c, Phase.writing out (some n))
    · obtain ⟨i, c, out, n, hi⟩ := hex
      have hl : s.threads.zipIdx.filterMap torn = [⟨i, { c.env with write := .torn n }, c.op, .done (.err ())⟩] := by
        refine zipIdx_filterMap_one torn s.threads 0 i _ _ hi (by simp [torn]) ?_
        intro j z hz hji
        obtain ⟨d, q⟩ := z
        cases q with
        | writing o m => exact absurd (h.alone hi rfl hz) (Ne.symm hji)
        | _ => rfl
      rw [hl]
      obtain ⟨ht, hm⟩ := h.writing i c out (some n) hi
      obtain ⟨hf, hre⟩ := hm n rfl
      have hcall := (callOne_text ht (.torn n)).2
      refine ⟨book_crash h.book _ (.inr ⟨i, c, out, n, hi, rfl⟩) _, ?_, fun j d o m hj => absurd hj (hwr j d o m), ?_, hmut⟩
      · rw [order_snoc, callAll_snoc, h.res]
        simp only [List.map_append, List.map_singleton]
        exact congrArg (fun x : File × Res α => s.log.map (·.res) ++ [x.2]) hcall
      · intro _
        show s.file = _
        unfold eff
        rw [order_snoc, callAll_snoc, hf]
        exact (congrArg Prod.fst hcall).symm
    · have hl : s.threads.zipIdx.filterMap torn = [] := by
        refine zipIdx_filterMap_none torn s.threads 0 ?_
        intro j z hz
        obtain ⟨d, q⟩ := z
        cases q with
        | writing o m =>
          cases m with
          | none => rfl
          | some m => exact absurd ⟨j, d, o, m, hz⟩ hex
        | _ => rfl
      rw [hl]
      have hor : order ({ file := s.file, threads := s.threads.map fun t => (t.1, t.2.crash), log := s.log ++ [] } : St α) = order s := by simp [order]
      refine ⟨book_crash h.book _ (.inl rfl) _, ?_, fun j d o m hj => absurd hj (hwr j d o m), ?_, hmut⟩
      · rw [hor, h.res]; simp
      · intro _
        show s.file = _
        unfold eff
        rw [hor]
        exact h.quiet fun j d o m hj => hex ⟨j, d, o, m, hj⟩

theorem run_inv {f0 : File} : ∀ (as : List Ev) {s s' : St α}, Inv J f0 s → run J s as = some s' → (∀ p t, p <+: as → run J s p = some t → NoOverlap t) → Inv J f0 s' ∧ s.log <+: s'.log := by
  intro as
  induction as with
  | nil => intro s s' h hr _; obtain rfl := Option.some.inj hr; exact ⟨h, List.prefix_refl _⟩
  | cons a as ih =>
    intro s s' h hr hno
    simp only [run, runT] at hr
    cases hs : step J s a with
    | none => rw [hs] at hr; simp at hr
    | some s1 =>
      rw [hs] at hr
      obtain ⟨h1, h2⟩ := step_inv h a hs (hno [a] s1 (List.prefix_append [a] as) (by simp [run, runT, hs]))
      obtain ⟨h3, h4⟩ := ih h1 hr fun p t hp ht => hno (a :: p) t ((List.prefix_cons_inj a).2 hp) (by simp only [run, runT, hs]; exact ht)
      exact ⟨h3, h2.trans h4⟩

theorem init_get {f0 : File} {cs : List (Call α)} {i : Nat} {c : Call α} {p : Phase α} (h : (init f0 cs).threads[i]? = some (c, p)) : p = .start ∧ c ∈ cs := by
  simp only [init, List.getElem?_map, Option.map_eq_some_iff] at h
  obtain ⟨c', h1, h2⟩ := h
  obtain ⟨rfl, rfl⟩ := Prod.mk.inj h2
  exact ⟨rfl, List.mem_of_getElem? h1⟩

theorem init_inv {f0 : File} {cs : List (Call α)} : Inv J f0 (init f0 cs) := by
  refine ⟨⟨fun _ _ _ _ _ x hx => by simp [init] at hx, ?_, fun x hx => by simp [init] at hx, by simp [init]⟩, rfl, ?_, fun _ => rfl, ?_⟩
  · intro i c p r hi hr; obtain ⟨rfl, _⟩ := init_get hi; simp [Phase.result] at hr
  · intro i c out n hi; have := (init_get hi).1; simp at this
  · intro i j ci cj pi pj _ hi _ hp; obtain ⟨rfl, _⟩ := init_get hi; simp [Phase.holds] at hp

/-- The threads of a run are the calls it was given. -/
theorem threads_step {s s' : St α} {a : Ev} (hs : step J s a = some s') : s'.threads.map (·.1) = s.threads.map (·.1) := by
  have key : ∀ {i : Nat} {c : Call α} {p q : Phase α}, s.threads[i]? = some (c, p) → s'.threads = s.threads.set i (c, q) → s'.threads.map (·.1) = s.threads.map (·.1) := by
    intro i c p q hi ht
    rw [ht]
    apply List.ext_getElem?
    intro j
    rw [List.getElem?_map, List.getElem?_map]
    by_cases hij : i = j
    · subst hij; rw [set_self hi, hi]; rfl
    · rw [List.getElem?_set_ne hij]
  cases a with
  | crash => simp only [step] at hs; obtain rfl := Option.some.inj hs; simp
  | acquire i =>
    simp only [step] at hs
    split at hs
    · rename_i hi
      split at hs
      · obtain rfl := Option.some.inj hs; exact key hi rfl
      · simp at hs
    · simp at hs
  | load i =>
    simp only [step] at hs
    split at hs
    · rename_i hi
      split at hs
      · obtain rfl := Option.some.inj hs; exact key hi rfl
      · obtain rfl := Option.some.inj hs; exact key hi rfl
    · simp at hs
  | chunk i n =>
    simp only [step] at hs
    split at hs
    · rename_i hi
      split at hs
      · obtain rfl := Option.some.inj hs; exact key hi rfl
      · simp at hs
    · simp at hs
  | written i =>
    simp only [step] at hs
    split at hs
    · rename_i hi
      obtain rfl := Option.some.inj hs; exact key hi rfl
    · simp at hs
  | ret i =>
    simp only [step] at hs
    split at hs
    · rename_i hi
      obtain rfl := Option.some.inj hs; exact key hi rfl
    · simp at hs

theorem threads_run : ∀ (as : List Ev) {s s' : St α}, run J s as = some s' → s'.threads.map (·.1) = s.threads.map (·.1) := by
  intro as
  induction as with
  | nil => intro s s' hr; obtain rfl := Option.some.inj hr; rfl
  | cons a as ih =>
    intro s s' hr
    simp only [run, runT] at hr
    cases hs : step J s a with
    | none => rw [hs] at hr; simp at hr
    | some s1 => rw [hs] at hr; exact (ih hr).trans (threads_step hs)

theorem thread_call {f0 : File} {cs : List (Call α)} {as : List Ev} {s : St α} (hr : run J (init f0 cs) as = some s) {i : Nat} {c : Call α} {p : Phase α} (hi : s.threads[i]? = some (c, p)) : cs[i]? = some c := by
  have h := threads_run as hr
  have h1 : (init f0 cs).threads.map (·.1) = cs := by simp [init, List.map_map, Function.comp_def]
  rw [h1] at h
  rw [← h, List.getElem?_map, hi]; rfl

/-- Calls of one device do not overlap with those of another. -/
theorem one_device {f0 : File} {cs : List (Call α)} {ob : Nat} (hob : ∀ c ∈ cs, c.obj = ob) {as : List Ev} {s : St α} (hr : run J (init f0 cs) as = some s) : NoOverlap s := by
  intro i j c d p q hi hj _ _
  rw [hob c (List.mem_of_getElem? (thread_call hr hi)), hob d (List.mem_of_getElem? (thread_call hr hj))]

theorem no_overlap_after {f0 : File} {cs : List (Call α)} {ob : Nat} (hob : ∀ c ∈ cs, c.obj = ob) {as : List Ev} {s : St α} (hr : run J (init f0 cs) as = some s) (p : List Ev) (t : St α)
    (ht : run J s p = some t) : NoOverlap t := one_device hob (runT_append.2 ⟨s, hr, ht⟩ : run J (init f0 cs) (as ++ p) = some t)

/-! ## The theorems -/

/-- C194. Calls made at the same time on the cache of one device, whatever the file held, whatever the file system does and whenever the process crashes, in any interleaving: the calls that took effect, each once, give the same
results when they are made one after the other in this order; a call that returned took effect with the result it returned; what took effect is a call that is about to return, has returned, or was in progress at a
crash, and then possibly cut off in the middle of its writing. While nobody is writing, the file is the one these calls leave. -/
theorem cache_linearizable (J : Json α) (f0 : File) (cs : List (Call α)) (ob : Nat) (hob : ∀ c ∈ cs, c.obj = ob) (as : List Ev) (s : St α) (hr : run J (init f0 cs) as = some s) :
    (callAll J f0 (order s)).2 = s.log.map (·.res) ∧ (s.log.map (·.id)).Nodup ∧
    (∀ (i : Nat) c r, s.threads[i]? = some (c, .done r) → ⟨i, c.env, c.op, r⟩ ∈ s.log) ∧
    (∀ x ∈ s.log, ∃ c p, s.threads[x.id]? = some (c, p) ∧ x.op = c.op ∧
      ((x.env = c.env ∧ (p = .returning x.res ∨ p = .done x.res ∨ p = .dead)) ∨ (p = .dead ∧ ∃ n, x.env = { c.env with write := .torn n }))) ∧
    ((∀ (i : Nat) c out n, s.threads[i]? ≠ some (c, .writing out (some n))) → s.file = (callAll J f0 (order s)).1) := by
  obtain ⟨h, _⟩ := run_inv as (init_inv (J := J)) hr fun p t _ ht => one_device hob ht
  refine ⟨h.res, h.book.once, fun i c r hi => h.book.ended i c _ r hi rfl, ?_, h.quiet⟩
  intro x hx
  obtain ⟨c, p, h1, h2, h3⟩ := h.book.back x hx
  refine ⟨c, p, h1, h2, ?_⟩
  rcases h3 with ⟨h4, h5 | h5⟩ | h4
  · refine .inl ⟨h4, ?_⟩
    cases p <;> simp_all [Phase.result]
  · exact .inl ⟨h4, .inr (.inr h5)⟩
  · exact .inr h4

/-- C194. That order agrees with time: it only grows at its end, so a call that returned, also one that returned before a crash, comes before every call that has not begun. -/
theorem cache_real_time (J : Json α) (f0 : File) (cs : List (Call α)) (ob : Nat) (hob : ∀ c ∈ cs, c.obj = ob) (as bs : List Ev) (s s' : St α) (hr : run J (init f0 cs) as = some s) (hr' : run J s bs = some s')
    (i j : Nat) (ci cj : Call α) (r : Res α) (hi : s.threads[i]? = some (ci, .done r)) (hj : s.threads[j]? = some (cj, .start)) :
    ∃ l, s'.log = s.log ++ l ∧ ⟨i, ci.env, ci.op, r⟩ ∈ s.log ∧ ∀ x ∈ s'.log, x.id = j → x ∈ l := by
  obtain ⟨h, _⟩ := run_inv as (init_inv (J := J)) hr fun p t _ ht => one_device hob ht
  obtain ⟨_, l, hl⟩ := run_inv bs h hr' fun p t _ ht => no_overlap_after hob hr p t ht
  refine ⟨l, hl.symm, h.book.ended i ci _ r hi rfl, ?_⟩
  intro x hx hid
  rw [← hl] at hx
  rcases List.mem_append.1 hx with hx | hx
  · exact absurd hid (h.book.logged j cj _ hj trivial x hx)
  · exact hx

theorem callAll_file (J : Json α) : ∀ (os : List (CacheEnv × CacheOp α)) (f : File), (callAll J f os).1 = cacheCalls J f os := by
  intro os
  induction os with
  | nil => intro f; rfl
  | cons x os ih =>
    intro f
    obtain ⟨e, o⟩ := x
    simp only [callAll, cacheCalls, ih]
    cases o <;> rfl

theorem callAll_append (J : Json α) : ∀ (xs ys : List (CacheEnv × CacheOp α)) (f : File), (callAll J f (xs ++ ys)).2 = (callAll J f xs).2 ++ (callAll J (callAll J f xs).1 ys).2 := by
  intro xs
  induction xs with
  | nil => intro ys f; rfl
  | cons x xs ih => intro ys f; obtain ⟨e, o⟩ := x; simp only [List.cons_append, callAll, ih]

theorem callAll_length (J : Json α) : ∀ (xs : List (CacheEnv × CacheOp α)) (f : File), (callAll J f xs).2.length = xs.length := by
  intro xs
  induction xs with
  | nil => intro f; rfl
  | cons x xs ih => intro f; obtain ⟨e, o⟩ := x; simp only [callAll, List.length_cons, ih]

theorem alive_step {s s' : St α} {a : Ev} (ha : a ≠ .crash) (hs : step J s a = some s') (h : ∀ (i : Nat) c, s.threads[i]? ≠ some (c, .dead)) : ∀ (i : Nat) c, s'.threads[i]? ≠ some (c, .dead) := by
  intro j d hj
  have key : ∀ {i : Nat} {c : Call α} {p : Phase α}, s'.threads = s.threads.set i (c, p) → p ≠ .dead → False := by
    intro i c p ht hp
    rw [ht] at hj
    rcases get_set hj with ⟨_, h2⟩ | ⟨_, h2⟩
    · exact hp (Prod.mk.inj h2).2.symm
    · exact h j d h2
  cases a with
  | crash => exact ha rfl
  | acquire i =>
    simp only [step] at hs
    split at hs
    · split at hs
      · obtain rfl := Option.some.inj hs; exact key rfl (by simp)
      · simp at hs
    · simp at hs
  | load i =>
    simp only [step] at hs
    split at hs
    · split at hs
      · obtain rfl := Option.some.inj hs; exact key rfl (by simp)
      · obtain rfl := Option.some.inj hs; exact key rfl (by simp)
    · simp at hs
  | chunk i n =>
    simp only [step] at hs
    split at hs
    · split at hs
      · obtain rfl := Option.some.inj hs; exact key rfl (by simp)
      · simp at hs
    · simp at hs
  | written i =>
    simp only [step] at hs
    split at hs
    · obtain rfl := Option.some.inj hs; exact key rfl (by simp)
    · simp at hs
  | ret i =>
    simp only [step] at hs
    split at hs
    · obtain rfl := Option.some.inj hs; exact key rfl (by simp)
    · simp at hs

theorem alive_run : ∀ (as : List Ev) {s s' : St α}, Ev.crash ∉ as → run J s as = some s' → (∀ (i : Nat) c, s.threads[i]? ≠ some (c, .dead)) → ∀ (i : Nat) c, s'.threads[i]? ≠ some (c, .dead) := by
  intro as
  induction as with
  | nil => intro s s' _ hr h; obtain rfl := Option.some.inj hr; exact h
  | cons a as ih =>
    intro s s' hn hr h
    simp only [run, runT] at hr
    cases hs : step J s a with
    | none => rw [hs] at hr; simp at hr
    | some s1 =>
      rw [hs] at hr
      exact ih (fun hm => hn (List.mem_cons_of_mem _ hm)) hr (alive_step (fun ha => hn (ha ▸ List.mem_cons_self)) hs h)

theorem calls_after (ops : List (CacheOp α)) (J : Json α) (mac : Text) :
    cacheLoad J CacheEnv.fine (cacheCalls J none (ops.map fun o => (CacheEnv.fine, o))) mac = (match storedProfile mac none ops with | some p => .ok p | none => .err ()) :=
  (cache_is_map J ops mac none false).1

/-- C194, what it means for `Load`: with a file system that works, on a new cache, as long as the process runs: a `Load` that has taken effect returned the first profile stored for its address, or the last one stored with `replace`, by the calls
before it since the last `Clear`, or an error if there is none. -/
theorem concurrent_loads (J : Json α) (cs : List (Call α)) (ob : Nat) (hob : ∀ c ∈ cs, c.obj = ob ∧ c.env = CacheEnv.fine) (as : List Ev) (hc : Ev.crash ∉ as) (s : St α) (hr : run J (init none cs) as = some s)
    (pre post : List (Entry α)) (x : Entry α) (hl : s.log = pre ++ x :: post) (mac : Text) (hx : x.op = .load mac) :
    x.res = .profile (match storedProfile mac none (pre.map (·.op)) with | some p => .ok p | none => .err ()) := by
  obtain ⟨h1, _, _, h4, _⟩ := cache_linearizable J none cs ob (fun c hc => (hob c hc).1) as s hr
  have hfine : ∀ y ∈ s.log, y.env = CacheEnv.fine := by
    intro y hy
    obtain ⟨c, p, h5, _, h6⟩ := h4 y hy
    have hd := alive_run as hc hr (fun i c hi => by have := (init_get hi).1; simp at this)
    have hce : c.env = CacheEnv.fine := (hob c (List.mem_of_getElem? (thread_call hr h5))).2
    rcases h6 with ⟨h7, _⟩ | ⟨h7, _⟩
    · rw [h7, hce]
    · subst h7; exact absurd h5 (hd _ _)
  have hpre : order ({ file := none, threads := [], log := pre } : St α) = (pre.map (·.op)).map fun o => (CacheEnv.fine, o) := by
    simp only [order, List.map_map]
    refine List.map_congr_left fun y hy => ?_
    simp [hfine y (by rw [hl]; exact List.mem_append_left _ hy)]
  have hord : order s = order ({ file := none, threads := [], log := pre } : St α) ++ (x.env, x.op) :: post.map (fun y => (y.env, y.op)) := by simp [order, hl]
  rw [hord, callAll_append, hl, List.map_append] at h1
  have hlen : (callAll J none (order ({ file := none, threads := [], log := pre } : St α))).2.length = (pre.map (·.res)).length := by rw [callAll_length]; simp [order]
  have h2 := (List.append_inj h1 hlen).2
  simp only [callAll, List.map_cons, List.cons.injEq] at h2
  rw [← h2.1, callAll_file, hpre, hx, hfine x (by rw [hl]; simp)]
  simp only [callOne]
  rw [calls_after]

/-! ## Every call returns -/

/-- The call is over. -/
def Phase.over : Phase α → Bool
  | .done _ => true
  | .dead => true
  | _ => false

def Phase.left : Phase α → Nat
  | .start => 4
  | .locked => 3
  | .writing _ _ => 2
  | .returning _ => 1
  | _ => 0

theorem left_set {ts : List (Call α × Phase α)} : ∀ {i : Nat} {c : Call α} {p p' : Phase α}, ts[i]? = some (c, p) → Phase.left p' < Phase.left p →
    ((ts.set i (c, p')).map fun t => Phase.left t.2).sum < (ts.map fun t => Phase.left t.2).sum := by
  induction ts with
  | nil => intro i c p p' h; simp at h
  | cons t ts ih =>
    intro i c p p' h hl
    cases i with
    | zero => simp at h; subst h; simp; exact hl
    | succ i => simp only [List.set_cons_succ, List.map_cons, List.sum_cons]; exact Nat.add_lt_add_left (ih h hl) _

/-- Some call that is not over can go on, without a crash. -/
theorem can_go_on {f0 : File} {s : St α} (h : Inv J f0 s) (hn : ∃ t ∈ s.threads, Phase.over t.2 = false) :
    ∃ e s', step J s e = some s' ∧ e ≠ .crash ∧ (s'.threads.map fun t => Phase.left t.2).sum < (s.threads.map fun t => Phase.left t.2).sum := by
  by_cases hh : ∃ (i : Nat) (c : Call α) (p : Phase α), s.threads[i]? = some (c, p) ∧ p.holds = true
  · obtain ⟨i, c, p, hi, hp⟩ := hh
    cases p with
    | start => simp [Phase.holds] at hp
    | done r => simp [Phase.holds] at hp
    | dead => simp [Phase.holds] at hp
    | locked =>
      cases ht : text J c.env s.file c.op with
      | some out => refine ⟨.load i, _, by (simp only [step, hi, ht]; first | done | rfl), by simp, ?_⟩; exact left_set hi (by simp [Phase.left])
      | none => refine ⟨.load i, _, by (simp only [step, hi, ht]; first | done | rfl), by simp, ?_⟩; exact left_set hi (by simp [Phase.left])
    | writing out n => refine ⟨.written i, _, by (simp only [step, hi]; first | done | rfl), by simp, ?_⟩; exact left_set hi (by simp [Phase.left])
    | returning r => refine ⟨.ret i, _, by (simp only [step, hi]; first | done | rfl), by simp, ?_⟩; exact left_set hi (by simp [Phase.left])
  · obtain ⟨⟨c, p⟩, hm, ho⟩ := hn
    obtain ⟨i, hi⟩ := List.getElem?_of_mem hm
    cases p with
    | start =>
      have hf : free s.threads c = true := by
        simp only [free, List.all_eq_true]
        intro t ht
        obtain ⟨j, hj⟩ := List.getElem?_of_mem ht
        cases hth : t.2.holds with
        | false => simp
        | true => exact absurd ⟨j, t.1, t.2, hj, hth⟩ hh
      refine ⟨.acquire i, _, by (simp only [step, hi, hf, if_true]; first | done | rfl), by simp, ?_⟩; exact left_set hi (by simp [Phase.left])
    | locked => exact absurd ⟨i, c, _, hi, rfl⟩ hh
    | writing out n => exact absurd ⟨i, c, _, hi, rfl⟩ hh
    | returning r => exact absurd ⟨i, c, _, hi, rfl⟩ hh
    | done r => simp [Phase.over] at ho
    | dead => simp [Phase.over] at ho

/-- C194. Nothing gets stuck: from every state that can be reached the calls can all be carried through; those not interrupted by a crash return. -/
theorem cache_calls_return (J : Json α) (f0 : File) (cs : List (Call α)) (ob : Nat) (hob : ∀ c ∈ cs, c.obj = ob) (as : List Ev) (s : St α) (hr : run J (init f0 cs) as = some s) :
    ∃ bs s', run J s bs = some s' ∧ Ev.crash ∉ bs ∧ ∀ (i : Nat) c p, s'.threads[i]? = some (c, p) → (∃ r, p = .done r) ∨ p = .dead := by
  have h := (run_inv as (init_inv (J := J)) hr fun p t _ ht => one_device hob ht).1
  generalize hn : (s.threads.map fun t => Phase.left t.2).sum = n
  induction n using Nat.strongRecOn generalizing s as with
  | ind n ih =>
    by_cases ho : ∃ t ∈ s.threads, Phase.over t.2 = false
    · obtain ⟨e, s1, h1, h2, h3⟩ := can_go_on h ho
      obtain ⟨bs, s', h4, h5, h6⟩ := ih _ (hn ▸ h3) (as ++ [e]) s1 (runT_snoc.2 ⟨s, hr, h1⟩) (step_inv h e h1 (no_overlap_after hob hr [e] s1 (by simp [run, runT, h1]))).1 rfl
      refine ⟨e :: bs, s', ?_, ?_, h6⟩
      · simp only [run, runT, h1]; exact h4
      · intro hm
        rcases List.mem_cons.1 hm with hm | hm
        · exact h2 hm.symm
        · exact h5 hm
    · refine ⟨[], s, rfl, by simp, ?_⟩
      intro i c p hi
      have hov : Phase.over p = true := by
        cases hp : Phase.over p with
        | true => rfl
        | false => exact absurd ⟨(c, p), List.mem_of_getElem? hi, hp⟩ ho
      cases p <;> simp_all [Phase.over]

/-- The hypotheses are met: two clients store profiles of their peers while a third loads, then the process crashes while a fourth call writes; a load made afterwards fails. -/
theorem example_cache_run (J : Json α) (a b : Text) (p q : α) : ∃ s,
    run J (init none [⟨0, .fine, .store a (some p) true⟩, ⟨0, .fine, .load a⟩, ⟨0, .fine, .store b (some q) true⟩, ⟨0, .fine, .load a⟩])
      [.acquire 0, .load 0, .chunk 0 1, .written 0, .ret 0, .acquire 1, .load 1, .ret 1, .acquire 2, .load 2, .chunk 2 1, .crash, .acquire 3, .load 3, .ret 3] = some s ∧
    s.threads[1]? = some (⟨0, .fine, .load a⟩, .done (.profile (.ok p))) ∧ s.threads[3]? = some (⟨0, .fine, .load a⟩, .done (.profile (.err ()))) ∧
    s.log.map (·.id) = [0, 1, 2, 3] := by
  obtain ⟨m1, d1, l1⟩ := J.roundtrip (put [] a p)
  have la : m1.lookup a = some p := by rw [l1]; simp [put]
  have e1 : cacheLoad J CacheEnv.fine (some (J.enc (put [] a p))) a = .ok p := by simp [cacheLoad, loadExisting, CacheEnv.fine, d1, la]
  have hcut := J.cut (put m1 b q) 1 (by have := J.braces (put m1 b q); omega)
  have t0 : text J CacheEnv.fine none (.store a (some p) true) = some (J.enc (put [] a p)) := by simp [text, loadExisting]
  have t1 : text J CacheEnv.fine (some (J.enc (put [] a p))) (.store b (some q) true) = some (J.enc (put m1 b q)) := by simp [text, loadExisting, CacheEnv.fine, d1]
  have x3 : cacheLoad J CacheEnv.fine (some ((J.enc (put m1 b q)).take 1)) a = .err () := by simp [cacheLoad, loadExisting, CacheEnv.fine, hcut]
  refine ⟨⟨some ((J.enc (put m1 b q)).take 1), [(⟨0, .fine, .store a (some p) true⟩, .done (.done (.ok ()))), (⟨0, .fine, .load a⟩, .done (.profile (.ok p))), (⟨0, .fine, .store b (some q) true⟩, .dead),
      (⟨0, .fine, .load a⟩, .done (.profile (.err ())))],
    [⟨0, .fine, .store a (some p) true, .done (.ok ())⟩, ⟨1, .fine, .load a, .profile (.ok p)⟩, ⟨2, { CacheEnv.fine with write := .torn 1 }, .store b (some q) true, .done (.err ())⟩, ⟨3, .fine, .load a, .profile (.err ())⟩]⟩,
    ?_, rfl, rfl, rfl⟩
  have hw : CacheEnv.fine.write = .done := rfl
  have tl : ∀ f x, text J CacheEnv.fine f (.load x) = none := fun _ _ => rfl
  simp [run, runT, step, init, free, Phase.holds, exclusive, t0, t1, tl, writeFile, hw, reaches, callOne, e1, x3, Phase.crash, List.zipIdx]
  rfl

/-- C195, as long as calls of different devices do not hold their locks at the same time: any number of devices that share the cache file, whatever the file system does and whenever the process crashes, keep it as if the calls that took effect, each
once, were made one after the other, and each call that returned took effect with the result it returned. Missing: overlapping calls of different devices, for which it fails (`two_devices_lose`). -/
theorem devices_share_partial (J : Json α) (f0 : File) (cs : List (Call α)) (as : List Ev) (s : St α) (hr : run J (init f0 cs) as = some s) (hno : ∀ p t, p <+: as → run J (init f0 cs) p = some t → NoOverlap t) :
    (callAll J f0 (order s)).2 = s.log.map (·.res) ∧ (s.log.map (·.id)).Nodup ∧
    (∀ (i : Nat) c r, s.threads[i]? = some (c, .done r) → ⟨i, c.env, c.op, r⟩ ∈ s.log) ∧
    ((∀ (i : Nat) c out n, s.threads[i]? ≠ some (c, .writing out (some n))) → s.file = (callAll J f0 (order s)).1) := by
  obtain ⟨h, _⟩ := run_inv as (init_inv (J := J)) hr hno
  exact ⟨h.res, h.book.once, fun i c r hi => h.book.ended i c _ r hi rfl, h.quiet⟩

/-- C195, negative: two devices given the same cache file have a lock each. Both store a profile, both calls return nil, and one of the profiles is gone, although in both orders one after the other both are kept. -/
theorem two_devices_lose (J : Json α) (a b : Text) (hab : a ≠ b) (p q : α) :
    (∃ s, run J (init none [⟨0, .fine, .store a (some p) true⟩, ⟨1, .fine, .store b (some q) true⟩]) [.acquire 0, .acquire 1, .load 0, .load 1, .written 0, .ret 0, .written 1, .ret 1] = some s ∧
      s.threads.map (·.2) = [.done (.done (.ok ())), .done (.done (.ok ()))] ∧ cacheLoad J .fine s.file a = .err () ∧ cacheLoad J .fine s.file b = .ok q) ∧
    (∀ x ∈ [a, b], ∃ r, cacheLoad J .fine (callAll J none [(.fine, .store a (some p) true), (.fine, .store b (some q) true)]).1 x = .ok r) ∧
    (∀ x ∈ [a, b], ∃ r, cacheLoad J .fine (callAll J none [(.fine, .store b (some q) true), (.fine, .store a (some p) true)]).1 x = .ok r) := by
  have t0 : text J CacheEnv.fine none (.store a (some p) true) = some (J.enc (put [] a p)) := by simp [text, loadExisting]
  have t1 : text J CacheEnv.fine none (.store b (some q) true) = some (J.enc (put [] b q)) := by simp [text, loadExisting]
  obtain ⟨m1, d1, l1⟩ := J.roundtrip (put [] b q)
  have hw : CacheEnv.fine.write = .done := rfl
  refine ⟨⟨⟨some (J.enc (put [] b q)), [(⟨0, .fine, .store a (some p) true⟩, .done (.done (.ok ()))), (⟨1, .fine, .store b (some q) true⟩, .done (.done (.ok ())))],
      [⟨0, .fine, .store a (some p) true, .done (.ok ())⟩, ⟨1, .fine, .store b (some q) true, .done (.ok ())⟩]⟩, ?_, rfl, ?_, ?_⟩, ?_, ?_⟩
  · simp [run, runT, step, init, free, Phase.holds, exclusive, t0, t1, writeFile, hw]
  · simp [cacheLoad, loadExisting, CacheEnv.fine, d1, l1, lookup_put, hab]
  · simp [cacheLoad, loadExisting, CacheEnv.fine, d1, l1, lookup_put]
  · intro x hx
    rw [callAll_file]
    have := calls_after [.store a (some p) true, .store b (some q) true] J x
    simp only [List.map_cons, List.map_nil] at this
    rw [this]
    simp at hx
    rcases hx with rfl | rfl <;> simp [storedProfile, hab, Ne.symm hab]
  · intro x hx
    rw [callAll_file]
    have := calls_after [.store b (some q) true, .store a (some p) true] J x
    simp only [List.map_cons, List.map_nil] at this
    rw [this]
    simp at hx
    rcases hx with rfl | rfl <;> simp [storedProfile, hab, Ne.symm hab]

end Ble.CacheConc
