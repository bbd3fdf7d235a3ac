import Verif.Props.Bond
import Verif.Store.BondConc
import Verif.Store.Witness
set_option autoImplicit false

/-!
# Concurrent use of the bond store (C58)
-/

namespace Ble.Props

open Ble.Store BondAux

namespace BondConcAux

variable {J : Json BondData}

/-- The sequential call in terms of its phases. -/
theorem call_plan (J : Json BondData) (f : File) (o : Op) : call J Env.fine f o =
    match early o with
    | some r => (f, r)
    | none => match plan J (view J f) o with
      | .ret r => (some (f.getD []), r)
      | .store out r => (some out, r) := by
  cases o with
  | exists_ a =>
    simp only [call, existsBond, early, plan, load_fine]
    by_cases ha : strLen a = 12
    · simp only [ha, ne_eq, not_true_eq_false, if_false]; cases view J f <;> rfl
    · simp [ha]
  | find a =>
    simp only [call, findBond, early, plan, load_fine]
    by_cases ha : strLen a = 12
    · simp only [ha, ne_eq, not_true_eq_false, if_false]
      cases view J f with
      | none => rfl
      | some m =>
        simp only
        cases m.lookup a with
        | none => rfl
        | some d => simp only; cases createBondInfo d <;> rfl
    · simp [ha]
  | save a b =>
    simp only [call, saveBond, early, plan, load_fine]
    by_cases ha : strLen a = 12
    · simp only [ha, ne_eq, not_true_eq_false, if_false]
      cases b with
      | none => rfl
      | some b => cases view J f <;> rfl
    · simp [ha]
  | delete a =>
    simp only [call, deleteBond, early, plan, load_fine]
    cases view J f with
    | none => rfl
    | some m => simp only; cases m.lookup a <;> rfl

theorem view_getD (J : Json BondData) {f f' : File} (h : f.getD [] = f'.getD []) : view J f = view J f' := by
  rw [← view_some J f, ← view_some J f', h]

/-- Only exclusive calls write when every stored bond decodes. -/
theorem store_exclusive {f : File} {g : Text → Option Bond} (h : Holds J f g) {o : Op} {out : Bytes} {r : Res} (hp : plan J (view J f) o = .store out r) : exclusive o = true := by
  obtain ⟨m, h1, h2⟩ := h
  rw [h1] at hp
  cases o with
  | exists_ a => simp [plan] at hp
  | find a =>
    simp only [plan] at hp
    rcases h2 a with ⟨_, h4⟩ | ⟨d, b, _, h4, h5, _⟩
    · rw [h4] at hp; simp at hp
    · rw [h4] at hp; simp only [h5] at hp; simp at hp
  | save a b => rfl
  | delete a => rfl

theorem calls_snoc (J : Json BondData) : ∀ (xs : List (Env × Op)) (f : File) (e : Env) (o : Op),
    calls J f (xs ++ [(e, o)]) = ((call J e (calls J f xs).1 o).1, (calls J f xs).2 ++ [(call J e (calls J f xs).1 o).2]) := by
  intro xs
  induction xs with
  | nil => intro f e o; rfl
  | cons x xs ih => intro f e o; obtain ⟨e', o'⟩ := x; simp only [List.cons_append, calls, ih]

/-- The calls of the log, one after the other. -/
def seq (l : List (Nat × Op × Res)) : List (Env × Op) := l.map fun x => (Env.fine, x.2.1)

structure CInv (J : Json BondData) (f0 : File) (s : Conc) : Prop where
  res : (calls J f0 (seq s.log)).2 = s.log.map fun x => x.2.2
  valid : ∃ g, Holds J (calls J f0 (seq s.log)).1 g
  writing : ∀ (i : Nat) o out r, s.threads[i]? = some (o, .writing out r) → exclusive o = true ∧ early o = none ∧ plan J (view J (calls J f0 (seq s.log)).1) o = .store out r
  quiet : (∀ (i : Nat) o out r, s.threads[i]? ≠ some (o, .writing out r)) → s.file.getD [] = (calls J f0 (seq s.log)).1.getD []
  mutex : ∀ (i j : Nat) oi oj pi pj, i ≠ j → s.threads[i]? = some (oi, pi) → s.threads[j]? = some (oj, pj) → pi.holds = true → pj.holds = true → exclusive oi = false
  locked : ∀ (i : Nat) o, s.threads[i]? = some (o, .locked) → early o = none
  keys : ∀ (i : Nat) o p a b, s.threads[i]? = some (o, p) → o = .save a (some b) → b.ltk ≠ []
  logged : ∀ (i : Nat) o p, s.threads[i]? = some (o, p) → (p = .start ∨ p = .locked ∨ ∃ out r, p = .writing out r) → ∀ o' r, (i, o', r) ∉ s.log
  ended : ∀ (i : Nat) o r, s.threads[i]? = some (o, .returning r) ∨ s.threads[i]? = some (o, .done r) → (i, o, r) ∈ s.log
  back : ∀ (i : Nat) o r, (i, o, r) ∈ s.log → s.threads[i]? = some (o, .returning r) ∨ s.threads[i]? = some (o, .done r)
  once : (s.log.map fun x => x.1).Nodup

theorem get_set {α : Type} {l : List α} {i j : Nat} {x y : α} (h : (l.set i x)[j]? = some y) : (i = j ∧ y = x) ∨ (i ≠ j ∧ l[j]? = some y) := by
  by_cases hij : i = j
  · subst hij
    left
    have hlt : i < l.length := by
      by_contra hc
      rw [List.getElem?_eq_none (by simp; omega)] at h
      simp at h
    rw [List.getElem?_set_self hlt] at h
    exact ⟨rfl, (Option.some.inj h).symm⟩
  · right
    rw [List.getElem?_set_ne hij] at h
    exact ⟨hij, h⟩

theorem set_self {α : Type} {l : List α} {i : Nat} {x y : α} (h : l[i]? = some y) : (l.set i x)[i]? = some x := by
  have hlt : i < l.length := by
    by_contra hc
    rw [List.getElem?_eq_none (by omega)] at h
    simp at h
  exact List.getElem?_set_self hlt

/-- A call takes effect: the log grows by it. -/
theorem seq_snoc (J : Json BondData) (f0 : File) (l : List (Nat × Op × Res)) (i : Nat) (o : Op) (r : Res) :
    calls J f0 (seq (l ++ [(i, o, r)])) = ((call J Env.fine (calls J f0 (seq l)).1 o).1, (calls J f0 (seq l)).2 ++ [(call J Env.fine (calls J f0 (seq l)).1 o).2]) := by
  unfold seq
  rw [List.map_append, List.map_singleton, calls_snoc]

theorem free_spec {ts : List (Op × Phase)} {o : Op} (h : free ts o = true) {j : Nat} {o' : Op} {p : Phase} (hj : ts[j]? = some (o', p)) (hp : p.holds = true) : exclusive o = false ∧ exclusive o' = false := by
  have := List.all_eq_true.1 h (o', p) (List.mem_of_getElem? hj)
  simp only [hp, Bool.true_and, Bool.not_eq_true'] at this
  simpa using this

theorem step_inv {f0 : File} {s s' : Conc} (h : CInv J f0 s) (a : Step) (hs : cstep J s a = some s') : CInv J f0 s' ∧ s.log <+: s'.log := by
  cases a with
  | acquire i =>
    simp only [cstep] at hs
    split at hs
    · rename_i o hi
      split at hs
      · rename_i r he
        obtain rfl := Option.some.inj hs
        have hc : call J Env.fine (calls J f0 (seq s.log)).1 o = ((calls J f0 (seq s.log)).1, r) := by rw [call_plan, he]
        refine ⟨?_, List.prefix_append _ _⟩
        refine ⟨?_, ?_, ?_, ?_, ?_, ?_, ?_, ?_, ?_, ?_, ?_⟩
        · show (calls J f0 (seq (s.log ++ [(i, o, r)]))).2 = _
          rw [seq_snoc, hc, h.res]; simp
        · show ∃ g, Holds J (calls J f0 (seq (s.log ++ [(i, o, r)]))).1 g
          rw [seq_snoc, hc]; exact h.valid
        · intro j o' out r' hj
          show _ ∧ _ ∧ plan J (view J (calls J f0 (seq (s.log ++ [(i, o, r)]))).1) o' = _
          rw [seq_snoc, hc]
          rcases get_set hj with ⟨_, h2⟩ | ⟨_, h2⟩
          · simp at h2
          · exact h.writing j o' out r' h2
        · intro hq
          show s.file.getD [] = (calls J f0 (seq (s.log ++ [(i, o, r)]))).1.getD []
          rw [seq_snoc, hc]
          refine h.quiet (fun j o' out r' hj => hq j o' out r' ?_)
          by_cases hij : i = j
          · subst hij; rw [hi] at hj; simp at hj
          · show (s.threads.set i _)[j]? = _
            rw [List.getElem?_set_ne hij]; exact hj
        · intro j k oj ok pj pk hjk hj hk hpj hpk
          rcases get_set hj with ⟨_, h2⟩ | ⟨_, h2⟩
          · obtain ⟨rfl, rfl⟩ := Prod.mk.inj h2; simp [Phase.holds] at hpj
          · rcases get_set hk with ⟨_, h3⟩ | ⟨_, h3⟩
            · obtain ⟨rfl, rfl⟩ := Prod.mk.inj h3; simp [Phase.holds] at hpk
            · exact h.mutex j k oj ok pj pk hjk h2 h3 hpj hpk
        · intro j o' hj
          rcases get_set hj with ⟨_, h2⟩ | ⟨_, h2⟩
          · simp at h2
          · exact h.locked j o' h2
        · intro j o' p a b hj ho
          rcases get_set hj with ⟨h1, h2⟩ | ⟨_, h2⟩
          · obtain ⟨rfl, rfl⟩ := Prod.mk.inj h2
            exact h.keys i o' .start a b hi ho
          · exact h.keys j o' p a b h2 ho
        · intro j o' p hj hp o'' r' hm
          rcases get_set hj with ⟨_, h2⟩ | ⟨hij, h2⟩
          · obtain ⟨rfl, rfl⟩ := Prod.mk.inj h2; simp at hp
          · rcases List.mem_append.1 hm with hm | hm
            · exact h.logged j o' p h2 hp o'' r' hm
            · simp at hm; exact hij hm.1.symm
        · intro j o' r' hj
          rcases hj with hj | hj
          · rcases get_set hj with ⟨_, h2⟩ | ⟨_, h2⟩
            · simp at h2
            · exact List.mem_append_left _ (h.ended j o' r' (Or.inl h2))
          · rcases get_set hj with ⟨rfl, h2⟩ | ⟨_, h2⟩
            · simp at h2; obtain ⟨rfl, rfl⟩ := h2; simp
            · exact List.mem_append_left _ (h.ended j o' r' (Or.inr h2))
        · intro j o' r' hm
          rcases List.mem_append.1 hm with hm | hm
          · have hne : i ≠ j := fun hij => h.logged i o .start hi (Or.inl rfl) o' r' (hij ▸ hm)
            show (s.threads.set i _)[j]? = _ ∨ (s.threads.set i _)[j]? = _
            rw [List.getElem?_set_ne hne]
            exact h.back j o' r' hm
          · simp at hm
            obtain ⟨rfl, rfl, rfl⟩ := hm
            exact Or.inr (set_self hi)
        · show ((s.log ++ [(i, o, r)]).map fun x => x.1).Nodup
          rw [List.map_append, List.nodup_append]
          refine ⟨h.once, by simp, ?_⟩
          intro x hx y hy
          simp at hy; subst hy
          rintro rfl
          obtain ⟨⟨_, o', r'⟩, hm, rfl⟩ := List.mem_map.1 hx
          exact h.logged _ o .start hi (Or.inl rfl) o' r' hm
      · rename_i he
        split at hs
        · rename_i hfree
          obtain rfl := Option.some.inj hs
          refine ⟨?_, List.prefix_refl _⟩
          refine ⟨h.res, h.valid, ?_, ?_, ?_, ?_, ?_, ?_, ?_, ?_, h.once⟩
          · intro j o' out r' hj
            rcases get_set hj with ⟨_, h2⟩ | ⟨_, h2⟩
            · simp at h2
            · exact h.writing j o' out r' h2
          · intro hq
            refine h.quiet (fun j o' out r' hj => hq j o' out r' ?_)
            by_cases hij : i = j
            · subst hij; rw [hi] at hj; simp at hj
            · show (s.threads.set i _)[j]? = _
              rw [List.getElem?_set_ne hij]; exact hj
          · intro j k oj ok pj pk hjk hj hk hpj hpk
            rcases get_set hj with ⟨hij, h2⟩ | ⟨_, h2⟩
            · rcases get_set hk with ⟨hik, _⟩ | ⟨_, h3⟩
              · exact absurd (hij.symm.trans hik) hjk
              · obtain ⟨rfl, rfl⟩ := Prod.mk.inj h2
                exact (free_spec hfree h3 hpk).1
            · rcases get_set hk with ⟨_, h3⟩ | ⟨_, h3⟩
              · exact (free_spec hfree h2 hpj).2
              · exact h.mutex j k oj ok pj pk hjk h2 h3 hpj hpk
          · intro j o' hj
            rcases get_set hj with ⟨_, h2⟩ | ⟨_, h2⟩
            · obtain ⟨rfl, _⟩ := Prod.mk.inj h2; exact he
            · exact h.locked j o' h2
          · intro j o' p a b hj ho
            rcases get_set hj with ⟨h1, h2⟩ | ⟨_, h2⟩
            · obtain ⟨rfl, rfl⟩ := Prod.mk.inj h2
              exact h.keys i o' .start a b hi ho
            · exact h.keys j o' p a b h2 ho
          · intro j o' p hj hp o'' r' hm
            rcases get_set hj with ⟨hij, h2⟩ | ⟨hij, h2⟩
            · subst hij; exact h.logged _ o .start hi (Or.inl rfl) o'' r' hm
            · exact h.logged j o' p h2 hp o'' r' hm
          · intro j o' r' hj
            rcases hj with hj | hj
            · rcases get_set hj with ⟨_, h2⟩ | ⟨_, h2⟩
              · simp at h2
              · exact h.ended j o' r' (Or.inl h2)
            · rcases get_set hj with ⟨rfl, h2⟩ | ⟨_, h2⟩
              · simp at h2
              · exact h.ended j o' r' (Or.inr h2)
          · intro j o' r' hm
            have hne : i ≠ j := fun hij => h.logged i o .start hi (Or.inl rfl) o' r' (hij ▸ hm)
            show (s.threads.set i _)[j]? = _ ∨ (s.threads.set i _)[j]? = _
            rw [List.getElem?_set_ne hne]
            exact h.back j o' r' hm
        · simp at hs
    · simp at hs
  | load i =>
    simp only [cstep] at hs
    split at hs
    · rename_i o hi
      have he := h.locked i o hi
      -- nobody is writing
      have hq : ∀ (j : Nat) o' out r, s.threads[j]? ≠ some (o', .writing out r) := by
        intro j o' out r hj
        have hw := (h.writing j o' out r hj).1
        by_cases hij : i = j
        · subst hij; rw [hi] at hj; simp at hj
        · have := h.mutex j i o' o _ _ (Ne.symm hij) hj hi rfl rfl
          rw [hw] at this; simp at this
      have hfile := h.quiet hq
      have hview := view_getD J hfile
      simp only [load_fine] at hs
      rw [hview] at hs
      split at hs
      · rename_i r hp
        obtain rfl := Option.some.inj hs
        have hc : call J Env.fine (calls J f0 (seq s.log)).1 o = (some ((calls J f0 (seq s.log)).1.getD []), r) := by rw [call_plan, he]; simp only [hp]
        have hfd : ((some ((calls J f0 (seq s.log)).1.getD []) : File)).getD [] = (calls J f0 (seq s.log)).1.getD [] := rfl
        refine ⟨?_, List.prefix_append _ _⟩
        refine ⟨?_, ?_, ?_, ?_, ?_, ?_, ?_, ?_, ?_, ?_, ?_⟩
        · show (calls J f0 (seq (s.log ++ [(i, o, r)]))).2 = _
          rw [seq_snoc, hc, h.res]; simp
        · show ∃ g, Holds J (calls J f0 (seq (s.log ++ [(i, o, r)]))).1 g
          rw [seq_snoc, hc]
          obtain ⟨g, hg⟩ := h.valid
          exact ⟨g, holds_some hg⟩
        · intro j o' out r' hj
          rcases get_set hj with ⟨_, h2⟩ | ⟨_, h2⟩
          · simp at h2
          · exact absurd h2 (hq j o' out r')
        · intro _
          show (some (s.file.getD [])).getD [] = (calls J f0 (seq (s.log ++ [(i, o, r)]))).1.getD []
          rw [seq_snoc, hc]
          exact hfile
        · intro j k oj ok pj pk hjk hj hk hpj hpk
          rcases get_set hj with ⟨hij, h2⟩ | ⟨_, h2⟩
          · rcases get_set hk with ⟨hik, _⟩ | ⟨_, h3⟩
            · exact absurd (hij.symm.trans hik) hjk
            · obtain ⟨rfl, rfl⟩ := Prod.mk.inj h2
              exact h.mutex j k oj ok .locked pk hjk (hij ▸ hi) h3 rfl hpk
          · rcases get_set hk with ⟨hik, h3⟩ | ⟨_, h3⟩
            · exact h.mutex j k oj o pj .locked hjk h2 (hik ▸ hi) hpj rfl
            · exact h.mutex j k oj ok pj pk hjk h2 h3 hpj hpk
        · intro j o' hj
          rcases get_set hj with ⟨_, h2⟩ | ⟨_, h2⟩
          · simp at h2
          · exact h.locked j o' h2
        · intro j o' p a b hj ho
          rcases get_set hj with ⟨h1, h2⟩ | ⟨_, h2⟩
          · obtain ⟨rfl, rfl⟩ := Prod.mk.inj h2
            exact h.keys i o' .locked a b hi ho
          · exact h.keys j o' p a b h2 ho
        · intro j o' p hj hp' o'' r' hm
          rcases get_set hj with ⟨_, h2⟩ | ⟨hij, h2⟩
          · obtain ⟨rfl, rfl⟩ := Prod.mk.inj h2; simp at hp'
          · rcases List.mem_append.1 hm with hm | hm
            · exact h.logged j o' p h2 hp' o'' r' hm
            · simp at hm; exact hij hm.1.symm
        · intro j o' r' hj
          rcases hj with hj | hj
          · rcases get_set hj with ⟨rfl, h2⟩ | ⟨_, h2⟩
            · simp at h2; obtain ⟨rfl, rfl⟩ := h2; simp
            · exact List.mem_append_left _ (h.ended j o' r' (Or.inl h2))
          · rcases get_set hj with ⟨rfl, h2⟩ | ⟨_, h2⟩
            · simp at h2
            · exact List.mem_append_left _ (h.ended j o' r' (Or.inr h2))
        · intro j o' r' hm
          rcases List.mem_append.1 hm with hm | hm
          · have hne : i ≠ j := fun hij => h.logged i o .locked hi (Or.inr (Or.inl rfl)) o' r' (hij ▸ hm)
            show (s.threads.set i _)[j]? = _ ∨ (s.threads.set i _)[j]? = _
            rw [List.getElem?_set_ne hne]
            exact h.back j o' r' hm
          · simp at hm
            obtain ⟨rfl, rfl, rfl⟩ := hm
            exact Or.inl (set_self hi)
        · show ((s.log ++ [(i, o, r)]).map fun x => x.1).Nodup
          rw [List.map_append, List.nodup_append]
          refine ⟨h.once, by simp, ?_⟩
          intro x hx y hy
          simp at hy; subst hy
          rintro rfl
          obtain ⟨⟨_, o', r'⟩, hm, rfl⟩ := List.mem_map.1 hx
          exact h.logged _ o .locked hi (Or.inr (Or.inl rfl)) o' r' hm
      · rename_i out r hp
        obtain rfl := Option.some.inj hs
        obtain ⟨g, hg⟩ := h.valid
        have hex := store_exclusive hg hp
        refine ⟨?_, List.prefix_refl _⟩
        refine ⟨h.res, h.valid, ?_, ?_, ?_, ?_, ?_, ?_, ?_, ?_, h.once⟩
        · intro j o' out' r' hj
          rcases get_set hj with ⟨_, h2⟩ | ⟨_, h2⟩
          · simp at h2; obtain ⟨rfl, rfl, rfl⟩ := h2; exact ⟨hex, he, hp⟩
          · exact absurd h2 (hq j o' out' r')
        · intro hno
          exact absurd (set_self hi) (hno i o out r)
        · intro j k oj ok pj pk hjk hj hk hpj hpk
          rcases get_set hj with ⟨hij, h2⟩ | ⟨_, h2⟩
          · rcases get_set hk with ⟨hik, _⟩ | ⟨_, h3⟩
            · exact absurd (hij.symm.trans hik) hjk
            · obtain ⟨rfl, rfl⟩ := Prod.mk.inj h2
              exact h.mutex j k oj ok .locked pk hjk (hij ▸ hi) h3 rfl hpk
          · rcases get_set hk with ⟨hik, h3⟩ | ⟨_, h3⟩
            · exact h.mutex j k oj o pj .locked hjk h2 (hik ▸ hi) hpj rfl
            · exact h.mutex j k oj ok pj pk hjk h2 h3 hpj hpk
        · intro j o' hj
          rcases get_set hj with ⟨_, h2⟩ | ⟨_, h2⟩
          · simp at h2
          · exact h.locked j o' h2
        · intro j o' p a b hj ho
          rcases get_set hj with ⟨h1, h2⟩ | ⟨_, h2⟩
          · obtain ⟨rfl, rfl⟩ := Prod.mk.inj h2
            exact h.keys i o' .locked a b hi ho
          · exact h.keys j o' p a b h2 ho
        · intro j o' p hj hp' o'' r' hm
          rcases get_set hj with ⟨hij, h2⟩ | ⟨hij, h2⟩
          · subst hij; exact h.logged _ o .locked hi (Or.inr (Or.inl rfl)) o'' r' hm
          · exact h.logged j o' p h2 hp' o'' r' hm
        · intro j o' r' hj
          rcases hj with hj | hj
          · rcases get_set hj with ⟨_, h2⟩ | ⟨_, h2⟩
            · simp at h2
            · exact h.ended j o' r' (Or.inl h2)
          · rcases get_set hj with ⟨_, h2⟩ | ⟨_, h2⟩
            · simp at h2
            · exact h.ended j o' r' (Or.inr h2)
        · intro j o' r' hm
          have hne : i ≠ j := fun hij => h.logged i o .locked hi (Or.inr (Or.inl rfl)) o' r' (hij ▸ hm)
          show (s.threads.set i _)[j]? = _ ∨ (s.threads.set i _)[j]? = _
          rw [List.getElem?_set_ne hne]
          exact h.back j o' r' hm
    · simp at hs
  | chunk i n =>
    simp only [cstep] at hs
    split at hs
    · rename_i o out r hi
      obtain rfl := Option.some.inj hs
      refine ⟨⟨h.res, h.valid, h.writing, ?_, h.mutex, h.locked, h.keys, h.logged, h.ended, h.back, h.once⟩, List.prefix_refl _⟩
      intro hno
      exact absurd hi (hno i o out r)
    · simp at hs
  | finish i =>
    simp only [cstep] at hs
    split at hs
    · rename_i o out r hi
      obtain rfl := Option.some.inj hs
      obtain ⟨hex, he, hp⟩ := h.writing i o out r hi
      have hc : call J Env.fine (calls J f0 (seq s.log)).1 o = (some out, r) := by rw [call_plan, he]; simp only [hp]
      -- nobody else holds the lock
      have hno : ∀ (j : Nat) o' p, i ≠ j → s.threads[j]? = some (o', p) → p.holds = false := by
        intro j o' p hij hj
        cases hh : p.holds with
        | false => rfl
        | true =>
          have := h.mutex i j o o' _ p hij hi hj rfl hh
          rw [hex] at this; simp at this
      refine ⟨?_, List.prefix_append _ _⟩
      refine ⟨?_, ?_, ?_, ?_, ?_, ?_, ?_, ?_, ?_, ?_, ?_⟩
      · show (calls J f0 (seq (s.log ++ [(i, o, r)]))).2 = _
        rw [seq_snoc, hc, h.res]; simp
      · show ∃ g, Holds J (calls J f0 (seq (s.log ++ [(i, o, r)]))).1 g
        rw [seq_snoc]
        obtain ⟨g, hg⟩ := h.valid
        exact ⟨_, call_holds hg o (fun a b hab => h.keys i o _ a b hi hab)⟩
      · intro j o' out' r' hj
        rcases get_set hj with ⟨_, h2⟩ | ⟨hij, h2⟩
        · simp at h2
        · have := hno j o' _ hij h2; simp [Phase.holds] at this
      · intro _
        show (some out).getD [] = (calls J f0 (seq (s.log ++ [(i, o, r)]))).1.getD []
        rw [seq_snoc, hc]
      · intro j k oj ok pj pk hjk hj hk hpj hpk
        rcases get_set hj with ⟨_, h2⟩ | ⟨hij, h2⟩
        · obtain ⟨rfl, rfl⟩ := Prod.mk.inj h2; simp [Phase.holds] at hpj
        · have := hno j oj _ hij h2; rw [hpj] at this; simp at this
      · intro j o' hj
        rcases get_set hj with ⟨_, h2⟩ | ⟨_, h2⟩
        · simp at h2
        · exact h.locked j o' h2
      · intro j o' p a b hj ho
        rcases get_set hj with ⟨h1, h2⟩ | ⟨_, h2⟩
        · obtain ⟨rfl, rfl⟩ := Prod.mk.inj h2
          exact h.keys i o' _ a b hi ho
        · exact h.keys j o' p a b h2 ho
      · intro j o' p hj hp' o'' r' hm
        rcases get_set hj with ⟨_, h2⟩ | ⟨hij, h2⟩
        · obtain ⟨rfl, rfl⟩ := Prod.mk.inj h2; simp at hp'
        · rcases List.mem_append.1 hm with hm | hm
          · exact h.logged j o' p h2 hp' o'' r' hm
          · simp at hm; exact hij hm.1.symm
      · intro j o' r' hj
        rcases hj with hj | hj
        · rcases get_set hj with ⟨rfl, h2⟩ | ⟨_, h2⟩
          · simp at h2
          · exact List.mem_append_left _ (h.ended j o' r' (Or.inl h2))
        · rcases get_set hj with ⟨rfl, h2⟩ | ⟨_, h2⟩
          · simp at h2; obtain ⟨rfl, rfl⟩ := h2; simp
          · exact List.mem_append_left _ (h.ended j o' r' (Or.inr h2))
      · intro j o' r' hm
        rcases List.mem_append.1 hm with hm | hm
        · have hne : i ≠ j := fun hij => h.logged i o _ hi (Or.inr (Or.inr ⟨out, r, rfl⟩)) o' r' (hij ▸ hm)
          show (s.threads.set i _)[j]? = _ ∨ (s.threads.set i _)[j]? = _
          rw [List.getElem?_set_ne hne]
          exact h.back j o' r' hm
        · simp at hm
          obtain ⟨rfl, rfl, rfl⟩ := hm
          exact Or.inr (set_self hi)
      · show ((s.log ++ [(i, o, r)]).map fun x => x.1).Nodup
        rw [List.map_append, List.nodup_append]
        refine ⟨h.once, by simp, ?_⟩
        intro x hx y hy
        simp at hy; subst hy
        rintro rfl
        obtain ⟨⟨_, o', r'⟩, hm, rfl⟩ := List.mem_map.1 hx
        exact h.logged _ o _ hi (Or.inr (Or.inr ⟨out, r, rfl⟩)) o' r' hm
    · rename_i o r hi
      obtain rfl := Option.some.inj hs
      refine ⟨?_, List.prefix_refl _⟩
      refine ⟨h.res, h.valid, ?_, ?_, ?_, ?_, ?_, ?_, ?_, ?_, h.once⟩
      · intro j o' out' r' hj
        rcases get_set hj with ⟨_, h2⟩ | ⟨_, h2⟩
        · simp at h2
        · exact h.writing j o' out' r' h2
      · intro hno
        refine h.quiet (fun j o' out r' hj => hno j o' out r' ?_)
        by_cases hij : i = j
        · subst hij; rw [hi] at hj; simp at hj
        · show (s.threads.set i _)[j]? = _
          rw [List.getElem?_set_ne hij]; exact hj
      · intro j k oj ok pj pk hjk hj hk hpj hpk
        rcases get_set hj with ⟨_, h2⟩ | ⟨hij, h2⟩
        · obtain ⟨rfl, rfl⟩ := Prod.mk.inj h2; simp [Phase.holds] at hpj
        · rcases get_set hk with ⟨_, h3⟩ | ⟨_, h3⟩
          · obtain ⟨rfl, rfl⟩ := Prod.mk.inj h3; simp [Phase.holds] at hpk
          · exact h.mutex j k oj ok pj pk hjk h2 h3 hpj hpk
      · intro j o' hj
        rcases get_set hj with ⟨_, h2⟩ | ⟨_, h2⟩
        · simp at h2
        · exact h.locked j o' h2
      · intro j o' p a b hj ho
        rcases get_set hj with ⟨h1, h2⟩ | ⟨_, h2⟩
        · obtain ⟨rfl, rfl⟩ := Prod.mk.inj h2
          exact h.keys i o' _ a b hi ho
        · exact h.keys j o' p a b h2 ho
      · intro j o' p hj hp' o'' r' hm
        rcases get_set hj with ⟨_, h2⟩ | ⟨_, h2⟩
        · obtain ⟨rfl, rfl⟩ := Prod.mk.inj h2; simp at hp'
        · exact h.logged j o' p h2 hp' o'' r' hm
      · intro j o' r' hj
        rcases hj with hj | hj
        · rcases get_set hj with ⟨rfl, h2⟩ | ⟨_, h2⟩
          · simp at h2
          · exact h.ended j o' r' (Or.inl h2)
        · rcases get_set hj with ⟨rfl, h2⟩ | ⟨_, h2⟩
          · simp at h2; obtain ⟨rfl, rfl⟩ := h2; exact h.ended i o' r' (Or.inl hi)
          · exact h.ended j o' r' (Or.inr h2)
      · intro j o' r' hm
        by_cases hij : i = j
        · subst hij
          have := h.back i o' r' hm
          rw [hi] at this
          rcases this with this | this
          · simp at this; obtain ⟨rfl, rfl⟩ := this; exact Or.inr (set_self hi)
          · simp at this
        · show (s.threads.set i _)[j]? = _ ∨ (s.threads.set i _)[j]? = _
          rw [List.getElem?_set_ne hij]
          exact h.back j o' r' hm
    · simp at hs

theorem run_inv {f0 : File} : ∀ (as : List Step) {s s' : Conc}, CInv J f0 s → crun J s as = some s' → CInv J f0 s' ∧ s.log <+: s'.log := by
  intro as
  induction as with
  | nil => intro s s' h hr; obtain rfl := Option.some.inj hr; exact ⟨h, List.prefix_refl _⟩
  | cons a as ih =>
    intro s s' h hr
    simp only [crun] at hr
    cases hs : cstep J s a with
    | none => rw [hs] at hr; simp at hr
    | some s1 =>
      rw [hs] at hr
      obtain ⟨h1, h2⟩ := step_inv h a hs
      obtain ⟨h3, h4⟩ := ih h1 hr
      exact ⟨h3, h2.trans h4⟩

theorem init_inv {f0 : File} {g : Text → Option Bond} (hg : Holds J f0 g) {os : List Op} (hk : KeysNotEmpty os) : CInv J f0 (cinit f0 os) := by
  have hth : ∀ (i : Nat) o p, (cinit f0 os).threads[i]? = some (o, p) → p = .start ∧ o ∈ os := by
    intro i o p h
    simp only [cinit, List.getElem?_map, Option.map_eq_some_iff] at h
    obtain ⟨o', h1, h2⟩ := h
    obtain ⟨rfl, rfl⟩ := Prod.mk.inj h2
    exact ⟨rfl, List.mem_of_getElem? h1⟩
  refine ⟨rfl, ⟨g, hg⟩, ?_, fun _ => rfl, ?_, ?_, ?_, ?_, ?_, ?_, by simp [cinit]⟩
  · intro i o out r h; have := (hth i o _ h).1; simp at this
  · intro i j oi oj pi pj _ h _ hp; have := (hth i oi pi h).1; subst this; simp [Phase.holds] at hp
  · intro i o h; have := (hth i o _ h).1; simp at this
  · intro i o p a b h ho; exact hk a b (ho ▸ (hth i o p h).2)
  · intro i o p _ _ o' r hm; simp [cinit] at hm
  · intro i o r h
    rcases h with h | h
    · have := (hth i o _ h).1; simp at this
    · have := (hth i o _ h).1; simp at this
  · intro i o r hm; simp [cinit] at hm

end BondConcAux

open BondConcAux

/-- C58, for applications that save no empty keys. Any number of calls made at the same time, in any interleaving of their steps, behave as if made one after the other: there is an order of the calls that took effect,
each once, in which calling them sequentially gives each the result it got; a call that returned has taken effect, and one that took effect is about to return, with that result. -/
theorem bond_linearizable_partial (J : Json BondData) (setup os : List Op) (hs : KeysNotEmpty setup) (hk : KeysNotEmpty os) (as : List Step) (s : Conc)
    (hr : crun J (cinit (calls J none (setup.map fun o => (Env.fine, o))).1 os) as = some s) :
    (calls J (calls J none (setup.map fun o => (Env.fine, o))).1 (s.log.map fun x => (Env.fine, x.2.1))).2 = s.log.map (fun x => x.2.2) ∧
    (s.log.map fun x => x.1).Nodup ∧
    (∀ (i : Nat) o r, s.threads[i]? = some (o, .done r) → (i, o, r) ∈ s.log) ∧
    (∀ (i : Nat) o r, (i, o, r) ∈ s.log → s.threads[i]? = some (o, .returning r) ∨ s.threads[i]? = some (o, .done r)) := by
  obtain ⟨g, h1, _⟩ := calls_holds J setup none _ (holds_none J) hs
  obtain ⟨h, _⟩ := run_inv as (init_inv h1 hk) hr
  exact ⟨h.res, h.once, fun i o r hd => h.ended i o r (Or.inr hd), h.back⟩

/-- C58. That order agrees with time: it only grows at its end, so a call that returned before another one began is before it. -/
theorem bond_real_time (J : Json BondData) (setup os : List Op) (hs : KeysNotEmpty setup) (hk : KeysNotEmpty os) (as bs : List Step) (s s' : Conc)
    (hr : crun J (cinit (calls J none (setup.map fun o => (Env.fine, o))).1 os) as = some s) (hr' : crun J s bs = some s')
    (i j : Nat) (oi oj : Op) (ri : Res) (hi : s.threads[i]? = some (oi, .done ri)) (hj : s.threads[j]? = some (oj, .start)) :
    ∃ l, s'.log = s.log ++ l ∧ (i, oi, ri) ∈ s.log ∧ ∀ o r, (j, o, r) ∈ s'.log → (j, o, r) ∈ l := by
  obtain ⟨g, h1, _⟩ := calls_holds J setup none _ (holds_none J) hs
  obtain ⟨h, _⟩ := run_inv as (init_inv h1 hk) hr
  obtain ⟨h', l, hl⟩ := run_inv bs h hr'
  refine ⟨l, hl.symm, h.ended i oi ri (Or.inr hi), ?_⟩
  intro o r hm
  rw [← hl] at hm
  rcases List.mem_append.1 hm with hm | hm
  · exact absurd hm (h.logged j oj .start hj (Or.inl rfl) o r)
  · exact hm

/-- C58, negative: `Find` writes under the read lock. If one stored bond has an empty key, looking for it while looking for another makes the other look-up fail, although both orders one after the other find it. -/
theorem bond_concurrent_find_misses (J : Json BondData) (good bad : Text) (hg : strLen good = 12) (hb : strLen bad = 12) (hne : good ≠ bad) (b c : Bond) (hgk : b.ltk ≠ []) (hbk : c.ltk = []) :
    let f := (calls J none [(Env.fine, .save good (some b)), (Env.fine, .save bad (some c))]).1
    (∃ as s, crun J (cinit f [.find bad, .find good]) as = some s ∧ s.threads[1]? = some (.find good, .done (.bond (.err ())))) ∧
    (calls J f [(Env.fine, .find bad), (Env.fine, .find good)]).2 = [.bond (.err ()), .bond (.ok b)] ∧
    (calls J f [(Env.fine, .find good), (Env.fine, .find bad)]).2 = [.bond (.ok b), .bond (.err ())] := by
  have e0 : call J Env.fine none (.save good (some b)) = (some (J.enc (put [] good (createBondData b))), .done (.ok ())) := by
    rw [call_plan]; simp [early, hg, plan, show view J none = some [] from rfl]
  obtain ⟨m1, v1, l1⟩ := view_enc J (put [] good (createBondData b))
  have e1 : call J Env.fine (some (J.enc (put [] good (createBondData b)))) (.save bad (some c)) = (some (J.enc (put m1 bad (createBondData c))), .done (.ok ())) := by
    rw [call_plan]; simp [early, hb, plan, v1]
  obtain ⟨m2, v2, l2⟩ := view_enc J (put m1 bad (createBondData c))
  intro f
  have hf : f = some (J.enc (put m1 bad (createBondData c))) := by
    show (calls J none [(Env.fine, .save good (some b)), (Env.fine, .save bad (some c))]).1 = _
    simp only [calls, e0, e1]
  have lg : m2.lookup good = some (createBondData b) := by
    rw [l2, lookup_put, if_neg hne, l1, lookup_put, if_pos rfl]
  have lb : m2.lookup bad = some (createBondData c) := by
    rw [l2, lookup_put, if_pos rfl]
  rw [← hf] at v2
  have eg : early (.find good) = none := by simp [early, hg]
  have eb : early (.find bad) = none := by simp [early, hb]
  have pg : plan J (view J f) (.find good) = .ret (.bond (.ok b)) := by
    simp only [plan, v2, lg, createBondInfo_createBondData b hgk]
  have pb : plan J (view J f) (.find bad) = .store (J.enc (del m2 bad)) (.bond (.err ())) := by
    simp only [plan, v2, lb, createBondInfo_empty c hbk]
  obtain ⟨m3, v3, l3⟩ := view_enc J (del m2 bad)
  have pg' : plan J (view J (some (J.enc (del m2 bad)))) (.find good) = .ret (.bond (.ok b)) := by
    simp only [plan, v3, l3, lookup_del, if_neg hne, lg, createBondInfo_createBondData b hgk]
  have hfs : (some (f.getD []) : File) = f := by rw [hf]; rfl
  refine ⟨⟨[.acquire 0, .load 0, .chunk 0 0, .acquire 1, .load 1, .finish 1], ?_⟩, ?_, ?_⟩
  · have s1 : cstep J (cinit f [.find bad, .find good]) (.acquire 0) = some ⟨f, [(.find bad, .locked), (.find good, .start)], []⟩ := by
      simp [cstep, cinit, eb, free, Phase.holds]
    have s2 : cstep J ⟨f, [(.find bad, .locked), (.find good, .start)], []⟩ (.load 0) =
        some ⟨f, [(.find bad, .writing (J.enc (del m2 bad)) (.bond (.err ()))), (.find good, .start)], []⟩ := by
      simp only [cstep, List.getElem?_cons_zero, load_fine, pb, hfs]; rfl
    have s3 : cstep J ⟨f, [(.find bad, .writing (J.enc (del m2 bad)) (.bond (.err ()))), (.find good, .start)], []⟩ (.chunk 0 0) =
        some ⟨some [], [(.find bad, .writing (J.enc (del m2 bad)) (.bond (.err ()))), (.find good, .start)], []⟩ := by
      simp [cstep]
    have s4 : cstep J ⟨some [], [(.find bad, .writing (J.enc (del m2 bad)) (.bond (.err ()))), (.find good, .start)], []⟩ (.acquire 1) =
        some ⟨some [], [(.find bad, .writing (J.enc (del m2 bad)) (.bond (.err ()))), (.find good, .locked)], []⟩ := by
      simp [cstep, eg, free, Phase.holds, exclusive]
    have s5 : cstep J ⟨some [], [(.find bad, .writing (J.enc (del m2 bad)) (.bond (.err ()))), (.find good, .locked)], []⟩ (.load 1) =
        some ⟨some [], [(.find bad, .writing (J.enc (del m2 bad)) (.bond (.err ()))), (.find good, .returning (.bond (.err ())))], [(1, .find good, .bond (.err ()))]⟩ := by
      simp [cstep, loadBonds, Env.fine, plan]
    refine ⟨⟨some [], [(.find bad, .writing (J.enc (del m2 bad)) (.bond (.err ()))), (.find good, .done (.bond (.err ())))], [(1, .find good, .bond (.err ()))]⟩, ?_, rfl⟩
    simp only [crun, s1, s2, s3, s4, s5, Option.bind_some]
    simp [cstep]
  · simp only [calls]
    have c1 : call J Env.fine f (.find bad) = (some (J.enc (del m2 bad)), .bond (.err ())) := by rw [call_plan, eb]; simp only [pb]
    rw [c1, call_plan, eg]
    simp only [pg']
  · simp only [calls]
    have c1 : call J Env.fine f (.find good) = (f, .bond (.ok b)) := by rw [call_plan, eg]; simp only [pg, hfs]
    have c2 : call J Env.fine f (.find bad) = (some (J.enc (del m2 bad)), .bond (.err ())) := by rw [call_plan, eb]; simp only [pb]
    rw [c1, c2]

end Ble.Props
