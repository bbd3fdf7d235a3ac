import Verif.Hci.SigConc
set_option autoImplicit false

/-!
# Concurrent signalling requests (C130)
-/

namespace Ble.SigConc

/-- No call begins while another is in progress. -/
def Serial (es : List Ev) : Prop := ∀ a t b s, es = a ++ .call t :: b → run {} a = some s → ∀ u, ¬ Active s u

/-! ## All schedules -/

/-- Before its registration a call has no channel in the table and nothing in it. -/
def Before : PC → Prop
  | .idle | .load | .store _ | .check | .one | .buf | .reg _ | .send _ none => True
  | _ => False

structure Inv (s : St) : Prop where
  before : ∀ t, Before (s.pc t) → s.box t = none ∧ ∀ i, s.reg i ≠ some t
  box : ∀ i t, s.reg i = some t → s.box t = none
  uniq : ∀ i j t, s.reg i = some t → s.reg j = some t → i = j
  asked : ∀ t i, (t, i) ∈ s.asked → ¬ Before (s.pc t) ∧ (∀ b, s.pc t ≠ .dfr b) ∧ ∀ b d, s.pc t ≠ .send b d
  askU : ∀ t i j, (t, i) ∈ s.asked → (t, j) ∈ s.asked → i = j

theorem inv_init : Inv {} := by constructor <;> simp [Before]

theorem mem_of_idOf {s : St} {t i : Nat} (h : idOf s t = some i) : (t, i) ∈ s.asked := by
  simp only [idOf, Option.map_eq_some_iff] at h
  obtain ⟨x, h1, h2⟩ := h
  have h3 := List.mem_of_find?_eq_some h1
  have h4 : x.1 = t := by simpa using List.find?_some h1
  rw [← h4, ← h2]; exact h3

theorem idOf_of_mem {s : St} (hi : Inv s) {t i : Nat} (h : (t, i) ∈ s.asked) : idOf s t = some i := by
  simp only [idOf]
  cases hf : s.asked.find? fun x => x.1 == t with
  | none => have := List.find?_eq_none.1 hf _ h; simp at this
  | some x =>
    have h3 := List.mem_of_find?_eq_some hf
    have h4 : x.1 = t := by simpa using List.find?_some hf
    simp only [Option.map_some, Option.some.injEq]
    exact hi.askU t x.2 i (by rw [← h4]; exact h3) h

set_option maxHeartbeats 4000000 in
theorem inv_step {s s' : St} {e : Ev} (hi : Inv s) (h : step s e = some s') : Inv s' := by
  have ⟨h1, h2, h3, h4, h5⟩ := hi
  cases e with
  | call t =>
    simp only [step] at h
    split at h
    · rename_i hp
      simp only [Option.some.injEq] at h; subst h
      have hb := h1 t (by rw [hp]; trivial)
      refine ⟨?_, h2, h3, ?_, h5⟩
      · intro u hu
        by_cases hut : u = t
        · subst hut; exact hb
        · simp only [St.at_, upd, hut, if_false] at hu; exact h1 u hu
      · intro u i hu
        have := h4 u i hu
        by_cases hut : u = t
        · subst hut; rw [hp] at this; exact absurd trivial this.1
        · simpa [St.at_, upd, hut] using this
    · cases h
  | timeout t =>
    simp only [step] at h
    split at h
    · rename_i b d hp
      simp only [Option.some.injEq] at h; subst h
      refine ⟨?_, h2, h3, ?_, h5⟩
      · intro u hu
        by_cases hut : u = t
        · subst hut; simp [St.at_, upd, Before] at hu
        · simp only [St.at_, upd, hut, if_false] at hu; exact h1 u hu
      · intro u i hu
        have := h4 u i hu
        by_cases hut : u = t
        · subst hut; simp [St.at_, upd, Before]
        · simpa [St.at_, upd, hut] using this
    · cases h
  | respond t =>
    simp only [step] at h
    split at h
    · cases h
    · rename_i i hid
      split at h
      · cases h
      · split at h
        · simp only [Option.some.injEq] at h; subst h; exact ⟨h1, h2, h3, h4, h5⟩
        · rename_i u hr
          split at h
          · simp only [Option.some.injEq] at h; subst h
            refine ⟨?_, ?_, ?_, h4, h5⟩
            · intro w hw
              have hb := h1 w hw
              have hwu : w ≠ u := fun e => hb.2 i (by rw [hr, e])
              simp only [upd, hwu, if_false]
              refine ⟨hb.1, fun j => ?_⟩
              split
              · simp
              · exact hb.2 j
            · intro j w hj
              simp only [upd] at hj ⊢
              split at hj
              · cases hj
              · rename_i hji
                have : w ≠ u := fun e => hji (h3 j i u (by rw [hj, e]) hr)
                simp only [this, if_false]
                exact h2 j w hj
            · intro j k w hj hk
              simp only [upd] at hj hk
              split at hj
              · cases hj
              · split at hk
                · cases hk
                · exact h3 j k w hj hk
          · cases h
  | go t w =>
    simp only [step, go] at h
    have hother : ∀ (p : PC) (u : Nat), u ≠ t → (s.at_ t p).pc u = s.pc u := by intro p u hu; simp [St.at_, upd, hu]
    split at h
    case h_1 hp =>
      simp only [Option.some.injEq] at h; subst h
      refine ⟨?_, h2, h3, ?_, h5⟩
      · intro u hu
        by_cases hut : u = t
        · subst hut; exact h1 u (by rw [hp]; trivial)
        · simp only [St.at_, upd, hut, if_false] at hu; exact h1 u hu
      · intro u i hu
        have := h4 u i hu
        by_cases hut : u = t
        · subst hut; rw [hp] at this; exact absurd trivial this.1
        · simpa [St.at_, upd, hut] using this
    case h_2 hp =>
      simp only [Option.some.injEq] at h; subst h
      refine ⟨?_, h2, h3, ?_, h5⟩
      · intro u hu
        by_cases hut : u = t
        · subst hut; exact h1 u (by rw [hp]; trivial)
        · simp only [St.at_, upd, hut, if_false] at hu; exact h1 u hu
      · intro u i hu
        have := h4 u i hu
        by_cases hut : u = t
        · subst hut; rw [hp] at this; exact absurd trivial this.1
        · simpa [St.at_, upd, hut] using this
    case h_3 hp =>
      simp only [Option.some.injEq] at h; subst h
      refine ⟨?_, h2, h3, ?_, h5⟩
      · intro u hu
        by_cases hut : u = t
        · subst hut; exact h1 u (by rw [hp]; trivial)
        · simp only [St.at_, upd, hut, if_false] at hu; exact h1 u hu
      · intro u i hu
        have := h4 u i hu
        by_cases hut : u = t
        · subst hut; rw [hp] at this; exact absurd trivial this.1
        · simpa [St.at_, upd, hut] using this
    case h_4 hp =>
      simp only [Option.some.injEq] at h; subst h
      refine ⟨?_, h2, h3, ?_, h5⟩
      · intro u hu
        by_cases hut : u = t
        · subst hut; exact h1 u (by rw [hp]; trivial)
        · simp only [St.at_, upd, hut, if_false] at hu; exact h1 u hu
      · intro u i hu
        have := h4 u i hu
        by_cases hut : u = t
        · subst hut; rw [hp] at this; exact absurd trivial this.1
        · simpa [St.at_, upd, hut] using this
    case h_5 hp =>
      simp only [Option.some.injEq] at h; subst h
      refine ⟨?_, h2, h3, ?_, h5⟩
      · intro u hu
        by_cases hut : u = t
        · subst hut; exact h1 u (by rw [hp]; trivial)
        · simp only [St.at_, upd, hut, if_false] at hu; exact h1 u hu
      · intro u i hu
        have := h4 u i hu
        by_cases hut : u = t
        · subst hut; rw [hp] at this; exact absurd trivial this.1
        · simpa [St.at_, upd, hut] using this
    case h_6 b hp =>
      simp only [Option.some.injEq] at h; subst h
      have hb := h1 t (by rw [hp]; trivial)
      refine ⟨?_, ?_, ?_, ?_, h5⟩
      · intro u hu
        by_cases hut : u = t
        · subst hut; simp [St.at_, upd, Before] at hu
        · simp only [St.at_, upd, hut, if_false] at hu ⊢
          refine ⟨(h1 u hu).1, fun i => ?_⟩
          split
          · simp only [ne_eq, Option.some.injEq]; exact fun e => hut e.symm
          · exact (h1 u hu).2 i
      · intro i u hr
        simp only [St.at_, upd] at hr
        split at hr
        · simp only [Option.some.injEq] at hr; subst hr; exact hb.1
        · exact h2 i u hr
      · intro i j u hi' hj
        simp only [St.at_, upd] at hi' hj
        split at hi' <;> split at hj
        · omega
        · simp only [Option.some.injEq] at hi'; subst hi'; exact absurd hj (hb.2 j)
        · simp only [Option.some.injEq] at hj; subst hj; exact absurd hi' (hb.2 i)
        · exact h3 i j u hi' hj
      · intro u i hu
        have := h4 u i hu
        by_cases hut : u = t
        · subst hut; rw [hp] at this; exact absurd trivial this.1
        · simpa [St.at_, upd, hut] using this
    case h_7 b hp =>
      simp only [Option.some.injEq] at h; subst h
      refine ⟨?_, h2, h3, ?_, h5⟩
      · intro u hu
        by_cases hut : u = t
        · subst hut; simp [St.at_, upd, Before] at hu
        · simp only [St.at_, upd, hut, if_false] at hu; exact h1 u hu
      · intro u i hu
        have := h4 u i hu
        by_cases hut : u = t
        · subst hut; rw [hp] at this; exact absurd rfl (this.2.1 b)
        · simpa [St.at_, upd, hut] using this
    case h_8 b hp =>
      simp only [Option.some.injEq] at h; subst h
      refine ⟨?_, h2, h3, ?_, h5⟩
      · intro u hu
        by_cases hut : u = t
        · subst hut; simp [St.at_, upd, Before] at hu
        · simp only [St.at_, upd, hut, if_false] at hu; exact h1 u hu
      · intro u i hu
        have := h4 u i hu
        by_cases hut : u = t
        · subst hut; rw [hp] at this; exact absurd trivial this.1
        · simpa [St.at_, upd, hut] using this
    case h_9 b d hp =>
      simp only [Option.some.injEq] at h; subst h
      have hna : ∀ i, (t, i) ∉ s.asked := by
        intro i hm
        have := (h4 t i hm).2.2 b (some d)
        exact this hp
      refine ⟨?_, h2, h3, ?_, ?_⟩
      · intro u hu
        by_cases hut : u = t
        · subst hut; simp [St.at_, upd, Before] at hu
        · simp only [St.at_, upd, hut, if_false] at hu; exact h1 u hu
      · intro u i hu
        by_cases hut : u = t
        · subst hut; simp [St.at_, upd, Before]
        · simp only [St.at_, List.mem_append, List.mem_singleton, Prod.mk.injEq, hut, false_and, or_false] at hu
          simpa [St.at_, upd, hut] using h4 u i hu
      · intro u i j hu hj
        simp only [St.at_, List.mem_append, List.mem_singleton, Prod.mk.injEq] at hu hj
        rcases hu with hu | ⟨rfl, rfl⟩ <;> rcases hj with hj | ⟨e, rfl⟩
        · exact h5 u i j hu hj
        · subst e; exact absurd hu (hna i)
        · exact absurd hj (hna j)
        · rfl
    case h_10 b d hp =>
      split at h
      · cases h
      · rename_i i u hbx
        simp only [Option.some.injEq] at h; subst h
        refine ⟨?_, ?_, h3, ?_, h5⟩
        · intro w hw
          by_cases hut : w = t
          · subst hut; simp [St.at_, upd, Before] at hw
          · simp only [St.at_, upd, hut, if_false] at hw ⊢; exact h1 w hw
        · intro j w hj
          simp only [St.at_, upd]
          split
          · rfl
          · exact h2 j w hj
        · intro w j hw
          have := h4 w j hw
          by_cases hut : w = t
          · subst hut; simp [St.at_, upd, Before]
          · simpa [St.at_, upd, hut] using this
    case h_11 i u d hp =>
      simp only [Option.some.injEq] at h; subst h
      refine ⟨?_, h2, h3, ?_, h5⟩
      · intro w hw
        by_cases hut : w = t
        · subst hut; simp [St.at_, upd, Before] at hw
        · simp only [St.at_, upd, hut, if_false] at hw; exact h1 w hw
      · intro w j hw
        have := h4 w j hw
        by_cases hut : w = t
        · subst hut; simp [St.at_, upd, Before]
        · simpa [St.at_, upd, hut] using this
    case h_12 r d hp =>
      simp only [Option.some.injEq] at h; subst h
      refine ⟨?_, ?_, ?_, ?_, h5⟩
      · intro w hw
        by_cases hut : w = t
        · subst hut; simp [St.at_, upd, Before] at hw
        · simp only [St.at_, upd, hut, if_false] at hw ⊢
          refine ⟨(h1 w hw).1, fun i => ?_⟩
          split
          · simp
          · exact (h1 w hw).2 i
      · intro j w hj
        simp only [St.at_, upd] at hj
        split at hj
        · cases hj
        · exact h2 j w hj
      · intro i j w hi' hj
        simp only [St.at_, upd] at hi' hj
        split at hi'
        · cases hi'
        · split at hj
          · cases hj
          · exact h3 i j w hi' hj
      · intro w j hw
        have := h4 w j hw
        by_cases hut : w = t
        · subst hut; simp [St.at_, upd, Before]
        · simpa [St.at_, upd, hut] using this
    case h_13 => cases h
    case h_14 => cases h

theorem inv {es : List Ev} {s : St} (h : run {} es = some s) : Inv s :=
  runT_ind (P := fun _ s => Inv s) inv_init (fun _ _ _ _ _ hi hs => inv_step hi hs) es s h

/-- **C130, the receiver goes on.** However calls overlap, handling a response never blocks the receiving goroutine. -/
theorem responses_never_block {es : List Ev} {s : St} (h : run {} es = some s) (t i : Nat) (ha : (t, i) ∈ s.asked) (hn : t ∉ s.answered) : (step s (.respond t)).isSome = true := by
  have hi := inv h
  simp only [step, idOf_of_mem hi ha, hn, if_false]
  cases hr : s.reg i with
  | none => rfl
  | some u => simp only [hi.box i u hr]; rfl

/-! ## Calls that do not overlap -/

def Empty (s : St) : Prop := ∀ i, s.reg i = none

/-- The call `t` is registered under the present identifier, or has got a response with it; nothing else is registered. -/
def Mine (s : St) (t : Nat) : Prop :=
  (∀ i v, s.reg i = some v → i = s.sig ∧ v = t) ∧
  ((s.reg s.sig = some t ∧ s.box t = none) ∨ (Empty s ∧ ∃ u, s.box t = some (s.sig, u) ∧ (u, s.sig) ∈ s.asked))

/-- The requests of both calls carried the same identifier. -/
def SameId (s : St) (t u : Nat) : Prop := ∃ i, (t, i) ∈ s.asked ∧ (u, i) ∈ s.asked

def PcOk (s : St) (t : Nat) : PC → Prop
  | .idle | .fin _ => True
  | .load | .check | .one | .buf | .send _ none => Empty s
  | .store v => v = s.sig ∧ Empty s
  | .reg b => b = s.sig ∧ Empty s
  | .dfr b => b = s.sig ∧ Mine s t
  | .send b (some d) => b = s.sig ∧ d = s.sig ∧ Mine s t
  | .wait b d => b = s.sig ∧ d = s.sig ∧ Mine s t ∧ (t, b) ∈ s.asked
  | .cmp i u d => i = s.sig ∧ d = s.sig ∧ Empty s ∧ (u, i) ∈ s.asked ∧ (t, i) ∈ s.asked
  | .clean r d => d = s.sig ∧ (∀ i v, s.reg i = some v → i = s.sig) ∧ r ≠ .wrongId ∧ ∀ u, r = .ok u → SameId s t u

structure Ser (s : St) : Prop where
  one : ∀ t u, Active s t → Active s u → t = u
  none : (∀ t, ¬ Active s t) → Empty s
  pc : ∀ t, PcOk s t (s.pc t)
  done : ∀ t r, s.pc t = .fin r → r ≠ .wrongId ∧ ∀ u, r = .ok u → SameId s t u

theorem ser_init : Ser {} := by
  constructor
  · intro t u h; exact absurd rfl h.1
  · intro _ i; rfl
  · intro t; trivial
  · intro t r h; cases h

/-- A step of the only call in progress to a place that is still in progress. -/
theorem ser_move {s s' : St} {t : Nat} {p : PC} (hs : Ser s) (ht : Active s t) (hpc : s'.pc = upd s.pc t p) (hp : p ≠ .idle ∧ ∀ r, p ≠ .fin r) (hok : PcOk s' t p) (ha : ∀ x ∈ s.asked, x ∈ s'.asked) : Ser s' := by
  have hact : ∀ u, Active s' u → u = t := by
    intro u hu
    apply Classical.byContradiction
    intro hne
    have : s'.pc u = s.pc u := by rw [hpc]; simp [upd, hne]
    exact hne (hs.one u t ⟨by rw [← this]; exact hu.1, by rw [← this]; exact hu.2⟩ ht)
  have htp : s'.pc t = p := by rw [hpc]; simp [upd]
  refine ⟨?_, ?_, ?_, ?_⟩
  · intro u v hu hv; rw [hact u hu, hact v hv]
  · intro h; exact absurd ⟨by rw [htp]; exact hp.1, by rw [htp]; exact hp.2⟩ (h t)
  · intro u
    by_cases hut : u = t
    · rw [hut, htp]; exact hok
    · have hu : ¬ Active s' u := fun h => hut (hact u h)
      have : s'.pc u = .idle ∨ ∃ r, s'.pc u = .fin r := by
        apply Classical.byContradiction
        intro hn
        exact hu ⟨fun e => hn (Or.inl e), fun r e => hn (Or.inr ⟨r, e⟩)⟩
      rcases this with e | ⟨r, e⟩ <;> rw [e] <;> trivial
  · intro u r hu
    by_cases hut : u = t
    · rw [hut, htp] at hu; exact absurd hu (hp.2 r)
    · rw [hpc] at hu; simp only [upd, hut, if_false] at hu
      obtain ⟨h1, h2⟩ := hs.done u r hu
      exact ⟨h1, fun v hv => let ⟨i, a, b⟩ := h2 v hv; ⟨i, ha _ a, ha _ b⟩⟩

/-- The last step of the only call in progress. -/
theorem ser_finish {s s' : St} {t : Nat} {r : Res} (hs : Ser s) (ht : Active s t) (hpc : s'.pc = upd s.pc t (.fin r)) (he : Empty s') (hr : r ≠ .wrongId ∧ ∀ u, r = .ok u → SameId s' t u) (ha : ∀ x ∈ s.asked, x ∈ s'.asked) :
    Ser s' := by
  have htp : s'.pc t = .fin r := by rw [hpc]; simp [upd]
  have hact : ∀ u, ¬ Active s' u := by
    intro u hu
    by_cases hut : u = t
    · subst hut; exact hu.2 r htp
    · have : s'.pc u = s.pc u := by rw [hpc]; simp [upd, hut]
      exact hut (hs.one u t ⟨by rw [← this]; exact hu.1, by rw [← this]; exact hu.2⟩ ht)
  refine ⟨fun t u h => absurd h (hact t), fun _ => he, ?_, ?_⟩
  · intro u
    have : s'.pc u = .idle ∨ ∃ r, s'.pc u = .fin r := by
      apply Classical.byContradiction
      intro hn
      exact hact u ⟨fun e => hn (Or.inl e), fun r e => hn (Or.inr ⟨r, e⟩)⟩
    rcases this with e | ⟨r, e⟩ <;> rw [e] <;> trivial
  · intro u r' hu
    by_cases hut : u = t
    · rw [hut, htp] at hu; cases hu; rw [hut]; exact hr
    · rw [hpc] at hu; simp only [upd, hut, if_false] at hu
      obtain ⟨h1, h2⟩ := hs.done u r' hu
      exact ⟨h1, fun v hv => let ⟨i, a, b⟩ := h2 v hv; ⟨i, ha _ a, ha _ b⟩⟩

theorem ser_step {s s' : St} {e : Ev} (hi : Inv s) (hs : Ser s) (hc : ∀ t, e = .call t → ∀ u, ¬ Active s u) (h : step s e = some s') : Ser s' := by
  cases e with
  | call t =>
    have hno := hc t rfl
    simp only [step] at h
    split at h
    · simp only [Option.some.injEq] at h; subst h
      have hact : ∀ u, Active (s.at_ t .load) u → u = t := by
        intro u hu
        apply Classical.byContradiction; intro hne
        simp only [Active, St.at_, upd, hne, if_false] at hu
        exact hno u hu
      refine ⟨fun u v hu hv => by rw [hact u hu, hact v hv], fun h => absurd ⟨by simp [St.at_, upd], by simp [St.at_, upd]⟩ (h t), ?_, ?_⟩
      · intro u
        by_cases hut : u = t
        · simp only [St.at_, upd, hut, if_true]; exact hs.none hno
        · have := hs.pc u
          have hnu := hno u
          have : s.pc u = .idle ∨ ∃ r, s.pc u = .fin r := by
            apply Classical.byContradiction
            intro hn
            exact hnu ⟨fun e => hn (Or.inl e), fun r e => hn (Or.inr ⟨r, e⟩)⟩
          simp only [St.at_, upd, hut, if_false]
          rcases this with e | ⟨r, e⟩ <;> rw [e] <;> trivial
      · intro u r hu
        by_cases hut : u = t
        · simp [St.at_, upd, hut] at hu
        · simp only [St.at_, upd, hut, if_false] at hu; exact hs.done u r hu
    · cases h
  | timeout t =>
    simp only [step] at h
    split at h
    · rename_i b d hp
      simp only [Option.some.injEq] at h; subst h
      have hk := hs.pc t
      rw [hp] at hk
      obtain ⟨h1, h2, h3, h4⟩ := hk
      exact ser_move hs ⟨by rw [hp]; simp, by rw [hp]; simp⟩ rfl ⟨by simp, by simp⟩ ⟨h2, fun i v hv => (h3.1 i v hv).1, by simp, fun u hu => by (cases hu)⟩ fun x hx => hx
    · cases h
  | respond w =>
    simp only [step] at h
    split at h
    · cases h
    · rename_i i hid
      have hw := mem_of_idOf hid
      split at h
      · cases h
      · split at h
        · simp only [Option.some.injEq] at h; subst h
          exact ⟨hs.one, hs.none, hs.pc, hs.done⟩
        · rename_i u hr
          split at h
          · simp only [Option.some.injEq] at h; subst h
            refine ⟨hs.one, fun h j => ?_, ?_, hs.done⟩
            · simp only [upd]; split
              · rfl
              · exact hs.none h j
            · intro t
              have hk := hs.pc t
              have hem : Empty s → False := fun he => by have := he i; rw [hr] at this; cases this
              have hmine : Mine s t → Mine { s with answered := s.answered ++ [w], reg := upd s.reg i none, box := upd s.box u (some (i, w)) } t := by
                rintro ⟨m1, m2⟩
                obtain ⟨hi1, hi2⟩ := m1 i u hr
                subst hi1 hi2
                refine ⟨fun j v hj => ?_, Or.inr ⟨fun j => ?_, w, by simp [upd], hw⟩⟩
                · simp only [upd] at hj
                  split at hj
                  · cases hj
                  · exact m1 j v hj
                · simp only [upd]
                  split
                  · rfl
                  · rename_i hji
                    cases hj : s.reg j with
                    | none => rfl
                    | some v => exact absurd (m1 j v hj).1 hji
              simp only
              cases hp : s.pc t with
              | idle => trivial
              | fin r => trivial
              | load => rw [hp] at hk; exact (hem hk).elim
              | check => rw [hp] at hk; exact (hem hk).elim
              | one => rw [hp] at hk; exact (hem hk).elim
              | buf => rw [hp] at hk; exact (hem hk).elim
              | store v => rw [hp] at hk; exact (hem hk.2).elim
              | reg b => rw [hp] at hk; exact (hem hk.2).elim
              | dfr b => rw [hp] at hk; exact ⟨hk.1, hmine hk.2⟩
              | send b d =>
                cases d with
                | none => rw [hp] at hk; exact (hem hk).elim
                | some d => rw [hp] at hk; exact ⟨hk.1, hk.2.1, hmine hk.2.2⟩
              | wait b d => rw [hp] at hk; exact ⟨hk.1, hk.2.1, hmine hk.2.2.1, hk.2.2.2⟩
              | cmp j v d => rw [hp] at hk; exact (hem hk.2.2.1).elim
              | clean r d =>
                rw [hp] at hk
                refine ⟨hk.1, fun j v hj => ?_, hk.2.2⟩
                simp only [upd] at hj
                split at hj
                · cases hj
                · exact hk.2.1 j v hj
          · cases h
  | go t w =>
    simp only [step, go] at h
    have hk := hs.pc t
    have hact : s.pc t ≠ .idle ∧ (∀ r, s.pc t ≠ .fin r) → Active s t := fun h => h
    split at h
    case h_1 hp =>
      simp only [Option.some.injEq] at h; subst h; rw [hp] at hk
      exact ser_move hs ⟨by rw [hp]; simp, by rw [hp]; simp⟩ rfl ⟨by simp, by simp⟩ ⟨rfl, hk⟩ fun x hx => hx
    case h_2 v hp =>
      simp only [Option.some.injEq] at h; subst h; rw [hp] at hk
      exact ser_move hs ⟨by rw [hp]; simp, by rw [hp]; simp⟩ rfl ⟨by simp, by simp⟩ hk.2 fun x hx => hx
    case h_3 hp =>
      simp only [Option.some.injEq] at h; subst h; rw [hp] at hk
      refine ser_move hs ⟨by rw [hp]; simp, by rw [hp]; simp⟩ rfl ⟨by split <;> simp, by split <;> simp⟩ ?_ fun x hx => hx
      split <;> exact hk
    case h_4 hp =>
      simp only [Option.some.injEq] at h; subst h; rw [hp] at hk
      exact ser_move hs ⟨by rw [hp]; simp, by rw [hp]; simp⟩ rfl ⟨by simp, by simp⟩ hk fun x hx => hx
    case h_5 hp =>
      simp only [Option.some.injEq] at h; subst h; rw [hp] at hk
      refine ser_move hs ⟨by rw [hp]; simp, by rw [hp]; simp⟩ rfl ⟨by split <;> simp, by split <;> simp⟩ ?_ fun x hx => hx
      split
      · exact ⟨rfl, hk⟩
      · exact hk
    case h_6 b hp =>
      simp only [Option.some.injEq] at h; subst h; rw [hp] at hk
      have hb := hi.before t (by rw [hp]; trivial)
      refine ser_move hs ⟨by rw [hp]; simp, by rw [hp]; simp⟩ rfl ⟨by simp, by simp⟩ ⟨hk.1, fun i v hv => ?_, Or.inl ⟨by simp [St.at_, upd], hb.1⟩⟩ fun x hx => hx
      simp only [St.at_, upd] at hv ⊢
      split at hv
      · rename_i e; simp only [Option.some.injEq] at hv; exact ⟨e, hv.symm⟩
      · rw [hk.2 i] at hv; cases hv
    case h_7 b hp =>
      simp only [Option.some.injEq] at h; subst h; rw [hp] at hk
      exact ser_move hs ⟨by rw [hp]; simp, by rw [hp]; simp⟩ rfl ⟨by simp, by simp⟩ ⟨hk.1, rfl, hk.2⟩ fun x hx => hx
    case h_8 b hp =>
      simp only [Option.some.injEq] at h; subst h; rw [hp] at hk
      exact ser_finish hs ⟨by rw [hp]; simp, by rw [hp]; simp⟩ rfl hk ⟨by simp, fun u hu => by (cases hu)⟩ fun x hx => hx
    case h_9 b d hp =>
      simp only [Option.some.injEq] at h; subst h; rw [hp] at hk
      obtain ⟨h1, h2, h3, h4⟩ := hk
      refine ser_move hs ⟨by rw [hp]; simp, by rw [hp]; simp⟩ rfl ⟨by simp, by simp⟩ ⟨h1, h2, ⟨h3, ?_⟩, by simp [St.at_]⟩ fun x hx => by simp [St.at_, hx]
      rcases h4 with h4 | ⟨h4, u, h5, h6⟩
      · exact Or.inl h4
      · exact Or.inr ⟨h4, u, h5, by simp only [St.at_, List.mem_append]; exact Or.inl h6⟩
    case h_10 b d hp =>
      rw [hp] at hk
      obtain ⟨h1, h2, ⟨h3, h4⟩, h5⟩ := hk
      split at h
      · cases h
      · rename_i i u hbx
        simp only [Option.some.injEq] at h; subst h
        rcases h4 with h4 | ⟨h4, v, h6, h7⟩
        · rw [h4.2] at hbx; cases hbx
        · rw [h6] at hbx
          simp only [Option.some.injEq, Prod.mk.injEq] at hbx
          obtain ⟨e1, rfl⟩ := hbx
          exact ser_move hs ⟨by rw [hp]; simp, by rw [hp]; simp⟩ rfl ⟨by simp, by simp⟩ ⟨e1.symm, h2, h4, by rw [← e1]; exact h7, by rw [← e1, ← h1]; exact h5⟩ fun x hx => hx
    case h_11 i u d hp =>
      rw [hp] at hk
      obtain ⟨h1, h2, h3, h4, h5⟩ := hk
      simp only [Option.some.injEq, h1, if_true] at h; subst h
      refine ser_move hs ⟨by rw [hp]; simp, by rw [hp]; simp⟩ rfl ⟨by simp, by simp⟩ ⟨h2, fun j v hv => by (rw [show (s.at_ t (.clean (.ok u) d)).reg j = none from h3 j] at hv; cases hv), by simp, fun v hv => ?_⟩ fun x hx => hx
      cases hv; exact ⟨i, h5, h4⟩
    case h_12 r d hp =>
      rw [hp] at hk
      obtain ⟨h1, h2, h3, h4⟩ := hk
      simp only [Option.some.injEq] at h; subst h
      refine ser_finish hs ⟨by rw [hp]; simp, by rw [hp]; simp⟩ rfl (fun j => ?_) ⟨h3, h4⟩ fun x hx => hx
      simp only [St.at_, upd]
      split
      · rfl
      · rename_i hjd
        cases hj : s.reg j with
        | none => rfl
        | some v => exact absurd ((h2 j v hj).trans h1.symm) hjd
    case h_13 => cases h
    case h_14 => cases h

theorem serial_prefix {es : List Ev} {e : Ev} (h : Serial (es ++ [e])) : Serial es :=
  fun a t b s he hr => h a t (b ++ [e]) s (by rw [he]; simp) hr

theorem ser {es : List Ev} {s : St} (h : run {} es = some s) (hse : Serial es) : Ser s := by
  refine runT_ind (P := fun es s => Serial es → Ser s) (fun _ => ser_init) ?_ es s h hse
  intro es s e s' hr ih hs hse
  refine ser_step (inv hr) (ih (serial_prefix hse)) ?_ hs
  rintro t rfl
  exact hse es t [] s rfl hr

/-- **C130 for calls that do not overlap.** A call that returns a response returns one to a request with the identifier of its own request; a response in time is not refused. -/
theorem serial_response_matches_partial {es : List Ev} {s : St} (h : run {} es = some s) (hse : Serial es) (t : Nat) (r : Res) (hf : s.pc t = .fin r) : r ≠ .wrongId ∧ ∀ u, r = .ok u → SameId s t u :=
  (ser h hse).done t r hf

/-- What holds as long as no call has timed out. -/
structure Own (s : St) : Prop where
  asked : ∀ u i, (u, i) ∈ s.asked → u ∈ s.answered ∨ ∃ b d, s.pc u = .wait b d
  box : ∀ u i w, s.box u = some (i, w) → w = u ∧ u ∈ s.answered
  cmp : ∀ t i u d, s.pc t = .cmp i u d → u = t
  clean : ∀ t u d, s.pc t = .clean (.ok u) d → u = t
  fin : ∀ t u, s.pc t = .fin (.ok u) → u = t

theorem own_step {s s' : St} {e : Ev} (hi : Inv s) (hs : Ser s) (ho : Own s) (ht : ∀ t, e ≠ .timeout t) (h : step s e = some s') : Own s' := by
  have ⟨o1, o2, o3, o4, o5⟩ := ho
  -- a step of call `t` that changes neither the requests nor the boxes
  have hmove : ∀ (s' : St) (t : Nat) (p : PC), s'.pc = upd s.pc t p → s'.asked = s.asked → s'.answered = s.answered → s'.box = s.box →
      (∀ b d, s.pc t ≠ .wait b d) → (∀ i u d, p = .cmp i u d → u = t) → (∀ u d, p = .clean (.ok u) d → u = t) → (∀ u, p = .fin (.ok u) → u = t) → Own s' := by
    intro s' t p e1 e2 e3 e4 hw c1 c2 c3
    have hpc : ∀ u, u ≠ t → s'.pc u = s.pc u := fun u hu => by rw [e1]; simp [upd, hu]
    have hpt : s'.pc t = p := by rw [e1]; simp [upd]
    refine ⟨?_, ?_, ?_, ?_, ?_⟩
    · intro u i hu
      rw [e2] at hu; rw [e3]
      rcases o1 u i hu with h | ⟨b, d, h⟩
      · exact Or.inl h
      · refine Or.inr ⟨b, d, ?_⟩
        rw [hpc u fun e => hw b d (by rw [← e]; exact h)]; exact h
    · intro u i w hu; rw [e4] at hu; rw [e3]; exact o2 u i w hu
    · intro u i v d hu
      by_cases hut : u = t
      · rw [hut, hpt] at hu; rw [hut]; exact c1 i v d hu
      · rw [hpc u hut] at hu; exact o3 u i v d hu
    · intro u v d hu
      by_cases hut : u = t
      · rw [hut, hpt] at hu; rw [hut]; exact c2 v d hu
      · rw [hpc u hut] at hu; exact o4 u v d hu
    · intro u v hu
      by_cases hut : u = t
      · rw [hut, hpt] at hu; rw [hut]; exact c3 v hu
      · rw [hpc u hut] at hu; exact o5 u v hu
  cases e with
  | call t =>
    simp only [step] at h
    split at h
    · rename_i hp
      simp only [Option.some.injEq] at h; subst h
      exact hmove _ t .load rfl rfl rfl rfl (by rw [hp]; simp) (by simp) (by simp) (by simp)
    · cases h
  | timeout t => exact absurd rfl (ht t)
  | respond w =>
    simp only [step] at h
    split at h
    · cases h
    · rename_i i hid
      have hw := mem_of_idOf hid
      split at h
      · cases h
      · rename_i hna
        obtain ⟨b, d, hpw⟩ : ∃ b d, s.pc w = .wait b d := by
          rcases o1 w i hw with h | h
          · exact absurd h hna
          · exact h
        have hk := hs.pc w
        rw [hpw] at hk
        split at h
        · simp only [Option.some.injEq] at h; subst h
          refine ⟨fun u j hu => ?_, fun u j v hu => ?_, o3, o4, o5⟩
          · rcases o1 u j hu with h | h
            · exact Or.inl (by simp [h])
            · exact Or.inr h
          · obtain ⟨h1, h2⟩ := o2 u j v hu; exact ⟨h1, by simp [h2]⟩
        · rename_i u hr
          have huw : u = w := (hk.2.2.1.1 i u hr).2
          split at h
          · simp only [Option.some.injEq] at h; subst h
            refine ⟨fun v j hv => ?_, fun v j x hv => ?_, o3, o4, o5⟩
            · rcases o1 v j hv with h | h
              · exact Or.inl (by simp [h])
              · exact Or.inr h
            · simp only [upd] at hv
              split at hv
              · rename_i e; simp only [Option.some.injEq, Prod.mk.injEq] at hv; rw [e, ← hv.2, huw]; simp
              · obtain ⟨h1, h2⟩ := o2 v j x hv; exact ⟨h1, by simp [h2]⟩
          · cases h
  | go t w =>
    simp only [step, go] at h
    split at h
    case h_1 hp | h_2 hp | h_4 hp | h_6 hp | h_7 hp | h_8 hp => 
      simp only [Option.some.injEq] at h; subst h
      exact hmove _ t _ rfl rfl rfl rfl (by rw [hp]; simp) (by simp) (by simp) (by simp)
    case h_3 hp | h_5 hp =>
      simp only [Option.some.injEq] at h; subst h
      exact hmove _ t _ rfl rfl rfl rfl (by rw [hp]; simp) (by split <;> simp) (by split <;> simp) (by split <;> simp)
    case h_9 b d hp =>
      simp only [Option.some.injEq] at h; subst h
      have hpc : ∀ u, u ≠ t → ({ s with asked := s.asked ++ [(t, b)] }.at_ t (.wait b d)).pc u = s.pc u := fun u hu => by simp [St.at_, upd, hu]
      have hpt : ({ s with asked := s.asked ++ [(t, b)] }.at_ t (.wait b d)).pc t = .wait b d := by simp [St.at_, upd]
      refine ⟨?_, o2, ?_, ?_, ?_⟩
      · intro u i hu
        by_cases hut : u = t
        · exact Or.inr ⟨b, d, by rw [hut, hpt]⟩
        · simp only [St.at_, List.mem_append, List.mem_singleton, Prod.mk.injEq, hut, false_and, or_false] at hu
          rw [hpc u hut]
          exact o1 u i hu
      · intro u i v d' hu
        by_cases hut : u = t
        · rw [hut, hpt] at hu; cases hu
        · rw [hpc u hut] at hu; exact o3 u i v d' hu
      · intro u v d' hu
        by_cases hut : u = t
        · rw [hut, hpt] at hu; cases hu
        · rw [hpc u hut] at hu; exact o4 u v d' hu
      · intro u v hu
        by_cases hut : u = t
        · rw [hut, hpt] at hu; cases hu
        · rw [hpc u hut] at hu; exact o5 u v hu
    case h_10 b d hp =>
      split at h
      · cases h
      · rename_i i u hbx
        obtain ⟨hut', hans⟩ := o2 t i u hbx
        simp only [Option.some.injEq] at h; subst h
        refine ⟨?_, ?_, ?_, ?_, ?_⟩
        · intro v j hv
          by_cases hut : v = t
          · exact Or.inl (by rw [hut]; exact hans)
          · simp only [St.at_, upd, hut, if_false] at hv ⊢; exact o1 v j hv
        · intro v j x hv
          simp only [St.at_, upd] at hv
          split at hv
          · cases hv
          · exact o2 v j x hv
        · intro v j x d' hv
          by_cases hut : v = t
          · subst hut; simp only [St.at_, upd, if_true, PC.cmp.injEq] at hv; rw [← hv.2.1]; exact hut'
          · simp only [St.at_, upd, hut, if_false] at hv; exact o3 v j x d' hv
        · intro v x d' hv
          by_cases hut : v = t
          · subst hut; simp [St.at_, upd] at hv
          · simp only [St.at_, upd, hut, if_false] at hv; exact o4 v x d' hv
        · intro v x hv
          by_cases hut : v = t
          · subst hut; simp [St.at_, upd] at hv
          · simp only [St.at_, upd, hut, if_false] at hv; exact o5 v x hv
    case h_11 i u d hp =>
      simp only [Option.some.injEq] at h; subst h
      have := o3 t i u d hp
      refine hmove _ t _ rfl rfl rfl rfl (by rw [hp]; simp) (by simp) ?_ (by simp)
      intro v d' hv
      simp only [PC.clean.injEq] at hv
      split at hv
      · have := hv.1; simp only [Res.ok.injEq] at this; omega
      · cases hv.1
    case h_12 r d hp =>
      simp only [Option.some.injEq] at h; subst h
      refine hmove _ t _ rfl rfl rfl rfl (by rw [hp]; simp) (by simp) (by simp) ?_
      intro v hv
      simp only [PC.fin.injEq] at hv
      exact o4 t v d (by rw [hp, hv])
    case h_13 => cases h
    case h_14 => cases h

/-- **C130 for calls that do not overlap, none of which has timed out.** A call returns the response to its own request. -/
theorem serial_own_response_partial {es : List Ev} {s : St} (h : run {} es = some s) (hse : Serial es) (hn : ∀ t, Ev.timeout t ∉ es) (t u : Nat) (hf : s.pc t = .fin (.ok u)) : u = t := by
  have key := runT_ind (step := step) (s0 := {}) (P := fun es s => Serial es → (∀ t, Ev.timeout t ∉ es) → Own s) (fun _ _ => ⟨by simp, by simp, by simp, by simp, by simp⟩) (by
    intro es s e s' hr ih hs hse hn
    refine own_step (inv hr) (ser hr (serial_prefix hse)) (ih (serial_prefix hse) fun t hm => hn t (by simp [hm])) ?_ hs
    intro t e'; exact hn t (by simp [e'])) es s h hse hn
  exact key.fin t u hf

/-- … and when the peer answers a waiting call, the call returns this response. -/
theorem serial_response_returned {es : List Ev} {s : St} (h : run {} es = some s) (hse : Serial es) (t b d : Nat) (hw : s.pc t = .wait b d) (hn : t ∉ s.answered) (hb : s.box t = none) :
    ∃ s', run s [.respond t, .go t true, .go t true, .go t true] = some s' ∧ s'.pc t = .fin (.ok t) := by
  have hi := inv h
  have hk := (ser h hse).pc t
  rw [hw] at hk
  obtain ⟨h1, h2, ⟨h3, h4⟩, h5⟩ := hk
  have hr : s.reg b = some t := by
    rcases h4 with h4 | ⟨-, u, h6, -⟩
    · rw [h1]; exact h4.1
    · rw [hb] at h6; cases h6
  have e1 : step s (.respond t) = some { s with answered := s.answered ++ [t], reg := upd s.reg b none, box := upd s.box t (some (b, t)) } := by
    simp [step, idOf_of_mem hi h5, hn, hr, hb]
  refine ⟨_, by simp only [run, runT, e1]; simp [step, go, hw, upd, St.at_]; rfl, ?_⟩
  simp [h1, upd]

/-! ## Overlapping calls -/

/-- The steps of one call until its request is on the air. -/
def openTill (t : Nat) : List Ev := .call t :: List.replicate 7 (.go t true)

/-- FALSE of the code for overlapping calls: two `Open` calls, each answered once by the peer with the identifier of its request; call 0 returns the response to the request of call 1, which times out. -/
theorem overlapping_calls_cross : ∃ es s, run {} es = some s ∧ (∀ t, Ev.timeout t ∈ es → t = 1) ∧ s.pc 0 = .fin (.ok 1) ∧ s.pc 1 = .fin .timedOut :=
  ⟨[.call 0, .go 0 true, .go 0 true, .go 0 true, .go 0 true, .call 1, .go 1 true, .go 1 true, .go 1 true, .go 1 true, .go 1 true, .go 1 true, .go 1 true, .go 0 true, .go 0 true, .go 0 true, .respond 1, .go 0 true, .go 0 true, .go 0 true,
    .timeout 1, .go 1 true], _, rfl, by simp, rfl, rfl⟩

/-- FALSE of the code: one `Open` during which a credit is returned for data on another channel; the peer answers in time and the call fails. -/
theorem returned_credit_breaks_open : ∃ es s, run {} es = some s ∧ (∀ t, Ev.timeout t ∉ es) ∧ s.pc 1 = .fin .sent ∧ s.pc 0 = .fin .wrongId :=
  ⟨openTill 0 ++ [.call 1, .go 1 false, .go 1 false, .go 1 false, .go 1 false, .go 1 false, .respond 0, .go 0 true, .go 0 true, .go 0 true], _, rfl, by simp [openTill], rfl, rfl⟩

/-- FALSE of the code: two calls can send requests with one identifier at the same time. -/
theorem overlapping_calls_share_id : ∃ es s, run {} es = some s ∧ (0, 1) ∈ s.asked ∧ (1, 1) ∈ s.asked ∧ s.answered = [] :=
  ⟨[.call 0, .call 1, .go 0 true, .go 1 true, .go 0 true, .go 0 true, .go 0 true, .go 0 true, .go 0 true, .go 0 true, .go 1 true, .go 1 true, .go 1 true, .go 1 true, .go 1 true, .go 1 true], _, rfl, by decide, by decide, rfl⟩

/-- A history without overlapping calls, continued by one call when nothing is in progress. -/
theorem serial_snoc_call {es fs : List Ev} {s : St} {t : Nat} (h : Serial es) (hr : run {} es = some s) (hq : ∀ u, ¬ Active s u) (hf : ∀ u, Ev.call u ∉ fs) : Serial (es ++ .call t :: fs) := by
  intro a u b x he hx
  rcases List.append_eq_append_iff.1 he with ⟨c, h1, h2⟩ | ⟨c, h1, h2⟩
  · cases c with
    | nil =>
      simp only [List.append_nil] at h1
      subst h1
      rw [hr] at hx; cases hx; exact hq
    | cons y c =>
      simp only [List.cons_append, List.cons.injEq] at h2
      exact absurd (by rw [h2.2]; simp) (hf u)
  · cases c with
    | nil =>
      simp only [List.append_nil] at h1
      subst h1
      rw [hr] at hx; cases hx; exact hq
    | cons y c =>
      simp only [List.cons_append, List.cons.injEq] at h2
      exact h a u c x (by rw [h1, h2.1]) hx

def oneCall (t : Nat) : List Ev := List.replicate 7 (.go t true) ++ [.respond t, .go t true, .go t true, .go t true]

/-- Non-vacuity: two calls one after the other, both answered. -/
theorem sigconc_example : ∃ es s, run {} es = some s ∧ Serial es ∧ (∀ t, Ev.timeout t ∉ es) ∧ s.pc 0 = .fin (.ok 0) ∧ s.pc 1 = .fin (.ok 1) ∧ s.asked = [(0, 1), (1, 2)] := by
  have h0 : Serial ([] : List Ev) := by
    intro a t b s h; simp at h
  have h1 : Serial ([] ++ .call 0 :: oneCall 0) := serial_snoc_call h0 rfl (fun u h => h.1 rfl) (by simp [oneCall])
  have h2 : Serial (([] ++ .call 0 :: oneCall 0) ++ .call 1 :: oneCall 1) := by
    refine serial_snoc_call h1 rfl (fun u h => ?_) (by simp [oneCall])
    by_cases hu : u = 0
    · subst hu; exact h.2 _ rfl
    · refine h.1 ?_
      simp [St.at_, upd, hu]
  exact ⟨_, _, rfl, h2, by simp [oneCall], rfl, rfl, rfl⟩

/-- A request is answered at most once in the model: this is the only assumption about the peer. -/
theorem answer_once (s s' : St) (t : Nat) (h : step s (.respond t) = some s') (fs : List Ev) (y : St) (hy : run s' fs = some y) : step y (.respond t) = none := by
  have key : ∀ (gs : List Ev) (x : St), t ∈ x.answered → ∀ y, run x gs = some y → t ∈ y.answered := by
    intro gs
    refine fun x hx y hy => runT_ind (step := step) (s0 := x) (P := fun _ y => t ∈ y.answered) hx ?_ gs y hy
    intro es y e y' _ hp hs
    cases e <;> simp only [step] at hs
    case call u => split at hs <;> simp only [Option.some.injEq, reduceCtorEq] at hs; rw [← hs]; exact hp
    case go u w =>
      simp only [go] at hs
      split at hs <;> try (simp only [Option.some.injEq, reduceCtorEq] at hs)
      all_goals first
        | (rw [← hs]; exact hp)
        | (split at hs <;> simp only [Option.some.injEq, reduceCtorEq] at hs; rw [← hs]; exact hp)
    case timeout u => split at hs <;> simp only [Option.some.injEq, reduceCtorEq] at hs; rw [← hs]; exact hp
    case respond u =>
      split at hs <;> try (simp only [reduceCtorEq] at hs)
      split at hs <;> try (simp only [reduceCtorEq] at hs)
      split at hs
      · simp only [Option.some.injEq] at hs; rw [← hs]; exact List.mem_append_left _ hp
      · split at hs <;> simp only [Option.some.injEq, reduceCtorEq] at hs; rw [← hs]; exact List.mem_append_left _ hp
  have hs' : t ∈ s'.answered := by
    simp only [step] at h
    split at h <;> try (simp only [reduceCtorEq] at h)
    split at h <;> try (simp only [reduceCtorEq] at h)
    split at h
    · simp only [Option.some.injEq] at h; rw [← h]; simp
    · split at h <;> simp only [Option.some.injEq, reduceCtorEq] at h; rw [← h]; simp
  have hm := key fs s' hs' y hy
  simp only [step]
  split
  · rfl
  · rw [if_pos hm]

/-! ## The identifiers -/

/-- The calls made, in order. -/
def callsOf (es : List Ev) : List Nat := es.filterMap fun | .call t => some t | _ => none

/-- The value of the counter after `n` calls that do not overlap: 0 before the first, then 1 to 255 and 1 again. -/
def num (n : Nat) : Nat := if n = 0 then 0 else (n - 1) % 255 + 1

theorem num_succ (n : Nat) : num (n + 1) = n % 255 + 1 := by simp [num]

def NumAt (s : St) (n : Nat) : PC → Prop
  | .idle | .fin _ => True
  | .load => s.sig = num (n - 1)
  | .store v => v = num (n - 1)
  | .check => s.sig = (num (n - 1) + 1) % 256
  | .one => (num (n - 1) + 1) % 256 = 0
  | .buf | .cmp .. | .clean .. => s.sig = num n
  | .reg b | .dfr b | .send b _ | .wait b _ => b = num n ∧ s.sig = num n

structure Ids (es : List Ev) (s : St) : Prop where
  quiet : (∀ t, ¬ Active s t) → s.sig = num (callsOf es).length
  act : ∀ t, Active s t → (callsOf es).getLast? = some t
  at_ : ∀ t, NumAt s (callsOf es).length (s.pc t)
  ask : ∀ t i, (t, i) ∈ s.asked → ∃ k, (callsOf es)[k]? = some t ∧ i = k % 255 + 1

theorem callsOf_snoc (es : List Ev) (e : Ev) : callsOf (es ++ [e]) = callsOf es ++ callsOf [e] := by simp [callsOf]

theorem ids_move {es : List Ev} {s s' : St} {e : Ev} {t : Nat} {p : PC} (hs : Ser s) (hi : Ids es s) (hne : callsOf [e] = []) (ht : Active s t) (hpc : s'.pc = upd s.pc t p) (hp : NumAt s' (callsOf es).length p)
    (hf : ∀ r, p = .fin r → s'.sig = num (callsOf es).length) (hid : p ≠ .idle) (ha : ∀ u i, (u, i) ∈ s'.asked → (u, i) ∈ s.asked ∨ (u = t ∧ i = num (callsOf es).length)) : Ids (es ++ [e]) s' := by
  have hlast := hi.act t ht
  have hlen : (callsOf es).length ≠ 0 := by
    intro h0
    rw [List.length_eq_zero_iff.1 h0] at hlast; cases hlast
  have hoth : ∀ u, u ≠ t → s'.pc u = .idle ∨ ∃ r, s'.pc u = .fin r := by
    intro u hut
    have h1 : s'.pc u = s.pc u := by rw [hpc]; simp [upd, hut]
    rw [h1]
    apply Classical.byContradiction
    intro hn
    exact hut (hs.one u t ⟨fun e => hn (.inl e), fun r e => hn (.inr ⟨r, e⟩)⟩ ht)
  have htp : s'.pc t = p := by rw [hpc]; simp [upd]
  have hcs : callsOf (es ++ [e]) = callsOf es := by rw [callsOf_snoc, hne, List.append_nil]
  constructor
  · intro hq
    rw [hcs]
    have : ∃ r, p = .fin r := by
      apply Classical.byContradiction
      intro hn
      exact hq t ⟨by rw [htp]; exact hid, fun r e => hn ⟨r, by rw [← htp]; exact e⟩⟩
    obtain ⟨r, hr⟩ := this
    exact hf r hr
  · intro u hu
    rw [hcs]
    by_cases hut : u = t
    · rw [hut]; exact hlast
    · rcases hoth u hut with h | ⟨r, h⟩
      · exact absurd h hu.1
      · exact absurd h (hu.2 r)
  · intro u
    rw [hcs]
    by_cases hut : u = t
    · rw [hut, htp]; exact hp
    · rcases hoth u hut with h | ⟨r, h⟩ <;> rw [h] <;> trivial
  · intro u i hm
    rw [hcs]
    rcases ha u i hm with h | ⟨rfl, rfl⟩
    · exact hi.ask u i h
    · refine ⟨(callsOf es).length - 1, ?_, ?_⟩
      · rw [← List.getLast?_eq_getElem?]; exact hlast
      · simp [num, hlen]

theorem ids_step {es : List Ev} {s s' : St} {e : Ev} (hs : Ser s) (hi : Ids es s) (hc : ∀ t, e = .call t → ∀ u, ¬ Active s u) (h : step s e = some s') : Ids (es ++ [e]) s' := by
  cases e with
  | call t =>
    have hno := hc t rfl
    simp only [step] at h
    split at h
    · simp only [Option.some.injEq] at h; subst h
      have hcs : callsOf (es ++ [.call t]) = callsOf es ++ [t] := by rw [callsOf_snoc]; rfl
      constructor
      · intro h; exact absurd ⟨by simp [St.at_, upd], by simp [St.at_, upd]⟩ (h t)
      · intro u hu
        by_cases hut : u = t
        · rw [hcs, hut]; simp
        · refine absurd ?_ (hno u)
          simpa only [Active, St.at_, upd, hut, if_false] using hu
      · intro u
        by_cases hut : u = t
        · subst hut
          simp only [St.at_, upd, if_true, NumAt, hcs, List.length_append, List.length_cons, List.length_nil]
          exact hi.quiet hno
        · have hnu := hno u
          have : s.pc u = .idle ∨ ∃ r, s.pc u = .fin r := by
            apply Classical.byContradiction
            intro hn
            exact hnu ⟨fun e => hn (.inl e), fun r e => hn (.inr ⟨r, e⟩)⟩
          simp only [St.at_, upd, hut, if_false]
          rcases this with e | ⟨r, e⟩ <;> rw [e] <;> trivial
      · intro u i hm
        obtain ⟨k, h1, h2⟩ := hi.ask u i hm
        refine ⟨k, ?_, h2⟩
        rw [hcs, List.getElem?_append_left (List.getElem?_eq_some_iff.1 h1).1, h1]
    · cases h
  | timeout t =>
    simp only [step] at h
    split at h
    · rename_i b d hp
      simp only [Option.some.injEq] at h; subst h
      have hk := hi.at_ t
      rw [hp] at hk
      exact ids_move hs hi rfl (t := t) (p := .clean .timedOut d) ⟨by rw [hp]; simp, by rw [hp]; simp⟩ rfl hk.2 (by simp) (by simp) fun u i hm => .inl hm
    · cases h
  | respond w =>
    have hcs : callsOf (es ++ [.respond w]) = callsOf es := by rw [callsOf_snoc]; simp [callsOf]
    have key : s'.pc = s.pc ∧ s'.sig = s.sig ∧ s'.asked = s.asked := by
      simp only [step] at h
      split at h
      · cases h
      · split at h
        · cases h
        · split at h
          · simp only [Option.some.injEq] at h; subst h; exact ⟨rfl, rfl, rfl⟩
          · split at h
            · simp only [Option.some.injEq] at h; subst h; exact ⟨rfl, rfl, rfl⟩
            · cases h
    obtain ⟨k1, k2, k3⟩ := key
    have hact : ∀ u, Active s' u ↔ Active s u := fun u => by simp only [Active, k1]
    constructor
    · intro hq; rw [hcs, k2]; exact hi.quiet fun u hu => hq u ((hact u).2 hu)
    · intro u hu; rw [hcs]; exact hi.act u ((hact u).1 hu)
    · intro u
      have := hi.at_ u
      rw [hcs, k1]
      revert this
      cases s.pc u <;> simp only [NumAt, k2] <;> exact id
    · intro u i hm; rw [hcs]; rw [k3] at hm; exact hi.ask u i hm
  | go t w =>
    simp only [step, go] at h
    have hk := hi.at_ t
    have hn : num (callsOf es).length = ((callsOf es).length - 1) % 255 + 1 ∨ (callsOf es).length = 0 := by
      by_cases h0 : (callsOf es).length = 0
      · exact .inr h0
      · left; simp [num, h0]
    have h0 : Active s t → (callsOf es).length ≠ 0 := by
      intro ha h0
      have := hi.act t ha
      rw [List.length_eq_zero_iff.1 h0] at this; cases this
    have hstep : (callsOf es).length ≠ 0 → ((num ((callsOf es).length - 1) + 1) % 256 = 0 → num (callsOf es).length = 1) ∧ ((num ((callsOf es).length - 1) + 1) % 256 ≠ 0 → num (callsOf es).length = (num ((callsOf es).length - 1) + 1) % 256) := by
      intro hl
      generalize (callsOf es).length = n at *
      obtain ⟨m, rfl⟩ : ∃ m, n = m + 1 := ⟨n - 1, by omega⟩
      simp only [Nat.add_sub_cancel]
      rw [num_succ]
      cases m with
      | zero => simp [num]
      | succ m => rw [num_succ]; omega
    cases hp : s.pc t with
    | idle => simp [hp] at h
    | fin r => simp [hp] at h
    | send b d =>
      have hact : Active s t := ⟨by rw [hp]; simp, by rw [hp]; simp⟩
      simp only [hp, NumAt] at hk
      cases d with
      | none =>
        simp only [hp, Option.some.injEq] at h
        subst h
        exact ids_move hs hi rfl hact rfl trivial (fun _ _ => hk.2) (by simp) fun u i hm => .inl hm
      | some d =>
        simp only [hp, Option.some.injEq] at h
        subst h
        refine ids_move hs hi rfl hact rfl hk (by simp) (by simp) fun u i hm => ?_
        simp only [St.at_, List.mem_append, List.mem_singleton, Prod.mk.injEq] at hm
        rcases hm with hm | ⟨rfl, rfl⟩
        · exact .inl hm
        · exact .inr ⟨rfl, hk.1⟩
    | _ =>
      have hact : Active s t := ⟨by rw [hp]; simp, by rw [hp]; simp⟩
      have hl := h0 hact
      have hst := hstep hl
      simp only [hp, NumAt] at hk
      simp only [hp] at h
      try (split at h)
      all_goals try (cases h; done)
      all_goals simp only [Option.some.injEq] at h
      all_goals subst h
      all_goals refine ids_move hs hi rfl hact rfl ?_ ?_ ?_ ?_
      all_goals first
        | (intro u i hm; exact .inl hm)
        | (simp only [NumAt, St.at_]; grind)
        | grind [NumAt, St.at_]

theorem ids {es : List Ev} {s : St} (h : run {} es = some s) (hse : Serial es) : Ids es s := by
  refine runT_ind (P := fun es s => Serial es → Ids es s) (fun _ => ?_) ?_ es s h hse
  · refine ⟨fun _ => rfl, fun t ht => absurd rfl ht.1, fun t => trivial, fun t i hm => by cases hm⟩
  · intro es s e s' hr ih hs hse
    refine ids_step (ser hr (serial_prefix hse)) (ih (serial_prefix hse)) ?_ hs
    rintro t rfl
    exact hse es t [] s rfl hr

/-- **C130, identifiers.** Of calls that do not overlap, the first has identifier 1, the next 2, and so on to 255 and again from 1: never 0, and the same again only after 255 calls. -/
theorem serial_identifiers {es : List Ev} {s : St} (h : run {} es = some s) (hse : Serial es) (t i : Nat) (ha : (t, i) ∈ s.asked) : ∃ k, (callsOf es)[k]? = some t ∧ i = k % 255 + 1 :=
  (ids h hse).ask t i ha

/-- However calls overlap, an identifier is a byte. -/
theorem identifiers_are_bytes {es : List Ev} {s : St} (h : run {} es = some s) (t i : Nat) (ha : (t, i) ∈ s.asked) : i < 256 := by
  have key := runT_ind (step := step) (s0 := {}) (P := fun _ s => s.sig < 256 ∧ (∀ t b, s.pc t = .reg b ∨ s.pc t = .dfr b ∨ (∃ d, s.pc t = .send b d) → b < 256) ∧ ∀ t i, (t, i) ∈ s.asked → i < 256)
    (by simp) ?_ es s h
  · exact key.2.2 t i ha
  · intro _ s e s' _ ⟨h1, h2, h3⟩ hs
    cases e with
    | call t =>
      simp only [step] at hs
      split at hs <;> simp only [Option.some.injEq, reduceCtorEq] at hs
      subst hs
      refine ⟨h1, ?_, h3⟩
      intro u b hu
      simp only [St.at_, upd] at hu
      split at hu
      · simp at hu
      · exact h2 u b hu
    | timeout t =>
      simp only [step] at hs
      split at hs <;> simp only [Option.some.injEq, reduceCtorEq] at hs
      subst hs
      refine ⟨h1, ?_, h3⟩
      intro u b hu
      simp only [St.at_, upd] at hu
      split at hu
      · simp at hu
      · exact h2 u b hu
    | respond w =>
      simp only [step] at hs
      repeat' split at hs
      all_goals simp only [Option.some.injEq, reduceCtorEq] at hs
      all_goals subst hs
      all_goals exact ⟨h1, h2, h3⟩
    | go t w =>
      simp only [step, go] at hs
      have hsig : ∀ n : Nat, n % 256 < 256 := fun n => Nat.mod_lt _ (by decide)
      cases hp : s.pc t with
      | idle => simp [hp] at hs
      | fin r => simp [hp] at hs
      | send b d =>
        have hb : b < 256 := h2 t b (.inr (.inr ⟨d, hp⟩))
        cases d with
        | none =>
          simp only [hp, Option.some.injEq] at hs
          subst hs
          refine ⟨h1, fun u b hu => ?_, h3⟩
          simp only [St.at_, upd] at hu
          split at hu
          · simp at hu
          · exact h2 u b hu
        | some d =>
          simp only [hp, Option.some.injEq] at hs
          subst hs
          refine ⟨h1, fun u b hu => ?_, fun u i hm => ?_⟩
          · simp only [St.at_, upd] at hu
            split at hu
            · simp at hu
            · exact h2 u b hu
          · simp only [St.at_, List.mem_append, List.mem_singleton, Prod.mk.injEq] at hm
            rcases hm with hm | ⟨rfl, rfl⟩
            · exact h3 u i hm
            · exact hb
      | _ =>
        simp only [hp] at hs
        try (split at hs)
        all_goals try (cases hs; done)
        all_goals simp only [Option.some.injEq] at hs
        all_goals subst hs
        all_goals refine ⟨?_, ?_, ?_⟩
        all_goals first
          | exact h1
          | exact h3
          | exact hsig _
          | (show (1 : Nat) < 256; decide)
          | (intro u b hu
             simp only [St.at_, upd] at hu
             split at hu
             · have := h2 t
               have := h1
               grind
             · exact h2 u b hu)
          | (intro u i hm
             simp only [St.at_, List.mem_append, List.mem_singleton, Prod.mk.injEq] at hm
             rcases hm with hm | ⟨rfl, rfl⟩
             · exact h3 u i hm
             · exact h2 u i (.inr (.inr ⟨_, hp⟩)))

end Ble.SigConc
