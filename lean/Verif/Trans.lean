set_option autoImplicit false

/-!
# Runs of a transition system

A step is a partial function of the state and an event; a run is a list of events all of which were possible. Used by the models that are
transition systems.
-/

namespace Ble

variable {σ ε : Type}

/-- The state after a list of events, if all were possible. -/
def runT (step : σ → ε → Option σ) : σ → List ε → Option σ
  | s, [] => some s
  | s, e :: es =>
    match step s e with
    | none => none
    | some s' => runT step s' es

theorem runT_append {step : σ → ε → Option σ} {s s' : σ} {a b : List ε} :
    runT step s (a ++ b) = some s' ↔ ∃ t, runT step s a = some t ∧ runT step t b = some s' := by
  induction a generalizing s with
  | nil => simp [runT]
  | cons x xs ih =>
    simp only [List.cons_append, runT]
    split
    · simp
    · exact ih

theorem runT_snoc {step : σ → ε → Option σ} {s s' : σ} {es : List ε} {e : ε} :
    runT step s (es ++ [e]) = some s' ↔ ∃ t, runT step s es = some t ∧ step t e = some s' := by
  rw [runT_append]
  constructor
  · rintro ⟨t, h1, h2⟩
    refine ⟨t, h1, ?_⟩
    simp only [runT] at h2
    split at h2
    · simp at h2
    · rename_i u hu; rw [hu]; exact h2
  · rintro ⟨t, h1, h2⟩
    exact ⟨t, h1, by simp [runT, h2]⟩

/-- Induction over runs: an invariant of the history and the state. -/
theorem runT_ind {step : σ → ε → Option σ} {s0 : σ} {P : List ε → σ → Prop} (h0 : P [] s0)
    (hs : ∀ es s e s', runT step s0 es = some s → P es s → step s e = some s' → P (es ++ [e]) s') :
    ∀ es s, runT step s0 es = some s → P es s := by
  have key : ∀ es pre s s', runT step s0 pre = some s → P pre s → runT step s es = some s' → P (pre ++ es) s' := by
    intro es
    induction es with
    | nil => intro pre s s' _ hp h; simp [runT] at h; subst h; simpa using hp
    | cons x xs ih =>
      intro pre s s' hpre hp h
      simp only [runT] at h
      split at h
      · simp at h
      · rename_i t ht
        have := ih (pre ++ [x]) t s' (runT_snoc.2 ⟨s, hpre, ht⟩) (hs _ _ _ _ hpre hp ht) h
        simpa using this
  intro es s h
  simpa using key es [] s0 s rfl h0 h

end Ble
