import Verif.Hci.Cmd
set_option autoImplicit false

/-!
# C31: HCI commands and their replies
-/

namespace Ble.Props

open Ble.Cmd

namespace CmdFlow

/-! ## Specification -/

/-- The call is past its opcode lock and has not returned. -/
def InFlight : Phase → Prop
  | .want | .done _ => False
  | _ => True

/-- The event answers a command of opcode `oc` with these return parameters: a Command Complete or Command Status carrying the opcode, or, for vendor commands (OGF 0x3f), a vendor
event, whose contents the host replaces by a zero status. -/
def Answers (oc : Nat) (ps : Bytes) : Evt → Prop
  | .complete _ oc' ps' => oc' = oc ∧ ps' = ps
  | .status _ oc' st => oc' = oc ∧ ps = [st]
  | .vendor => oc / 1024 = 0x3f ∧ ps = [0]

/-- Opcode 0x003f (OGF 0, OCF 0x3f) is not a command; the host uses the number for vendor commands. -/
def NoOpcode3f (as : List Act) : Prop :=
  ∀ a ∈ as, a ≠ .call 0x3f ∧ (∀ n ps, a ≠ .raise (.complete n 0x3f ps)) ∧ (∀ n st, a ≠ .raise (.status n 0x3f st))

/-! ## Lemmas -/

theorem upd_same {α : Type} (f : Nat → α) (i : Nat) (v : α) : upd f i v i = v := by simp [upd]
theorem upd_other {α : Type} (f : Nat → α) {i j : Nat} (v : α) (h : j ≠ i) : upd f i v j = f j := by simp [upd, h]

theorem get_set_same {s : St} {i oc : Nat} {q p : Phase} (h : s.callers[i]? = some (oc, q)) : (setPhase s i p)[i]? = some (oc, p) := by
  simp [setPhase, List.getElem?_modify, h]

theorem get_set_other {s : St} {i j : Nat} {p : Phase} (h : j ≠ i) : (setPhase s i p)[j]? = s.callers[j]? := by
  simp only [setPhase, List.getElem?_modify]
  cases s.callers[j]? with
  | none => rfl
  | some v =>
    have h' : ¬ i = j := fun e => h e.symm
    simp [h']

/-- What the handlers look up for an event. -/
def looks (e : Evt) : Option (Nat × Bytes) := (evtEffect 0 e).2

theorem looks_eq (b : Nat) (e : Evt) : (evtEffect b e).2 = looks e := by cases e <;> rfl

/-- The reply `ps`, `k` may belong to caller `i` with opcode `oc`. -/
def Good (s : St) (i oc : Nat) (ps : Bytes) (k : Nat) : Prop :=
  ∃ e, s.handled[k]? = some e ∧ looks e = some (key oc, ps) ∧ s.wrote i ≤ k

structure Inv (s : St) : Prop where
  lockOf : ∀ (i oc : Nat) ph, s.callers[i]? = some (oc, ph) → InFlight ph → s.lock (key oc) = some i
  lockIs : ∀ k i, s.lock k = some i → ∃ oc ph, s.callers[i]? = some (oc, ph) ∧ key oc = k ∧ InFlight ph
  sentIs : ∀ k i, s.sent k = some i → ∃ oc ph, s.callers[i]? = some (oc, ph) ∧ key oc = k ∧ s.wrote i ≤ s.handled.length ∧
    (ph = .waiting ∨ ph = .timedOut ∨ ∃ ps n, ph = .got ps n)
  handlerIs : ∀ i ps k, s.handler = some (i, ps, k) → ∃ oc ph, s.callers[i]? = some (oc, ph) ∧ ph ≠ .want ∧ ph ≠ .locked ∧ ph ≠ .ready ∧ Good s i oc ps k
  gotIs : ∀ (i oc : Nat) ps k, s.callers[i]? = some (oc, .got ps k) → Good s i oc ps k
  doneIs : ∀ (i oc : Nat) ps k, s.callers[i]? = some (oc, .done (some (ps, k))) → Good s i oc ps k

theorem Inv_init : Inv init := by
  constructor <;> intros <;> simp_all [init]

theorem Good_mono {s s' : St} {i oc : Nat} {ps : Bytes} {k : Nat} (h : Good s i oc ps k) (hh : ∀ (j : Nat) x, s.handled[j]? = some x → s'.handled[j]? = some x)
    (hw : s'.wrote i = s.wrote i) : Good s' i oc ps k := by
  obtain ⟨e, h1, h2, h3⟩ := h
  exact ⟨e, hh _ _ h1, h2, by rw [hw]; exact h3⟩

theorem Inv_step {s s' : St} {a : Act} (h : Inv s) (hs : step s a = some s') : Inv s' := by
  have app : ∀ (x : Nat × Phase) (i : Nat) y, (s.callers ++ [x])[i]? = some y → s.callers[i]? = some y ∨ (i = s.callers.length ∧ y = x) := by
    intro x i y hy
    rw [List.getElem?_append] at hy
    split at hy
    · exact Or.inl hy
    · right
      rename_i hge
      have : i - s.callers.length = 0 := by
        rcases Nat.eq_zero_or_pos (i - s.callers.length) with h0 | h0
        · exact h0
        · rw [List.getElem?_eq_none (by simp; omega)] at hy; cases hy
      rw [this] at hy
      simp only [List.getElem?_cons_zero, Option.some.injEq] at hy
      exact ⟨by omega, hy.symm⟩
  have app2 : ∀ (x : Nat × Phase) (i : Nat) y, s.callers[i]? = some y → (s.callers ++ [x])[i]? = some y := by
    intro x i y hy
    have : i < s.callers.length := by
      rcases Nat.lt_or_ge i s.callers.length with h | h
      · exact h
      · rw [List.getElem?_eq_none h] at hy; cases hy
    rw [List.getElem?_append_left this]; exact hy
  cases a with
  | call oc =>
    simp only [step, Option.some.injEq] at hs; subst hs
    constructor
    · intro i oc' ph hc hf
      rcases app _ _ _ hc with h1 | ⟨_, h1⟩
      · exact h.lockOf i oc' ph h1 hf
      · injection h1 with _ h1; subst h1; exact absurd hf id
    · intro k i hl
      obtain ⟨oc', ph, h1, h2⟩ := h.lockIs k i hl
      exact ⟨oc', ph, app2 _ _ _ h1, h2⟩
    · intro k i hl
      obtain ⟨oc', ph, h1, h2⟩ := h.sentIs k i hl
      exact ⟨oc', ph, app2 _ _ _ h1, h2⟩
    · intro i ps k hh
      obtain ⟨oc', ph, h1, h2, h3, h4, h5⟩ := h.handlerIs i ps k hh
      exact ⟨oc', ph, app2 _ _ _ h1, h2, h3, h4, h5⟩
    · intro i oc' ps k hc
      rcases app _ _ _ hc with h1 | ⟨_, h1⟩
      · exact h.gotIs i oc' ps k h1
      · cases h1
    · intro i oc' ps k hc
      rcases app _ _ _ hc with h1 | ⟨_, h1⟩
      · exact h.doneIs i oc' ps k h1
      · cases h1
  | lock i =>
    simp only [step] at hs
    split at hs
    · rename_i oc hi
      split at hs
      · rename_i hfree
        injection hs with hs; subst hs
        constructor
        · intro j oc' ph hc hf
          by_cases hj : j = i
          · subst hj
            rw [get_set_same hi] at hc
            injection hc with hc; injection hc with h1 h2; subst h1
            exact upd_same _ _ _
          · rw [get_set_other hj] at hc
            have h1 := h.lockOf j oc' ph hc hf
            have : key oc' ≠ key oc := by intro e; rw [e, hfree] at h1; cases h1
            simp only [upd_other _ _ this]; exact h1
        · intro k j hl
          by_cases hk : k = key oc
          · subst hk
            simp only [upd_same, Option.some.injEq] at hl; subst hl
            exact ⟨oc, .locked, get_set_same hi, rfl, trivial⟩
          · simp only [upd_other _ _ hk] at hl
            obtain ⟨oc', ph, h1, h2, h3⟩ := h.lockIs k j hl
            have hj : j ≠ i := by intro e; subst e; rw [hi] at h1; injection h1 with h1; injection h1 with _ h1; subst h1; exact h3
            exact ⟨oc', ph, by rw [get_set_other hj]; exact h1, h2, h3⟩
        · intro k j hl
          obtain ⟨oc', ph, h1, h2, h3, h4⟩ := h.sentIs k j hl
          have hj : j ≠ i := by
            intro e; subst e; rw [hi] at h1; injection h1 with h1; injection h1 with _ h1
            subst h1
            rcases h4 with h4 | h4 | ⟨_, _, h4⟩ <;> cases h4
          exact ⟨oc', ph, by rw [get_set_other hj]; exact h1, h2, h3, h4⟩
        · intro j ps k hh
          obtain ⟨oc', ph, h1, h2, h3, h4, h5⟩ := h.handlerIs j ps k hh
          have hj : j ≠ i := by intro e; subst e; rw [hi] at h1; injection h1 with h1; injection h1 with _ h1; exact h2 h1.symm
          exact ⟨oc', ph, by rw [get_set_other hj]; exact h1, h2, h3, h4, h5⟩
        · intro j oc' ps k hc
          by_cases hj : j = i
          · subst hj; rw [get_set_same hi] at hc; cases hc
          · rw [get_set_other hj] at hc; exact h.gotIs j oc' ps k hc
        · intro j oc' ps k hc
          by_cases hj : j = i
          · subst hj; rw [get_set_same hi] at hc; cases hc
          · rw [get_set_other hj] at hc; exact h.doneIs j oc' ps k hc
      · cases hs
    · cases hs
  | getBuf i =>
    simp only [step] at hs
    split at hs
    · rename_i oc hi
      split at hs
      · injection hs with hs; subst hs
        constructor
        · intro j oc' ph hc hf
          by_cases hj : j = i
          · subst hj
            rw [get_set_same hi] at hc
            injection hc with hc; injection hc with h1 h2; subst h1
            exact h.lockOf j oc .locked hi trivial
          · rw [get_set_other hj] at hc
            exact h.lockOf j oc' ph hc hf
        · intro k j hl
          obtain ⟨oc', ph, h1, h2, h3⟩ := h.lockIs k j hl
          by_cases hj : j = i
          · subst hj
            rw [hi] at h1; injection h1 with h1; injection h1 with h1 _; subst h1
            exact ⟨oc, .ready, get_set_same hi, h2, trivial⟩
          · exact ⟨oc', ph, by rw [get_set_other hj]; exact h1, h2, h3⟩
        · intro k j hl
          obtain ⟨oc', ph, h1, h2, h3, h4⟩ := h.sentIs k j hl
          have hj : j ≠ i := by
            intro e; subst e; rw [hi] at h1; injection h1 with h1; injection h1 with _ h1
            subst h1
            rcases h4 with h4 | h4 | ⟨_, _, h4⟩ <;> cases h4
          exact ⟨oc', ph, by rw [get_set_other hj]; exact h1, h2, h3, h4⟩
        · intro j ps k hh
          obtain ⟨oc', ph, h1, h2, h3, h4, h5⟩ := h.handlerIs j ps k hh
          have hj : j ≠ i := by intro e; subst e; rw [hi] at h1; injection h1 with h1; injection h1 with _ h1; exact h3 h1.symm
          exact ⟨oc', ph, by rw [get_set_other hj]; exact h1, h2, h3, h4, h5⟩
        · intro j oc' ps k hc
          by_cases hj : j = i
          · subst hj; rw [get_set_same hi] at hc; cases hc
          · rw [get_set_other hj] at hc; exact h.gotIs j oc' ps k hc
        · intro j oc' ps k hc
          by_cases hj : j = i
          · subst hj; rw [get_set_same hi] at hc; cases hc
          · rw [get_set_other hj] at hc; exact h.doneIs j oc' ps k hc
      · cases hs
    · cases hs
  | noBuf i =>
    simp only [step] at hs
    split at hs
    · rename_i oc hi
      injection hs with hs; subst hs
      have hlk := h.lockOf i oc .locked hi trivial
      constructor
      · intro j oc' ph hc hf
        by_cases hj : j = i
        · subst hj
          rw [get_set_same hi] at hc
          injection hc with hc; injection hc with h1 h2; subst h2; exact absurd hf id
        · rw [get_set_other hj] at hc
          have h1 := h.lockOf j oc' ph hc hf
          have : key oc' ≠ key oc := by intro e; rw [e, hlk] at h1; injection h1 with h1; exact hj h1.symm
          simp only [upd_other _ _ this]; exact h1
      · intro k j hl
        by_cases hk : k = key oc
        · subst hk; simp [upd_same] at hl
        · simp only [upd_other _ _ hk] at hl
          obtain ⟨oc', ph, h1, h2, h3⟩ := h.lockIs k j hl
          have hj : j ≠ i := by intro e; subst e; rw [hi] at h1; injection h1 with h1; injection h1 with h1 _; subst h1; exact hk h2.symm
          exact ⟨oc', ph, by rw [get_set_other hj]; exact h1, h2, h3⟩
      · intro k j hl
        obtain ⟨oc', ph, h1, h2, h3, h4⟩ := h.sentIs k j hl
        have hj : j ≠ i := by
          intro e; subst e; rw [hi] at h1; injection h1 with h1; injection h1 with _ h1
          subst h1
          rcases h4 with h4 | h4 | ⟨_, _, h4⟩ <;> cases h4
        exact ⟨oc', ph, by rw [get_set_other hj]; exact h1, h2, h3, h4⟩
      · intro j ps k hh
        obtain ⟨oc', ph, h1, h2, h3, h4, h5⟩ := h.handlerIs j ps k hh
        have hj : j ≠ i := by intro e; subst e; rw [hi] at h1; injection h1 with h1; injection h1 with _ h1; exact h3 h1.symm
        exact ⟨oc', ph, by rw [get_set_other hj]; exact h1, h2, h3, h4, h5⟩
      · intro j oc' ps k hc
        by_cases hj : j = i
        · subst hj; rw [get_set_same hi] at hc; cases hc
        · rw [get_set_other hj] at hc; exact h.gotIs j oc' ps k hc
      · intro j oc' ps k hc
        by_cases hj : j = i
        · subst hj; rw [get_set_same hi] at hc; cases hc
        · rw [get_set_other hj] at hc; exact h.doneIs j oc' ps k hc
    · cases hs
  | write i =>
    simp only [step] at hs
    split at hs
    · rename_i oc hi
      injection hs with hs; subst hs
      have hlk := h.lockOf i oc .ready hi trivial
      have good : ∀ (j oc' : Nat) ps k, j ≠ i → Good s j oc' ps k →
          Good { s with callers := setPhase s i .waiting, sent := upd s.sent (key oc) (some i), ctl := s.ctl ++ [oc], wrote := upd s.wrote i s.handled.length } j oc' ps k :=
        fun j oc' ps k hj hg => Good_mono hg (fun _ _ x => x) (upd_other _ _ hj)
      constructor
      · intro j oc' ph hc hf
        by_cases hj : j = i
        · subst hj
          rw [get_set_same hi] at hc
          injection hc with hc; injection hc with h1 h2; subst h1; exact hlk
        · rw [get_set_other hj] at hc
          exact h.lockOf j oc' ph hc hf
      · intro k j hl
        obtain ⟨oc', ph, h1, h2, h3⟩ := h.lockIs k j hl
        by_cases hj : j = i
        · subst hj
          rw [hi] at h1; injection h1 with h1; injection h1 with h1 _; subst h1
          exact ⟨oc, .waiting, get_set_same hi, h2, trivial⟩
        · exact ⟨oc', ph, by rw [get_set_other hj]; exact h1, h2, h3⟩
      · intro k j hl
        by_cases hk : k = key oc
        · subst hk
          simp only [upd_same, Option.some.injEq] at hl; subst hl
          exact ⟨oc, .waiting, get_set_same hi, rfl, by simp only [upd_same]; exact Nat.le_refl _, Or.inl rfl⟩
        · simp only [upd_other _ _ hk] at hl
          obtain ⟨oc', ph, h1, h2, h3, h4⟩ := h.sentIs k j hl
          have hj : j ≠ i := by
            intro e; subst e; rw [hi] at h1; injection h1 with h1; injection h1 with _ h1
            subst h1
            rcases h4 with h4 | h4 | ⟨_, _, h4⟩ <;> cases h4
          exact ⟨oc', ph, by rw [get_set_other hj]; exact h1, h2, by simp only [upd_other _ _ hj]; exact h3, h4⟩
      · intro j ps k hh
        obtain ⟨oc', ph, h1, h2, h3, h4, h5⟩ := h.handlerIs j ps k hh
        have hj : j ≠ i := by intro e; subst e; rw [hi] at h1; injection h1 with h1; injection h1 with _ h1; exact h4 h1.symm
        exact ⟨oc', ph, by rw [get_set_other hj]; exact h1, h2, h3, h4, good j oc' ps k hj h5⟩
      · intro j oc' ps k hc
        by_cases hj : j = i
        · subst hj; rw [get_set_same hi] at hc; cases hc
        · rw [get_set_other hj] at hc; exact good j oc' ps k hj (h.gotIs j oc' ps k hc)
      · intro j oc' ps k hc
        by_cases hj : j = i
        · subst hj; rw [get_set_same hi] at hc; cases hc
        · rw [get_set_other hj] at hc; exact good j oc' ps k hj (h.doneIs j oc' ps k hc)
    · cases hs
  | timeout i =>
    simp only [step] at hs
    split at hs
    · rename_i oc hi
      injection hs with hs; subst hs
      constructor
      · intro j oc' ph hc hf
        by_cases hj : j = i
        · subst hj
          rw [get_set_same hi] at hc
          injection hc with hc; injection hc with h1 h2; subst h1
          exact h.lockOf j oc .waiting hi trivial
        · rw [get_set_other hj] at hc
          exact h.lockOf j oc' ph hc hf
      · intro k j hl
        obtain ⟨oc', ph, h1, h2, h3⟩ := h.lockIs k j hl
        by_cases hj : j = i
        · subst hj
          rw [hi] at h1; injection h1 with h1; injection h1 with h1 _; subst h1
          exact ⟨oc, .timedOut, get_set_same hi, h2, trivial⟩
        · exact ⟨oc', ph, by rw [get_set_other hj]; exact h1, h2, h3⟩
      · intro k j hl
        obtain ⟨oc', ph, h1, h2, h3, h4⟩ := h.sentIs k j hl
        by_cases hj : j = i
        · subst hj
          rw [hi] at h1; injection h1 with h1; injection h1 with h1 _; subst h1
          exact ⟨oc, .timedOut, get_set_same hi, h2, h3, Or.inr (Or.inl rfl)⟩
        · exact ⟨oc', ph, by rw [get_set_other hj]; exact h1, h2, h3, h4⟩
      · intro j ps k hh
        obtain ⟨oc', ph, h1, h2, h3, h4, h5⟩ := h.handlerIs j ps k hh
        by_cases hj : j = i
        · subst hj
          rw [hi] at h1; injection h1 with h1; injection h1 with h1 _; subst h1
          exact ⟨oc, .timedOut, get_set_same hi, by simp, by simp, by simp, h5⟩
        · exact ⟨oc', ph, by rw [get_set_other hj]; exact h1, h2, h3, h4, h5⟩
      · intro j oc' ps k hc
        by_cases hj : j = i
        · subst hj; rw [get_set_same hi] at hc; cases hc
        · rw [get_set_other hj] at hc; exact h.gotIs j oc' ps k hc
      · intro j oc' ps k hc
        by_cases hj : j = i
        · subst hj; rw [get_set_same hi] at hc; cases hc
        · rw [get_set_other hj] at hc; exact h.doneIs j oc' ps k hc
    · cases hs
  | finish i =>
    have main : ∀ (oc : Nat) (ph0 : Phase) (r : Option (Bytes × Nat)), s.callers[i]? = some (oc, ph0) → InFlight ph0 →
        (∀ ps k, r = some (ps, k) → Good s i oc ps k) →
        Inv { s with callers := setPhase s i (.done r), sent := upd s.sent (key oc) none, lock := upd s.lock (key oc) none } := by
      intro oc ph0 r hi hf0 hr
      have hlk := h.lockOf i oc ph0 hi hf0
      constructor
      · intro j oc' ph hc hf
        by_cases hj : j = i
        · subst hj
          rw [get_set_same hi] at hc
          injection hc with hc; injection hc with h1 h2; subst h2; exact absurd hf id
        · rw [get_set_other hj] at hc
          have h1 := h.lockOf j oc' ph hc hf
          have : key oc' ≠ key oc := by intro e; rw [e, hlk] at h1; injection h1 with h1; exact hj h1.symm
          simp only [upd_other _ _ this]; exact h1
      · intro k j hl
        by_cases hk : k = key oc
        · subst hk; simp [upd_same] at hl
        · simp only [upd_other _ _ hk] at hl
          obtain ⟨oc', ph, h1, h2, h3⟩ := h.lockIs k j hl
          have hj : j ≠ i := by intro e; subst e; rw [hi] at h1; injection h1 with h1; injection h1 with h1 _; subst h1; exact hk h2.symm
          exact ⟨oc', ph, by rw [get_set_other hj]; exact h1, h2, h3⟩
      · intro k j hl
        by_cases hk : k = key oc
        · subst hk; simp [upd_same] at hl
        · simp only [upd_other _ _ hk] at hl
          obtain ⟨oc', ph, h1, h2, h3, h4⟩ := h.sentIs k j hl
          have hj : j ≠ i := by intro e; subst e; rw [hi] at h1; injection h1 with h1; injection h1 with h1 _; subst h1; exact hk h2.symm
          exact ⟨oc', ph, by rw [get_set_other hj]; exact h1, h2, h3, h4⟩
      · intro j ps k hh
        obtain ⟨oc', ph, h1, h2, h3, h4, h5⟩ := h.handlerIs j ps k hh
        by_cases hj : j = i
        · subst hj
          rw [hi] at h1; injection h1 with h1; injection h1 with h1 _; subst h1
          exact ⟨oc, .done r, get_set_same hi, by simp, by simp, by simp, h5⟩
        · exact ⟨oc', ph, by rw [get_set_other hj]; exact h1, h2, h3, h4, h5⟩
      · intro j oc' ps k hc
        by_cases hj : j = i
        · subst hj; rw [get_set_same hi] at hc; cases hc
        · rw [get_set_other hj] at hc; exact h.gotIs j oc' ps k hc
      · intro j oc' ps k hc
        by_cases hj : j = i
        · subst hj
          rw [get_set_same hi] at hc
          injection hc with hc; injection hc with h1 h2; subst h1
          injection h2 with h2
          exact hr ps k h2
        · rw [get_set_other hj] at hc; exact h.doneIs j oc' ps k hc
    simp only [step] at hs
    split at hs
    · rename_i oc hi
      injection hs with hs; subst hs
      exact main oc _ none hi trivial (by intro ps k e; cases e)
    · rename_i oc ps k hi
      injection hs with hs; subst hs
      exact main oc _ (some (ps, k)) hi trivial (by
        intro ps' k' e; injection e with e; injection e with e1 e2; subst e1; subst e2; exact h.gotIs i oc ps k hi)
    · cases hs
  | raise e =>
    simp only [step, Option.some.injEq] at hs; subst hs
    exact ⟨h.lockOf, h.lockIs, h.sentIs, h.handlerIs, h.gotIs, h.doneIs⟩
  | handle =>
    simp only [step] at hs
    split at hs
    · rename_i e es hh hq
      injection hs with hs; subst hs
      have hext : ∀ (j : Nat) x, s.handled[j]? = some x → (s.handled ++ [e])[j]? = some x := by
        intro j x hx
        have : j < s.handled.length := by
          rcases Nat.lt_or_ge j s.handled.length with h | h
          · exact h
          · rw [List.getElem?_eq_none h] at hx; cases hx
        rw [List.getElem?_append_left this]; exact hx
      constructor
      · exact h.lockOf
      · exact h.lockIs
      · intro k j hl
        obtain ⟨oc', ph, h1, h2, h3, h4⟩ := h.sentIs k j hl
        exact ⟨oc', ph, h1, h2, by simp only [List.length_append, List.length_singleton]; omega, h4⟩
      · intro j ps k hd
        simp only [looks_eq] at hd
        split at hd
        · cases hd
        · rename_i k' ps' hlk
          rw [Option.map_eq_some_iff] at hd
          obtain ⟨j', hj', he⟩ := hd
          simp only [Prod.mk.injEq] at he
          obtain ⟨rfl, rfl, rfl⟩ := he
          obtain ⟨oc', ph, h1, h2, h3, h4⟩ := h.sentIs _ _ hj'
          refine ⟨oc', ph, h1, ?_, ?_, ?_, ⟨e, by simp, by rw [h2]; exact hlk, h3⟩⟩
          all_goals (intro e'; subst e'; rcases h4 with h4 | h4 | ⟨_, _, h4⟩ <;> cases h4)
      · intro j oc' ps k hc; exact Good_mono (h.gotIs j oc' ps k hc) hext rfl
      · intro j oc' ps k hc; exact Good_mono (h.doneIs j oc' ps k hc) hext rfl
    · cases hs
  | deliver =>
    simp only [step] at hs
    split at hs
    · rename_i i ps k hh
      split at hs
      · rename_i oc hi
        injection hs with hs; subst hs
        obtain ⟨oc0, ph0, g1, _, _, _, g5⟩ := h.handlerIs i ps k hh
        rw [hi] at g1; injection g1 with g1; injection g1 with g1 _; subst g1
        constructor
        · intro j oc' ph hc hf
          by_cases hj : j = i
          · subst hj
            rw [get_set_same hi] at hc
            injection hc with hc; injection hc with h1 h2; subst h1
            exact h.lockOf j oc .waiting hi trivial
          · rw [get_set_other hj] at hc
            exact h.lockOf j oc' ph hc hf
        · intro k' j hl
          obtain ⟨oc', ph, h1, h2, h3⟩ := h.lockIs k' j hl
          by_cases hj : j = i
          · subst hj
            rw [hi] at h1; injection h1 with h1; injection h1 with h1 _; subst h1
            exact ⟨oc, .got ps k, get_set_same hi, h2, trivial⟩
          · exact ⟨oc', ph, by rw [get_set_other hj]; exact h1, h2, h3⟩
        · intro k' j hl
          obtain ⟨oc', ph, h1, h2, h3, h4⟩ := h.sentIs k' j hl
          by_cases hj : j = i
          · subst hj
            rw [hi] at h1; injection h1 with h1; injection h1 with h1 _; subst h1
            exact ⟨oc, .got ps k, get_set_same hi, h2, h3, Or.inr (Or.inr ⟨_, _, rfl⟩)⟩
          · exact ⟨oc', ph, by rw [get_set_other hj]; exact h1, h2, h3, h4⟩
        · intro j ps' k' hd; simp at hd
        · intro j oc' ps' k' hc
          by_cases hj : j = i
          · subst hj
            rw [get_set_same hi] at hc
            injection hc with hc; injection hc with h1 h2; subst h1
            injection h2 with h2 h3; subst h2; subst h3; exact g5
          · rw [get_set_other hj] at hc; exact h.gotIs j oc' ps' k' hc
        · intro j oc' ps' k' hc
          by_cases hj : j = i
          · subst hj; rw [get_set_same hi] at hc; cases hc
          · rw [get_set_other hj] at hc; exact h.doneIs j oc' ps' k' hc
      · cases hs
    · cases hs

theorem run_induct (P : St → Prop) (hstep : ∀ s s' a, P s → step s a = some s' → P s') :
    ∀ (as : List Act) (s s' : St), P s → run s as = some s' → P s' := by
  intro as
  induction as with
  | nil => intro s s' h hr; simp only [run, Option.some.injEq] at hr; subst hr; exact h
  | cons a as ih =>
    intro s s' h hr
    simp only [run, Option.bind_eq_some_iff] at hr
    obtain ⟨t, h1, h2⟩ := hr
    exact ih t s' (hstep s t a h h1) h2

/-- Induction over runs whose actions satisfy a predicate. -/
theorem run_induct' (Q : Act → Prop) (P : St → Prop) (hstep : ∀ s s' a, Q a → P s → step s a = some s' → P s') :
    ∀ (as : List Act) (s s' : St), (∀ a ∈ as, Q a) → P s → run s as = some s' → P s' := by
  intro as
  induction as with
  | nil => intro s s' _ h hr; simp only [run, Option.some.injEq] at hr; subst hr; exact h
  | cons a as ih =>
    intro s s' hq h hr
    simp only [run, Option.bind_eq_some_iff] at hr
    obtain ⟨t, h1, h2⟩ := hr
    exact ih t s' (fun b hb => hq b (by simp [hb])) (hstep s t a (hq a (by simp)) h h1) h2

theorem Inv_run {as : List Act} {s : St} (hr : run init as = some s) : Inv s :=
  run_induct Inv (fun _ _ _ h1 h2 => Inv_step h1 h2) as init s Inv_init hr

end CmdFlow

open CmdFlow

/-- C31, one command per opcode. In every interleaving of calls and events, two calls that are both past the opcode lock and not yet returned have different opcodes, and at most one
of them is a vendor command. -/
theorem cmd_one_per_opcode (as : List Act) (s : St) (hr : run init as = some s) (i j oc oc' : Nat) (p p' : Phase)
    (hi : s.callers[i]? = some (oc, p)) (hj : s.callers[j]? = some (oc', p')) (hp : InFlight p) (hp' : InFlight p') (hne : i ≠ j) :
    oc ≠ oc' ∧ ¬ (oc / 1024 = 0x3f ∧ oc' / 1024 = 0x3f) := by
  have h := Inv_run hr
  have h1 := h.lockOf i oc p hi hp
  have h2 := h.lockOf j oc' p' hj hp'
  have hk : key oc ≠ key oc' := by
    intro e; rw [e, h2] at h1; injection h1 with h1; exact hne h1.symm
  constructor
  · rintro rfl; exact hk rfl
  · rintro ⟨a, b⟩
    apply hk
    have e1 : oc >>> 10 = 0x3f := by rw [Nat.shiftRight_eq_div_pow]; exact a
    have e2 : oc' >>> 10 = 0x3f := by rw [Nat.shiftRight_eq_div_pow]; exact b
    simp [key, e1, e2]

/-- The opcodes of the calls and of the events are not 0x3f. -/
private structure No3f (s : St) : Prop where
  callers : ∀ (i oc : Nat) p, s.callers[i]? = some (oc, p) → oc ≠ 0x3f
  evq : ∀ e ∈ s.evq, e.opcode ≠ some 0x3f
  handled : ∀ e ∈ s.handled, e.opcode ≠ some 0x3f

private theorem set_callers {s : St} {i j oc : Nat} {p q : Phase} (h : (setPhase s i p)[j]? = some (oc, q)) : ∃ q', s.callers[j]? = some (oc, q') := by
  simp only [setPhase, List.getElem?_modify] at h
  cases hc : s.callers[j]? with
  | none => rw [hc] at h; simp at h
  | some x =>
    rw [hc] at h
    obtain ⟨a, b⟩ := x
    simp only [Option.map_eq_map, Option.map_some, Option.some.injEq] at h
    split at h
    · injection h with h1 _; subst h1; exact ⟨b, rfl⟩
    · injection h with h1 _; subst h1; exact ⟨b, rfl⟩

private theorem no3f_step {s s' : St} {a : Act} (ha : a ≠ .call 0x3f ∧ (∀ n ps, a ≠ .raise (.complete n 0x3f ps)) ∧ (∀ n st, a ≠ .raise (.status n 0x3f st)))
    (h : No3f s) (hs : step s a = some s') : No3f s' := by
  have setc : ∀ (i : Nat) (p : Phase) (j oc : Nat) q, (setPhase s i p)[j]? = some (oc, q) → oc ≠ 0x3f := by
    intro i p j oc q hq
    obtain ⟨q', hq'⟩ := set_callers hq
    exact h.callers j oc q' hq'
  cases a with
  | call oc =>
    simp only [step, Option.some.injEq] at hs; subst hs
    refine ⟨?_, h.evq, h.handled⟩
    intro i oc' p hc
    simp only [List.getElem?_append] at hc
    split at hc
    · exact h.callers i oc' p hc
    · cases hn : i - s.callers.length with
      | zero =>
        rw [hn] at hc
        simp only [List.getElem?_cons_zero, Option.some.injEq, Prod.mk.injEq] at hc
        obtain ⟨rfl, -⟩ := hc
        rintro rfl; exact ha.1 rfl
      | succ n => rw [hn] at hc; simp at hc
  | raise e =>
    simp only [step, Option.some.injEq] at hs; subst hs
    refine ⟨h.callers, ?_, h.handled⟩
    intro x hx
    rcases List.mem_append.1 hx with hx | hx
    · exact h.evq x hx
    · simp only [List.mem_singleton] at hx; subst hx
      cases x with
      | complete n oc ps => intro e; simp only [Evt.opcode, Option.some.injEq] at e; subst e; exact ha.2.1 n ps rfl
      | status n oc st => intro e; simp only [Evt.opcode, Option.some.injEq] at e; subst e; exact ha.2.2 n st rfl
      | vendor => simp [Evt.opcode]
  | handle =>
    simp only [step] at hs
    split at hs
    · rename_i e es hh hq
      injection hs with hs; subst hs
      refine ⟨h.callers, fun x hx => h.evq x (by rw [hq]; exact List.mem_cons_of_mem _ hx), ?_⟩
      intro x hx
      rcases List.mem_append.1 hx with hx | hx
      · exact h.handled x hx
      · simp only [List.mem_singleton] at hx; subst hx; exact h.evq x (by rw [hq]; simp)
    · cases hs
  | lock i =>
    simp only [step] at hs
    split at hs
    · split at hs
      · injection hs with hs; subst hs; exact ⟨setc _ _, h.evq, h.handled⟩
      · cases hs
    · cases hs
  | getBuf i =>
    simp only [step] at hs
    split at hs
    · split at hs
      · injection hs with hs; subst hs; exact ⟨setc _ _, h.evq, h.handled⟩
      · cases hs
    · cases hs
  | noBuf i =>
    simp only [step] at hs
    split at hs
    · injection hs with hs; subst hs; exact ⟨setc _ _, h.evq, h.handled⟩
    · cases hs
  | write i =>
    simp only [step] at hs
    split at hs
    · injection hs with hs; subst hs; exact ⟨setc _ _, h.evq, h.handled⟩
    · cases hs
  | timeout i =>
    simp only [step] at hs
    split at hs
    · injection hs with hs; subst hs; exact ⟨setc _ _, h.evq, h.handled⟩
    · cases hs
  | finish i =>
    simp only [step] at hs
    split at hs
    · injection hs with hs; subst hs; exact ⟨setc _ _, h.evq, h.handled⟩
    · injection hs with hs; subst hs; exact ⟨setc _ _, h.evq, h.handled⟩
    · cases hs
  | deliver =>
    simp only [step] at hs
    split at hs
    · split at hs
      · injection hs with hs; subst hs; exact ⟨setc _ _, h.evq, h.handled⟩
      · cases hs
    · cases hs

private theorem no3f_run {as : List Act} {s : St} (hr : run init as = some s) (h3 : NoOpcode3f as) : No3f s :=
  run_induct' (fun a => a ≠ .call 0x3f ∧ (∀ n ps, a ≠ .raise (.complete n 0x3f ps)) ∧ (∀ n st, a ≠ .raise (.status n 0x3f st))) No3f
    (fun _ _ _ q h1 h2 => no3f_step q h1 h2) as init s h3 (by constructor <;> intros <;> simp_all [init]) hr

/-- How the event queue and the list of handled events change in a step. -/
private theorem events_step {s s' : St} {a : Act} (hs : step s a = some s') (e : Evt) :
    (e ∈ s'.evq → e ∈ s.evq ∨ a = .raise e) ∧ (e ∈ s'.handled → e ∈ s.handled ∨ e ∈ s.evq) := by
  cases a with
  | call oc => simp only [step, Option.some.injEq] at hs; subst hs; exact ⟨Or.inl, Or.inl⟩
  | raise x =>
    simp only [step, Option.some.injEq] at hs; subst hs
    refine ⟨?_, Or.inl⟩
    intro hx
    rcases List.mem_append.1 hx with hx | hx
    · exact Or.inl hx
    · simp only [List.mem_singleton] at hx; subst hx; exact Or.inr rfl
  | handle =>
    simp only [step] at hs
    split at hs
    · rename_i x es hh hq
      injection hs with hs; subst hs
      refine ⟨fun hx => Or.inl (by rw [hq]; exact List.mem_cons_of_mem _ hx), ?_⟩
      intro hx
      rcases List.mem_append.1 hx with hx | hx
      · exact Or.inl hx
      · simp only [List.mem_singleton] at hx; subst hx; exact Or.inr (by rw [hq]; simp)
    · cases hs
  | _ =>
    simp only [step] at hs
    repeat' (split at hs)
    all_goals first
      | cases hs; done
      | (injection hs with hs; subst hs; exact ⟨Or.inl, Or.inl⟩)

private theorem noVendor_run {as : List Act} {s : St} (hr : run init as = some s) (hne : Act.raise .vendor ∉ as) : ∀ e ∈ s.handled, e ≠ .vendor := by
  have := run_induct' (fun a => a ≠ Act.raise .vendor) (fun s => (∀ e ∈ s.evq, e ≠ .vendor) ∧ ∀ e ∈ s.handled, e ≠ .vendor)
    (fun s s' a ha h hs => ⟨fun e he => by
        rcases (events_step hs e).1 he with h1 | h1
        · exact h.1 e h1
        · subst h1; rintro rfl; exact ha rfl,
      fun e he => by
        rcases (events_step hs e).2 he with h1 | h1
        · exact h.2 e h1
        · exact h.1 e h1⟩) as init s (fun a ha e => hne (e ▸ ha)) ⟨by simp [init], by simp [init]⟩ hr
  exact this.2

/-- C31, replies. In every interleaving, the reply a call returns is the parameters of a Command Complete or Command Status event carrying the command's opcode (for vendor commands: a
vendor event) that the host handled after it had written the command. -/
theorem cmd_reply_has_own_opcode (as : List Act) (s : St) (hr : run init as = some s) (h3 : NoOpcode3f as) (i oc : Nat) (ps : Bytes) (k : Nat)
    (hi : s.callers[i]? = some (oc, .done (some (ps, k)))) :
    ∃ e, s.handled[k]? = some e ∧ Answers oc ps e ∧ s.wrote i ≤ k := by
  have h := Inv_run hr
  have hn := no3f_run hr h3
  obtain ⟨e, h1, h2, h4⟩ := h.doneIs i oc ps k hi
  refine ⟨e, h1, ?_, h4⟩
  have hoc := hn.callers i oc _ hi
  have hev := hn.handled e (List.mem_of_getElem? h1)
  have hkey : (oc / 1024 = 0x3f ∧ key oc = 0x3f) ∨ (oc / 1024 ≠ 0x3f ∧ key oc = oc) := by
    unfold key
    rw [Nat.shiftRight_eq_div_pow]
    by_cases hc : oc / 1024 = 0x3f
    · left; exact ⟨hc, if_pos hc⟩
    · right; exact ⟨hc, if_neg hc⟩
  cases e with
  | complete n oc' ps' =>
    simp only [looks, evtEffect] at h2
    split at h2
    · cases h2
    · injection h2 with h2; injection h2 with e1 e2
      simp only [Evt.opcode, ne_eq, Option.some.injEq] at hev
      rcases hkey with ⟨_, hk⟩ | ⟨_, hk⟩
      · rw [hk] at e1; exact absurd e1 hev
      · exact ⟨e1.trans hk, e2⟩
  | status n oc' st =>
    simp only [looks, evtEffect] at h2
    injection h2 with h2; injection h2 with e1 e2
    simp only [Evt.opcode, ne_eq, Option.some.injEq] at hev
    rcases hkey with ⟨_, hk⟩ | ⟨_, hk⟩
    · rw [hk] at e1; exact absurd e1 hev
    · exact ⟨e1.trans hk, e2.symm⟩
  | vendor =>
    simp only [looks, evtEffect] at h2
    injection h2 with h2; injection h2 with e1 e2
    rcases hkey with ⟨hk, _⟩ | ⟨_, hk⟩
    · exact ⟨hk, e2.symm⟩
    · rw [hk] at e1; exact absurd e1.symm hoc

/-- A vendor command is never answered by the Command Complete or Command Status event that the Bluetooth specification prescribes for it: without a vendor event every such call
returns an error, whatever the controller answers. -/
theorem vendor_command_ignores_command_complete (as : List Act) (s : St) (hr : run init as = some s) (h3 : NoOpcode3f as) (i oc : Nat) (r : Option (Bytes × Nat))
    (hv : oc / 1024 = 0x3f) (hne : Act.raise .vendor ∉ as) (hi : s.callers[i]? = some (oc, .done r)) :
    r = none := by
  cases r with
  | none => rfl
  | some x =>
    obtain ⟨ps, k⟩ := x
    have h := Inv_run hr
    obtain ⟨e, h1, h2, h4⟩ := h.doneIs i oc ps k hi
    have hn := no3f_run hr h3
    have hev := hn.handled e (List.mem_of_getElem? h1)
    have hnv : e ≠ .vendor := (noVendor_run hr hne) e (List.mem_of_getElem? h1)
    have hk : key oc = 0x3f := by unfold key; rw [Nat.shiftRight_eq_div_pow]; exact if_pos hv
    cases e with
    | complete n oc' ps' =>
      simp only [looks, evtEffect] at h2
      split at h2
      · cases h2
      · injection h2 with h2; injection h2 with e1 _; rw [hk] at e1; subst e1; exact absurd rfl hev
    | status n oc' st =>
      simp only [looks, evtEffect] at h2
      injection h2 with h2; injection h2 with e1 _; rw [hk] at e1; subst e1; exact absurd rfl hev
    | vendor => exact absurd rfl hnv

/-! ## Each reply goes to one call -/

namespace CmdFlow

/-- The event whose parameters the call holds or has returned. -/
def replyOf : Phase → Option Nat
  | .got _ k => some k
  | .done (some (_, k)) => some k
  | _ => none

structure Uniq (s : St) : Prop where
  handlerLt : ∀ i ps k, s.handler = some (i, ps, k) → k < s.handled.length
  lt : ∀ (i oc : Nat) p k, s.callers[i]? = some (oc, p) → replyOf p = some k → k < s.handled.length
  handlerNe : ∀ j ps k, s.handler = some (j, ps, k) → ∀ (i oc : Nat) p, s.callers[i]? = some (oc, p) → replyOf p ≠ some k
  uniq : ∀ (i j oc oc' : Nat) p p' k, s.callers[i]? = some (oc, p) → s.callers[j]? = some (oc', p') → replyOf p = some k → replyOf p' = some k → i = j

/-- Changing a phase without adding a reply. -/
private theorem Uniq_set {s s' : St} {i oc : Nat} {q p : Phase} (h : Uniq s) (hi : s.callers[i]? = some (oc, q)) (hc : s'.callers = setPhase s i p)
    (hh : s'.handler = s.handler) (hd : s'.handled = s.handled) (hp : replyOf p = none ∨ replyOf p = replyOf q) : Uniq s' := by
  have old : ∀ (j oc' : Nat) p' k, s'.callers[j]? = some (oc', p') → replyOf p' = some k → ∃ oc'' p'', s.callers[j]? = some (oc'', p'') ∧ replyOf p'' = some k := by
    intro j oc' p' k h1 h2
    rw [hc] at h1
    by_cases hj : j = i
    · subst hj
      rw [get_set_same hi] at h1
      injection h1 with h1; injection h1 with h3 h4; subst h4
      rcases hp with hp | hp
      · rw [hp] at h2; cases h2
      · exact ⟨oc, q, hi, by rw [← hp]; exact h2⟩
    · rw [get_set_other hj] at h1; exact ⟨oc', p', h1, h2⟩
  constructor
  · intro j ps k h1; rw [hh] at h1; rw [hd]; exact h.handlerLt j ps k h1
  · intro j oc' p' k h1 h2
    obtain ⟨oc'', p'', h3, h4⟩ := old j oc' p' k h1 h2
    rw [hd]; exact h.lt j oc'' p'' k h3 h4
  · intro j ps k h1 l oc' p' h2 h3
    rw [hh] at h1
    obtain ⟨oc'', p'', h4, h5⟩ := old l oc' p' k h2 h3
    exact h.handlerNe j ps k h1 l oc'' p'' h4 h5
  · intro a b oc1 oc2 p1 p2 k h1 h2 h3 h4
    obtain ⟨_, _, g1, g2⟩ := old a oc1 p1 k h1 h3
    obtain ⟨_, _, g3, g4⟩ := old b oc2 p2 k h2 h4
    exact h.uniq a b _ _ _ _ k g1 g3 g2 g4

theorem Uniq_step {s s' : St} {a : Act} (h : Uniq s) (hs : step s a = some s') : Uniq s' := by
  cases a with
  | call oc =>
    simp only [step, Option.some.injEq] at hs; subst hs
    have old : ∀ (j oc' : Nat) p' k, (s.callers ++ [(oc, Phase.want)])[j]? = some (oc', p') → replyOf p' = some k → s.callers[j]? = some (oc', p') := by
      intro j oc' p' k h1 h2
      rw [List.getElem?_append] at h1
      split at h1
      · exact h1
      · cases hn : j - s.callers.length with
        | zero =>
          rw [hn] at h1
          simp only [List.getElem?_cons_zero, Option.some.injEq, Prod.mk.injEq] at h1
          obtain ⟨-, rfl⟩ := h1
          cases h2
        | succ n => rw [hn] at h1; simp at h1
    constructor
    · exact h.handlerLt
    · intro j oc' p' k h1 h2; exact h.lt j oc' p' k (old _ _ _ _ h1 h2) h2
    · intro j ps k h1 l oc' p' h2 h3; exact h.handlerNe j ps k h1 l oc' p' (old _ _ _ _ h2 h3) h3
    · intro a b oc1 oc2 p1 p2 k h1 h2 h3 h4; exact h.uniq a b _ _ _ _ k (old _ _ _ _ h1 h3) (old _ _ _ _ h2 h4) h3 h4
  | raise e => simp only [step, Option.some.injEq] at hs; subst hs; exact ⟨h.handlerLt, h.lt, h.handlerNe, h.uniq⟩
  | handle =>
    simp only [step] at hs
    split at hs
    · rename_i e es hh hq
      injection hs with hs; subst hs
      have hk : ∀ j ps k, (match (evtEffect s.bufs e).2 with
          | none => none
          | some (k, ps) => (s.sent k).map fun i => (i, ps, s.handled.length)) = some (j, ps, k) → k = s.handled.length := by
        intro j ps k h1
        split at h1
        · cases h1
        · rw [Option.map_eq_some_iff] at h1
          obtain ⟨_, _, h1⟩ := h1
          simp only [Prod.mk.injEq] at h1
          exact h1.2.2.symm
      constructor
      · intro j ps k h1
        have := hk j ps k h1
        simp only [List.length_append, List.length_singleton]; omega
      · intro j oc' p' k h1 h2
        have := h.lt j oc' p' k h1 h2
        simp only [List.length_append, List.length_singleton]; omega
      · intro j ps k h1 l oc' p' h2 h3
        have h4 := hk j ps k h1
        have := h.lt l oc' p' k h2 h3
        omega
      · exact h.uniq
    · cases hs
  | deliver =>
    simp only [step] at hs
    split at hs
    · rename_i i ps k hh
      split at hs
      · rename_i oc hi
        injection hs with hs; subst hs
        have old : ∀ (j oc' : Nat) p' k', (setPhase s i (.got ps k))[j]? = some (oc', p') → replyOf p' = some k' →
            (j = i ∧ k' = k) ∨ s.callers[j]? = some (oc', p') := by
          intro j oc' p' k' h1 h2
          by_cases hj : j = i
          · subst hj
            rw [get_set_same hi] at h1
            injection h1 with h1; injection h1 with h3 h4; subst h4
            simp only [replyOf, Option.some.injEq] at h2
            exact Or.inl ⟨rfl, h2.symm⟩
          · rw [get_set_other hj] at h1; exact Or.inr h1
        constructor
        · intro j ps' k' h1; cases h1
        · intro j oc' p' k' h1 h2
          rcases old j oc' p' k' h1 h2 with ⟨_, rfl⟩ | h3
          · exact h.handlerLt i ps k' hh
          · exact h.lt j oc' p' k' h3 h2
        · intro j ps' k' h1; cases h1
        · intro a b oc1 oc2 p1 p2 k' h1 h2 h3 h4
          rcases old a oc1 p1 k' h1 h3 with ⟨ha, hk⟩ | h5 <;> rcases old b oc2 p2 k' h2 h4 with ⟨hb, hk'⟩ | h6
          · rw [ha, hb]
          · subst hk; exact absurd h4 (h.handlerNe i ps k' hh b _ _ h6)
          · subst hk'; exact absurd h3 (h.handlerNe i ps k' hh a _ _ h5)
          · exact h.uniq a b _ _ _ _ k' h5 h6 h3 h4
      · cases hs
    · cases hs
  | lock i =>
    simp only [step] at hs
    split at hs
    · rename_i oc hi
      split at hs
      · injection hs with hs; subst hs; exact Uniq_set h hi rfl rfl rfl (Or.inl rfl)
      · cases hs
    · cases hs
  | getBuf i =>
    simp only [step] at hs
    split at hs
    · rename_i oc hi
      split at hs
      · injection hs with hs; subst hs; exact Uniq_set h hi rfl rfl rfl (Or.inl rfl)
      · cases hs
    · cases hs
  | noBuf i =>
    simp only [step] at hs
    split at hs
    · rename_i oc hi
      injection hs with hs; subst hs; exact Uniq_set h hi rfl rfl rfl (Or.inl rfl)
    · cases hs
  | write i =>
    simp only [step] at hs
    split at hs
    · rename_i oc hi
      injection hs with hs; subst hs; exact Uniq_set h hi rfl rfl rfl (Or.inl rfl)
    · cases hs
  | timeout i =>
    simp only [step] at hs
    split at hs
    · rename_i oc hi
      injection hs with hs; subst hs; exact Uniq_set h hi rfl rfl rfl (Or.inl rfl)
    · cases hs
  | finish i =>
    simp only [step] at hs
    split at hs
    · rename_i oc hi
      injection hs with hs; subst hs; exact Uniq_set h hi rfl rfl rfl (Or.inl rfl)
    · rename_i oc ps k hi
      injection hs with hs; subst hs; exact Uniq_set h hi rfl rfl rfl (Or.inr rfl)
    · cases hs

end CmdFlow

/-- C31, no reply is used twice. In every interleaving two different calls that returned with a reply got it from two different events. -/
theorem cmd_reply_used_once (as : List Act) (s : St) (hr : run init as = some s) (i j oc oc' : Nat) (ps ps' : Bytes) (k : Nat)
    (hi : s.callers[i]? = some (oc, .done (some (ps, k)))) (hj : s.callers[j]? = some (oc', .done (some (ps', k)))) : i = j :=
  (run_induct Uniq (fun _ _ _ h1 h2 => Uniq_step h1 h2) as init s (by constructor <;> intros <;> simp_all [init]) hr).uniq
    i j oc oc' _ _ k hi hj rfl rfl

/-! ## Flow control -/

namespace CmdFlow

/-- What a controller with one command buffer does: it answers only commands it has, and announces at most one free buffer. Vendor events may come at any time. -/
def OneBuffer (s : St) : Act → Prop
  | .raise (.complete n oc _) => oc ∈ s.ctl ∧ n ≤ 1
  | .raise (.status n oc _) => oc ∈ s.ctl ∧ n ≤ 1
  | _ => True

/-- Every action of the run happens in a state allowed by `Q`. -/
def Obeys (Q : St → Act → Prop) : St → List Act → Prop
  | _, [] => True
  | s, a :: as => Q s a ∧ ∀ s', step s a = some s' → Obeys Q s' as

theorem run_obeys (Q : St → Act → Prop) (P : St → Prop) (hstep : ∀ s s' a, Q s a → P s → step s a = some s' → P s') :
    ∀ (as : List Act) (s s' : St), Obeys Q s as → P s → run s as = some s' → P s' := by
  intro as
  induction as with
  | nil => intro s s' _ h hr; simp only [run, Option.some.injEq] at hr; subst hr; exact h
  | cons a as ih =>
    intro s s' hq h hr
    simp only [run, Option.bind_eq_some_iff] at hr
    obtain ⟨t, h1, h2⟩ := hr
    exact ih t s' (hq.2 t h1) (hstep s t a hq.1 h h1) h2

/-- Buffers taken and not yet used. -/
def readyCount (cs : List (Nat × Phase)) : Nat := cs.countP fun c => c.2 == .ready

/-- Answers on their way. -/
def pendingAnswers (q : List Evt) : Nat := q.countP fun e => e.opcode.isSome

private theorem countP_modify {α : Type} (f : α → α) (p : α → Bool) : ∀ (l : List α) (i : Nat) (x : α), l[i]? = some x →
    (l.modify i f).countP p + (if p x then 1 else 0) = l.countP p + (if p (f x) then 1 else 0) := by
  intro l
  induction l with
  | nil => intro i x h; simp at h
  | cons a l ih =>
    intro i x h
    cases i with
    | zero =>
      simp only [List.getElem?_cons_zero, Option.some.injEq] at h; subst h
      simp only [List.modify_zero_cons, List.countP_cons]
      omega
    | succ i =>
      simp only [List.getElem?_cons_succ] at h
      simp only [List.modify_succ_cons, List.countP_cons]
      have := ih i x h
      omega

theorem readyCount_set {s : St} {i oc : Nat} {q p : Phase} (hi : s.callers[i]? = some (oc, q)) :
    readyCount (setPhase s i p) + (if q = .ready then 1 else 0) = readyCount s.callers + (if p = .ready then 1 else 0) := by
  have := countP_modify (fun c : Nat × Phase => (c.1, p)) (fun c => c.2 == .ready) s.callers i (oc, q) hi
  simpa [readyCount, setPhase] using this

/-- Buffers, commands and answers together never exceed one. -/
def Flow (s : St) : Prop := s.bufs + readyCount s.callers + s.ctl.length + pendingAnswers s.evq ≤ 1

/-- The number of free buffers an event announces. -/
def announces : Evt → Nat
  | .complete n _ _ => n
  | .status n _ _ => n
  | .vendor => 0

private theorem announces_step {s s' : St} {a : Act} (hq : OneBuffer s a) (h : ∀ e ∈ s.evq, announces e ≤ 1) (hs : step s a = some s') : ∀ e ∈ s'.evq, announces e ≤ 1 := by
  intro e he
  rcases (events_step hs e).1 he with h1 | rfl
  · exact h e h1
  · cases e with
    | complete n oc ps => exact hq.2
    | status n oc st => exact hq.2
    | vendor => exact Nat.zero_le 1

theorem Flow_step {s s' : St} {a : Act} (hq : OneBuffer s a) (hn : ∀ e ∈ s.evq, announces e ≤ 1) (h : Flow s) (hs : step s a = some s') : Flow s' := by
  unfold Flow at h ⊢
  cases a with
  | call oc =>
    simp only [step, Option.some.injEq] at hs; subst hs
    simpa [readyCount, List.countP_append] using h
  | raise e =>
    simp only [step, Option.some.injEq] at hs; subst hs
    cases e with
    | complete n oc ps =>
      have h1 := List.length_erase_of_mem hq.1
      have h2 : 0 < s.ctl.length := List.length_pos_of_mem hq.1
      simp only [pendingAnswers, List.countP_append, Evt.opcode] at h ⊢
      simp
      omega
    | status n oc st =>
      have h1 := List.length_erase_of_mem hq.1
      have h2 : 0 < s.ctl.length := List.length_pos_of_mem hq.1
      simp only [pendingAnswers, List.countP_append, Evt.opcode] at h ⊢
      simp
      omega
    | vendor => simpa [pendingAnswers, List.countP_append, Evt.opcode] using h
  | handle =>
    simp only [step] at hs
    split at hs
    · rename_i e es hh hq'
      injection hs with hs; subst hs
      rw [hq'] at h
      have ha := hn e (by rw [hq']; simp)
      cases e with
      | complete n oc ps =>
        simp only [announces] at ha
        simp only [pendingAnswers, List.countP_cons, Evt.opcode, Option.isSome_some, if_true, evtEffect, setAllowed] at h ⊢
        omega
      | status n oc st =>
        simp only [announces] at ha
        simp only [pendingAnswers, List.countP_cons, Evt.opcode, Option.isSome_some, if_true, evtEffect, setAllowed] at h ⊢
        omega
      | vendor => simpa [pendingAnswers, List.countP_cons, Evt.opcode, evtEffect] using h
    · cases hs
  | deliver =>
    simp only [step] at hs
    split at hs
    · rename_i i ps k hh
      split at hs
      · rename_i oc hi
        injection hs with hs; subst hs
        have := readyCount_set (p := .got ps k) hi
        simp at this ⊢; omega
      · cases hs
    · cases hs
  | lock i =>
    simp only [step] at hs
    split at hs
    · rename_i oc hi
      split at hs
      · injection hs with hs; subst hs
        have := readyCount_set (p := .locked) hi
        simp at this ⊢; omega
      · cases hs
    · cases hs
  | getBuf i =>
    simp only [step] at hs
    split at hs
    · rename_i oc hi
      split at hs
      · injection hs with hs; subst hs
        have := readyCount_set (p := .ready) hi
        simp at this ⊢; omega
      · cases hs
    · cases hs
  | noBuf i =>
    simp only [step] at hs
    split at hs
    · rename_i oc hi
      injection hs with hs; subst hs
      have := readyCount_set (p := .done none) hi
      simp at this ⊢; omega
    · cases hs
  | write i =>
    simp only [step] at hs
    split at hs
    · rename_i oc hi
      injection hs with hs; subst hs
      have := readyCount_set (p := .waiting) hi
      simp at this ⊢; omega
    · cases hs
  | timeout i =>
    simp only [step] at hs
    split at hs
    · rename_i oc hi
      injection hs with hs; subst hs
      have := readyCount_set (p := .timedOut) hi
      simp at this ⊢; omega
    · cases hs
  | finish i =>
    simp only [step] at hs
    split at hs
    · rename_i oc hi
      injection hs with hs; subst hs
      have := readyCount_set (p := .done none) hi
      simp at this ⊢; omega
    · rename_i oc ps k hi
      injection hs with hs; subst hs
      have := readyCount_set (p := .done (some (ps, k))) hi
      simp at this ⊢; omega
    · cases hs

end CmdFlow

/-- C31, flow control with a controller that has one command buffer (the value the host assumes at start). If the controller answers only commands it has and never announces more
than one free buffer, it never holds two commands, in every interleaving and with any time-outs. A controller with more buffers can be overrun: `stale_credit_overruns_controller`. -/
theorem cmd_one_outstanding_partial (as : List Act) (s : St) (hr : run init as = some s) (hc : Obeys OneBuffer init as) : s.ctl.length ≤ 1 := by
  have := run_obeys OneBuffer (fun s => Flow s ∧ ∀ e ∈ s.evq, announces e ≤ 1)
    (fun s s' a q h hs => ⟨Flow_step q h.2 h.1 hs, announces_step q h.2 hs⟩) as init s hc ⟨by simp [Flow, init, readyCount, pendingAnswers], by simp [init]⟩ hr
  have := this.1
  unfold Flow at this
  omega

/-- The host never believes it may send more commands than the largest number the controller announced (or one, before the first announcement), nor more than 16. -/
theorem cmd_allowance_le_announced (N : Nat) (hN : 1 ≤ N) (as : List Act) (s : St) (hr : run init as = some s) (ha : ∀ e, Act.raise e ∈ as → announces e ≤ N) :
    s.bufs ≤ N ∧ s.bufs ≤ 16 := by
  have := run_induct' (fun a => ∀ e, a = .raise e → announces e ≤ N) (fun s => (∀ e ∈ s.evq, announces e ≤ N) ∧ s.bufs ≤ N ∧ s.bufs ≤ 16)
    (fun s s' a hq h hs => by
      refine ⟨fun e he => ?_, ?_⟩
      · rcases (events_step hs e).1 he with h1 | rfl
        · exact h.1 e h1
        · exact hq e rfl
      · have h2 := h.2
        cases a with
        | call oc => simp only [step, Option.some.injEq] at hs; subst hs; exact h2
        | raise e => simp only [step, Option.some.injEq] at hs; subst hs; exact h2
        | handle =>
          simp only [step] at hs
          split at hs
          · rename_i e es hh hq'
            injection hs with hs; subst hs
            have ha := h.1 e (by rw [hq']; simp)
            cases e <;> simp only [evtEffect, setAllowed, announces] at ha ⊢ <;> omega
          · cases hs
        | _ =>
          simp only [step] at hs
          repeat' (split at hs)
          all_goals first
            | cases hs; done
            | (injection hs with hs; subst hs; first | exact h2 | (simp only []; omega))) as init s (fun a h e he => ha e (he ▸ h)) ⟨by simp [init], by simp [init]; omega, by simp [init]⟩ hr
  exact this.2

def CmdFlow.isWrite : Act → Bool
  | .write _ => true
  | _ => false

/-- Between two events the host writes no more commands than it was allowed: a stretch of the run in which no event is handled writes at most as many commands as there were buffers
(free, or taken by calls that had not written yet) at its beginning. -/
theorem cmd_writes_le_allowance (as : List Act) (s s' : St) (hr : run s as = some s') (hn : Act.handle ∉ as) :
    as.countP isWrite ≤ s.bufs + readyCount s.callers := by
  induction as generalizing s with
  | nil => exact Nat.zero_le _
  | cons a as ih =>
    simp only [run, Option.bind_eq_some_iff] at hr
    obtain ⟨t, h1, h2⟩ := hr
    have := ih t h2 (fun h => hn (List.mem_cons_of_mem _ h))
    rw [List.countP_cons]
    have key : t.bufs + readyCount t.callers + (if isWrite a = true then 1 else 0) ≤ s.bufs + readyCount s.callers := by
      cases a with
      | call oc => simp only [step, Option.some.injEq] at h1; subst h1; simp [readyCount, List.countP_append, isWrite]
      | raise e => simp only [step, Option.some.injEq] at h1; subst h1; simp [isWrite]
      | handle => simp at hn
      | deliver =>
        simp only [step] at h1
        split at h1
        · rename_i i ps k hh
          split at h1
          · rename_i oc hi
            injection h1 with h1; subst h1
            have := readyCount_set (p := .got ps k) hi
            simp [isWrite] at this ⊢; omega
          · cases h1
        · cases h1
      | lock i =>
        simp only [step] at h1
        split at h1
        · rename_i oc hi
          split at h1
          · injection h1 with h1; subst h1
            have := readyCount_set (p := .locked) hi
            simp [isWrite] at this ⊢; omega
          · cases h1
        · cases h1
      | getBuf i =>
        simp only [step] at h1
        split at h1
        · rename_i oc hi
          split at h1
          · injection h1 with h1; subst h1
            have := readyCount_set (p := .ready) hi
            simp [isWrite] at this ⊢; omega
          · cases h1
        · cases h1
      | noBuf i =>
        simp only [step] at h1
        split at h1
        · rename_i oc hi
          injection h1 with h1; subst h1
          have := readyCount_set (p := .done none) hi
          simp [isWrite] at this ⊢; omega
        · cases h1
      | write i =>
        simp only [step] at h1
        split at h1
        · rename_i oc hi
          injection h1 with h1; subst h1
          have := readyCount_set (p := .waiting) hi
          simp [isWrite] at this ⊢; omega
        · cases h1
      | timeout i =>
        simp only [step] at h1
        split at h1
        · rename_i oc hi
          injection h1 with h1; subst h1
          have := readyCount_set (p := .timedOut) hi
          simp [isWrite] at this ⊢; omega
        · cases h1
      | finish i =>
        simp only [step] at h1
        split at h1
        · rename_i oc hi
          injection h1 with h1; subst h1
          have := readyCount_set (p := .done none) hi
          simp [isWrite] at this ⊢; omega
        · rename_i oc ps k hi
          injection h1 with h1; subst h1
          have := readyCount_set (p := .done (some (ps, k))) hi
          simp [isWrite] at this ⊢; omega
        · cases h1
    omega

/-- A controller with `cap` command buffers: it answers only commands it has, and announces the buffers that are free once the answered command is gone. -/
def CmdFlow.Honest (cap : Nat) (s : St) : Act → Prop
  | .raise (.complete n oc _) => oc ∈ s.ctl ∧ n = cap - (s.ctl.length - 1)
  | .raise (.status n oc _) => oc ∈ s.ctl ∧ n = cap - (s.ctl.length - 1)
  | _ => True

instance (cap : Nat) (s : St) (a : Act) : Decidable (CmdFlow.Honest cap s a) := by
  unfold CmdFlow.Honest; split <;> infer_instance

/-- A decision procedure for `Obeys`. -/
private def obeysB (cap : Nat) : St → List Act → Bool
  | _, [] => true
  | s, a :: as => decide (Honest cap s a) && match step s a with
    | some s' => obeysB cap s' as
    | none => true

private theorem obeysB_sound (cap : Nat) : ∀ (as : List Act) (s : St), obeysB cap s as = true → Obeys (Honest cap) s as := by
  intro as
  induction as with
  | nil => intros; trivial
  | cons a as ih =>
    intro s h
    simp only [obeysB, Bool.and_eq_true, decide_eq_true_eq] at h
    refine ⟨h.1, fun s' hs => ih s' ?_⟩
    have := h.2
    rw [hs] at this
    exact this

/-- The run of `stale_credit_overruns_controller`: A is answered (two buffers free), B is answered before C is written and the answer is handled after it, so that the host counts
both buffers again although C occupies one. -/
private def overrun : List Act :=
  [.call 1, .lock 0, .getBuf 0, .write 0, .raise (.complete 2 1 [0]), .handle, .deliver, .finish 0,
   .call 2, .lock 1, .getBuf 1, .write 1, .call 3, .lock 2, .getBuf 2, .raise (.complete 2 2 [0]), .write 2, .handle, .deliver, .finish 1,
   .call 4, .lock 3, .getBuf 3, .write 3, .call 5, .lock 4, .getBuf 4, .write 4]

/-- The flow control claim fails for a controller with two buffers: the number of free buffers in an event may be out of date when it is handled, and the host tops its count up to that number
without subtracting the commands written since. This honest controller receives a third command. -/
theorem stale_credit_overruns_controller : ∃ as s, run init as = some s ∧ Obeys (Honest 2) init as ∧ s.ctl.length = 3 :=
  ⟨overrun, ((run init overrun).get (by decide)), (Option.some_get _).symm, obeysB_sound 2 overrun init (by decide), by decide⟩

/-- The host also ignores a reduction of the number of allowed commands: after an announcement of zero free buffers it still writes the commands it has buffers for. -/
theorem reduced_credit_is_ignored (s s' : St) (oc : Nat) (ps : Bytes) (es : List Evt) (hq : s.evq = .complete 0 oc ps :: es)
    (hs : step s .handle = some s') : s'.bufs = s.bufs := by
  simp only [step] at hs
  split at hs
  · rename_i e es' hh hq'
    rw [hq] at hq'; injection hq' with h1 h2; subst h1
    injection hs with hs; subst hs
    simp [evtEffect, setAllowed]
  · cases hs

/-! ## Answers reach their callers; the ways they do not -/

/-- If a caller waits, the event loop is free and the next event is the Command Complete for its opcode, then handling the event and handing the parameters over gives them to this caller. -/
theorem cmd_answer_reaches_caller (s : St) (i oc n : Nat) (ps : Bytes) (es : List Evt)
    (hi : s.callers[i]? = some (oc, .waiting)) (hsent : s.sent oc = some i) (hoc : oc ≠ 0) (hfree : s.handler = none) (hq : s.evq = .complete n oc ps :: es) :
    ∃ s', run s [.handle, .deliver, .finish i] = some s' ∧ s'.callers[i]? = some (oc, .done (some (ps, s.handled.length))) ∧ s'.handler = none ∧ s'.evq = es := by
  have hlen : i < s.callers.length := by
    rcases Nat.lt_or_ge i s.callers.length with h | h
    · exact h
    · rw [List.getElem?_eq_none h] at hi; cases hi
  simp [run, step, hfree, hq, evtEffect, hoc, hsent, hi, setPhase, List.getElem?_modify]

/-- A waiting call is registered under its opcode. -/
theorem cmd_waiting_is_registered (as : List Act) (s : St) (hr : run init as = some s) (i oc : Nat) (hi : s.callers[i]? = some (oc, .waiting)) (hv : oc / 1024 ≠ 0x3f) :
    s.sent oc = some i := by
  have key_eq : key oc = oc := by unfold key; rw [Nat.shiftRight_eq_div_pow]; exact if_neg hv
  have := run_induct (fun s => Inv s ∧ ∀ (i oc : Nat) p, s.callers[i]? = some (oc, p) → (p = .waiting ∨ p = .timedOut ∨ ∃ ps k, p = .got ps k) → s.sent (key oc) = some i)
    (fun s s' a h hs => ⟨Inv_step h.1 hs, by
      obtain ⟨hinv, h⟩ := h
      have setw : ∀ (i0 : Nat) oc0 q0 p0 (sent' : Nat → Option Nat), s.callers[i0]? = some (oc0, q0) → InFlight q0 →
          (∀ k, k ≠ key oc0 → sent' k = s.sent k) →
          ((p0 = .waiting ∨ p0 = .timedOut ∨ ∃ ps k, p0 = .got ps k) → sent' (key oc0) = some i0) →
          ∀ (i oc : Nat) p, (setPhase s i0 p0)[i]? = some (oc, p) → (p = .waiting ∨ p = .timedOut ∨ ∃ ps k, p = .got ps k) → sent' (key oc) = some i := by
        intro i0 oc0 q0 p0 sent' hi0 hf0 ho hn i oc p hp hw
        by_cases hj : i = i0
        · subst hj
          rw [get_set_same hi0] at hp
          injection hp with hp; injection hp with h1 h2; subst h1; subst h2
          exact hn hw
        · rw [get_set_other hj] at hp
          have hf : InFlight p := by rcases hw with rfl | rfl | ⟨_, _, rfl⟩ <;> trivial
          have hne : key oc ≠ key oc0 := by
            intro e
            have h1 := hinv.lockOf i oc p hp hf
            have h2 := hinv.lockOf i0 oc0 q0 hi0 hf0
            rw [e, h2] at h1; injection h1 with h1; exact hj h1.symm
          rw [ho _ hne]; exact h i oc p hp hw
      have nowait : ∀ (i0 : Nat) oc0 q0 p0, s.callers[i0]? = some (oc0, q0) → ¬ (p0 = .waiting ∨ p0 = .timedOut ∨ ∃ ps k, p0 = .got ps k) →
          ∀ (i oc : Nat) p, (setPhase s i0 p0)[i]? = some (oc, p) → (p = .waiting ∨ p = .timedOut ∨ ∃ ps k, p = .got ps k) → s.sent (key oc) = some i := by
        intro i0 oc0 q0 p0 hi0 hn i oc p hp hw
        by_cases hj : i = i0
        · subst hj
          rw [get_set_same hi0] at hp
          injection hp with hp; injection hp with h1 h2; subst h2
          exact absurd hw hn
        · rw [get_set_other hj] at hp; exact h i oc p hp hw
      cases a with
      | call oc =>
        simp only [step, Option.some.injEq] at hs; subst hs
        intro i oc' p hp hw
        simp only [List.getElem?_append] at hp
        split at hp
        · exact h i oc' p hp hw
        · cases hn : i - s.callers.length with
          | zero =>
            rw [hn] at hp
            simp only [List.getElem?_cons_zero, Option.some.injEq, Prod.mk.injEq] at hp
            obtain ⟨-, rfl⟩ := hp
            simp at hw
          | succ n => rw [hn] at hp; simp at hp
      | raise e => simp only [step, Option.some.injEq] at hs; subst hs; exact h
      | handle =>
        simp only [step] at hs
        split at hs
        · injection hs with hs; subst hs; exact h
        · cases hs
      | deliver =>
        simp only [step] at hs
        split at hs
        · split at hs
          · rename_i oc0 hi0
            injection hs with hs; subst hs
            exact setw _ _ _ _ s.sent hi0 trivial (fun _ _ => rfl) (fun _ => h _ _ _ hi0 (Or.inl rfl))
          · cases hs
        · cases hs
      | lock i0 =>
        simp only [step] at hs
        split at hs
        · rename_i oc0 hi0
          split at hs
          · injection hs with hs; subst hs; exact nowait _ _ _ _ hi0 (by simp)
          · cases hs
        · cases hs
      | getBuf i0 =>
        simp only [step] at hs
        split at hs
        · rename_i oc0 hi0
          split at hs
          · injection hs with hs; subst hs; exact nowait _ _ _ _ hi0 (by simp)
          · cases hs
        · cases hs
      | noBuf i0 =>
        simp only [step] at hs
        split at hs
        · rename_i oc0 hi0
          injection hs with hs; subst hs; exact nowait _ _ _ _ hi0 (by simp)
        · cases hs
      | write i0 =>
        simp only [step] at hs
        split at hs
        · rename_i oc0 hi0
          injection hs with hs; subst hs
          exact setw _ _ _ _ (upd s.sent (key oc0) (some i0)) hi0 trivial (fun _ hk => upd_other _ _ hk) (fun _ => upd_same _ _ _)
        · cases hs
      | timeout i0 =>
        simp only [step] at hs
        split at hs
        · rename_i oc0 hi0
          injection hs with hs; subst hs
          exact setw _ _ _ _ s.sent hi0 trivial (fun _ _ => rfl) (fun _ => h _ _ _ hi0 (Or.inl rfl))
        · cases hs
      | finish i0 =>
        simp only [step] at hs
        split at hs
        · rename_i oc0 hi0
          injection hs with hs; subst hs
          exact setw _ _ _ _ (upd s.sent (key oc0) none) hi0 trivial (fun _ hk => upd_other _ _ hk) (by simp)
        · rename_i oc0 ps k hi0
          injection hs with hs; subst hs
          exact setw _ _ _ _ (upd s.sent (key oc0) none) hi0 trivial (fun _ hk => upd_other _ _ hk) (by simp)
        · cases hs⟩) as init s ⟨Inv_init, by intros; simp_all [init]⟩ hr
  have := this.2 i oc _ hi (Or.inl rfl)
  rwa [key_eq] at this

/-- The event loop waits to hand a reply to a call that no longer receives. -/
def CmdFlow.LoopStuck (s : St) : Prop :=
  ∃ i ps k oc p, s.handler = some (i, ps, k) ∧ s.callers[i]? = some (oc, p) ∧ (p = .timedOut ∨ (∃ ps k, p = .got ps k) ∨ ∃ r, p = .done r)

private theorem stuck_step {s s' : St} {a : Act} (h : LoopStuck s) (hs : step s a = some s') : LoopStuck s' ∧ s'.handled = s.handled := by
  obtain ⟨i, ps, k, oc, p, h1, h2, h3⟩ := h
  have setw : ∀ (i0 : Nat) oc0 q0 p0, s.callers[i0]? = some (oc0, q0) →
      ((q0 = .timedOut ∨ (∃ ps k, q0 = .got ps k) ∨ ∃ r, q0 = .done r) → (p0 = .timedOut ∨ (∃ ps k, p0 = .got ps k) ∨ ∃ r, p0 = .done r)) →
      ∃ oc p, (setPhase s i0 p0)[i]? = some (oc, p) ∧ (p = .timedOut ∨ (∃ ps k, p = .got ps k) ∨ ∃ r, p = .done r) := by
    intro i0 oc0 q0 p0 hi0 hp
    by_cases hj : i = i0
    · subst hj
      rw [hi0] at h2; injection h2 with h2; injection h2 with _ h2; subst h2
      exact ⟨oc0, p0, get_set_same hi0, hp h3⟩
    · exact ⟨oc, p, by rw [get_set_other hj]; exact h2, h3⟩
  cases a with
  | call oc' =>
    simp only [step, Option.some.injEq] at hs; subst hs
    refine ⟨⟨i, ps, k, oc, p, h1, ?_, h3⟩, rfl⟩
    have : i < s.callers.length := by
      rcases Nat.lt_or_ge i s.callers.length with h | h
      · exact h
      · rw [List.getElem?_eq_none h] at h2; cases h2
    simp only [List.getElem?_append_left this]; exact h2
  | raise e => simp only [step, Option.some.injEq] at hs; subst hs; exact ⟨⟨i, ps, k, oc, p, h1, h2, h3⟩, rfl⟩
  | handle => simp [step, h1] at hs
  | deliver =>
    simp only [step, h1, h2] at hs
    rcases h3 with rfl | ⟨_, _, rfl⟩ | ⟨_, rfl⟩ <;> simp at hs
  | finish i0 =>
    simp only [step] at hs
    split at hs
    · rename_i oc0 hi0
      injection hs with hs; subst hs
      obtain ⟨a, b, c⟩ := setw i0 oc0 _ (.done none) hi0 (fun _ => Or.inr (Or.inr ⟨_, rfl⟩))
      exact ⟨⟨i, ps, k, a, b, h1, c⟩, rfl⟩
    · rename_i oc0 ps' k' hi0
      injection hs with hs; subst hs
      obtain ⟨a, b, c⟩ := setw i0 oc0 _ (.done (some (ps', k'))) hi0 (fun _ => Or.inr (Or.inr ⟨_, rfl⟩))
      exact ⟨⟨i, ps, k, a, b, h1, c⟩, rfl⟩
    · cases hs
  | lock i0 =>
    simp only [step] at hs
    split at hs
    · rename_i oc0 hi0
      split at hs
      · injection hs with hs; subst hs
        obtain ⟨a, b, c⟩ := setw i0 oc0 _ .locked hi0 (by simp)
        exact ⟨⟨i, ps, k, a, b, h1, c⟩, rfl⟩
      · cases hs
    · cases hs
  | getBuf i0 =>
    simp only [step] at hs
    split at hs
    · rename_i oc0 hi0
      split at hs
      · injection hs with hs; subst hs
        obtain ⟨a, b, c⟩ := setw i0 oc0 _ .ready hi0 (by simp)
        exact ⟨⟨i, ps, k, a, b, h1, c⟩, rfl⟩
      · cases hs
    · cases hs
  | noBuf i0 =>
    simp only [step] at hs
    split at hs
    · rename_i oc0 hi0
      injection hs with hs; subst hs
      obtain ⟨a, b, c⟩ := setw i0 oc0 _ (.done none) hi0 (by simp)
      exact ⟨⟨i, ps, k, a, b, h1, c⟩, rfl⟩
    · cases hs
  | write i0 =>
    simp only [step] at hs
    split at hs
    · rename_i oc0 hi0
      injection hs with hs; subst hs
      obtain ⟨a, b, c⟩ := setw i0 oc0 _ .waiting hi0 (by simp)
      exact ⟨⟨i, ps, k, a, b, h1, c⟩, rfl⟩
    · cases hs
  | timeout i0 =>
    simp only [step] at hs
    split at hs
    · rename_i oc0 hi0
      injection hs with hs; subst hs
      obtain ⟨a, b, c⟩ := setw i0 oc0 _ .timedOut hi0 (by simp)
      exact ⟨⟨i, ps, k, a, b, h1, c⟩, rfl⟩
    · cases hs

/-- Once the event loop waits for a call that timed out or already has its reply, it handles no event ever again, whatever callers and controller do (until the device is closed). -/
theorem stuck_event_loop_is_permanent (s s' : St) (as : List Act) (h : LoopStuck s) (hr : run s as = some s') : s'.handled = s.handled := by
  have := run_induct (fun t => LoopStuck t ∧ t.handled = s.handled) (fun t t' a h hs => by
    obtain ⟨g1, g2⟩ := stuck_step h.1 hs
    exact ⟨g1, g2.trans h.2⟩) as s s' ⟨h, rfl⟩ hr
  exact this.2

/-- Two ways into this state. A reply that arrives when the three-second timer fires: -/
theorem late_reply_hangs_event_loop : ∃ as s, run init as = some s ∧ LoopStuck s ∧ Obeys (Honest 1) init as :=
  ⟨[.call 1, .lock 0, .getBuf 0, .write 0, .raise (.complete 1 1 [0]), .handle, .timeout 0],
    (run init [.call 1, .lock 0, .getBuf 0, .write 0, .raise (.complete 1 1 [0]), .handle, .timeout 0]).get (by decide),
    (Option.some_get _).symm, ⟨0, [0], 0, 1, .timedOut, by decide, by decide, Or.inl rfl⟩, obeysB_sound 1 _ init (by decide)⟩

/-- … and a second event for the same opcode, handled before the call has removed itself from the table: -/
theorem duplicate_reply_hangs_event_loop : ∃ as s, run init as = some s ∧ LoopStuck s :=
  ⟨[.call 1, .lock 0, .getBuf 0, .write 0, .raise (.complete 1 1 [0]), .raise (.complete 1 1 [0]), .handle, .deliver, .handle],
    (run init [.call 1, .lock 0, .getBuf 0, .write 0, .raise (.complete 1 1 [0]), .raise (.complete 1 1 [0]), .handle, .deliver, .handle]).get (by decide),
    (Option.some_get _).symm, ⟨0, [0], 1, 1, .got [0] 0, by decide, by decide, Or.inr (Or.inl ⟨_, _, rfl⟩)⟩⟩

/-- A reply that comes after the time-out is given to the next call with the same opcode: replies are matched by opcode only. Here the second call returns the parameters of the answer to the
first command, before the controller has answered the second. -/
theorem late_reply_goes_to_next_call : ∃ as s, run init as = some s ∧ Obeys (Honest 2) init as ∧
    s.callers[1]? = some (1, .done none) ∧ s.callers[2]? = some (1, .done (some ([7], 1))) ∧ s.handled[1]? = some (.complete 1 1 [7]) ∧ s.ctl = [1] :=
  ⟨[.call 9, .lock 0, .getBuf 0, .write 0, .raise (.complete 2 9 [0]), .handle, .deliver, .finish 0,
    .call 1, .lock 1, .getBuf 1, .write 1, .timeout 1, .finish 1, .call 1, .lock 2, .getBuf 2, .write 2, .raise (.complete 1 1 [7]), .handle, .deliver, .finish 2],
    (run init [.call 9, .lock 0, .getBuf 0, .write 0, .raise (.complete 2 9 [0]), .handle, .deliver, .finish 0,
    .call 1, .lock 1, .getBuf 1, .write 1, .timeout 1, .finish 1, .call 1, .lock 2, .getBuf 2, .write 2, .raise (.complete 1 1 [7]), .handle, .deliver, .finish 2]).get (by decide),
    (Option.some_get _).symm, obeysB_sound 2 _ init (by decide), by decide, by decide, by decide, by decide⟩

/-! ## The announced number of commands can be used -/

/-- Caller `i` waits for the mutex of its opcode, and nobody has it. -/
def FreeCaller (s : St) (i : Nat) : Prop := ∃ oc, s.callers[i]? = some (oc, .want) ∧ s.lock (key oc) = none

/-- The opcode of a caller. -/
def opcodeOf (s : St) (i : Nat) : Option Nat := s.callers[i]?.map (·.1)

theorem fmCongr {α β : Type} {f g : α → Option β} : ∀ (l : List α), (∀ a ∈ l, f a = g a) → l.filterMap f = l.filterMap g
  | [], _ => rfl
  | a :: l, h => by
    rw [List.filterMap_cons, List.filterMap_cons, h a (by simp), fmCongr l fun b hb => h b (by simp [hb])]

theorem callers_can_send : ∀ (is : List Nat) (s : St), is.length ≤ s.bufs → (∀ i ∈ is, FreeCaller s i) → is.Nodup →
    (∀ i ∈ is, ∀ j ∈ is, i ≠ j → ∀ a b, opcodeOf s i = some a → opcodeOf s j = some b → key a ≠ key b) →
    ∃ s', run s (is.flatMap fun i => [.lock i, .getBuf i, .write i]) = some s' ∧ s'.ctl = s.ctl ++ is.filterMap (opcodeOf s) ∧ s'.handled = s.handled
  | [], s, _, _, _, _ => ⟨s, rfl, by simp, rfl⟩
  | i :: is, s, hb, hf, hd, hk => by
    obtain ⟨oc, h1, h2⟩ := hf i (by simp)
    simp only [List.length_cons] at hb
    obtain ⟨hi, hd'⟩ := List.nodup_cons.1 hd
    generalize hs1 : ({ s with callers := setPhase s i .locked, lock := upd s.lock (key oc) (some i) } : St) = s1
    have e1 : step s (.lock i) = some s1 := by simp only [step, h1, h2, if_true]; rw [hs1]
    have c1 : s1.callers[i]? = some (oc, .locked) := by subst hs1; simp [setPhase, List.getElem?_modify, h1]
    generalize hs2 : ({ s1 with callers := setPhase s1 i .ready, bufs := s1.bufs - 1 } : St) = s2
    have e2 : step s1 (.getBuf i) = some s2 := by
      simp only [step, c1]
      rw [if_pos (by subst hs1; show 0 < s.bufs; omega), hs2]
    have c2 : s2.callers[i]? = some (oc, .ready) := by subst hs2; simp [setPhase, List.getElem?_modify, c1]
    generalize hs3 : ({ s2 with callers := setPhase s2 i .waiting, sent := upd s2.sent (key oc) (some i), ctl := s2.ctl ++ [oc], wrote := upd s2.wrote i s2.handled.length } : St) = s3
    have e3 : step s2 (.write i) = some s3 := by simp only [step, c2]; rw [hs3]
    have cj : ∀ j, j ≠ i → s3.callers[j]? = s.callers[j]? := by
      intro j hj
      subst hs3 hs2 hs1
      simp [setPhase, List.getElem?_modify, hj.symm]
    have oj : ∀ j ∈ is, opcodeOf s3 j = opcodeOf s j := by
      intro j hj
      unfold opcodeOf
      rw [cj j (fun hx => hi (hx ▸ hj))]
    have hb3 : s3.bufs = s.bufs - 1 := by subst hs3 hs2 hs1; rfl
    have hc3 : s3.ctl = s.ctl ++ [oc] := by subst hs3 hs2 hs1; rfl
    have hh3 : s3.handled = s.handled := by subst hs3 hs2 hs1; rfl
    have hl3 : s3.lock = upd s.lock (key oc) (some i) := by subst hs3 hs2 hs1; rfl
    obtain ⟨s', r1, r2, r3⟩ := callers_can_send is s3 (by omega) (fun j hj => by
        obtain ⟨ocj, k1, k2⟩ := hf j (by simp [hj])
        have hne : j ≠ i := fun hx => hi (hx ▸ hj)
        refine ⟨ocj, by rw [cj j hne]; exact k1, ?_⟩
        have := hk j (by simp [hj]) i (by simp) hne ocj oc (by simp [opcodeOf, k1]) (by simp [opcodeOf, h1])
        rw [hl3]
        simp only [upd, if_neg this]
        exact k2) hd' (fun a ha b hb' hab x y hx hy => hk a (by simp [ha]) b (by simp [hb']) hab x y (by rw [← oj a ha]; exact hx) (by rw [← oj b hb']; exact hy))
    refine ⟨s', ?_, ?_, by rw [r3, hh3]⟩
    · simp only [List.flatMap_cons, List.cons_append, List.nil_append, run, e1, e2, e3, Option.bind_some]
      exact r1
    · rw [r2, hc3]
      have : (i :: is).filterMap (opcodeOf s) = oc :: is.filterMap (opcodeOf s3) := by
        rw [List.filterMap_cons]
        simp only [opcodeOf, h1, Option.map_some]
        congr 1
        exact (fmCongr is oj).symm
      rw [this]
      simp

/-- The number of commands an event announces that the controller takes. -/
def announced : Evt → Nat
  | .complete n _ _ => n
  | .status n _ _ => n
  | .vendor => 0

/-- C31. **The announced number is used**: when an event that announces room for `n` commands has been handled, as many callers as `n` says, up to 16, of different opcodes that nobody uses, can have their commands written before any further event. -/
theorem announced_commands_sent (s s' : St) (e : Evt) (es : List Evt) (hq : s.evq = e :: es) (hs : step s .handle = some s') (is : List Nat) (hn : is.length ≤ announced e) (h16 : is.length ≤ 16)
    (hf : ∀ i ∈ is, FreeCaller s' i) (hd : is.Nodup) (hk : ∀ i ∈ is, ∀ j ∈ is, i ≠ j → ∀ a b, opcodeOf s' i = some a → opcodeOf s' j = some b → key a ≠ key b) :
    ∃ as s'', run s' as = some s'' ∧ s''.ctl = s'.ctl ++ is.filterMap (opcodeOf s') ∧ s''.handled = s'.handled := by
  refine ⟨_, callers_can_send is s' ?_ hf hd hk⟩
  simp only [step, hq] at hs
  split at hs
  · rename_i e' es' _ heq
    cases heq
    cases hs
    cases e <;> simp only [evtEffect, setAllowed, announced] at hn ⊢ <;> omega
  · cases hs

/-! ## The hypotheses are met -/

/-- Two commands in flight at once, answered in the other order, and a vendor command answered by a vendor event. -/
private def demo : List Act :=
  [.call 0x0c03, .lock 0, .getBuf 0, .write 0, .raise (.complete 3 0x0c03 [0]), .handle, .deliver, .finish 0,
   .call 0x1005, .call 0x2002, .call 0xfc01, .lock 1, .lock 2, .lock 3, .getBuf 1, .getBuf 2, .getBuf 3, .write 1, .write 2, .write 3,
   .raise (.complete 1 0x2002 [0, 27, 0, 8]), .raise (.status 2 0x1005 0), .raise .vendor, .handle, .deliver, .handle, .deliver, .handle, .deliver, .finish 3, .finish 2, .finish 1]

example : (run init demo).isSome := by decide

/-- The hypotheses of `announced_commands_sent` are met: a controller announces room for two commands, and two calls wait. -/
theorem announced_commands_example : ∃ s s', run init [.call 1, .call 2, .raise (.complete 2 0 [])] = some s ∧ step s .handle = some s' ∧ s.evq = [.complete 2 0 []] ∧ FreeCaller s' 0 ∧ FreeCaller s' 1 :=
  ⟨_, _, rfl, rfl, rfl, ⟨1, rfl, rfl⟩, ⟨2, rfl, rfl⟩⟩
example : NoOpcode3f demo := by
  intro a ha; refine ⟨?_, ?_, ?_⟩
  · revert a; decide
  · intro n ps e; subst e; simp [demo] at ha
  · intro n st e; subst e; simp [demo] at ha
example : (run init demo).map (·.callers) = some [(0x0c03, .done (some ([0], 0))), (0x1005, .done (some ([0], 2))), (0x2002, .done (some ([0, 27, 0, 8], 1))),
    (0xfc01, .done (some ([0], 3)))] := by decide
example : Obeys OneBuffer init [.call 1, .lock 0, .getBuf 0, .write 0, .raise (.complete 1 1 [0]), .handle] := by
  simp [Obeys, OneBuffer, step, init, setPhase, key, upd]

end Ble.Props
