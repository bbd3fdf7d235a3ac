import Verif.Hci.Pool
set_option autoImplicit false

/-! # Lemmas about the pool model -/

namespace Ble.Pool

@[simp] theorem upd_same {α : Type} (f : Nat → α) (i : Nat) (v : α) : upd f i v i = v := by simp [upd]
theorem upd_other {α : Type} (f : Nat → α) {i j : Nat} (v : α) (h : j ≠ i) : upd f i v j = f j := by simp [upd, h]

theorem sum_congr {n : Nat} {f g : Nat → Nat} (h : ∀ i < n, f i = g i) :
    ((List.range n).map f).sum = ((List.range n).map g).sum := by
  congr 1
  apply List.map_congr_left
  intro a ha
  exact h a (List.mem_range.1 ha)

theorem sum_upd (n c : Nat) (h : c < n) (f : Nat → Nat) (v : Nat) :
    ((List.range n).map (upd f c v)).sum + f c = ((List.range n).map f).sum + v := by
  induction n with
  | zero => omega
  | succ n ih =>
    simp only [List.range_succ, List.map_append, List.map_cons, List.map_nil, List.sum_append, List.sum_cons, List.sum_nil]
    by_cases hc : c = n
    · subst hc
      rw [upd_same]
      have : ((List.range c).map (upd f c v)).sum = ((List.range c).map f).sum :=
        sum_congr fun i hi => upd_other f v (by omega)
      omega
    · rw [upd_other f v (by omega : n ≠ c)]
      have := ih (by omega)
      omega

theorem sum_le {n : Nat} {f g : Nat → Nat} (h : ∀ i < n, f i ≤ g i) :
    ((List.range n).map f).sum ≤ ((List.range n).map g).sum := by
  induction n with
  | zero => simp
  | succ n ih =>
    simp only [List.range_succ, List.map_append, List.map_cons, List.map_nil, List.sum_append, List.sum_cons, List.sum_nil]
    have := ih (fun i hi => h i (by omega)); have := h n (by omega); omega

/-- Facts about every reachable state that do not depend on the buffers. -/
structure WF (s : St) : Prop where
  conns_lt : ∀ h c, s.conns h = some c → c < s.next ∧ s.handleOf c = h
  cleaning_lt : ∀ c, s.cleaning = some c → c < s.next
  lock_lt : ∀ w, s.lock = some w → w.conn < s.next
  fresh : ∀ c, s.next ≤ c → s.sent c = [] ∧ s.link c = false ∧ s.ctl c = 0 ∧ s.closed c = false

theorem WF_init (cnt : Nat) : WF (init cnt) := by
  constructor <;> intros <;> simp_all [init]

theorem WF_cleanupStart {s : St} (h : WF s) (x : Nat) : WF (cleanupStart s x) := by
  unfold cleanupStart
  split
  · exact h
  · rename_i c hc
    have hcl := h.conns_lt x c hc
    constructor
    · intro h' c' hh
      by_cases hx : h' = x
      · subst hx; simp at hh
      · simp only [upd_other _ _ hx] at hh; exact h.conns_lt h' c' hh
    · intro c' hh; simp only [Option.some.injEq] at hh; subst hh; exact hcl.1
    · exact h.lock_lt
    · intro d hd
      obtain ⟨h1, h2, h3, h4⟩ := h.fresh d hd
      refine ⟨h1, h2, h3, ?_⟩
      have : d ≠ c := by
        have : c < s.next := hcl.1
        simp only at hd; omega
      simp only
      split
      · exact h4
      · rw [upd_other _ _ this]; exact h4

theorem WF_step {s s' : St} {a : Act} (h : WF s) (hs : step s a = some s') : WF s' := by
  cases a with
  | connect x sl =>
    simp only [step] at hs
    split at hs
    · injection hs with hs; subst hs
      constructor
      · intro h' c hh
        by_cases hx : h' = x
        · subst hx
          simp only [upd_same, Option.some.injEq] at hh
          subst hh
          exact ⟨Nat.lt_succ_self _, by simp⟩
        · simp only [upd_other _ _ hx] at hh
          have := h.conns_lt h' c hh
          refine ⟨by simp only; omega, ?_⟩
          simp only [upd_other s.handleOf x (by omega : c ≠ s.next)]
          exact this.2
      · intro c hc; have := h.cleaning_lt c hc; simp only; omega
      · intro w hw; have := h.lock_lt w hw; simp only; omega
      · intro c hc
        simp only at hc
        obtain ⟨h1, h2, h3, h4⟩ := h.fresh c (by omega)
        exact ⟨h1, by simp only [upd_other s.link true (by omega : c ≠ s.next)]; exact h2, h3, h4⟩
    · cases hs
  | wStart c n =>
    simp only [step] at hs
    split at hs
    · rename_i hc
      split at hs
      · injection hs with hs; subst hs; exact h
      · injection hs with hs; subst hs
        exact ⟨h.conns_lt, h.cleaning_lt, by intro w hw; simp only [Option.some.injEq] at hw; subst hw; exact hc.1, h.fresh⟩
    · cases hs
  | wGet c =>
    simp only [step] at hs
    split at hs
    · rename_i w b r hl hf
      split at hs
      · rename_i hc
        injection hs with hs; subst hs
        have hlt := h.lock_lt w hl
        refine ⟨h.conns_lt, h.cleaning_lt, ?_, ?_⟩
        · intro w' hw'; simp only [Option.some.injEq] at hw'; subst hw'; exact hlt
        · intro d hd
          obtain ⟨h1, h2, h3, h4⟩ := h.fresh d hd
          have : d ≠ c := by have := hc.1; simp only at hd; omega
          exact ⟨by simp only [upd_other _ _ this]; exact h1, h2, h3, h4⟩
      · cases hs
    · cases hs
  | wXmit c =>
    simp only [step] at hs
    split at hs
    · rename_i w hl
      split at hs
      · rename_i hc
        injection hs with hs; subst hs
        have hlt := h.lock_lt w hl
        refine ⟨h.conns_lt, h.cleaning_lt, ?_, ?_⟩
        · intro w' hw'; simp only [Option.some.injEq] at hw'; subst hw'; have := hc.1; simp only; omega
        · intro d hd
          obtain ⟨h1, h2, h3, h4⟩ := h.fresh d hd
          have : d ≠ c := by have := hc.1; simp only at hd; omega
          refine ⟨h1, h2, ?_, h4⟩
          simp only
          split
          · rw [upd_other _ _ this]; exact h3
          · exact h3
      · cases hs
    · cases hs
  | wStop c =>
    simp only [step] at hs
    split at hs
    · split at hs
      · injection hs with hs; subst hs
        exact ⟨h.conns_lt, h.cleaning_lt, by simp, h.fresh⟩
      · cases hs
    · cases hs
  | wFail c =>
    simp only [step] at hs
    split at hs
    · split at hs
      · injection hs with hs; subst hs
        exact ⟨h.conns_lt, h.cleaning_lt, by simp, h.fresh⟩
      · cases hs
    · cases hs
  | complete c k =>
    simp only [step] at hs
    split at hs
    · rename_i hc
      have hctl : ∀ d, s.next ≤ d → upd s.ctl c (s.ctl c - k) d = 0 := by
        intro d hd
        have : d ≠ c := by omega
        rw [upd_other _ _ this]; exact (h.fresh d hd).2.2.1
      split at hs
      · injection hs with hs; subst hs
        exact ⟨h.conns_lt, h.cleaning_lt, h.lock_lt, fun d hd => ⟨(h.fresh d hd).1, (h.fresh d hd).2.1, hctl d hd, (h.fresh d hd).2.2.2⟩⟩
      · rename_i e he
        injection hs with hs; subst hs
        have := h.conns_lt _ _ he
        refine ⟨h.conns_lt, h.cleaning_lt, h.lock_lt, fun d hd => ⟨?_, (h.fresh d hd).2.1, hctl d hd, (h.fresh d hd).2.2.2⟩⟩
        have hd' : s.next ≤ d := hd
        simp only [putN]
        rw [upd_other _ _ (by omega)]
        exact (h.fresh d hd).1
    · cases hs
  | linkDown c =>
    simp only [step] at hs
    split at hs
    · rename_i hc
      injection hs with hs; subst hs
      apply WF_cleanupStart
      refine ⟨h.conns_lt, h.cleaning_lt, h.lock_lt, fun d hd => ?_⟩
      obtain ⟨h1, h2, h3, h4⟩ := h.fresh d hd
      have : d ≠ c := by simp only at hd; omega
      exact ⟨h1, by simp only [upd_other _ _ this]; exact h2, by simp only [upd_other _ _ this]; exact h3, h4⟩
    · cases hs
  | linkDownLocal c =>
    simp only [step] at hs
    split at hs
    · rename_i hc
      injection hs with hs; subst hs
      refine ⟨h.conns_lt, h.cleaning_lt, h.lock_lt, fun d hd => ?_⟩
      obtain ⟨h1, h2, h3, h4⟩ := h.fresh d hd
      have : d ≠ c := by simp only at hd; omega
      exact ⟨h1, by simp only [upd_other _ _ this]; exact h2, by simp only [upd_other _ _ this]; exact h3, h4⟩
    · cases hs
  | localCleanup c =>
    simp only [step] at hs
    split at hs
    · injection hs with hs; subst hs; exact WF_cleanupStart h _
    · cases hs
  | cleanupEnd =>
    simp only [step] at hs
    split at hs
    · rename_i c hcl hlk
      injection hs with hs; subst hs
      refine ⟨h.conns_lt, by simp, by simp [hlk], fun d hd => ?_⟩
      obtain ⟨h1, h2, h3, h4⟩ := h.fresh d hd
      have := h.cleaning_lt c hcl
      have hdc : d ≠ c := by simp only at hd; omega
      exact ⟨by simp only [upd_other _ _ hdc]; exact h1, h2, h3, h4⟩
    · cases hs
  | hciClose =>
    simp only [step] at hs
    injection hs with hs; subst hs
    exact ⟨h.conns_lt, h.cleaning_lt, h.lock_lt, h.fresh⟩

/-- An additive measure of a list of buffers is conserved over the free list and the connections' lists. -/
def weight (W : List Nat → Nat) (s : St) : Nat := W s.free + total s (fun c => W (s.sent c))

theorem total_upd (W : List Nat → Nat) (s : St) (c : Nat) (hc : c < s.next) (v : List Nat) :
    ((List.range s.next).map (fun d => W (upd s.sent c v d))).sum + W (s.sent c) = total s (fun d => W (s.sent d)) + W v := by
  have h := sum_upd s.next c hc (fun d => W (s.sent d)) (W v)
  have : ((List.range s.next).map (fun d => W (upd s.sent c v d))).sum = ((List.range s.next).map (upd (fun d => W (s.sent d)) c (W v))).sum := by
    apply sum_congr
    intro i _
    unfold upd
    split <;> rfl
  rw [this]; exact h

theorem weight_putN (W : List Nat → Nat) (hW : ∀ a b, W (a ++ b) = W a + W b) (s : St) (c k : Nat) (hc : c < s.next) :
    weight W (putN s c k) = weight W s := by
  have h1 := total_upd W s c hc ((s.sent c).drop k)
  have h2 : W (s.sent c) = W ((s.sent c).take k) + W ((s.sent c).drop k) := by rw [← hW, List.take_append_drop]
  simp only [weight, putN, total, hW] at *
  omega

theorem cleanupStart_weight (W : List Nat → Nat) (s : St) (x : Nat) : weight W (cleanupStart s x) = weight W s := by
  unfold cleanupStart
  split <;> rfl

theorem weight_step (W : List Nat → Nat) (hW : ∀ a b, W (a ++ b) = W a + W b) (hN : W [] = 0) {s s' : St} {a : Act} (h : WF s)
    (hs : step s a = some s') : weight W s' = weight W s := by
  cases a with
  | connect x sl =>
    simp only [step] at hs
    split at hs
    · injection hs with hs; subst hs
      have : W (s.sent s.next) = 0 := by rw [(h.fresh s.next (Nat.le_refl _)).1, hN]
      simp only [weight, total, List.range_succ, List.map_append, List.map_cons, List.map_nil, List.sum_append, List.sum_cons, List.sum_nil, this]
      omega
    · cases hs
  | wStart c n =>
    simp only [step] at hs
    split at hs
    · split at hs <;> (injection hs with hs; subst hs; rfl)
    · cases hs
  | wGet c =>
    simp only [step] at hs
    split at hs
    · rename_i w b r hl hf
      split at hs
      · rename_i hc
        injection hs with hs; subst hs
        have hlt := h.lock_lt w hl
        have h1 := total_upd W s c (by have := hc.1; omega) (s.sent c ++ [b])
        have h2 : W (b :: r) = W [b] + W r := by rw [← hW]; rfl
        simp only [weight, total, hf, hW] at *
        omega
      · cases hs
    · cases hs
  | wXmit c =>
    simp only [step] at hs
    split at hs
    · split at hs
      · injection hs with hs; subst hs; rfl
      · cases hs
    · cases hs
  | wStop c =>
    simp only [step] at hs
    split at hs
    · split at hs
      · injection hs with hs; subst hs; rfl
      · cases hs
    · cases hs
  | wFail c =>
    simp only [step] at hs
    split at hs
    · split at hs
      · injection hs with hs; subst hs; rfl
      · cases hs
    · cases hs
  | complete c k =>
    simp only [step] at hs
    split at hs
    · split at hs
      · injection hs with hs; subst hs; rfl
      · rename_i e he
        injection hs with hs; subst hs
        exact weight_putN W hW { s with ctl := upd s.ctl c (s.ctl c - k) } e k (h.conns_lt _ _ he).1
    · cases hs
  | linkDown c =>
    simp only [step] at hs
    split at hs
    · injection hs with hs; subst hs
      rw [cleanupStart_weight]; rfl
    · cases hs
  | linkDownLocal c =>
    simp only [step] at hs
    split at hs
    · injection hs with hs; subst hs; rfl
    · cases hs
  | localCleanup c =>
    simp only [step] at hs
    split at hs
    · injection hs with hs; subst hs; exact cleanupStart_weight W s _
    · cases hs
  | cleanupEnd =>
    simp only [step] at hs
    split at hs
    · rename_i c hcl hlk
      injection hs with hs; subst hs
      have h1 := total_upd W s c (h.cleaning_lt c hcl) []
      simp only [weight, total, hW, hN] at *
      omega
    · cases hs
  | hciClose =>
    simp only [step] at hs
    injection hs with hs; subst hs; rfl

/-- Induction over runs. -/
theorem run_induct (P : St → Prop) (hstep : ∀ s s' a, P s → step s a = some s' → P s') :
    ∀ (as : List Act) (s s' : St), P s → run s as = some s' → P s' := by
  intro as
  induction as with
  | nil => intro s s' h hr; simp only [run, Option.some.injEq] at hr; subst hr; exact h
  | cons a as ih =>
    intro s s' h hr
    simp only [run, Option.bind_eq_some_iff] at hr
    obtain ⟨t, h1, h2⟩ := hr
    exact ih t s' (hstep s t a h h1) h2

theorem run_append (s : St) (as bs : List Act) : run s (as ++ bs) = (run s as).bind fun t => run t bs := by
  induction as generalizing s with
  | nil => rfl
  | cons a as ih =>
    simp only [List.cons_append, run]
    cases step s a with
    | none => rfl
    | some t => exact ih t

theorem WF_run {s s' : St} {as : List Act} (h : WF s) (hr : run s as = some s') : WF s' :=
  run_induct WF (fun _ _ _ h1 h2 => WF_step h1 h2) as s s' h hr

theorem weight_run (W : List Nat → Nat) (hW : ∀ a b, W (a ++ b) = W a + W b) (hN : W [] = 0) {s s' : St} {as : List Act} (h : WF s)
    (hr : run s as = some s') : weight W s' = weight W s :=
  (run_induct (fun t => WF t ∧ weight W t = weight W s)
    (fun _ _ _ h1 h2 => ⟨WF_step h1.1 h2, (weight_step W hW hN h1.1 h2).trans h1.2⟩) as s s' ⟨h, rfl⟩ hr).2

end Ble.Pool
