import Verif.Hci.PoolLemmas
set_option autoImplicit false

/-!
# C30: the controller's ACL buffers
-/

namespace Ble.Props

open Ble.Pool

/-! ## Nothing lost, nothing doubled -/

/-- C30, conservation. In every state reached by any history of connections, writes, completions, disconnections and closes, each of the pool's buffers is in exactly
one place: free, or charged to exactly one connection, once. -/
theorem pool_each_buffer_in_one_place (cnt : Nat) (as : List Act) (s : St) (hr : run (init cnt) as = some s) (b : Nat) (hb : b < cnt) :
    s.free.count b + total s (fun c => (s.sent c).count b) = 1 := by
  have := weight_run (fun l => l.count b) (fun x y => List.count_append) rfl (WF_init cnt) hr
  unfold weight at this
  rw [this]
  have h1 : (init cnt).free.count b = 1 := by
    show (List.range cnt).count b = 1
    rw [List.nodup_range.count, if_pos (List.mem_range.2 hb)]
  show (init cnt).free.count b + _ = 1
  rw [h1]; rfl

/-- C30, conservation by number: free buffers and buffers charged to connections always add up to the pool's size. -/
theorem pool_total (cnt : Nat) (as : List Act) (s : St) (hr : run (init cnt) as = some s) :
    s.free.length + total s (fun c => (s.sent c).length) = cnt := by
  have := weight_run List.length (fun x y => List.length_append) rfl (WF_init cnt) hr
  unfold weight at this
  rw [this]
  have h1 : (init cnt).free.length = cnt := List.length_range
  rw [h1]; rfl

/-! ## What the controller holds -/

/-- Every clean-up that is not caused by a Disconnection Complete event finds the link of the connection it cleans up already down. -/
def CleanupAfterLinkDown : St → List Act → Prop
  | _, [] => True
  | s, a :: as =>
    (∀ c, a = .localCleanup c → ∀ d, s.conns (s.handleOf c) = some d → s.link d = false) ∧ ∀ s', step s a = some s' → CleanupAfterLinkDown s' as

/-- The invariant: a live link's connection is registered, and what the controller holds of it has been charged to it. -/
private structure Held (s : St) : Prop where
  reg : ∀ c, s.link c = true → s.conns (s.handleOf c) = some c
  live : ∀ c, s.cleaning = some c → s.link c = false
  down : ∀ c, s.link c = false → s.ctl c = 0
  bound : ∀ c, s.ctl c + (match s.lock with | some w => if w.conn = c ∧ w.hasBuf = true then 1 else 0 | none => 0) ≤ (s.sent c).length

private theorem held_cleanup {s : St} (h : Held s) (x : Nat) (hx : ∀ d, s.conns x = some d → s.link d = false) : Held (cleanupStart s x) := by
  unfold cleanupStart
  split
  · exact h
  · rename_i c hc
    refine ⟨?_, ?_, h.down, h.bound⟩
    · intro d hd
      have h1 := h.reg d hd
      by_cases he : s.handleOf d = x
      · rw [he] at h1
        have := hx d h1
        rw [this] at hd; cases hd
      · show upd s.conns x none (s.handleOf d) = some d
        rw [upd_other _ _ he]; exact h1
    · intro d hd
      simp only [Option.some.injEq] at hd; subst hd; exact hx c hc

private theorem held_step {s s' : St} {a : Act} (hw : WF s) (h : Held s)
    (ha : ∀ c, a = .localCleanup c → ∀ d, s.conns (s.handleOf c) = some d → s.link d = false)
    (hs : step s a = some s') : Held s' := by
  cases a with
  | connect x sl =>
    simp only [step] at hs
    split at hs
    · rename_i hc
      injection hs with hs; subst hs
      have hfree : ∀ c, s.link c = true → s.handleOf c ≠ x := by
        intro c hl he
        have hlt : c < s.next := by
          rcases Nat.lt_or_ge c s.next with hlt | hge
          · exact hlt
          · have := (hw.fresh c hge).2.1; rw [this] at hl; cases hl
        have := List.all_eq_true.1 hc.2 c (List.mem_range.2 hlt)
        simp [hl, he] at this
      refine ⟨?_, ?_, ?_, h.bound⟩
      · intro c hl
        by_cases hn : c = s.next
        · subst hn; simp
        · simp only [upd_other _ _ hn] at hl ⊢
          rw [upd_other _ _ (hfree c hl)]; exact h.reg c hl
      · intro c hcl; simp only at hcl; rw [hc.1] at hcl; cases hcl
      · intro c hl
        by_cases hn : c = s.next
        · subst hn; simp at hl
        · simp only [upd_other _ _ hn] at hl; exact h.down c hl
    · cases hs
  | wStart c n =>
    simp only [step] at hs
    split at hs
    · rename_i hc
      split at hs
      · injection hs with hs; subst hs; exact h
      · injection hs with hs; subst hs
        refine ⟨h.reg, h.live, h.down, ?_⟩
        intro d
        have := h.bound d
        rw [hc.2] at this
        simpa using this
    · cases hs
  | wGet c =>
    simp only [step] at hs
    split at hs
    · rename_i w b r hl hf
      split at hs
      · rename_i hc
        injection hs with hs; subst hs
        refine ⟨h.reg, h.live, h.down, ?_⟩
        intro d
        have := h.bound d
        rw [hl] at this
        simp only [hc.2.2] at this
        by_cases hd : d = c
        · subst hd
          simp only [upd_same, List.length_append, List.length_singleton]
          simp only [hc.1, and_self, if_true] at *
          simp at this; omega
        · simp only [upd_other _ _ hd]
          have hne : w.conn ≠ d := by rw [hc.1]; exact fun e => hd e.symm
          simp only [hne, false_and, if_false] at *
          simpa using this
      · cases hs
    · cases hs
  | wXmit c =>
    simp only [step] at hs
    split at hs
    · rename_i w hl
      split at hs
      · rename_i hc
        injection hs with hs; subst hs
        refine ⟨h.reg, h.live, ?_, ?_⟩
        · intro d hd
          simp only at hd ⊢
          split
          · rename_i hlc
            by_cases hdc : d = c
            · subst hdc; rw [hlc] at hd; cases hd
            · rw [upd_other _ _ hdc]; exact h.down d hd
          · exact h.down d hd
        · intro d
          have := h.bound d
          rw [hl] at this
          simp only [Bool.false_eq_true, and_false, if_false] at *
          by_cases hdc : d = c
          · subst hdc
            simp only [hc.1, hc.2.1, and_self, if_true] at this
            split
            · simp only [upd_same]; omega
            · omega
          · have : s.ctl d ≤ (s.sent d).length := by split at this <;> omega
            split
            · rw [upd_other _ _ hdc]; omega
            · omega
      · cases hs
    · cases hs
  | wStop c =>
    simp only [step] at hs
    split at hs
    · split at hs
      · injection hs with hs; subst hs
        refine ⟨h.reg, h.live, h.down, fun d => ?_⟩
        have := h.bound d; simp only; omega
      · cases hs
    · cases hs
  | wFail c =>
    simp only [step] at hs
    split at hs
    · split at hs
      · injection hs with hs; subst hs
        refine ⟨h.reg, h.live, h.down, fun d => ?_⟩
        have := h.bound d; simp only; omega
      · cases hs
    · cases hs
  | complete c k =>
    simp only [step] at hs
    split at hs
    · rename_i hc
      have hreg := h.reg c hc.2.2.1
      rw [hreg] at hs
      simp only [Option.some.injEq] at hs
      subst hs
      refine ⟨h.reg, h.live, ?_, ?_⟩
      · intro d hd
        simp only [putN] at hd ⊢
        by_cases hdc : d = c
        · subst hdc; rw [hc.2.2.1] at hd; cases hd
        · rw [upd_other _ _ hdc]; exact h.down d hd
      · intro d
        have := h.bound d
        simp only [putN]
        by_cases hdc : d = c
        · subst hdc
          simp only [upd_same, List.length_drop]
          have := hc.2.2.2
          omega
        · rw [upd_other _ _ hdc, upd_other _ _ hdc]; exact this
    · cases hs
  | linkDown c =>
    simp only [step] at hs
    split at hs
    · rename_i hc
      injection hs with hs; subst hs
      have hreg := h.reg c hc.2.2
      -- the state after the controller dropped the link
      unfold cleanupStart
      simp only [hreg]
      refine ⟨?_, ?_, ?_, ?_⟩
      · intro d hd
        simp only at hd ⊢
        by_cases hdc : d = c
        · subst hdc; simp at hd
        · rw [upd_other _ _ hdc] at hd
          have h1 := h.reg d hd
          have hne : s.handleOf d ≠ s.handleOf c := by
            intro e; rw [e, hreg] at h1; injection h1 with h1; exact hdc h1.symm
          rw [upd_other _ _ hne]; exact h1
      · intro d hd
        simp only [Option.some.injEq] at hd; subst hd; simp
      · intro d hd
        simp only at hd ⊢
        by_cases hdc : d = c
        · subst hdc; simp
        · rw [upd_other _ _ hdc] at hd ⊢; exact h.down d hd
      · intro d
        have := h.bound d
        simp only
        by_cases hdc : d = c
        · subst hdc; simp only [upd_same]; omega
        · rw [upd_other _ _ hdc]; exact this
    · cases hs
  | linkDownLocal c =>
    simp only [step] at hs
    split at hs
    · rename_i hc
      injection hs with hs; subst hs
      refine ⟨?_, ?_, ?_, ?_⟩
      · intro d hd
        simp only at hd ⊢
        by_cases hdc : d = c
        · subst hdc; simp at hd
        · rw [upd_other _ _ hdc] at hd; exact h.reg d hd
      · intro d hd
        simp only at hd ⊢
        by_cases hdc : d = c
        · subst hdc; simp
        · rw [upd_other _ _ hdc]; exact h.live d hd
      · intro d hd
        simp only at hd ⊢
        by_cases hdc : d = c
        · subst hdc; simp
        · rw [upd_other _ _ hdc] at hd ⊢; exact h.down d hd
      · intro d
        have := h.bound d
        simp only
        by_cases hdc : d = c
        · subst hdc; simp only [upd_same]; omega
        · rw [upd_other _ _ hdc]; exact this
    · cases hs
  | localCleanup c =>
    simp only [step] at hs
    split at hs
    · injection hs with hs; subst hs
      exact held_cleanup h _ (ha c rfl)
    · cases hs
  | cleanupEnd =>
    simp only [step] at hs
    split at hs
    · rename_i c hcl hlk
      injection hs with hs; subst hs
      refine ⟨h.reg, by simp, h.down, ?_⟩
      intro d
      have := h.bound d
      simp only [hlk] at *
      by_cases hdc : d = c
      · subst hdc
        have := h.down d (h.live d hcl)
        simp [this]
      · rw [upd_other _ _ hdc]; exact this
    · cases hs
  | hciClose =>
    simp only [step] at hs
    injection hs with hs; subst hs
    exact ⟨h.reg, h.live, h.down, h.bound⟩

private theorem held_run {as : List Act} : ∀ {s s' : St}, WF s → Held s → CleanupAfterLinkDown s as → run s as = some s' → Held s' := by
  induction as with
  | nil => intro s s' _ h _ hr; simp only [run, Option.some.injEq] at hr; subst hr; exact h
  | cons a as ih =>
    intro s s' hw h hc hr
    simp only [run, Option.bind_eq_some_iff] at hr
    obtain ⟨t, h1, h2⟩ := hr
    exact ih (WF_step hw h1) (held_step hw h hc.1 h1) (hc.2 t h1) h2

/-- C30, no over-commitment (partial). In every history in which buffers are reclaimed only for connections whose link is down, the packets of each connection that the controller
holds are charged to it, so that in total the controller never holds more than the pool's size, which is one less than the number it announced. Missing: `Close` and the
clean-up after a receive error reclaim the buffers while the link is still up; see `pool_close_overcommits`. -/
theorem pool_never_overcommitted_partial (cnt : Nat) (as : List Act) (s : St) (hr : run (init cnt) as = some s)
    (hc : CleanupAfterLinkDown (init cnt) as) :
    (∀ c, s.ctl c ≤ (s.sent c).length) ∧ total s s.ctl ≤ cnt := by
  have hi : Held (init cnt) := by
    refine ⟨?_, ?_, ?_, ?_⟩ <;> intros <;> simp_all [init]
  have h := held_run (WF_init cnt) hi hc hr
  have hb : ∀ c, s.ctl c ≤ (s.sent c).length := fun c => by have := h.bound c; omega
  refine ⟨hb, ?_⟩
  have h1 := pool_total cnt as s hr
  have h2 : total s s.ctl ≤ total s (fun c => (s.sent c).length) := sum_le fun i _ => hb i
  omega

/-! ## Completions give everything back -/

/-- No write is cut short: every buffer taken is sent. -/
def NoFailedWrites (as : List Act) : Prop := ∀ a ∈ as, ∀ c, a ≠ .wFail c

/-- What a live connection is charged with is what the controller holds of it, plus the buffer being filled. -/
private def Exact (s : St) : Prop :=
  ∀ c, s.link c = true → (s.sent c).length = s.ctl c + (match s.lock with | some w => if w.conn = c ∧ w.hasBuf = true then 1 else 0 | none => 0)

private theorem exact_cleanup {s : St} (h : Exact s) (x : Nat) : Exact (cleanupStart s x) := by
  unfold cleanupStart
  split <;> exact h

private theorem exact_step {s s' : St} {a : Act} (hw : WF s) (hh : Held s) (h : Exact s) (ha : ∀ c, a ≠ .wFail c)
    (hs : step s a = some s') : Exact s' := by
  cases a with
  | connect x sl =>
    simp only [step] at hs
    split at hs
    · injection hs with hs; subst hs
      intro c hl
      simp only at hl ⊢
      by_cases hn : c = s.next
      · subst hn
        obtain ⟨f1, _, f3, _⟩ := hw.fresh s.next (Nat.le_refl _)
        rw [f1, f3]
        split
        · rename_i w hlk
          have := hw.lock_lt w hlk
          rw [if_neg (by omega)]; rfl
        · rfl
      · rw [upd_other _ _ hn] at hl; exact h c hl
    · cases hs
  | wStart c n =>
    simp only [step] at hs
    split at hs
    · rename_i hc
      split at hs
      · injection hs with hs; subst hs; exact h
      · injection hs with hs; subst hs
        intro d hd
        have := h d hd
        rw [hc.2] at this
        simpa using this
    · cases hs
  | wGet c =>
    simp only [step] at hs
    split at hs
    · rename_i w b r hl hf
      split at hs
      · rename_i hc
        injection hs with hs; subst hs
        intro d hd
        have := h d hd
        rw [hl] at this
        simp only [hc.2.2] at this
        by_cases hdc : d = c
        · subst hdc
          simp only [upd_same, List.length_append, List.length_singleton]
          simp only [hc.1, and_self, if_true] at *
          simp at this; omega
        · simp only [upd_other _ _ hdc]
          have hne : w.conn ≠ d := by rw [hc.1]; exact fun e => hdc e.symm
          simp only [hne, false_and, if_false] at *
          exact this
      · cases hs
    · cases hs
  | wXmit c =>
    simp only [step] at hs
    split at hs
    · rename_i w hl
      split at hs
      · rename_i hc
        injection hs with hs; subst hs
        intro d hd
        have := h d hd
        rw [hl] at this
        simp only [Bool.false_eq_true, and_false, if_false] at *
        by_cases hdc : d = c
        · subst hdc
          simp only [hc.1, hc.2.1, and_self, if_true] at this
          rw [if_pos hd]
          simp only [upd_same]; omega
        · have hne : w.conn ≠ d := by rw [hc.1]; exact fun e => hdc e.symm
          simp only [hne, false_and, if_false] at this
          split
          · rw [upd_other _ _ hdc]; omega
          · omega
      · cases hs
    · cases hs
  | wStop c =>
    simp only [step] at hs
    split at hs
    · rename_i w hl
      split at hs
      · rename_i hc
        injection hs with hs; subst hs
        intro d hd
        have := h d hd
        rw [hl] at this
        simp only [hc.2.2] at *
        simpa using this
      · cases hs
    · cases hs
  | wFail c => exact absurd rfl (ha c)
  | complete c k =>
    simp only [step] at hs
    split at hs
    · rename_i hc
      have hreg := hh.reg c hc.2.2.1
      rw [hreg] at hs
      simp only [Option.some.injEq] at hs
      subst hs
      intro d hd
      have := h d hd
      simp only [putN]
      by_cases hdc : d = c
      · subst hdc
        simp only [upd_same, List.length_drop]
        have := hc.2.2.2
        omega
      · rw [upd_other _ _ hdc, upd_other _ _ hdc]; exact this
    · cases hs
  | linkDown c =>
    simp only [step] at hs
    split at hs
    · injection hs with hs; subst hs
      apply exact_cleanup
      intro d hd
      simp only at hd ⊢
      by_cases hdc : d = c
      · subst hdc; simp at hd
      · rw [upd_other _ _ hdc] at hd ⊢; exact h d hd
    · cases hs
  | linkDownLocal c =>
    simp only [step] at hs
    split at hs
    · injection hs with hs; subst hs
      intro d hd
      simp only at hd ⊢
      by_cases hdc : d = c
      · subst hdc; simp at hd
      · rw [upd_other _ _ hdc] at hd ⊢; exact h d hd
    · cases hs
  | localCleanup c =>
    simp only [step] at hs
    split at hs
    · injection hs with hs; subst hs; exact exact_cleanup h _
    · cases hs
  | cleanupEnd =>
    simp only [step] at hs
    split at hs
    · rename_i c hcl hlk
      injection hs with hs; subst hs
      intro d hd
      have := h d hd
      simp only at hd ⊢
      have hdc : d ≠ c := by
        intro e; subst e
        rw [hh.live d hcl] at hd; cases hd
      rw [upd_other _ _ hdc]; exact this
    · cases hs
  | hciClose =>
    simp only [step] at hs
    injection hs with hs; subst hs
    exact h

private theorem exact_run {as : List Act} : ∀ {s s' : St}, WF s → Held s → Exact s → CleanupAfterLinkDown s as → NoFailedWrites as → run s as = some s' → Exact s' := by
  induction as with
  | nil => intro s s' _ _ h _ _ hr; simp only [run, Option.some.injEq] at hr; subst hr; exact h
  | cons a as ih =>
    intro s s' hw hh h hc hn hr
    simp only [run, Option.bind_eq_some_iff] at hr
    obtain ⟨t, h1, h2⟩ := hr
    exact ih (WF_step hw h1) (held_step hw hh hc.1 h1) (exact_step hw hh h (hn a (by simp)) h1) (hc.2 t h1) (fun b hb => hn b (by simp [hb])) h2

/-- C30, completions. In every history with no failed write and in which buffers are reclaimed only for dead links, when nothing is being written a live connection is charged with exactly
as many buffers as the controller holds packets of it: once the controller has completed all its packets, all its buffers are free again. -/
theorem pool_completions_return_all_partial (cnt : Nat) (as : List Act) (s : St) (hr : run (init cnt) as = some s)
    (hc : CleanupAfterLinkDown (init cnt) as) (hn : NoFailedWrites as) (hl : s.lock = none) (c : Nat) (hlink : s.link c = true) :
    (s.sent c).length = s.ctl c := by
  have hi : Held (init cnt) := by
    refine ⟨?_, ?_, ?_, ?_⟩ <;> intros <;> simp_all [init]
  have h := exact_run (WF_init cnt) hi (by intro c hc; simp [init] at hc) hc hn hr
  have := h c hlink
  rw [hl] at this
  exact this

/-! ## Histories used below -/

/-- The steps of writing `n` fragments on connection `c` when buffers are available. -/
def sendFrags (c : Nat) : Nat → List Act
  | 0 => []
  | n + 1 => .wGet c :: .wXmit c :: sendFrags c n

/-- A whole `writePDU` of `n` fragments. -/
def sendPdu (c n : Nat) : List Act := .wStart c n :: (sendFrags c n ++ [.wStop c])

private theorem run_sendFrags (c : Nat) : ∀ (bs r : List Nat) (s : St), s.free = bs ++ r → s.closed c = false → s.link c = true → s.lock = some ⟨c, bs.length, false⟩ →
    run s (sendFrags c bs.length) = some { s with free := r, sent := upd s.sent c (s.sent c ++ bs), lock := some ⟨c, 0, false⟩, ctl := upd s.ctl c (s.ctl c + bs.length) } := by
  intro bs
  induction bs with
  | nil =>
    intro r s hf hc hl hk
    have e1 : upd s.sent c (s.sent c ++ []) = s.sent := by
      funext d; unfold upd; split <;> simp_all
    have e2 : upd s.ctl c (s.ctl c + ([] : List Nat).length) = s.ctl := by
      funext d; unfold upd; split <;> simp_all
    simp only [List.nil_append] at hf
    simp only [List.length_nil] at hk
    simp only [List.length_nil, sendFrags, run, e1] at *
    rw [e2, ← hf, ← hk]
  | cons b bs ih =>
    intro r s hf hc hl hk
    have h1 : step s (.wGet c) = some { s with free := bs ++ r, sent := upd s.sent c (s.sent c ++ [b]), lock := some ⟨c, bs.length + 1, true⟩ } := by
      simp only [step]
      rw [hk, hf]
      simp
    have h2 : step { s with free := bs ++ r, sent := upd s.sent c (s.sent c ++ [b]), lock := some ⟨c, bs.length + 1, true⟩ } (.wXmit c) =
        some { s with free := bs ++ r, sent := upd s.sent c (s.sent c ++ [b]), lock := some ⟨c, bs.length, false⟩, ctl := upd s.ctl c (s.ctl c + 1) } := by
      simp [step, hc, hl]
    simp only [List.length_cons, sendFrags, run, h1, Option.bind_some, h2]
    rw [ih r { s with free := bs ++ r, sent := upd s.sent c (s.sent c ++ [b]), lock := some ⟨c, bs.length, false⟩, ctl := upd s.ctl c (s.ctl c + 1) } rfl hc hl rfl]
    congr 2
    · funext d; simp only [upd]; split <;> simp_all
    · funext d; simp only [upd]; split
      · simp; omega
      · simp_all

theorem run_sendPdu (c : Nat) (bs r : List Nat) (s : St) (hf : s.free = bs ++ r) (hc : s.closed c = false) (hl : s.link c = true) (hk : s.lock = none) (hn : c < s.next) :
    run s (sendPdu c bs.length) = some { s with free := r, sent := upd s.sent c (s.sent c ++ bs), ctl := upd s.ctl c (s.ctl c + bs.length) } := by
  have h1 : step s (.wStart c bs.length) = some { s with lock := some ⟨c, bs.length, false⟩ } := by
    simp [step, hn, hk, hc]
  have h2 := run_sendFrags c bs r { s with lock := some ⟨c, bs.length, false⟩ } hf hc hl rfl
  simp only [sendPdu, run, h1, Option.bind_some, run_append]
  rw [h2]
  simp only [Option.bind_some, run, step]
  simp [hk]

/-- C30 fails with `Close`: two connections, the first sends as many packets as the pool holds and is closed locally; its buffers are reclaimed while the controller still holds the
packets, and the second connection sends as many again. The controller then holds twice the pool's size, more than the `cnt + 1` it announced. -/
theorem pool_close_overcommits (cnt : Nat) (h2 : 2 ≤ cnt) :
    ∃ as s, run (init cnt) as = some s ∧ total s s.ctl = 2 * cnt ∧ cnt + 1 < total s s.ctl := by
  let s2 : St := { init cnt with conns := upd (upd (init cnt).conns 0 (some 0)) 1 (some 1), next := 2, handleOf := upd (upd (init cnt).handleOf 0 0) 1 1, slave := upd (upd (init cnt).slave 0 false) 1 false, link := upd (upd (init cnt).link 0 true) 1 true }
  have hr2 : run (init cnt) [.connect 0 false, .connect 1 false] = some s2 := by
    simp [run, step, init, s2, upd]
  have hlen : (List.range cnt).length = cnt := List.length_range
  have h3 := run_sendPdu 0 (List.range cnt) [] s2 (by simp [s2, init]) rfl rfl rfl (Nat.zero_lt_succ 1)
  rw [hlen] at h3
  let s3 : St := { s2 with free := [], sent := upd s2.sent 0 (s2.sent 0 ++ List.range cnt), ctl := upd s2.ctl 0 (s2.ctl 0 + cnt) }
  let s4 : St := { s3 with free := List.range cnt, sent := upd s3.sent 0 [], conns := upd s3.conns 0 none, closed := upd s3.closed 0 true }
  have h4 : run s3 [.localCleanup 0, .cleanupEnd] = some s4 := by
    simp [run, step, cleanupStart, s3, s2, s4, init, upd]
  have h5 := run_sendPdu 1 (List.range cnt) [] s4 (by simp [s4]) rfl rfl rfl (Nat.lt_succ_self 1)
  rw [hlen] at h5
  refine ⟨[.connect 0 false, .connect 1 false] ++ (sendPdu 0 cnt ++ ([.localCleanup 0, .cleanupEnd] ++ sendPdu 1 cnt)),
    { s4 with free := [], sent := upd s4.sent 1 (s4.sent 1 ++ List.range cnt), ctl := upd s4.ctl 1 (s4.ctl 1 + cnt) }, ?_, ?_⟩
  · rw [run_append, hr2, Option.bind_some, run_append, h3, Option.bind_some, run_append]
    show (run s3 _).bind _ = _
    rw [h4, Option.bind_some, h5]
  · simp [total, s4, s3, s2, init, upd, List.range_succ]
    omega

/-! ## Disconnection gives the buffers back -/

/-- A finished clean-up leaves nothing charged to the connection, and no writer can charge anything to it. -/
private def Returned (s : St) : Prop :=
  s.isOpen = true → ∀ c, s.closed c = true → s.cleaning = some c ∨ (s.sent c = [] ∧ ∀ w, s.lock = some w → w.conn ≠ c)

private theorem returned_cleanup {s : St} (h : Returned s) (hn : s.cleaning = none) (x : Nat) : Returned (cleanupStart s x) := by
  unfold cleanupStart
  split
  · exact h
  · rename_i c hc
    intro ho d hd
    replace ho : s.isOpen = true := ho
    simp only [ho, not_true, false_and, if_false] at hd
    by_cases he : d = c
    · left; rw [he]
    · right
      rw [upd_other _ _ he] at hd
      rcases h ho d hd with h1 | h1
      · rw [hn] at h1; cases h1
      · exact h1

private theorem returned_step {s s' : St} {a : Act} (h : Returned s) (hs : step s a = some s') : Returned s' := by
  cases a with
  | connect x sl =>
    simp only [step] at hs
    split at hs
    · injection hs with hs; subst hs; exact h
    · cases hs
  | wStart c n =>
    simp only [step] at hs
    split at hs
    · rename_i hc
      split at hs
      · injection hs with hs; subst hs; exact h
      · rename_i hcl
        injection hs with hs; subst hs
        intro ho d hd
        rcases h ho d hd with h1 | h1
        · exact Or.inl h1
        · refine Or.inr ⟨h1.1, ?_⟩
          intro w hw
          simp only [Option.some.injEq] at hw; subst hw
          intro e; simp only at e; subst e; exact hcl hd
    · cases hs
  | wGet c =>
    simp only [step] at hs
    split at hs
    · rename_i w b r hl hf
      split at hs
      · rename_i hc
        injection hs with hs; subst hs
        intro ho d hd
        rcases h ho d hd with h1 | h1
        · exact Or.inl h1
        · right
          have hne : d ≠ c := fun e => h1.2 w hl (by rw [e]; exact hc.1)
          simp only [upd_other _ _ hne]
          refine ⟨h1.1, ?_⟩
          intro w' hw'
          simp only [Option.some.injEq] at hw'; subst hw'; exact h1.2 w hl
      · cases hs
    · cases hs
  | wXmit c =>
    simp only [step] at hs
    split at hs
    · rename_i w hl
      split at hs
      · rename_i hc
        injection hs with hs; subst hs
        intro ho d hd
        rcases h ho d hd with h1 | h1
        · exact Or.inl h1
        · right
          refine ⟨h1.1, ?_⟩
          intro w' hw'
          simp only [Option.some.injEq] at hw'; subst hw'
          have := h1.2 w hl
          rw [hc.1] at this; exact this
      · cases hs
    · cases hs
  | wStop c =>
    simp only [step] at hs
    split at hs
    · split at hs
      · injection hs with hs; subst hs
        intro ho d hd
        rcases h ho d hd with h1 | h1
        · exact Or.inl h1
        · exact Or.inr ⟨h1.1, by simp⟩
      · cases hs
    · cases hs
  | wFail c =>
    simp only [step] at hs
    split at hs
    · split at hs
      · injection hs with hs; subst hs
        intro ho d hd
        rcases h ho d hd with h1 | h1
        · exact Or.inl h1
        · exact Or.inr ⟨h1.1, by simp⟩
      · cases hs
    · cases hs
  | complete c k =>
    simp only [step] at hs
    split at hs
    · split at hs
      · injection hs with hs; subst hs; exact h
      · rename_i e he
        injection hs with hs; subst hs
        intro ho d hd
        rcases h ho d hd with h1 | h1
        · exact Or.inl h1
        · refine Or.inr ⟨?_, h1.2⟩
          simp only [putN]
          by_cases hde : d = e
          · subst hde; simp [h1.1]
          · rw [upd_other _ _ hde]; exact h1.1
    · cases hs
  | linkDown c =>
    simp only [step] at hs
    split at hs
    · rename_i hc
      injection hs with hs; subst hs
      exact returned_cleanup (s := { s with link := upd s.link c false, ctl := upd s.ctl c 0 }) h hc.1 _
    · cases hs
  | linkDownLocal c =>
    simp only [step] at hs
    split at hs
    · injection hs with hs; subst hs; exact h
    · cases hs
  | localCleanup c =>
    simp only [step] at hs
    split at hs
    · rename_i hc
      injection hs with hs; subst hs; exact returned_cleanup h hc.1 _
    · cases hs
  | cleanupEnd =>
    simp only [step] at hs
    split at hs
    · rename_i c hcl hlk
      injection hs with hs; subst hs
      intro ho d hd
      right
      refine ⟨?_, by simp [hlk]⟩
      by_cases hdc : d = c
      · subst hdc; simp
      · simp only [upd_other _ _ hdc]
        rcases h ho d hd with h1 | h1
        · rw [hcl] at h1; injection h1 with h1; exact absurd h1.symm hdc
        · exact h1.1
    · cases hs
  | hciClose =>
    simp only [step] at hs
    injection hs with hs; subst hs
    intro ho; simp at ho

/-- C30, disconnection. While the device is open, a connection whose `Disconnected` channel is closed and whose clean-up is finished has no buffer charged to it, and never gets one
again: whatever writes were in progress or come later. -/
theorem pool_disconnected_returns_all (cnt : Nat) (as : List Act) (s : St) (hr : run (init cnt) as = some s) (ho : s.isOpen = true) (c : Nat)
    (hc : s.closed c = true) (hcl : s.cleaning ≠ some c) : s.sent c = [] := by
  have : Returned s := run_induct Returned (fun _ _ _ h1 h2 => returned_step h1 h2) as (init cnt) s (by intro _ c hc; simp [init] at hc) hr
  rcases this ho c hc with h | h
  · exact absurd h hcl
  · exact h.1

/-! ## No leak, if handles are not reused early -/

/-- Each new connection's handle is not registered when the event is handled. -/
def FreshHandles : St → List Act → Prop
  | _, [] => True
  | s, a :: as => (∀ h sl, a = .connect h sl → s.conns h = none) ∧ ∀ s', step s a = some s' → FreshHandles s' as

private def Registered (s : St) : Prop := s.isOpen = true → ∀ c, c < s.next → s.closed c = false → s.conns (s.handleOf c) = some c

private theorem registered_cleanup {s : St} (h : Registered s) (x : Nat) : Registered (cleanupStart s x) := by
  unfold cleanupStart
  split
  · exact h
  · rename_i c hc
    intro ho d hd hcl
    replace ho : s.isOpen = true := ho
    simp only [ho, not_true, false_and, if_false] at hcl
    by_cases he : d = c
    · subst he; simp at hcl
    · rw [upd_other _ _ he] at hcl
      have h1 := h ho d hd hcl
      have hne : s.handleOf d ≠ x := by
        intro e; rw [e, hc] at h1; injection h1 with h1; exact he h1.symm
      show upd s.conns x none (s.handleOf d) = some d
      rw [upd_other _ _ hne]; exact h1

private theorem registered_step {s s' : St} {a : Act} (hw : WF s) (h : Registered s) (ha : ∀ h sl, a = .connect h sl → s.conns h = none)
    (hs : step s a = some s') : Registered s' := by
  cases a with
  | connect x sl =>
    simp only [step] at hs
    split at hs
    · injection hs with hs; subst hs
      intro ho c hc hcl
      simp only at hc hcl
      by_cases hn : c = s.next
      · subst hn; simp
      · have h1 := h ho c (by omega) hcl
        have hne : s.handleOf c ≠ x := by
          intro e; rw [e, ha x sl rfl] at h1; cases h1
        simp only [upd_other _ _ hn, upd_other _ _ hne]; exact h1
    · cases hs
  | wStart c n =>
    simp only [step] at hs
    split at hs
    · split at hs <;> (injection hs with hs; subst hs; exact h)
    · cases hs
  | wGet c =>
    simp only [step] at hs
    split at hs
    · split at hs
      · injection hs with hs; subst hs; exact h
      · cases hs
    · cases hs
  | wXmit c =>
    simp only [step] at hs
    split at hs
    · split at hs
      · injection hs with hs; subst hs; exact h
      · cases hs
    · cases hs
  | wStop c =>
    simp only [step] at hs
    split at hs
    · split at hs
      · injection hs with hs; subst hs; exact h
      · cases hs
    · cases hs
  | wFail c =>
    simp only [step] at hs
    split at hs
    · split at hs
      · injection hs with hs; subst hs; exact h
      · cases hs
    · cases hs
  | complete c k =>
    simp only [step] at hs
    split at hs
    · split at hs <;> (injection hs with hs; subst hs; exact h)
    · cases hs
  | linkDown c =>
    simp only [step] at hs
    split at hs
    · injection hs with hs; subst hs
      exact registered_cleanup (s := { s with link := upd s.link c false, ctl := upd s.ctl c 0 }) h _
    · cases hs
  | linkDownLocal c =>
    simp only [step] at hs
    split at hs
    · injection hs with hs; subst hs; exact h
    · cases hs
  | localCleanup c =>
    simp only [step] at hs
    split at hs
    · injection hs with hs; subst hs; exact registered_cleanup h _
    · cases hs
  | cleanupEnd =>
    simp only [step] at hs
    split at hs
    · injection hs with hs; subst hs; exact h
    · cases hs
  | hciClose =>
    simp only [step] at hs
    injection hs with hs; subst hs
    intro ho; simp at ho

private theorem registered_run {as : List Act} : ∀ {s s' : St}, WF s → Registered s → FreshHandles s as → run s as = some s' → Registered s' := by
  induction as with
  | nil => intro s s' _ h _ hr; simp only [run, Option.some.injEq] at hr; subst hr; exact h
  | cons a as ih =>
    intro s s' hw h hc hr
    simp only [run, Option.bind_eq_some_iff] at hr
    obtain ⟨t, h1, h2⟩ := hr
    exact ih (WF_step hw h1) (registered_step hw h hc.1 h1) (hc.2 t h1) h2

/-- C30, no leak (partial). While the device is open, if no connection is announced with a handle that is still registered, every buffer in use is charged to a connection that is registered
(so that completions give it back) or is being cleaned up (so that the clean-up gives it back). Missing: the handle condition; see `pool_close_race_leaks`. -/
theorem pool_no_leak_partial (cnt : Nat) (as : List Act) (s : St) (hr : run (init cnt) as = some s) (hf : FreshHandles (init cnt) as) (ho : s.isOpen = true)
    (c : Nat) (hs : s.sent c ≠ []) : s.conns (s.handleOf c) = some c ∨ s.cleaning = some c := by
  have hw := WF_run (WF_init cnt) hr
  have hlt : c < s.next := by
    rcases Nat.lt_or_ge c s.next with h | h
    · exact h
    · exact absurd (hw.fresh c h).1 hs
  have hreg := registered_run (WF_init cnt) (by intro _ c hc; simp [init] at hc) hf hr
  by_cases hc : s.closed c = true
  · right
    by_cases hcl : s.cleaning = some c
    · exact hcl
    · exact absurd (pool_disconnected_returns_all cnt as s hr ho c hc hcl) hs
  · left
    exact hreg ho c hlt (by simpa using hc)

/-- A connection that is neither registered nor being cleaned up never gives a buffer back. -/
private def Orphan (c n : Nat) (s : St) : Prop :=
  WF s ∧ c < s.next ∧ (∀ h, s.conns h ≠ some c) ∧ s.cleaning ≠ some c ∧ n ≤ (s.sent c).length

private theorem orphan_cleanup {c n : Nat} {s : St} (h : Orphan c n s) (x : Nat) : Orphan c n (cleanupStart s x) := by
  obtain ⟨hw, h0, h1, h2, h3⟩ := h
  refine ⟨WF_cleanupStart hw x, ?_⟩
  unfold cleanupStart
  split
  · exact ⟨h0, h1, h2, h3⟩
  · rename_i d hd
    refine ⟨h0, ?_, ?_, h3⟩
    · intro y hy
      by_cases e : y = x
      · subst e; simp at hy
      · simp only [upd_other _ _ e] at hy; exact h1 y hy
    · intro e; simp only [Option.some.injEq] at e; subst e; exact h1 x hd

private theorem orphan_step {c n : Nat} {s s' : St} {a : Act} (h : Orphan c n s) (hs : step s a = some s') : Orphan c n s' := by
  have hw' := WF_step h.1 hs
  obtain ⟨hw, h0, h1, h2, h3⟩ := id h
  cases a with
  | connect x sl =>
    simp only [step] at hs
    split at hs
    · injection hs with hs; subst hs
      refine ⟨hw', by simp only; omega, ?_, h2, h3⟩
      intro y hy
      by_cases e : y = x
      · subst e; simp only [upd_same, Option.some.injEq] at hy; omega
      · simp only [upd_other _ _ e] at hy; exact h1 y hy
    · cases hs
  | wStart d m =>
    simp only [step] at hs
    split at hs
    · split at hs <;> (injection hs with hs; subst hs; exact ⟨hw', h0, h1, h2, h3⟩)
    · cases hs
  | wGet d =>
    simp only [step] at hs
    split at hs
    · split at hs
      · injection hs with hs; subst hs
        refine ⟨hw', h0, h1, h2, ?_⟩
        simp only
        by_cases e : c = d
        · subst e; simp only [upd_same, List.length_append]; omega
        · rw [upd_other _ _ e]; exact h3
      · cases hs
    · cases hs
  | wXmit d =>
    simp only [step] at hs
    split at hs
    · split at hs
      · injection hs with hs; subst hs; exact ⟨hw', h0, h1, h2, h3⟩
      · cases hs
    · cases hs
  | wStop d =>
    simp only [step] at hs
    split at hs
    · split at hs
      · injection hs with hs; subst hs; exact ⟨hw', h0, h1, h2, h3⟩
      · cases hs
    · cases hs
  | wFail d =>
    simp only [step] at hs
    split at hs
    · split at hs
      · injection hs with hs; subst hs; exact ⟨hw', h0, h1, h2, h3⟩
      · cases hs
    · cases hs
  | complete d k =>
    simp only [step] at hs
    split at hs
    · split at hs
      · injection hs with hs; subst hs; exact ⟨hw', h0, h1, h2, h3⟩
      · rename_i e he
        injection hs with hs; subst hs
        refine ⟨hw', h0, h1, h2, ?_⟩
        have : c ≠ e := by intro x; subst x; exact h1 _ he
        simp only [putN, upd_other _ _ this]; exact h3
    · cases hs
  | linkDown d =>
    simp only [step] at hs
    split at hs
    · injection hs with hs; subst hs
      have hwl : WF { s with link := upd s.link d false, ctl := upd s.ctl d 0 } := by
        refine ⟨hw.conns_lt, hw.cleaning_lt, hw.lock_lt, fun e he => ?_⟩
        obtain ⟨f1, f2, f3, f4⟩ := hw.fresh e he
        refine ⟨f1, ?_, ?_, f4⟩
        · simp only [upd]; split
          · rfl
          · exact f2
        · simp only [upd]; split
          · rfl
          · exact f3
      exact orphan_cleanup ⟨hwl, h0, h1, h2, h3⟩ _
    · cases hs
  | linkDownLocal d =>
    simp only [step] at hs
    split at hs
    · injection hs with hs; subst hs; exact ⟨hw', h0, h1, h2, h3⟩
    · cases hs
  | localCleanup d =>
    simp only [step] at hs
    split at hs
    · injection hs with hs; subst hs; exact orphan_cleanup h _
    · cases hs
  | cleanupEnd =>
    simp only [step] at hs
    split at hs
    · rename_i d hcl hlk
      injection hs with hs; subst hs
      refine ⟨hw', h0, h1, by simp, ?_⟩
      have : c ≠ d := by intro e; subst e; exact h2 hcl
      simp only [upd_other _ _ this]; exact h3
    · cases hs
  | hciClose =>
    simp only [step] at hs
    injection hs with hs; subst hs; exact ⟨hw', h0, h1, h2, h3⟩

/-- C30 fails when a handle is reused before the local `Close` has cleaned up: the connection uses all buffers, the Disconnect command completes (the event with reason 0x16 is ignored), and the
same handle is announced for a new connection before the closing goroutine runs its clean-up, which is keyed by handle and cleans up the new connection instead. From then on, whatever happens,
the pool stays empty: no connection can ever send again. -/
theorem pool_close_race_leaks (cnt : Nat) (_hc : 0 < cnt) :
    ∃ as s, run (init cnt) as = some s ∧ s.isOpen = true ∧ ∀ bs s', run s bs = some s' → s'.free = [] := by
  let s1 : St := { init cnt with conns := upd (init cnt).conns 0 (some 0), next := 1, handleOf := upd (init cnt).handleOf 0 0, slave := upd (init cnt).slave 0 false, link := upd (init cnt).link 0 true }
  have hr1 : run (init cnt) [.connect 0 false] = some s1 := by simp [run, step, init, s1]
  have h2 := run_sendPdu 0 (List.range cnt) [] s1 (by simp [s1, init]) rfl rfl rfl (Nat.zero_lt_succ 0)
  have hlen : (List.range cnt).length = cnt := List.length_range
  rw [hlen] at h2
  let s2 : St := { s1 with free := [], sent := upd s1.sent 0 (s1.sent 0 ++ List.range cnt), ctl := upd s1.ctl 0 (s1.ctl 0 + cnt) }
  let s3 : St := { s2 with link := upd (upd s2.link 0 false) 1 true, ctl := upd s2.ctl 0 0, conns := upd s2.conns 0 (some 1), next := 2, handleOf := upd s2.handleOf 1 0, slave := upd s2.slave 1 false }
  have h3 : run s2 [.linkDownLocal 0, .connect 0 false] = some s3 := by
    simp [run, step, s3, s2, s1, init, upd]
  have hrun : run (init cnt) ([.connect 0 false] ++ (sendPdu 0 cnt ++ [.linkDownLocal 0, .connect 0 false])) = some s3 := by
    rw [run_append, hr1, Option.bind_some, run_append, h2, Option.bind_some]
    exact h3
  refine ⟨_, s3, hrun, rfl, ?_⟩
  intro bs s' hr'
  have hw3 := WF_run (WF_init cnt) hrun
  have ho : Orphan 0 cnt s3 := by
    refine ⟨hw3, Nat.zero_lt_succ 1, ?_, by simp [s3, s2, s1, init], ?_⟩
    · intro h hh
      by_cases e : h = 0
      · subst e; simp [s3] at hh
      · simp [s3, s2, s1, init, upd, e] at hh
    · simp [s3, s2, s1, init, upd]
  have ho' := run_induct (Orphan 0 cnt) (fun _ _ _ a b => orphan_step a b) bs s3 s' ho hr'
  have htot := pool_total cnt _ s' (by rw [run_append, hrun, Option.bind_some]; exact hr')
  have hge : (s'.sent 0).length ≤ total s' (fun c => (s'.sent c).length) := by
    apply le_sum_of_mem
    exact List.mem_map.2 ⟨0, List.mem_range.2 ho'.2.1, rfl⟩
  have := ho'.2.2.2.2
  exact List.length_eq_zero_iff.1 (by omega)

/-! ## Deadlock -/

/-- A writer waits for a buffer while holding the pool mutex, and a clean-up waits for the mutex while holding the connection table. -/
private def Stuck (s : St) : Prop := s.free = [] ∧ (∃ w, s.lock = some w ∧ 0 < w.left ∧ w.hasBuf = false) ∧ ∃ c, s.cleaning = some c

private theorem stuck_step {s s' : St} {a : Act} (h : Stuck s) (hs : step s a = some s') : Stuck s' ∧ s'.lock = s.lock ∧ s'.cleaning = s.cleaning := by
  obtain ⟨hf, ⟨w, hl, hw1, hw2⟩, c, hc⟩ := id h
  have hh := h
  cases a <;> simp only [step, hl, hf, hc] at hs
  case connect => simp at hs
  case wStart => simp at hs
  case wGet => simp at hs
  case wXmit => simp [hw2] at hs
  case wStop =>
    split at hs
    · rename_i h'; omega
    · cases hs
  case wFail => simp [hw2] at hs
  case complete => simp at hs
  case linkDown => simp at hs
  case linkDownLocal =>
    split at hs
    · injection hs with hs; subst hs; exact ⟨⟨rfl, ⟨w, rfl, hw1, hw2⟩, c, rfl⟩, hl.symm, hc.symm⟩
    · cases hs
  case localCleanup => simp at hs
  case cleanupEnd => cases hs
  case hciClose =>
    injection hs with hs; subst hs; exact ⟨⟨rfl, ⟨w, rfl, hw1, hw2⟩, c, rfl⟩, hl.symm, hc.symm⟩

/-- C30 fails by deadlock: one connection has used all buffers, a second one is in `writePDU` and waits for a buffer with the pool locked, and the first is disconnected. The clean-up holds the
connection table and waits for the pool; the completions that would free a buffer need the connection table. Whatever happens afterwards, the write, the clean-up and hence the
handling of events never get any further, and no buffer is ever returned. -/
theorem pool_disconnect_deadlock (cnt : Nat) (_hc : 0 < cnt) :
    ∃ as s, run (init cnt) as = some s ∧ s.lock = some ⟨1, 1, false⟩ ∧ s.cleaning = some 0 ∧
      ∀ bs s', run s bs = some s' → s'.free = [] ∧ s'.lock = some ⟨1, 1, false⟩ ∧ s'.cleaning = some 0 := by
  let s2 : St := { init cnt with conns := upd (upd (init cnt).conns 0 (some 0)) 1 (some 1), next := 2, handleOf := upd (upd (init cnt).handleOf 0 0) 1 1, slave := upd (upd (init cnt).slave 0 false) 1 false, link := upd (upd (init cnt).link 0 true) 1 true }
  have hr2 : run (init cnt) [.connect 0 false, .connect 1 false] = some s2 := by
    simp [run, step, init, s2, upd]
  have hlen : (List.range cnt).length = cnt := List.length_range
  have h3 := run_sendPdu 0 (List.range cnt) [] s2 (by simp [s2, init]) rfl rfl rfl (Nat.zero_lt_succ 1)
  rw [hlen] at h3
  let s3 : St := { s2 with free := [], sent := upd s2.sent 0 (s2.sent 0 ++ List.range cnt), ctl := upd s2.ctl 0 (s2.ctl 0 + cnt) }
  let s4 : St := { s3 with lock := some ⟨1, 1, false⟩, link := upd s3.link 0 false, ctl := upd s3.ctl 0 0, conns := upd s3.conns 0 none, closed := upd s3.closed 0 true, cleaning := some 0 }
  have h4 : run s3 [.wStart 1 1, .linkDown 0] = some s4 := by
    simp [run, step, cleanupStart, s3, s2, s4, init, upd]
  refine ⟨[.connect 0 false, .connect 1 false] ++ (sendPdu 0 cnt ++ [.wStart 1 1, .linkDown 0]), s4, ?_, rfl, rfl, ?_⟩
  · rw [run_append, hr2, Option.bind_some, run_append, h3, Option.bind_some]
    exact h4
  · intro bs s' hr
    have := run_induct (fun t => Stuck t ∧ t.lock = some ⟨1, 1, false⟩ ∧ t.cleaning = some 0)
      (fun t t' a h1 h2 => by
        obtain ⟨k1, k2, k3⟩ := stuck_step h1.1 h2
        exact ⟨k1, k2.trans h1.2.1, k3.trans h1.2.2⟩)
      bs s4 s' ⟨⟨rfl, ⟨⟨1, 1, false⟩, rfl, by decide, rfl⟩, 0, rfl⟩, rfl, rfl⟩ hr
    exact ⟨this.1.1, this.2.1, this.2.2⟩

/-- When the device itself is being closed, a peripheral's connection is removed but its `Disconnected` channel is never closed (the condition of hci.go:863 is inverted): the application
waits forever. -/
theorem hci_close_leaves_peripheral_connections_open (s : St) (h c : Nat) (hr : s.conns h = some c) (hs : s.slave c = true) (ho : s.isOpen = false) :
    (cleanupStart s h).conns h = none ∧ (cleanupStart s h).closed c = s.closed c := by
  simp [cleanupStart, hr, hs, ho]

/-- The controller may report any number of completed packets up to all it has, for every link that is up, unless a clean-up is waiting for the pool. -/
theorem pool_completion_possible (s : St) (c k : Nat) : (step s (.complete c k)).isSome = true ↔ s.cleaning = none ∧ c < s.next ∧ s.link c = true ∧ k ≤ s.ctl c := by
  simp only [step]
  split
  · rename_i h
    split <;> simp [h]
  · rename_i h
    simp only [Option.isSome_none, Bool.false_eq_true, false_iff]
    exact h

/-- A write of a PDU of `n` fragments that is not cut short takes exactly `n` buffers and hands exactly `n` fragments to the controller, whatever else happens in between. -/
theorem pool_write_takes_n (c : Nat) (as : List Act) (s t t' : St) (n : Nat) (hs : s.lock = some ⟨c, n, false⟩) (hn : ∀ x, Act.wFail x ∉ as ∧ Act.wStop x ∉ as)
    (hr : run s as = some t) (hst : step t (.wStop c) = some t') :
    (as.filter (· = .wGet c)).length = n ∧ (as.filter (· = .wXmit c)).length = n := by
  have key : ∀ (as : List Act) (s t : St) (w : Writer), s.lock = some w → w.conn = c → (w.hasBuf = true → 0 < w.left) → (∀ x, Act.wFail x ∉ as ∧ Act.wStop x ∉ as) → run s as = some t →
      ∃ w', t.lock = some w' ∧ w'.conn = c ∧ (w'.hasBuf = true → 0 < w'.left) ∧
        w.left = w'.left + (as.filter (· = .wXmit c)).length ∧
        w.left + (if w'.hasBuf then 1 else 0) = w'.left + (as.filter (· = .wGet c)).length + (if w.hasBuf then 1 else 0) := by
    intro as
    induction as with
    | nil =>
      intro s t w hw hc hb _ hr
      simp only [run, Option.some.injEq] at hr
      subst hr
      exact ⟨w, hw, hc, hb, by simp, by simp⟩
    | cons a as ih =>
      intro s t w hw hc hb hn hr
      simp only [run] at hr
      cases hst : step s a with
      | none => rw [hst] at hr; cases hr
      | some s1 =>
        rw [hst] at hr
        simp only [Option.bind_some] at hr
        have hn' : ∀ x, Act.wFail x ∉ as ∧ Act.wStop x ∉ as := fun x => ⟨fun h => (hn x).1 (by simp [h]), fun h => (hn x).2 (by simp [h])⟩
        have hna := hn
        -- what the step did to the writer
        have hstep : ∃ w1, s1.lock = some w1 ∧ w1.conn = c ∧ (w1.hasBuf = true → 0 < w1.left) ∧
            w.left = w1.left + (if a = .wXmit c then 1 else 0) ∧
            w.left + (if w1.hasBuf then 1 else 0) = w1.left + (if a = .wGet c then 1 else 0) + (if w.hasBuf then 1 else 0) := by
          have hf : ∀ x, a ≠ .wFail x ∧ a ≠ .wStop x := fun x => ⟨fun h => (hna x).1 (by simp [h]), fun h => (hna x).2 (by simp [h])⟩
          cases a <;> simp only [step, cleanupStart, putN] at hst <;> (repeat' split at hst) <;> simp only [Option.some.injEq, reduceCtorEq] at hst <;> (try subst hst) <;> grind
        obtain ⟨w1, l1, l2, l3, l4, l5⟩ := hstep
        obtain ⟨w', m1, m2, m3, m4, m5⟩ := ih s1 t w1 l1 l2 l3 hn' hr
        refine ⟨w', m1, m2, m3, ?_, ?_⟩
        · rw [List.filter_cons]
          by_cases h : a = .wXmit c <;> simp [h] at l4 ⊢ <;> omega
        · rw [List.filter_cons]
          by_cases h : a = .wGet c <;> simp [h] at l5 ⊢ <;> omega
  obtain ⟨w', h1, h2, -, h4, h5⟩ := key as s t _ hs rfl (by simp) hn hr
  simp only [step, h1] at hst
  split at hst
  · rename_i h
    simp only at h4 h5
    rw [h.2.1] at h4 h5
    rw [h.2.2] at h5
    simp at h4 h5
    omega
  · cases hst

/-- Non-vacuity: a history with two connections, writes, a completion and a remote disconnection satisfies the hypotheses of the partial theorems and reaches a state in use. -/
example : ∃ s, run (init 3) [.connect 5 false, .connect 6 true, .wStart 0 2, .wGet 0, .wXmit 0, .wGet 0, .wXmit 0, .wStop 0, .wStart 1 1, .wGet 1, .wXmit 1, .wStop 1,
    .complete 0 1, .linkDown 1, .cleanupEnd] = some s ∧ s.sent 0 = [1] ∧ s.ctl 0 = 1 ∧ s.sent 1 = [] ∧ s.free = [0, 2] :=
  ⟨_, rfl, rfl, rfl, rfl, rfl⟩

example : CleanupAfterLinkDown (init 1) [.connect 5 false, .wStart 0 1, .wGet 0, .wXmit 0] ∧ FreshHandles (init 1) [.connect 5 false, .wStart 0 1, .wGet 0, .wXmit 0] := by
  constructor
  · refine ⟨by simp, fun _ _ => ⟨by simp, fun _ _ => ⟨by simp, fun _ _ => ⟨by simp, fun _ _ => trivial⟩⟩⟩⟩
  · refine ⟨by intros; rfl, fun _ _ => ⟨by simp, fun _ _ => ⟨by simp, fun _ _ => ⟨by simp, fun _ _ => trivial⟩⟩⟩⟩

/-- A write that fails in the middle was the write of the goroutine that holds the pool; it gives the pool back, and the buffers it took stay accounted to its connection. -/
theorem pool_write_fails_exact (s s' : St) (c : Nat) : step s (.wFail c) = some s' ↔ (∃ w, s.lock = some w ∧ w.conn = c ∧ w.hasBuf = true) ∧ s' = { s with lock := none } := by
  cases hl : s.lock with
  | none => simp [step, hl]
  | some w =>
    simp only [step, hl]
    split
    · rename_i h
      constructor
      · intro e; simp only [Option.some.injEq] at e; exact ⟨⟨w, rfl, h.1, h.2⟩, e.symm⟩
      · rintro ⟨-, e⟩; rw [e]
    · rename_i h
      simp only [reduceCtorEq, Option.some.injEq, false_iff, not_and]
      rintro ⟨w', rfl, h1, h2⟩
      exact absurd ⟨h1, h2⟩ h

/-- Only a connection that was made can be cleaned up. -/
theorem pool_cleanup_known (s s' : St) (c : Nat) (h : step s (.localCleanup c) = some s') : c < s.next ∧ s.cleaning = none := by
  simp only [step] at h
  split at h
  · rename_i hc; exact ⟨hc.2, hc.1⟩
  · cases h

end Ble.Props
