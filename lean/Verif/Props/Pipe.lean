import Verif.Att.Pipe
set_option autoImplicit false

/-!
# C123, C124: the two goroutines of the ATT server
-/

namespace Ble.Pipe

open Ble.Att

variable {σ : Type}

/-! ## Specification -/

/-- Of the PDUs received, those the server has to handle: up to the first empty one (which ends the connection), without the confirmations. -/
def requests (l : List Bytes) : List Bytes := (l.takeWhile fun p => p ≠ []).filter fun p => p.head? ≠ some 0x1E

/-- Steps the program takes by itself, if handlers return. -/
def Ev.own : Ev → Bool
  | .arrive _ | .down | .indicate => false
  | _ => true

/-- Nothing more happens until something arrives. -/
def Quiet (s : St σ) : Prop := ∀ e, Ev.own e = true → step s e = none

/-- Steps left. -/
def Rd.left : Rd → Nat
  | .start => 2
  | .swap => 2
  | .hold _ => 1
  | .offer _ => 5
  | .done => 0

def Hd.left : Hd → Nat
  | .idle => 1
  | .handling _ => 3
  | .indicating _ => 4
  | .giving _ => 2
  | .ended => 0

def St.left (s : St σ) : Nat := 6 * s.inq.length + s.rd.left + s.hd.left

/-! ## Invariant -/

namespace PipeAux

def rdBuf : Rd → Option Nat
  | .hold b | .offer b => some b
  | _ => none

def hdBuf : Hd → Option Nat
  | .handling b | .indicating b | .giving b => some b
  | _ => none

/-- The request the reader offers. -/
def offered (s : St σ) : List Bytes :=
  match s.rd with
  | .offer b => [s.slice b]
  | _ => []

/-- The request being handled. -/
def current (s : St σ) : List Bytes :=
  match s.hd with
  | .handling b | .indicating b => [s.slice b]
  | _ => []

theorem loop_snoc (s : Server σ) (l : List Bytes) (b : Bytes) : loop s (l ++ [b]) = (loop s l >>= fun r => loopStep r.1 b >>= fun q => pure (q.1, r.2 ++ [q.2])) := by
  induction l generalizing s with
  | nil =>
    simp only [List.nil_append, loop, Go.pure_def, Go.bind_ok]
  | cons x xs ih =>
    simp only [List.cons_append, loop, ih]
    cases loopStep s x with
    | panic => rfl
    | err e => cases e
    | ok r =>
      simp only [Go.bind_ok]
      cases loop r.1 xs with
      | panic => rfl
      | err e => cases e
      | ok q =>
        simp only [Go.bind_ok, Go.pure_def]
        cases loopStep q.1 b with
        | panic => rfl
        | err e => cases e
        | ok z => rfl

theorem requests_append_dead {l : List Bytes} (h : [] ∈ l) (x : List Bytes) : requests (l ++ x) = requests l := by
  unfold requests
  congr 1
  induction l with
  | nil => cases h
  | cons a as ih =>
    cases a with
    | nil => rfl
    | cons b bs =>
      simp only [List.mem_cons, reduceCtorEq, false_or] at h
      have := ih h
      simp only [List.cons_append, List.takeWhile_cons] at this ⊢
      rw [this]

theorem requests_live {c l : List Bytes} (h : [] ∉ c) : requests (c ++ l) = c.filter (fun p => p.head? ≠ some 0x1E) ++ requests l := by
  unfold requests
  rw [List.takeWhile_append_of_pos (by intro a ha; simp only [ne_eq, decide_not, Bool.not_eq_eq_eq_not, Bool.not_true, decide_eq_false_iff_not]; intro e; subst e; exact h ha),
    List.filter_append]

structure Inv (s0 : Server σ) (s : St σ) : Prop where
  bufs : s.crashed = false → ∀ i, s.pool.count i + (if rdBuf s.rd = some i then 1 else 0) + (if hdBuf s.hd = some i then 1 else 0) ≤ if i < 2 then 1 else 0
  room : s.crashed = false → s.pool.length + (if (rdBuf s.rd).isSome then 1 else 0) + (if (hdBuf s.hd).isSome then 1 else 0) + (if s.rd = .done then 1 else 0) ≥ 2 ∧
    s.pool.length + (if (rdBuf s.rd).isSome then 1 else 0) + (if (hdBuf s.hd).isSome then 1 else 0) ≤ 2
  order : s.rd ≠ .done → ∃ c, s.recv = c ++ s.inq ∧ [] ∉ c ∧ c.filter (fun p => p.head? ≠ some 0x1E) = s.seen ++ offered s
  finished : s.crashed = false → s.rd = .done → s.seen = requests s.recv ∧ (s.up = true → [] ∈ s.recv)
  prefx : s.seen <+: requests s.recv
  work : s.crashed = false → ∃ fin outs, s.seen = fin ++ current s ∧ loop s0 fin = .ok (s.srv, outs) ∧ outs.flatten = s.sent
  dead : s.crashed = true → loop s0 s.seen = .panic ∧ s.rd = .done ∧ s.hd = .ended
  ended : s.hd = .ended → s.rd = .done

theorem inv_init (srv : Server σ) : Inv srv (init srv) := by
  refine ⟨?_, fun _ => ⟨by show 2 + 0 + 0 + 0 ≥ 2; omega, by (show 2 + 0 + 0 ≤ 2; omega)⟩, fun _ => ⟨[], rfl, by simp, rfl⟩, fun _ h => by (cases h), List.prefix_refl _, fun _ => ⟨[], [], rfl, rfl, rfl⟩, fun h => by (cases h),
    fun h => by cases h⟩
  intro _ i
  show List.count i [0, 1] + 0 + 0 ≤ _
  simp only [List.count_cons, List.count_nil, beq_iff_eq]
  grind

theorem slice_write (s : St σ) (b : Nat) (p : Bytes) : (p ++ (s.mem b).drop p.length).take p.length = p := by simp

theorem requests_prefix_append (l : List Bytes) (p : Bytes) : requests l <+: requests (l ++ [p]) := by
  by_cases h : [] ∈ l
  · rw [requests_append_dead h]; exact List.prefix_refl _
  · have h1 := requests_live (l := [p]) h
    have h2 := requests_live (l := []) h
    simp only [List.append_nil] at h2
    rw [h1, h2]
    simp only [requests, List.takeWhile_nil, List.filter_nil, List.append_nil]
    exact List.prefix_append _ _

set_option maxHeartbeats 4000000 in
theorem inv_step {s0 : Server σ} {s s' : St σ} {e : Ev} (i : Inv s0 s) (h : step s e = some s') : Inv s0 s' := by
  have ⟨bufs, room, order, finished, prefx, work, dead, ended⟩ := i
  cases e with
  | arrive p =>
    simp only [step] at h
    split at h <;> simp only [Option.some.injEq, reduceCtorEq] at h
    rename_i hu
    subst h
    refine ⟨bufs, room, ?_, ?_, ?_, work, dead, ended⟩
    · intro hr
      obtain ⟨c, h1, h2, h3⟩ := order hr
      exact ⟨c, by simp only [h1, List.append_assoc], h2, h3⟩
    · intro hc hr
      obtain ⟨h1, h2⟩ := finished hc hr
      have := h2 hu.1
      simp only
      rw [requests_append_dead this]
      exact ⟨h1, fun _ => by simp [this]⟩
    · exact prefx.trans (requests_prefix_append _ _)
  | down =>
    simp only [step, Option.some.injEq] at h
    subst h
    exact ⟨bufs, room, order, fun hc hr => ⟨(finished hc hr).1, by simp⟩, prefx, work, dead, ended⟩
  | getBuf =>
    simp only [step] at h
    split at h <;> simp only [Option.some.injEq, reduceCtorEq] at h
    all_goals
      rename_i b r hrd hp
      subst h
      rw [hp] at bufs room
      refine ⟨?_, ?_, ?_, ?_, prefx, work, ?_, ?_⟩
      · intro hc j
        have := bufs hc j
        rw [hrd] at this
        simp only [rdBuf, List.count_cons, beq_iff_eq] at this ⊢
        grind
      · intro hc
        have := room hc
        rw [hrd] at this
        simp only [rdBuf, List.length_cons] at this ⊢
        grind
      · intro _
        obtain ⟨c, h1, h2, h3⟩ := order (by rw [hrd]; simp)
        refine ⟨c, h1, h2, ?_⟩
        rw [h3]
        simp only [offered, hrd]
      · intro _ hr; cases hr
      · intro hc; have := (dead hc).2.1; rw [hrd] at this; cases this
      · intro hh; have := ended hh; rw [hrd] at this; cases this
  | read =>
    simp only [step] at h
    split at h
    rotate_left
    · cases h
    rename_i b p r hrd hq
    have hnc : s.crashed = false := by
      cases hc : s.crashed with
      | false => rfl
      | true => have := (dead hc).2.1; rw [hrd] at this; cases this
    obtain ⟨c, h1, h2, h3⟩ := order (by rw [hrd]; simp)
    simp only [offered, hrd, List.append_nil] at h3
    have hb := bufs hnc
    have hroom := room hnc
    have hdiff : hdBuf s.hd ≠ some b := by
      intro e
      have := hb b
      rw [hrd] at this
      simp only [rdBuf, if_true, e] at this
      split at this <;> omega
    have hcur : ∀ (q : Bytes) (l : Nat → Nat), current { s with mem := fun i => if i = b then q else s.mem i, inq := r, len := fun i => if i = b then l b else s.len i } = current s := by
      intro q l
      unfold current
      cases hh : s.hd <;> simp only [hh, hdBuf] at hdiff ⊢ <;> simp only [St.slice] <;> (rw [if_neg, if_neg] <;> (intro e; subst e; exact hdiff rfl))
    have hcur0 : ∀ (q : Bytes), current { s with mem := fun i => if i = b then q else s.mem i, inq := r } = current s := by
      intro q
      unfold current
      cases hh : s.hd <;> simp only [hh, hdBuf] at hdiff ⊢ <;> simp only [St.slice] <;> (rw [if_neg] ; (intro e; subst e; exact hdiff rfl))
    split at h
    · -- empty PDU
      rename_i hp
      simp only [Option.some.injEq] at h
      subst h
      have hp : p = [] := List.eq_nil_of_length_eq_zero hp
      subst hp
      refine ⟨?_, ?_, ?_, ?_, prefx, ?_, ?_, ?_⟩
      · intro _ j
        have := hb j
        simp only [rdBuf]
        grind
      · intro _
        rw [hrd] at hroom
        simp only [rdBuf] at hroom ⊢
        grind
      · intro hne; exact absurd rfl hne
      · intro _ _
        simp only
        rw [h1, hq, requests_live h2, h3]
        refine ⟨?_, fun _ => by simp⟩
        simp [requests]
      · intro hc
        obtain ⟨fin, outs, w1, w2, w3⟩ := work hc
        refine ⟨fin, outs, ?_, w2, w3⟩
        have := hcur0 ([] ++ (s.mem b).drop ([] : Bytes).length)
        unfold current at this ⊢
        rw [w1]
        unfold current
        rw [← this]
        rfl
      · intro hc; rw [hnc] at hc; cases hc
      · intro _; rfl
    · rename_i hp
      have hpne : p ≠ [] := by intro e; subst e; exact hp rfl
      have hhead : (p ++ (s.mem b).drop p.length).head? = p.head? := by
        cases p with
        | nil => exact absurd rfl hpne
        | cons x xs => rfl
      simp only [if_true, hhead] at h
      split at h
      · -- confirmation
        rename_i hconf
        have order' : ∃ c', s.recv = c' ++ r ∧ [] ∉ c' ∧ c'.filter (fun p => p.head? ≠ some 0x1E) = s.seen := by
          refine ⟨c ++ [p], by rw [h1, hq]; simp, ?_, ?_⟩
          · simp only [List.mem_append, List.mem_singleton, not_or]
            exact ⟨h2, fun e => hpne e.symm⟩
          · rw [List.filter_append, h3]
            simp [hconf]
        have work' : ∃ fin outs, s.seen = fin ++ current { s with mem := fun i => if i = b then p ++ (s.mem b).drop p.length else s.mem i, inq := r } ∧
            loop s0 fin = .ok (s.srv, outs) ∧ outs.flatten = s.sent := by
          obtain ⟨fin, outs, w1, w2, w3⟩ := work hnc
          exact ⟨fin, outs, by rw [hcur0]; exact w1, w2, w3⟩
        split at h
        all_goals
          simp only [Option.some.injEq] at h
          subst h
        · rename_i c0 hh
          refine ⟨?_, ?_, ?_, ?_, prefx, ?_, ?_, ?_⟩
          · intro _ j
            have := hb j
            rw [hh] at this
            exact this
          · intro _
            rw [hh] at hroom
            exact hroom
          · intro _
            obtain ⟨c', o1, o2, o3⟩ := order'
            exact ⟨c', o1, o2, by simp only [offered, hrd]; rw [o3]; simp⟩
          · intro _ hr; simp only at hr; rw [hrd] at hr; cases hr
          · intro _
            obtain ⟨fin, outs, w1, w2, w3⟩ := work'
            refine ⟨fin, outs, ?_, w2, w3⟩
            simp only [current, hh] at w1 ⊢
            exact w1
          · intro hc; simp only at hc; rw [hnc] at hc; cases hc
          · intro hh'; cases hh'
        · refine ⟨bufs, room, ?_, ?_, prefx, fun _ => work', dead, ended⟩
          · intro _
            obtain ⟨c', o1, o2, o3⟩ := order'
            exact ⟨c', o1, o2, by simp only [offered, hrd]; rw [o3]; simp⟩
          · intro _ hr; simp only at hr; rw [hrd] at hr; cases hr
      · -- request
        rename_i hconf
        simp only [Option.some.injEq] at h
        subst h
        refine ⟨?_, ?_, ?_, ?_, prefx, ?_, ?_, ?_⟩
        · intro _ j
          have := hb j
          rw [hrd] at this
          exact this
        · intro _
          rw [hrd] at hroom
          simp only [rdBuf] at hroom ⊢
          grind
        · intro _
          refine ⟨c ++ [p], by simp only; rw [h1, hq]; simp, ?_, ?_⟩
          · simp only [List.mem_append, List.mem_singleton, not_or]
            exact ⟨h2, fun e => hpne e.symm⟩
          · rw [List.filter_append, h3]
            simp only [offered, St.slice, if_true, slice_write]
            simp [hconf]
        · intro _ hr; cases hr
        · intro _
          obtain ⟨fin, outs, w1, w2, w3⟩ := work hnc
          refine ⟨fin, outs, ?_, w2, w3⟩
          rw [w1]
          have := hcur (p ++ (s.mem b).drop p.length) (fun _ => p.length)
          congr 1
          rw [← this]
          rfl
        · intro hc; simp only at hc; rw [hnc] at hc; cases hc
        · intro hh
          have := ended hh
          rw [hrd] at this; cases this
  | readErr =>
    simp only [step] at h
    split at h
    rotate_left
    · cases h
    rename_i b hrd hq
    split at h <;> simp only [Option.some.injEq, reduceCtorEq] at h
    rename_i hup
    subst h
    have hnc : s.crashed = false := by
      cases hc : s.crashed with
      | false => rfl
      | true => have := (dead hc).2.1; rw [hrd] at this; cases this
    obtain ⟨c, h1, h2, h3⟩ := order (by rw [hrd]; simp)
    simp only [offered, hrd, List.append_nil] at h3
    refine ⟨?_, ?_, ?_, ?_, prefx, work, ?_, fun _ => rfl⟩
    · intro _ j
      have := bufs hnc j
      simp only [rdBuf]
      grind
    · intro _
      have hroom := room hnc
      rw [hrd] at hroom
      simp only [rdBuf] at hroom ⊢
      grind
    · intro hne; exact absurd rfl hne
    · intro _ _
      simp only
      rw [h1, hq, requests_live h2, h3]
      exact ⟨by simp [requests], fun hu => by rw [hup] at hu; cases hu⟩
    · intro hc; simp only at hc; rw [hnc] at hc; cases hc
  | hand =>
    simp only [step] at h
    split at h
    rotate_left
    · cases h
    rename_i b hrd hhd
    simp only [Option.some.injEq] at h
    subst h
    have hnc : s.crashed = false := by
      cases hc : s.crashed with
      | false => rfl
      | true => have := (dead hc).2.1; rw [hrd] at this; cases this
    obtain ⟨c, h1, h2, h3⟩ := order (by rw [hrd]; simp)
    simp only [offered, hrd] at h3
    refine ⟨?_, ?_, ?_, ?_, ?_, ?_, ?_, ?_⟩
    · intro _ j
      have := bufs hnc j
      rw [hrd, hhd] at this
      simp only [rdBuf, hdBuf] at this ⊢
      grind
    · intro _
      have hroom := room hnc
      rw [hrd, hhd] at hroom
      simp only [rdBuf, hdBuf] at hroom ⊢
      grind
    · intro _
      exact ⟨c, h1, h2, by rw [h3]; simp [offered]⟩
    · intro _ hr; cases hr
    · simp only
      rw [h1, requests_live h2, h3]
      exact List.prefix_append _ _
    · intro _
      obtain ⟨fin, outs, w1, w2, w3⟩ := work hnc
      simp only [current, hhd, List.append_nil] at w1
      exact ⟨fin, outs, by simp only [current, w1]; rfl, w2, w3⟩
    · intro hc; simp only at hc; rw [hnc] at hc; cases hc
    · intro hh; cases hh
  | indicate =>
    simp only [step] at h
    split at h <;> simp only [Option.some.injEq, reduceCtorEq] at h
    rename_i b hhd
    subst h
    refine ⟨fun hc j => by have := bufs hc j; rw [hhd] at this; exact this, fun hc => by have := room hc; rw [hhd] at this; exact this, order, finished, prefx, ?_, ?_, ?_⟩
    · intro hc
      obtain ⟨fin, outs, w1, w2, w3⟩ := work hc
      refine ⟨fin, outs, ?_, w2, w3⟩
      simp only [current, hhd] at w1 ⊢
      exact w1
    · intro hc; have := (dead hc).2.2; rw [hhd] at this; cases this
    · intro hh; cases hh
  | timeout =>
    simp only [step] at h
    split at h <;> simp only [Option.some.injEq, reduceCtorEq] at h
    rename_i b hhd
    subst h
    refine ⟨fun hc j => by have := bufs hc j; rw [hhd] at this; exact this, fun hc => by have := room hc; rw [hhd] at this; exact this, order, finished, prefx, ?_, ?_, ?_⟩
    · intro hc
      obtain ⟨fin, outs, w1, w2, w3⟩ := work hc
      refine ⟨fin, outs, ?_, w2, w3⟩
      simp only [current, hhd] at w1 ⊢
      exact w1
    · intro hc; have := (dead hc).2.2; rw [hhd] at this; cases this
    · intro hh; cases hh
  | indClosed =>
    simp only [step] at h
    split at h <;> simp only [Option.some.injEq, reduceCtorEq] at h
    rename_i b hhd hrd
    subst h
    refine ⟨fun hc j => by have := bufs hc j; rw [hhd] at this; exact this, fun hc => by have := room hc; rw [hhd] at this; exact this, order, finished, prefx, ?_, ?_, ?_⟩
    · intro hc
      obtain ⟨fin, outs, w1, w2, w3⟩ := work hc
      refine ⟨fin, outs, ?_, w2, w3⟩
      simp only [current, hhd] at w1 ⊢
      exact w1
    · intro hc; have := (dead hc).2.2; rw [hhd] at this; cases this
    · intro hh; cases hh
  | finish =>
    simp only [step] at h
    split at h
    rotate_left
    · cases h
    rename_i b hhd
    have hnc : s.crashed = false := by
      cases hc : s.crashed with
      | false => rfl
      | true => have := (dead hc).2.2; rw [hhd] at this; cases this
    obtain ⟨fin, outs, w1, w2, w3⟩ := work hnc
    simp only [current, hhd] at w1
    split at h
    · rename_i srv' out hl
      simp only [Option.some.injEq] at h
      subst h
      refine ⟨fun hc j => by have := bufs hc j; rw [hhd] at this; exact this, fun hc => by have := room hc; rw [hhd] at this; exact this, order, finished, prefx, ?_, ?_, ?_⟩
      · intro _
        refine ⟨fin ++ [s.slice b], outs ++ [out], by simp [current, w1], ?_, by simp [w3]⟩
        rw [loop_snoc, w2]
        simp only [Go.bind_ok, hl, Go.pure_def]
      · intro hc; simp only at hc; rw [hnc] at hc; cases hc
      · intro hh; cases hh
    · rename_i hl
      simp only [Option.some.injEq] at h
      subst h
      refine ⟨fun hc => by (cases hc), fun hc => by (cases hc), fun hr => absurd rfl hr, fun hc => by (cases hc), prefx, fun hc => by (cases hc), ?_, fun _ => rfl⟩
      intro _
      refine ⟨?_, rfl, rfl⟩
      simp only
      rw [w1, loop_snoc, w2]
      simp only [Go.bind_ok]
      cases hls : loopStep s.srv (s.slice b) with
      | panic => rfl
      | err e => cases e
      | ok r => exact absurd hls (hl r.1 r.2)
  | give =>
    simp only [step] at h
    split at h
    rotate_left
    · cases h
    rename_i b hhd
    split at h <;> simp only [Option.some.injEq, reduceCtorEq] at h
    subst h
    have hnc : s.crashed = false := by
      cases hc : s.crashed with
      | false => rfl
      | true => have := (dead hc).2.2; rw [hhd] at this; cases this
    refine ⟨?_, ?_, order, finished, prefx, ?_, ?_, ?_⟩
    · intro _ j
      have := bufs hnc j
      rw [hhd] at this
      simp only [hdBuf, List.count_append, List.count_cons, List.count_nil, beq_iff_eq] at this ⊢
      grind
    · intro _
      have := room hnc
      rw [hhd] at this
      simp only [hdBuf, List.length_append, List.length_cons, List.length_nil] at this ⊢
      grind
    · intro hc
      obtain ⟨fin, outs, w1, w2, w3⟩ := work hc
      refine ⟨fin, outs, ?_, w2, w3⟩
      simp only [current, hhd] at w1 ⊢
      exact w1
    · intro hc; simp only at hc; rw [hnc] at hc; cases hc
    · intro hh; cases hh
  | stop =>
    simp only [step] at h
    split at h <;> simp only [Option.some.injEq, reduceCtorEq] at h
    rename_i hhd hrd
    subst h
    refine ⟨fun hc j => by have := bufs hc j; rw [hhd] at this; exact this, fun hc => by have := room hc; rw [hhd] at this; exact this, order, finished, prefx, ?_, ?_, fun _ => hrd⟩
    · intro hc
      obtain ⟨fin, outs, w1, w2, w3⟩ := work hc
      refine ⟨fin, outs, ?_, w2, w3⟩
      simp only [current, hhd] at w1 ⊢
      exact w1
    · intro hc; have := (dead hc).2.2; rw [hhd] at this; cases this

theorem inv_run {srv : Server σ} {es : List Ev} {s : St σ} (h : runT step (init srv) es = some s) : Inv srv s :=
  runT_ind (P := fun _ s => Inv srv s) (inv_init srv) (fun _ _ _ _ _ hp hs => inv_step hp hs) es s h

theorem read_some {s : St σ} {b : Nat} {p : Bytes} {r : List Bytes} (hrd : s.rd = .hold b) (hin : s.inq = p :: r) : (step s .read).isSome := by
  simp only [step, hrd, hin]
  by_cases h1 : p.length = 0
  · simp [h1]
  · rw [if_neg h1]
    simp only [if_true]
    by_cases h2 : (p ++ (s.mem b).drop p.length).head? = some 0x1E
    · rw [if_pos h2]
      cases s.hd <;> rfl
    · rw [if_neg h2]; rfl

end PipeAux


/-! ## C123 -/

/-- C123: whatever the schedule of the two goroutines and however long handlers take, as long as no handler has panicked the server is in the state in which a server that handles
the first requests one after the other is, and has sent exactly that server's responses, in order: no request is skipped, repeated, reordered or seen with bytes of a later one. -/
theorem pipe_refines_loop (s0 : Server σ) (es : List Ev) (s : St σ) (h : runT step (init s0) es = some s) (hc : s.crashed = false) :
    ∃ done outs, done <+: requests s.recv ∧ loop s0 done = .ok (s.srv, outs) ∧ s.sent = outs.flatten := by
  have i := PipeAux.inv_run h
  obtain ⟨fin, outs, w1, w2, w3⟩ := i.work hc
  exact ⟨fin, outs, (w1 ▸ List.prefix_append fin _).trans i.prefx, w2, w3.symm⟩

/-- C123: the bytes a handler works on are the request that arrived, at every moment until it returns: reading the next PDU does not touch them. -/
theorem pipe_buffer_stable (s0 : Server σ) (es : List Ev) (s : St σ) (h : runT step (init s0) es = some s) (b : Nat) (hb : s.hd = .handling b ∨ s.hd = .indicating b) :
    s.seen.getLast? = some (s.slice b) ∧ s.rd ≠ .hold b ∧ s.rd ≠ .offer b ∧ b ∉ s.pool := by
  have i := PipeAux.inv_run h
  have hc : s.crashed = false := by
    cases hc : s.crashed with
    | false => rfl
    | true => have := (i.dead hc).2.2; rcases hb with hb | hb <;> (rw [hb] at this; cases this)
  obtain ⟨fin, outs, w1, w2, w3⟩ := i.work hc
  have hh : PipeAux.hdBuf s.hd = some b := by rcases hb with hb | hb <;> rw [hb] <;> rfl
  have hbuf := i.bufs hc b
  rw [hh] at hbuf
  simp only [if_true] at hbuf
  refine ⟨?_, ?_, ?_, ?_⟩
  · rw [w1]
    rcases hb with hb | hb <;> simp [PipeAux.current, hb]
  · intro e; rw [e] at hbuf; simp only [PipeAux.rdBuf, if_true] at hbuf; split at hbuf <;> omega
  · intro e; rw [e] at hbuf; simp only [PipeAux.rdBuf, if_true] at hbuf; split at hbuf <;> omega
  · intro e
    have := List.count_pos_iff.mpr e
    by_cases h2 : b < 2
    · rw [if_pos h2] at hbuf; omega
    · rw [if_neg h2] at hbuf; omega

/-- C123: the goroutine that handles requests never waits to give a buffer back. -/
theorem pipe_give_free (s0 : Server σ) (es : List Ev) (s : St σ) (h : runT step (init s0) es = some s) (b : Nat) (hb : s.hd = .giving b) : (step s .give).isSome := by
  have i := PipeAux.inv_run h
  have hc : s.crashed = false := by
    cases hc : s.crashed with
    | false => rfl
    | true => have := (i.dead hc).2.2; rw [hb] at this; cases this
  have := (i.room hc).2
  rw [hb] at this
  simp only [PipeAux.hdBuf, Option.isSome_some, if_true] at this
  simp only [step, hb]
  rw [if_pos (by omega)]
  rfl

/-- C123: the program does only finitely many steps by itself: each brings it nearer to waiting. -/
theorem pipe_bounded (s s' : St σ) (e : Ev) (ho : e.own = true) (h : step s e = some s') : s'.left < s.left := by
  cases e <;> simp only [Ev.own, reduceCtorEq, Bool.false_eq_true] at ho <;> simp only [step] at h <;> (repeat' split at h) <;>
    simp only [Option.some.injEq, reduceCtorEq] at h <;> subst h <;> simp_all only [St.left, Rd.left, Hd.left, List.length_cons] <;> omega

/-- C123: and when it can do nothing more, every request that has arrived has been handled and answered: the server is where a server handling them one after the other is, and
the goroutines wait for the next PDU, or the connection is over and `Loop` has returned. -/
theorem pipe_quiet (s0 : Server σ) (es : List Ev) (s : St σ) (h : runT step (init s0) es = some s) (hc : s.crashed = false) (hq : Quiet s) :
    (∃ outs, loop s0 (requests s.recv) = .ok (s.srv, outs) ∧ s.sent = outs.flatten) ∧
      ((s.hd = .idle ∧ (∃ b, s.rd = .hold b) ∧ s.inq = [] ∧ s.up = true) ∨ (s.hd = .ended ∧ s.rd = .done ∧ (s.up = true → [] ∈ s.recv))) := by
  have i := PipeAux.inv_run h
  have hhd : s.hd = .idle ∨ s.hd = .ended := by
    cases hh : s.hd with
    | idle => exact .inl rfl
    | ended => exact .inr rfl
    | handling b =>
      have := hq .finish rfl
      simp only [step, hh] at this
      split at this <;> cases this
    | indicating b =>
      have := hq .timeout rfl
      simp [step, hh] at this
    | giving b =>
      have := hq .give rfl
      have h2 := pipe_give_free s0 es s h b hh
      rw [this] at h2
      cases h2
  have hbuf : PipeAux.hdBuf s.hd = none := by rcases hhd with e | e <;> rw [e] <;> rfl
  have hcur : PipeAux.current s = [] := by unfold PipeAux.current; rcases hhd with e | e <;> rw [e]
  obtain ⟨fin, outs, w1, w2, w3⟩ := i.work hc
  rw [hcur, List.append_nil] at w1
  have hroom := (i.room hc).1
  rw [hbuf] at hroom
  cases hrd : s.rd with
  | start =>
    rw [hrd] at hroom
    cases hp : s.pool with
    | nil => rw [hp] at hroom; simp [PipeAux.rdBuf] at hroom
    | cons b r => have := hq .getBuf rfl; simp [step, hrd, hp] at this
  | swap =>
    rw [hrd] at hroom
    cases hp : s.pool with
    | nil => rw [hp] at hroom; simp [PipeAux.rdBuf] at hroom
    | cons b r => have := hq .getBuf rfl; simp [step, hrd, hp] at this
  | offer b =>
    rcases hhd with e | e
    · have := hq .hand rfl; simp [step, hrd, e] at this
    · have := i.ended e; rw [hrd] at this; cases this
  | hold b =>
    have hin : s.inq = [] := by
      cases hin : s.inq with
      | nil => rfl
      | cons p r =>
        have := hq .read rfl
        have h2 := PipeAux.read_some hrd hin
        rw [this] at h2
        cases h2
    have hup : s.up = true := by
      cases hu : s.up with
      | true => rfl
      | false => have := hq .readErr rfl; simp [step, hrd, hin, hu] at this
    have hidle : s.hd = .idle := by
      rcases hhd with e | e
      · exact e
      · have := i.ended e; rw [hrd] at this; cases this
    obtain ⟨c, h1, h2, h3⟩ := i.order (by rw [hrd]; simp)
    simp only [PipeAux.offered, hrd, List.append_nil] at h3
    refine ⟨⟨outs, ?_, w3.symm⟩, .inl ⟨hidle, ⟨b, rfl⟩, hin, hup⟩⟩
    rw [h1, hin, PipeAux.requests_live h2, h3, w1]
    simpa [requests] using w2
  | done =>
    have hend : s.hd = .ended := by
      rcases hhd with e | e
      · have := hq .stop rfl; simp [step, hrd, e] at this
      · exact e
    obtain ⟨f1, f2⟩ := i.finished hc hrd
    exact ⟨⟨outs, by rw [← f1, w1]; exact w2, w3.symm⟩, .inr ⟨hend, rfl, f2⟩⟩

/-- C123: the process dies in a handler only if the server handling the requests one after the other dies, too: the pipeline adds no panic. -/
theorem pipe_crash (s0 : Server σ) (es : List Ev) (s : St σ) (h : runT step (init s0) es = some s) (hc : s.crashed = true) : ∃ done, done <+: requests s.recv ∧ loop s0 done = .panic := by
  have i := PipeAux.inv_run h
  exact ⟨s.seen, i.prefx, (i.dead hc).1⟩

/-- A server without services. -/
def bare : Server Unit := { db := { attrs := [], base := 1 }, mtu := 23, rxMTU := 64, prep := none, prepData := [], st := () }

set_option maxRecDepth 100000 in
/-- A second request is read while the first is handled; both are answered. -/
example : ∃ s, runT step (init bare) [.arrive [0x02, 50, 0], .arrive [0x0A, 1, 0], .getBuf, .read, .hand, .getBuf, .read, .finish, .give, .hand, .getBuf, .finish, .give] = some s ∧
    s.crashed = false ∧ s.seen = [[0x02, 50, 0], [0x0A, 1, 0]] ∧ s.sent = [[0x03, 0x03, 0x02], [0x01, 0x0A, 1, 0, 0x01]] ∧ s.hd = .idle ∧ s.rd = .hold 0 ∧ s.inq = [] := by
  refine ⟨_, rfl, rfl, rfl, rfl, rfl, rfl, rfl⟩

/-! ## C124 -/

/-- C124, the full statement: an indication a handler sends completes if the peer confirms it. It does when the confirmation is the next PDU the peer sends.
Missing: it does not in general, see `pipe_stall`: if the peer's next request comes before its confirmation (a peer may well write without response and is not bound to confirm first), the
confirmation stays unread and the call fails after 30 s, although the peer has confirmed. -/
theorem pipe_confirmed_partial (s0 : Server σ) (es : List Ev) (s : St σ) (h : runT step (init s0) es = some s) (b : Nat) (hb : s.hd = .indicating b)
    (c : Bytes) (r : List Bytes) (hq : s.inq = (0x1E :: c) :: r) (hr : ∀ x, s.rd ≠ .offer x) (hd : s.rd ≠ .done) :
    ∃ es' s', es'.length ≤ 2 ∧ runT step s es' = some s' ∧ s'.hd = .handling b ∧ s'.inds = s.inds ++ [.ok] := by
  have i := PipeAux.inv_run h
  have hc : s.crashed = false := by
    cases hc : s.crashed with
    | false => rfl
    | true => have := (i.dead hc).2.2; rw [hb] at this; cases this
  have key : ∀ t : St σ, t.hd = .indicating b → t.inds = s.inds → (∃ x, t.rd = .hold x) → t.inq = (0x1E :: c) :: r →
      ∃ s', step t .read = some s' ∧ s'.hd = .handling b ∧ s'.inds = s.inds ++ [.ok] := by
    intro t t1 t2 ⟨x, t3⟩ t4
    simp [step, t1, t2, t3, t4]
  have hpool : (∀ x, s.rd ≠ .hold x) → ∃ x l, s.pool = x :: l := by
    intro hx
    have hroom := (i.room hc).1
    rw [hb] at hroom
    cases hp : s.pool with
    | cons x l => exact ⟨x, l, rfl⟩
    | nil =>
      rw [hp] at hroom
      cases hrd : s.rd <;> simp_all [PipeAux.rdBuf, PipeAux.hdBuf]
  cases hrd : s.rd with
  | offer x => exact absurd hrd (hr x)
  | done => exact absurd hrd hd
  | hold x =>
    obtain ⟨s', k1, k2, k3⟩ := key s hb rfl ⟨x, hrd⟩ hq
    exact ⟨[.read], s', by simp, by simp [runT, k1], k2, k3⟩
  | start =>
    obtain ⟨x, l, hp⟩ := hpool (by rw [hrd]; simp)
    have hg : step s .getBuf = some { s with rd := .hold x, pool := l } := by simp [step, hrd, hp]
    obtain ⟨s', k1, k2, k3⟩ := key { s with rd := .hold x, pool := l } hb rfl ⟨x, rfl⟩ hq
    exact ⟨[.getBuf, .read], s', by simp, by simp [runT, hg, k1], k2, k3⟩
  | swap =>
    obtain ⟨x, l, hp⟩ := hpool (by rw [hrd]; simp)
    have hg : step s .getBuf = some { s with rd := .hold x, pool := l } := by simp [step, hrd, hp]
    obtain ⟨s', k1, k2, k3⟩ := key { s with rd := .hold x, pool := l } hb rfl ⟨x, rfl⟩ hq
    exact ⟨[.getBuf, .read], s', by simp, by simp [runT, hg, k1], k2, k3⟩

/-- C124: once a request has been read while a handler waits for a confirmation, nothing the peer sends and nothing the program does reaches the handler before the time is up:
all PDUs that arrive, the confirmation among them, stay unread, and not even the end of the connection is noticed. -/
theorem pipe_stall (s : St σ) (b x : Nat) (hb : s.hd = .indicating b) (hr : s.rd = .offer x) (es : List Ev) (s' : St σ) (h : runT step s es = some s') (ht : Ev.timeout ∉ es) :
    s'.hd = .indicating b ∧ s'.rd = .offer x ∧ s'.inds = s.inds ∧ s'.sent = s.sent ∧ ∃ l, s'.inq = s.inq ++ l ∧ s'.recv = s.recv ++ l := by
  have key := runT_ind (step := step) (s0 := s) (P := fun es s' => Ev.timeout ∉ es → s'.hd = .indicating b ∧ s'.rd = .offer x ∧ s'.inds = s.inds ∧ s'.sent = s.sent ∧
    ∃ l, s'.inq = s.inq ++ l ∧ s'.recv = s.recv ++ l) (fun _ => ⟨hb, hr, rfl, rfl, [], by simp, by simp⟩) ?_ es s' h
  · exact key ht
  · intro es t e t' _ hp hs hn
    simp only [List.mem_append, List.mem_singleton, not_or] at hn
    obtain ⟨p1, p2, p3, p4, l, p5, p6⟩ := hp hn.1
    cases e <;> simp only [step, p1, p2, reduceCtorEq] at hs
    case arrive p =>
      split at hs <;> simp only [Option.some.injEq, reduceCtorEq] at hs
      rw [← hs]
      exact ⟨rfl, rfl, p3, p4, l ++ [p], by simp only [p5, List.append_assoc], by simp only [p6, List.append_assoc]⟩
    case down =>
      simp only [Option.some.injEq] at hs
      rw [← hs]
      exact ⟨rfl, rfl, p3, p4, l, p5, p6⟩
    case timeout => exact absurd rfl hn.2

/-- C124: the time-out is then the only thing that can happen, and the handler's call fails. -/
theorem pipe_stall_timeout (s : St σ) (b x : Nat) (hb : s.hd = .indicating b) (hr : s.rd = .offer x) :
    (∃ s', step s .timeout = some s' ∧ s'.hd = .handling b ∧ s'.inds = s.inds ++ [.timeout]) ∧ ∀ e, e.own = true → e ≠ .timeout → step s e = none := by
  refine ⟨by simp [step, hb], ?_⟩
  intro e ho hne
  cases e <;> simp_all [step, Ev.own]

set_option maxRecDepth 100000 in
/-- The stall is reached: a request comes between the indication and its confirmation. -/
example : ∃ s, runT step (init bare) [.arrive [0x0A, 1, 0], .getBuf, .read, .hand, .indicate, .getBuf, .arrive [0x52, 1, 0, 9], .read, .arrive [0x1E]] = some s ∧ s.hd = .indicating 0 ∧
    s.rd = .offer 1 ∧ s.inq = [[0x1E]] := ⟨_, rfl, rfl, rfl, rfl⟩

set_option maxRecDepth 100000 in
/-- And the good case: the confirmation is next. -/
example : ∃ s, runT step (init bare) [.arrive [0x0A, 1, 0], .getBuf, .read, .hand, .indicate, .getBuf, .arrive [0x1E], .read] = some s ∧ s.hd = .handling 0 ∧ s.inds = [.ok] :=
  ⟨_, rfl, rfl, rfl⟩

/-- C123: every PDU of up to 515 bytes gets in while the connection is up, after those that came before; longer ones do not (the connection drops them). -/
theorem pipe_arrive (s : St σ) (p : Bytes) (hu : s.up = true) :
    (p.length ≤ 515 → ∃ s', step s (.arrive p) = some s' ∧ s'.inq = s.inq ++ [p] ∧ s'.recv = s.recv ++ [p]) ∧ (515 < p.length → step s (.arrive p) = none) := by
  refine ⟨fun h => ?_, fun h => ?_⟩
  · simp [step, hu, h]
  · simp only [step]
    rw [if_neg]
    omega

/-- C124: if the connection ends while a handler waits for the confirmation and everything that came has been read, the handler's call ends with an error, after three steps. -/
theorem indication_ends_with_connection (s : St σ) (b x : Nat) (hb : s.hd = .indicating b) (hr : s.rd = .hold x) (hq : s.inq = []) :
    ∃ s', runT step s [.down, .readErr, .indClosed] = some s' ∧ s'.hd = .handling b ∧ s'.inds = s.inds ++ [.closed] ∧ s'.rd = .done := by
  simp [runT, step, hb, hr, hq]

end Ble.Pipe
