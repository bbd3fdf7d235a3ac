import Verif.Client.Locking
set_option autoImplicit false

/-!
# C120: calls of a client return
-/

namespace Ble.Locking

/-! ## Specification -/

/-- Steps the program takes by itself, without new calls, new notifications or PDUs that are no answers. -/
def Ev.own : Ev → Bool
  | .call _ | .notify _ | .strange _ => false
  | _ => true

/-- No handler in this history calls a method of its client. -/
def HandlersKeepOut (es : List Ev) : Prop := ∀ h, Ev.notify h ∈ es → Act.client ∉ h

/-- All calls have returned and all notifications have been handled. -/
def Finished (s : St) : Prop := (∀ p ∈ s.calls, p = .returned) ∧ s.queue = [] ∧ s.worker = .idle

/-- Steps left. -/
def Phase.left : Phase → Nat
  | .want w => w + 2
  | .inside w => w + 1
  | .returned => 0

def Worker.left : Worker → Nat
  | .idle => 0
  | .want h => h.length + 2
  | .running h => h.length + 1
  | .blocked h => h.length + 1

def St.left (s : St) : Nat := (s.calls.map Phase.left).sum + s.worker.left + (s.queue.map fun h => h.length + 3).sum

namespace LockAux

structure Inv (s : St) : Prop where
  call : ∀ (i : Nat), s.owner = some (.call i) ↔ ∃ w, s.calls[i]? = some (.inside w)
  work : s.owner = some .worker ↔ (∃ h, s.worker = .running h) ∨ ∃ h, s.worker = .blocked h

theorem inv_init : Inv {} := by constructor <;> simp

theorem get_set {l : List Phase} {i j : Nat} {p q : Phase} (h : l[i]? = some q) : (l.set i p)[j]? = if i = j then some p else l[j]? := by
  rw [List.getElem?_set]
  have := (List.getElem?_eq_some_iff.1 h).1
  grind

set_option maxHeartbeats 2000000 in
theorem inv_step {s s' : St} {e : Ev} (i : Inv s) (h : step s e = some s') : Inv s' := by
  have ⟨call, work⟩ := i
  cases e with
  | call w =>
    simp only [step, Option.some.injEq] at h; subst h
    refine ⟨?_, work⟩
    intro j
    simp only
    rw [call j, List.getElem?_append]
    constructor
    · rintro ⟨w', h1⟩
      have := (List.getElem?_eq_some_iff.1 h1).1
      exact ⟨w', by rw [if_pos this]; exact h1⟩
    · rintro ⟨w', h1⟩
      split at h1
      · exact ⟨w', h1⟩
      · rw [List.getElem?_singleton] at h1
        split at h1 <;> simp at h1
  | notify a => simp only [step, Option.some.injEq] at h; subst h; exact ⟨call, work⟩
  | lock j =>
    simp only [step] at h
    split at h
    · rename_i w hc ho
      simp only [Option.some.injEq] at h; subst h
      refine ⟨?_, ?_⟩
      · intro k
        simp only
        rw [get_set hc]
        have := call k
        by_cases hk : j = k
        · subst hk; simp
        · rw [if_neg hk, ← this, ho]; simp [hk]
      · simp only
        grind
    · simp at h
  | waitEnds j =>
    simp only [step] at h
    split at h
    · rename_i w hc
      simp only [Option.some.injEq] at h; subst h
      refine ⟨?_, work⟩
      intro k
      simp only
      rw [get_set hc]
      have := call k
      grind
    · simp at h
  | strange j =>
    simp only [step] at h
    split at h
    · simp only [Option.some.injEq] at h; subst h; exact i
    · simp at h
  | unlock j =>
    simp only [step] at h
    split at h
    · rename_i hc
      simp only [Option.some.injEq] at h; subst h
      have hj := (call j).2 ⟨0, hc⟩
      refine ⟨?_, ?_⟩
      · intro k
        simp only
        rw [get_set hc]
        have := call k
        grind
      · simp only
        grind
    · simp at h
  | take =>
    simp only [step] at h
    repeat' split at h
    all_goals simp only [Option.some.injEq, reduceCtorEq] at h
    subst h
    constructor <;> grind
  | workerLock =>
    simp only [step] at h
    repeat' split at h
    all_goals simp only [Option.some.injEq, reduceCtorEq] at h
    subst h
    constructor <;> grind
  | act =>
    simp only [step] at h
    repeat' split at h
    all_goals simp only [Option.some.injEq, reduceCtorEq] at h
    all_goals (subst h; constructor <;> grind)
  | inner =>
    simp only [step] at h
    repeat' split at h
    all_goals simp only [Option.some.injEq, reduceCtorEq] at h
    subst h
    constructor <;> grind
  | workerUnlock =>
    simp only [step] at h
    repeat' split at h
    all_goals simp only [Option.some.injEq, reduceCtorEq] at h
    subst h
    rename_i hw
    have ho := work.2 (.inl ⟨_, hw⟩)
    refine ⟨?_, by simp⟩
    intro k
    have := call k
    rw [ho] at this
    simpa using this

theorem inv_run {es : List Ev} {s : St} (h : runT step {} es = some s) : Inv s :=
  runT_ind (P := fun _ s => Inv s) inv_init (fun _ _ _ _ _ i hs => inv_step i hs) es s h

/-- No handler that is running or waiting calls the client. -/
def Clean (s : St) : Prop := (∀ h ∈ s.queue, Act.client ∉ h) ∧ (∀ h, s.worker = .want h ∨ s.worker = .running h → Act.client ∉ h) ∧ ∀ h, s.worker ≠ .blocked h

theorem clean_step {s s' : St} {e : Ev} (c : Clean s) (he : ∀ h, e = .notify h → Act.client ∉ h) (h : step s e = some s') : Clean s' := by
  unfold Clean at *
  cases e <;> simp only [step] at h <;> (repeat' split at h) <;> simp only [Option.some.injEq, reduceCtorEq] at h <;> subst h <;> grind

theorem clean_run {es : List Ev} {s : St} (h : runT step {} es = some s) (hh : HandlersKeepOut es) : Clean s := by
  refine runT_ind (P := fun es s => HandlersKeepOut es → Clean s) (fun _ => by simp [Clean]) ?_ es s h hh
  intro es s e s' _ ih hs hh
  exact clean_step (ih fun a ha => hh a (by simp [ha])) (fun a ha => hh a (by simp [ha])) hs

theorem sum_set {l : List Phase} {i : Nat} {p q : Phase} (h : l[i]? = some q) : ((l.set i p).map Phase.left).sum + q.left = (l.map Phase.left).sum + p.left := by
  induction l generalizing i with
  | nil => simp at h
  | cons x xs ih =>
    cases i with
    | zero => simp at h; subst h; simp; omega
    | succ i =>
      simp at h
      have := ih h
      simp only [List.set_cons_succ, List.map_cons, List.sum_cons]
      omega

theorem own_decreases {s s' : St} {e : Ev} (c : Clean s) (ho : e.own = true) (h : step s e = some s') : s'.left < s.left := by
  unfold Clean at c
  cases e with
  | call w => simp [Ev.own] at ho
  | notify a => simp [Ev.own] at ho
  | strange j => simp [Ev.own] at ho
  | lock j =>
    simp only [step] at h
    split at h
    · rename_i w hc _
      simp only [Option.some.injEq] at h; subst h
      have := sum_set (p := .inside w) hc
      simp only [Phase.left, St.left] at *; omega
    · simp at h
  | waitEnds j =>
    simp only [step] at h
    split at h
    · rename_i w hc
      simp only [Option.some.injEq] at h; subst h
      have := sum_set (p := .inside w) hc
      simp only [Phase.left, St.left] at *; omega
    · simp at h
  | unlock j =>
    simp only [step] at h
    split at h
    · rename_i hc
      simp only [Option.some.injEq] at h; subst h
      have := sum_set (p := .returned) hc
      simp only [Phase.left, St.left] at *; omega
    · simp at h
  | take =>
    simp only [step] at h
    repeat' split at h
    all_goals simp only [Option.some.injEq, reduceCtorEq] at h
    subst h
    rename_i hw hq
    simp [St.left, hw, hq, Worker.left]; omega
  | workerLock =>
    simp only [step] at h
    repeat' split at h
    all_goals simp only [Option.some.injEq, reduceCtorEq] at h
    subst h
    rename_i hw _
    simp [St.left, hw, Worker.left]
  | act =>
    simp only [step] at h
    repeat' split at h
    all_goals simp only [Option.some.injEq, reduceCtorEq] at h
    · subst h
      rename_i hw
      simp [St.left, hw, Worker.left]
    · rename_i a hw
      exact absurd (by simp) (c.2.1 _ (.inr hw))
  | inner =>
    simp only [step] at h
    repeat' split at h
    all_goals simp only [Option.some.injEq, reduceCtorEq] at h
    rename_i hw _
    exact absurd hw (c.2.2 _)
  | workerUnlock =>
    simp only [step] at h
    repeat' split at h
    all_goals simp only [Option.some.injEq, reduceCtorEq] at h
    subst h
    rename_i hw
    simp [St.left, hw, Worker.left]

theorem own_possible {s : St} (i : Inv s) (c : Clean s) (hf : ¬ Finished s) : ∃ e s', e.own = true ∧ step s e = some s' := by
  unfold Clean at c
  cases ho : s.owner with
  | some o =>
    cases o with
    | call j =>
      obtain ⟨w, hw⟩ := (i.call j).1 ho
      cases w with
      | zero => exact ⟨.unlock j, _, rfl, by simp only [step, hw]; rfl⟩
      | succ w => exact ⟨.waitEnds j, _, rfl, by simp only [step, hw]; rfl⟩
    | worker =>
      rcases i.work.1 ho with ⟨h, hw⟩ | ⟨h, hw⟩
      · match h, hw with
        | [], hw => exact ⟨.workerUnlock, _, rfl, by simp only [step, hw]; rfl⟩
        | .other :: h, hw => exact ⟨.act, _, rfl, by simp only [step, hw]; rfl⟩
        | .client :: h, hw => exact absurd (by simp) (c.2.1 _ (.inr hw))
      · exact absurd hw (c.2.2 h)
  | none =>
    by_cases hc : ∃ p ∈ s.calls, p ≠ .returned
    · obtain ⟨p, hp, hn⟩ := hc
      obtain ⟨j, hj⟩ := List.mem_iff_getElem?.1 hp
      match p, hj, hn with
      | .want w, hj, _ => exact ⟨.lock j, _, rfl, by simp only [step, hj, ho]; rfl⟩
      | .inside w, hj, _ =>
        have := (i.call j).2 ⟨w, hj⟩
        rw [ho] at this
        simp at this
      | .returned, _, hn => exact absurd rfl hn
    · have hc' : ∀ p ∈ s.calls, p = .returned := fun p hp => Classical.byContradiction fun hn => hc ⟨p, hp, hn⟩
      cases hw : s.worker with
      | idle =>
        cases hq : s.queue with
        | nil => exact absurd ⟨hc', hq, hw⟩ hf
        | cons h q => exact ⟨.take, _, rfl, by simp only [step, hw, hq]; rfl⟩
      | want h => exact ⟨.workerLock, _, rfl, by simp only [step, hw, ho]; rfl⟩
      | running h =>
        have := i.work.2 (.inl ⟨h, hw⟩)
        rw [ho] at this
        simp at this
      | blocked h => exact absurd hw (c.2.2 h)

end LockAux

open LockAux

/-- **C120** As long as no handler calls a method of its own client: whatever calls were made and whatever notifications came in, in whatever interleaving, the program always goes on by itself, for at most a number of steps known
beforehand, until every call has returned and every notification has been handled. Missing: handlers that call their client (`reentrant_handler_deadlocks`: false) and peers that never stop sending strange PDUs (`strange_pdus_hold_the_call`: false). -/
theorem calls_return_partial {es : List Ev} {s : St} (h : runT step {} es = some s) (hh : HandlersKeepOut es) :
    (∀ es' s', runT step s es' = some s' → (∀ e ∈ es', e.own = true) → es'.length + s'.left ≤ s.left) ∧
    (∀ es' s', runT step s es' = some s' → (∀ e ∈ es', e.own = true) → Finished s' ∨ ∃ e t, e.own = true ∧ step s' e = some t) := by
  constructor
  · have hc := clean_run h hh
    clear h
    intro es'
    induction es' generalizing s with
    | nil => intro s' h' _; simp [runT] at h'; subst h'; simp
    | cons e es' ih =>
      intro s' h' ho
      simp only [runT] at h'
      split at h'
      · simp at h'
      · rename_i t ht
        have h1 := own_decreases hc (ho e (by simp)) ht
        have h2 := ih (s := t) (clean_step hc (fun a ha => by have := ho e (by simp); subst ha; simp [Ev.own] at this) ht) s' h' (fun x hx => ho x (by simp [hx]))
        simp
        omega
  · intro es' s' h' ho
    have hr : runT step {} (es ++ es') = some s' := runT_append.2 ⟨s, h, h'⟩
    have hh' : HandlersKeepOut (es ++ es') := by
      intro a ha
      rcases List.mem_append.1 ha with h1 | h1
      · exact hh a h1
      · have := ho _ h1; simp [Ev.own] at this
    by_cases hf : Finished s'
    · exact .inl hf
    · exact .inr (own_possible (inv_run hr) (clean_run hr hh') hf)

/-- **C120** The methods exclude each other and the handlers: at most one of them is at work. -/
theorem one_at_a_time {es : List Ev} {s : St} (h : runT step {} es = some s) :
    (∀ (i j : Nat) w w', s.calls[i]? = some (.inside w) → s.calls[j]? = some (.inside w') → i = j) ∧
    ∀ (i : Nat) w, s.calls[i]? = some (.inside w) → ∀ a, s.worker ≠ .running a := by
  have iv := inv_run h
  constructor
  · intro i j w w' h1 h2
    have a := (iv.call i).2 ⟨w, h1⟩
    have b := (iv.call j).2 ⟨w', h2⟩
    rw [a] at b
    simpa using b
  · intro i w h1 a h2
    have h3 := (iv.call i).2 ⟨w, h1⟩
    rw [iv.work.2 (.inl ⟨a, h2⟩)] at h3
    simp at h3

/-- **C120: where it fails.** A handler that calls any method of its client — `Unsubscribe`, a read, `CancelConnection` — never gets it back; from then on no notification is handled and no call of any method ever returns, whether it was
waiting already or is made later: not even `CancelConnection` and `Disconnected`. -/
theorem reentrant_handler_deadlocks {es es' : List Ev} {s s' : St} (h : runT step {} es = some s) {a : List Act} (hw : s.worker = .blocked a) (h' : runT step s es' = some s') :
    s'.worker = .blocked a ∧ ∀ (i : Nat), s'.calls[i]? = some .returned → s.calls[i]? = some .returned := by
  have hr := inv_run h
  clear h
  suffices H : ∀ es' (t t' : St), Inv t → t.worker = .blocked a → runT step t es' = some t' → t'.worker = .blocked a ∧ ∀ (i : Nat), t'.calls[i]? = some .returned → t.calls[i]? = some .returned from H es' s s' hr hw h'
  intro es'
  induction es' with
  | nil => intro t t' _ hw h'; simp [runT] at h'; subst h'; exact ⟨hw, fun _ h => h⟩
  | cons e es' ih =>
    intro t t' hi hw h'
    simp only [runT] at h'
    split at h'
    · simp at h'
    · rename_i u hu
      have ho := hi.work.2 (.inr ⟨a, hw⟩)
      have hin : ∀ (i : Nat) w, t.calls[i]? ≠ some (.inside w) := by
        intro i w h1
        have := (hi.call i).2 ⟨w, h1⟩
        rw [ho] at this
        simp at this
      have key : u.worker = .blocked a ∧ ∀ (i : Nat), u.calls[i]? = some .returned → t.calls[i]? = some .returned := by
        cases e with
        | call w =>
          simp only [step, Option.some.injEq] at hu; subst hu
          refine ⟨hw, ?_⟩
          intro i h1
          simp only at h1
          rw [List.getElem?_append] at h1
          split at h1
          · exact h1
          · rw [List.getElem?_singleton] at h1
            split at h1 <;> simp at h1
        | notify b => simp only [step, Option.some.injEq] at hu; subst hu; exact ⟨hw, fun _ h => h⟩
        | lock j => simp only [step, ho] at hu; split at hu <;> simp_all
        | waitEnds j => simp only [step] at hu; split at hu <;> simp_all
        | strange j => simp only [step] at hu; split at hu <;> simp_all
        | unlock j => simp only [step] at hu; split at hu <;> simp_all
        | take => simp [step, hw] at hu
        | workerLock => simp [step, hw] at hu
        | act => simp [step, hw] at hu
        | inner => simp [step, hw, ho] at hu
        | workerUnlock => simp [step, hw] at hu
      obtain ⟨h1, h2⟩ := ih u t' (inv_step hi hu) key.1 h'
      exact ⟨h1, fun i hi => key.2 i (h2 i hi)⟩

/-- It takes one notification. -/
theorem deadlock_example : ∃ s, runT step {} [.call 1, .notify [.other, .client], .lock 0, .take, .waitEnds 0, .unlock 0, .workerLock, .call 1, .act, .act] = some s ∧ s.worker = .blocked [] ∧ s.calls = [.returned, .want 1] :=
  ⟨_, rfl, rfl, rfl⟩

/-- **C120: where it fails.** A peer that keeps sending PDUs that answer nothing keeps a call, and with it the lock, for as long as it likes. -/
theorem strange_pdus_hold_the_call (n : Nat) : ∃ s, runT step {} ([.call 1, .lock 0] ++ List.replicate n (.strange 0)) = some s ∧ s.calls = [.inside 1] ∧ s.owner = some (.call 0) := by
  refine ⟨{ calls := [.inside 1], owner := some (.call 0) }, ?_, rfl, rfl⟩
  rw [runT_append]
  refine ⟨_, rfl, ?_⟩
  induction n with
  | zero => rfl
  | succ n ih => simp only [List.replicate_succ, runT]; exact ih

/-- A history the positive theorem speaks about. -/
theorem locking_example : ∃ s, runT step {} [.call 1, .notify [.other], .call 0, .take, .workerLock, .act] = some s ∧ HandlersKeepOut [.call 1, .notify [.other], .call 0, .take, .workerLock, .act] ∧ ¬ Finished s :=
  ⟨_, rfl, by intro h hm; simp at hm; subst hm; simp, by intro hf; simpa using hf.1 (.want 1) (by simp)⟩

end Ble.Locking
