import Verif.Hci.Peripheral
set_option autoImplicit false

/-! # A peripheral advertises, and serves the centrals that connect (C100 - C102) -/

namespace Ble.Props

open Ble.Hci Ble.Hci.Peripheral

/-! ## Specification -/

/-- The last of the application's calls in a history: `some true` if it was `Advertise`, `some false` if `StopAdvertising`. -/
def lastCall (as : List Peripheral.Act) : Option Bool :=
  (as.filterMap fun a => match a with
    | .advertise => some true
    | .stop => some false
    | _ => none).getLast?

/-- Nothing is on its way: no send waits, no command is unexecuted, no event unhandled, no connection is being handed over. -/
structure Quiet (s : Peripheral.St) : Prop where
  pend : s.pend = []
  held : s.held = none
  cmds : s.cmds = []
  evq : s.evq = []
  offering : s.offering = none

/-- Steps that the program and the controller take by themselves. -/
def Internal : Peripheral.Act → Prop
  | .lock _ | .exec false | .event | .accept => True
  | _ => False

namespace PeriAux

/-- Whether the controller advertises once it has executed what was sent. -/
def settled (s : Peripheral.St) : Bool := s.cmds.getLast?.getD s.adv

theorem lastCall_field {as : List Peripheral.Act} {s : Peripheral.St} (h : Peripheral.run {} as = some s) : s.field = (lastCall as).getD false := by
  refine runT_ind (P := fun as s => s.field = (lastCall as).getD false) rfl ?_ as s h
  intro es t e t' _ ih hs
  cases e <;> simp only [step, handle] at hs <;> (repeat' split at hs) <;> simp only [Option.some.injEq, reduceCtorEq] at hs <;> subst hs <;>
    simp_all [lastCall]

/-- The controller will advertise, or a connection is on its way to the accept loop. -/
def Alive (s : Peripheral.St) : Prop :=
  s.field = true → s.pend ≠ [] ∨ s.cmds.getLast? = some true ∨ (s.cmds = [] ∧ s.adv = true) ∨ s.offering.isSome = true ∨
    ∃ h, Ev.connected h ∈ s.evq

theorem alive_step {s s' : Peripheral.St} {a : Peripheral.Act} (h : Alive s) (ha : a ≠ .exec true) (hs : step s a = some s') : Alive s' := by
  unfold Alive at *
  cases a with
  | advertise => simp only [step, Option.some.injEq] at hs; subst hs; simp
  | stop => simp only [step, Option.some.injEq] at hs; subst hs; simp
  | lock i =>
    simp only [step] at hs
    split at hs <;> simp only [Option.some.injEq, reduceCtorEq] at hs
    subst hs
    intro hf
    right; left
    simpa using hf
  | exec r =>
    simp only [step] at hs
    split at hs <;> simp only [Option.some.injEq, reduceCtorEq] at hs
    · rename_i cs hc
      subst hs
      simp only [hc] at h
      cases r with
      | true => exact absurd rfl ha
      | false =>
        intro hf
        rcases h hf with h | h | h | h | ⟨x, h⟩
        · exact .inl h
        · cases cs with
          | nil => exact .inr (.inr (.inl ⟨rfl, rfl⟩))
          | cons c cs => exact .inr (.inl (by simpa [List.getLast?_cons_cons] using h))
        · simp at h
        · exact .inr (.inr (.inr (.inl h)))
        · exact .inr (.inr (.inr (.inr ⟨x, by simp [h]⟩)))
    · rename_i cs hc
      subst hs
      simp only [hc] at h
      intro hf
      rcases h hf with h | h | h | h | ⟨x, h⟩
      · exact .inl h
      · cases cs with
        | nil => simp at h
        | cons c cs => exact .inr (.inl (by simpa [List.getLast?_cons_cons] using h))
      · simp at h
      · exact .inr (.inr (.inr (.inl h)))
      · exact .inr (.inr (.inr (.inr ⟨x, by simp [h]⟩)))
  | central =>
    simp only [step] at hs
    split at hs <;> simp only [Option.some.injEq, reduceCtorEq] at hs
    subst hs
    intro _
    exact .inr (.inr (.inr (.inr ⟨s.used, by simp⟩)))
  | drop x =>
    simp only [step] at hs
    split at hs <;> simp only [Option.some.injEq, reduceCtorEq] at hs
    subst hs
    intro hf
    rcases h hf with h | h | h | h | ⟨x, h⟩
    · exact .inl h
    · exact .inr (.inl h)
    · exact .inr (.inr (.inl h))
    · exact .inr (.inr (.inr (.inl h)))
    · exact .inr (.inr (.inr (.inr ⟨x, by simp [h]⟩)))
  | event =>
    simp only [step] at hs
    split at hs <;> simp only [Option.some.injEq, reduceCtorEq] at hs
    rename_i e es ho he
    simp only [he] at h
    cases e <;> simp only [handle] at hs
    · subst hs; intro _; exact .inr (.inr (.inr (.inl rfl)))
    · split at hs <;> subst hs <;> simp_all
    · split at hs <;> subst hs <;> simp_all
  | accept =>
    simp only [step] at hs
    (repeat' split at hs) <;> simp only [Option.some.injEq, reduceCtorEq] at hs <;> subst hs <;> intro hf
    · exact .inl (by simp)
    · simp_all
  | listenerTimeout =>
    simp only [step] at hs
    split at hs <;> simp only [Option.some.injEq, reduceCtorEq] at hs
    subst hs
    exact h
  | sendTimeout =>
    simp only [step] at hs
    split at hs <;> simp only [Option.some.injEq, reduceCtorEq] at hs
    subst hs
    exact h

theorem alive {as : List Peripheral.Act} {s : Peripheral.St} (h : Peripheral.run {} as = some s) (hr : Peripheral.Act.exec true ∉ as) : Alive s := by
  refine runT_ind (P := fun as s => Peripheral.Act.exec true ∉ as → Alive s) (by intro _ h; simp at h) ?_ as s h hr
  intro es t e t' _ ih hs hn
  exact alive_step (ih fun h => hn (by simp [h])) (fun h => hn (by simp [h])) hs

/-- Numbers of calls are used once. -/
def Fresh (s : Peripheral.St) : Prop :=
  (∀ i, s.calls ≤ i → Who.stop i ∉ s.pend) ∧ (∀ i, s.calls ≤ i → s.held ≠ some (Who.stop i)) ∧
  (∀ i ok, s.calls ≤ i → (Who.stop i, ok) ∉ s.results)

theorem fresh {as : List Peripheral.Act} {s : Peripheral.St} (h : Peripheral.run {} as = some s) : Fresh s := by
  refine runT_ind (P := fun _ s => Fresh s) (by simp [Fresh]) ?_ as s h
  intro es t e t' _ ih hs
  obtain ⟨h1, h2, h3⟩ := ih
  cases e <;> simp only [step, handle] at hs <;> (repeat' split at hs) <;> simp only [Option.some.injEq, reduceCtorEq] at hs <;> subst hs <;>
    refine ⟨?_, ?_, ?_⟩ <;> simp only [List.mem_append, List.mem_singleton, Who.stop.injEq, Prod.mk.injEq, reduceCtorEq, or_false, not_or] <;>
    grind [List.mem_of_mem_eraseIdx, List.mem_of_getElem?]

theorem getD_cons (c : Bool) (cs : List Bool) (x y : Bool) : (c :: cs).getLast?.getD x = (c :: cs).getLast?.getD y := by
  rw [List.getLast?_eq_some_getLast (by simp)]; rfl

theorem settled_step {s s' : Peripheral.St} {a : Peripheral.Act} (hf : s.field = false) (h : settled s = false) (ha : a ≠ .advertise)
    (hs : step s a = some s') : settled s' = false := by
  unfold settled at *
  cases a with
  | exec r =>
    simp only [step] at hs
    split at hs <;> simp only [Option.some.injEq, reduceCtorEq] at hs
    · rename_i cs hc
      subst hs
      cases cs with
      | nil => simp [hc] at h
      | cons c cs => rw [hc, List.getLast?_cons_cons] at h; exact (getD_cons c cs _ _).trans h
    · rename_i cs hc
      subst hs
      cases cs with
      | nil => simp
      | cons c cs => rw [hc, List.getLast?_cons_cons] at h; exact (getD_cons c cs _ _).trans h
  | central =>
    simp only [step] at hs
    split at hs <;> simp only [Option.some.injEq, reduceCtorEq] at hs
    subst hs
    cases hc : s.cmds with
    | nil => simp
    | cons c cs => rw [hc] at h; exact (getD_cons c cs _ _).trans h
  | lock i =>
    simp only [step] at hs
    split at hs <;> simp only [Option.some.injEq, reduceCtorEq] at hs
    subst hs
    simp [hf]
  | advertise => exact absurd rfl ha
  | stop => simp only [step, Option.some.injEq] at hs; subst hs; exact h
  | drop x => simp only [step] at hs; split at hs <;> simp only [Option.some.injEq, reduceCtorEq] at hs; subst hs; exact h
  | event =>
    simp only [step, handle] at hs
    (repeat' split at hs) <;> simp only [Option.some.injEq, reduceCtorEq] at hs <;> subst hs <;> exact h
  | accept => simp only [step] at hs; (repeat' split at hs) <;> simp only [Option.some.injEq, reduceCtorEq] at hs <;> subst hs <;> exact h
  | listenerTimeout => simp only [step] at hs; split at hs <;> simp only [Option.some.injEq, reduceCtorEq] at hs; subst hs; exact h
  | sendTimeout => simp only [step] at hs; split at hs <;> simp only [Option.some.injEq, reduceCtorEq] at hs; subst hs; exact h

theorem field_false_step {s s' : Peripheral.St} {a : Peripheral.Act} (hf : s.field = false) (ha : a ≠ .advertise) (hs : step s a = some s') :
    s'.field = false := by
  cases a <;> simp only [step, handle] at hs <;> (repeat' split at hs) <;> simp only [Option.some.injEq, reduceCtorEq] at hs <;> subst hs <;> simp_all

/-- After `StopAdvertising` number `id` was called: its command has not been written, or no command written enables advertising any more. -/
def Stopping (id : Nat) (s : Peripheral.St) : Prop :=
  s.field = false ∧ ((s.held ≠ some (.stop id) ∧ ∀ ok, (Who.stop id, ok) ∉ s.results) ∨ settled s = false)

theorem stopping_step {id : Nat} {s s' : Peripheral.St} {a : Peripheral.Act} (h : Stopping id s) (ha : a ≠ .advertise) (hs : step s a = some s') :
    Stopping id s' := by
  obtain ⟨hf, h⟩ := h
  refine ⟨field_false_step hf ha hs, ?_⟩
  rcases h with ⟨h1, h2⟩ | h
  · cases a with
    | lock i =>
      right
      simp only [step] at hs
      split at hs <;> simp only [Option.some.injEq, reduceCtorEq] at hs
      subst hs
      simp [settled, hf]
    | advertise => exact absurd rfl ha
    | _ =>
      left
      simp only [step, handle] at hs
      (repeat' split at hs) <;> simp only [Option.some.injEq, reduceCtorEq] at hs <;> subst hs <;>
        simp only [List.mem_append, List.mem_singleton, Prod.mk.injEq, not_or] <;> grind
  · exact .inr (settled_step hf h ha hs)

end PeriAux

open PeriAux

/-! ## C100: advertising goes on -/

/-- **C100 (partial).** After any history in which the controller did not refuse to start advertising: if the last call was `Advertise`,
then, once nothing is on its way, the controller advertises, however many centrals came and went. The full property has no condition on
the controller, and fails: see `refused_once_dark_for_ever`. -/
theorem advertising_goes_on_partial (as : List Peripheral.Act) (s : Peripheral.St) (h : Peripheral.run {} as = some s)
    (hr : Peripheral.Act.exec true ∉ as) (hq : Quiet s) (hl : lastCall as = some true) : s.adv = true := by
  have hf := lastCall_field h
  rw [hl] at hf
  rcases alive h hr hf with h | h | h | h | ⟨x, h⟩
  · exact absurd hq.pend h
  · rw [hq.cmds] at h; simp at h
  · exact h.2
  · rw [hq.offering] at h; simp at h
  · rw [hq.evq] at h; simp at h

/-! ## C101: stopping -/

/-- **C101.** When `StopAdvertising` has returned, with or without an error, and `Advertise` was not called since it was called, the
controller does not advertise, once it has executed the commands sent to it; and it stays so: no central connects. This holds whatever
sends of earlier calls, or of the event loop for centrals that connected, were still waiting. -/
theorem stop_is_final (pre as : List Peripheral.Act) (s0 s : Peripheral.St) (h0 : Peripheral.run {} pre = some s0)
    (h : Peripheral.run s0 (.stop :: as) = some s) (hn : Peripheral.Act.advertise ∉ as) (ok : Bool)
    (hres : (Who.stop s0.calls, ok) ∈ s.results) :
    (s.cmds = [] → s.adv = false) ∧
    ∀ bs s', Peripheral.run s bs = some s' → Peripheral.Act.advertise ∉ bs → s.cmds = [] →
      s'.cmds.getLast? ≠ some true ∧ (s'.cmds = [] → s'.adv = false) ∧
      s'.used = s.used := by
  have hfr := fresh h0
  have key : ∀ as s, Peripheral.run s0 (.stop :: as) = some s → Peripheral.Act.advertise ∉ as → Stopping s0.calls s := by
    intro as s h hn
    simp only [runT] at h
    split at h
    · simp at h
    · rename_i t ht
      simp only [step, Option.some.injEq] at ht
      subst ht
      refine runT_ind (P := fun as s => Peripheral.Act.advertise ∉ as → Stopping s0.calls s) ?_ ?_ as s h hn
      · intro _
        exact ⟨rfl, .inl ⟨hfr.2.1 _ (Nat.le_refl _), fun ok => hfr.2.2 _ ok (Nat.le_refl _)⟩⟩
      · intro es t e t' _ ih hs hn
        exact stopping_step (ih fun h => hn (by simp [h])) (fun h => hn (by simp [h])) hs
  have hs := key as s h hn
  have hset : settled s = false := by
    rcases hs.2 with ⟨-, h2⟩ | h2
    · exact absurd hres (h2 ok)
    · exact h2
  have hset0 : s.cmds = [] → s.adv = false := by
    intro hc; simpa [settled, hc] using hset
  refine ⟨hset0, ?_⟩
  intro bs s' hb hnb hc
  have := runT_ind (step := step) (s0 := s)
    (P := fun bs s' => Peripheral.Act.advertise ∉ bs → s'.field = false ∧ settled s' = false ∧ s'.adv = false ∧ (true ∉ s'.cmds) ∧ s'.used = s.used)
    (by intro _; exact ⟨hs.1, hset, hset0 hc, by simp [hc], rfl⟩)
    (by
      intro es t e t' _ ih hst hn
      obtain ⟨g1, g2, g3, g4, g5⟩ := ih fun h => hn (by simp [h])
      have hne : e ≠ .advertise := fun h => hn (by simp [h])
      refine ⟨field_false_step g1 hne hst, settled_step g1 g2 hne hst, ?_⟩
      clear hn
      cases e <;> simp only [step, handle] at hst <;> (repeat' split at hst) <;> simp only [Option.some.injEq, reduceCtorEq] at hst <;>
        subst hst <;> simp_all)
    bs s' hb hnb
  obtain ⟨g1, g2, g3, g4, g5⟩ := this
  refine ⟨?_, fun _ => g3, g5⟩
  intro hl
  exact g4 (List.mem_of_getLast? hl)

/-! ## What goes wrong with C100 -/

/-- Without a call of `Advertise` or `StopAdvertising` nothing starts advertising again. -/
theorem dark_for_ever (s : Peripheral.St) (hp : s.pend = []) (hc : s.cmds = []) (ha : s.adv = false) (ho : s.offering = none)
    (he : ∀ h, Ev.connected h ∉ s.evq) (bs : List Peripheral.Act) (s' : Peripheral.St) (hb : Peripheral.run s bs = some s')
    (hn : lastCall bs = none) : s'.adv = false ∧ s'.used = s.used := by
  have hn' : Peripheral.Act.advertise ∉ bs ∧ Peripheral.Act.stop ∉ bs := by
    unfold lastCall at hn
    rw [List.getLast?_eq_none_iff, List.filterMap_eq_nil_iff] at hn
    exact ⟨fun h => by simpa using hn _ h, fun h => by simpa using hn _ h⟩
  have := runT_ind (step := step) (s0 := s)
    (P := fun bs s' => Peripheral.Act.advertise ∉ bs ∧ Peripheral.Act.stop ∉ bs →
      s'.pend = [] ∧ s'.cmds = [] ∧ s'.adv = false ∧ s'.offering = none ∧ (∀ h, Ev.connected h ∉ s'.evq) ∧ s'.used = s.used)
    (fun _ => ⟨hp, hc, ha, ho, he, rfl⟩)
    (by
      intro es t e t' _ ih hst hn
      obtain ⟨g1, g2, g3, g4, g5, g6⟩ := ih ⟨fun h => hn.1 (by simp [h]), fun h => hn.2 (by simp [h])⟩
      have hne : e ≠ .advertise ∧ e ≠ .stop := ⟨fun h => hn.1 (by simp [h]), fun h => hn.2 (by simp [h])⟩
      clear hn
      cases e <;> simp only [step, handle] at hst <;> (repeat' split at hst) <;> simp only [Option.some.injEq, reduceCtorEq] at hst <;>
        subst hst <;> simp_all <;> grind)
    bs s' hb hn'
  exact ⟨this.2.2.1, this.2.2.2.2.2⟩

/-- **C100: where it fails.** A peripheral that advertises; one more central connects, and the controller refuses to start advertising
while it is connected (it has as many connections as it can). Nothing enables advertising again, also not when that central, or all
centrals, disconnect: until the application calls `Advertise` again, no central can connect. -/
theorem refused_once_dark_for_ever (s : Peripheral.St) (hq : Quiet s) (hf : s.field = true) (ha : s.adv = true) (hacc : s.accepting = true) :
    ∃ s', Peripheral.run s [.central, .event, .accept, .lock 0, .exec true, .event] = some s' ∧ Quiet s' ∧ s'.field = true ∧
      s'.served = s.served ++ [s.used] ∧ s'.up = s.up ++ [s.used] ∧ s'.results = s.results ++ [(.reenable, false)] ∧
      ∀ bs s'', Peripheral.run s' bs = some s'' → lastCall bs = none → s''.adv = false ∧ s''.used = s'.used := by
  obtain ⟨q1, q2, q3, q4, q5⟩ := hq
  refine ⟨{ s with
            adv := false, up := s.up ++ [s.used], used := s.used + 1, conns := s.conns ++ [s.used], served := s.served ++ [s.used],
            results := s.results ++ [(.reenable, false)] }, ?_, ?_, hf, rfl, rfl, rfl, ?_⟩
  · simp [runT, step, handle, q1, q2, q3, q4, q5, hf, ha, hacc]
  · exact ⟨q1, q2, q3, q4, q5⟩
  · intro bs s'' hb hn
    refine dark_for_ever _ ?_ ?_ ?_ ?_ ?_ bs s'' hb hn <;> simp_all

/-- And the centrals can all leave. -/
theorem example_dark : ∃ s, Peripheral.run {} [.advertise, .lock 0, .exec false, .event, .central, .event, .accept, .lock 0, .exec true, .event,
      .drop 0, .event] = some s ∧ Quiet s ∧ s.field = true ∧ s.up = [] ∧ s.gone = [0] ∧ s.adv = false ∧
      (Who.advertise 0, true) ∈ s.results := ⟨_, rfl, ⟨rfl, rfl, rfl, rfl, rfl⟩, rfl, rfl, rfl, rfl, by decide⟩

/-- The number of the call of the application, `none` for the re-enabling by the event loop. -/
def callNumber : Who → Option Nat
  | .advertise k => some k
  | .stop k => some k
  | .reenable => none

/-- The numbers of the calls that wait for the lock, that wait for their answer, and that have returned. -/
def callNumbers (s : Peripheral.St) : List Nat := s.pend.filterMap callNumber ++ (s.held.toList.filterMap callNumber ++ (s.results.map (·.1)).filterMap callNumber)

/-- C101: every call of `Advertise` and `StopAdvertising` waits for its turn, waits for its answer or has returned, and none of them returns twice. -/
theorem each_call_accounted (as : List Peripheral.Act) (s : Peripheral.St) (h : Peripheral.run {} as = some s) :
    ∀ k, (callNumbers s).count k = if k < (as.filter fun a => a = .advertise ∨ a = .stop).length then 1 else 0 := by
  have key : (as.filter fun a => a = .advertise ∨ a = .stop).length = s.calls ∧ ∀ k, (callNumbers s).count k = if k < s.calls then 1 else 0 := by
    refine runT_ind (P := fun as s => (as.filter fun a => a = .advertise ∨ a = .stop).length = s.calls ∧ ∀ k, (callNumbers s).count k = if k < s.calls then 1 else 0) ⟨rfl, by simp [callNumbers]⟩ ?_ as s h
    intro es t e t' _ ih hs
    obtain ⟨h1, h2⟩ := ih
    have herase : ∀ (l : List Who) (i : Nat) (w : Who), l[i]? = some w → ∀ k, (l.filterMap callNumber).count k = ((l.eraseIdx i).filterMap callNumber).count k + ((Option.toList (callNumber w)).count k) := by
      intro l
      induction l with
      | nil => intro i w h; simp at h
      | cons x xs ih =>
        intro i w h k
        cases i with
        | zero =>
          simp only [List.getElem?_cons_zero, Option.some.injEq] at h
          subst h
          cases hc : callNumber x <;> simp [hc, List.count_cons]
        | succ i =>
          simp only [List.getElem?_cons_succ] at h
          have := ih i w h k
          cases hc : callNumber x <;> simp [hc, List.count_cons, this]
          omega
    refine ⟨?_, ?_⟩
    · cases e <;> simp only [step, handle] at hs <;> (repeat' split at hs) <;> simp only [Option.some.injEq, reduceCtorEq] at hs <;> subst hs <;> simpa [List.filter_cons] using h1
    · intro k
      have := h2 k
      simp only [callNumbers, List.count_append] at this ⊢
      cases e
      case lock i =>
        simp only [step] at hs
        split at hs
        · rename_i w hh hp
          cases hs
          have he := herase _ _ _ hp k
          simp only [hh, Option.toList_none, List.filterMap_nil, List.count_nil, Option.toList_some, List.filterMap_cons] at this ⊢
          cases hc : callNumber w <;> simp only [hc, Option.toList_none, Option.toList_some, List.count_nil] at he ⊢ <;> omega
        · cases hs
      all_goals
        simp only [step, handle] at hs <;> (repeat' split at hs) <;> simp only [Option.some.injEq, reduceCtorEq] at hs <;> subst hs <;>
          simp_all [callNumber, List.count_cons] <;> grind [callNumber]
  rw [key.1]
  exact key.2

/-! ## C102: every central is served -/

namespace PeriAux

/-- The connections that events still to be handled announce. -/
def announced : List Ev → List Nat
  | [] => []
  | .connected h :: es => h :: announced es
  | _ :: es => announced es

theorem announced_append (a b : List Ev) : announced (a ++ b) = announced a ++ announced b := by
  induction a with
  | nil => rfl
  | cons e es ih => cases e <;> simp [announced, ih]

/-- The connections after the events. -/
def after : List Nat → List Ev → List Nat
  | c, [] => c
  | c, .connected h :: es => after (c ++ [h]) es
  | c, .disconnected h :: es => after (c.erase h) es
  | c, .answer _ :: es => after c es

theorem after_append (c : List Nat) (a b : List Ev) : after c (a ++ b) = after (after c a) b := by
  induction a generalizing c with
  | nil => rfl
  | cons e es ih => cases e <;> simp [after, ih]

theorem announced_mem {h : Nat} {es : List Ev} : h ∈ announced es ↔ Ev.connected h ∈ es := by
  induction es with
  | nil => simp [announced]
  | cons e es ih => cases e <;> simp [announced, ih]

/-- Every disconnection that is to be handled is of a connection that is known by then. -/
def Known : List Nat → List Ev → Prop
  | _, [] => True
  | c, .connected h :: es => Known (c ++ [h]) es
  | c, .disconnected h :: es => h ∈ c ∧ Known (c.erase h) es
  | c, .answer _ :: es => Known c es

theorem known_append (c : List Nat) (a b : List Ev) : Known c (a ++ b) ↔ Known c a ∧ Known (after c a) b := by
  induction a generalizing c with
  | nil => simp [Known, after]
  | cons e es ih => cases e <;> simp [Known, after, ih, and_assoc]

structure Books (s : Peripheral.St) (n : Nat) : Prop where
  used : s.used = n
  served : s.served ++ s.offering.toList ++ announced s.evq = List.range n
  up : after s.conns s.evq = s.up
  known : Known s.conns s.evq
  gone : ∀ h, (h ∈ s.gone ∨ Ev.disconnected h ∈ s.evq) ↔ (h < n ∧ h ∉ s.up)
  lt : ∀ h ∈ s.up, h < n
  nodup : s.up.Nodup
  answers : s.held.isSome = true → 1 ≤ s.cmds.length + (s.evq.filter fun e => match e with | .answer _ => true | _ => false).length

theorem erase_lt_nodup {l : List Nat} {h : Nat} (hn : l.Nodup) : h ∉ l.erase h := by
  rw [hn.mem_erase_iff]; simp

theorem books {as : List Peripheral.Act} {s : Peripheral.St} (h : Peripheral.run {} as = some s) :
    Books s (as.count .central) := by
  refine runT_ind (P := fun as s => Books s (as.count .central)) ?_ ?_ as s h
  · exact ⟨rfl, rfl, rfl, trivial, by simp, by simp, by simp, by simp⟩
  · intro es t e t' _ ih hs
    obtain ⟨h1, h2, h3, h4, h5, h6, h7, h8⟩ := ih
    rw [List.count_append]
    cases e with
    | central =>
      simp only [step] at hs
      split at hs <;> simp only [Option.some.injEq, reduceCtorEq] at hs
      subst hs
      have hc : List.count Peripheral.Act.central [Peripheral.Act.central] = 1 := by decide
      rw [hc]
      refine ⟨by simp [h1], ?_, ?_, ?_, ?_, ?_, ?_, ?_⟩
      · simp [announced_append, announced, List.range_succ, ← h2, h1]
      · simp [after_append, after, h3]
      · simp [known_append, known_append, h4, Known]
      · intro h
        have := h5 h
        simp only [List.mem_append, List.mem_singleton, reduceCtorEq, or_false]
        rw [this]
        grind
      · grind
      · rw [List.nodup_append]; grind
      · intro hh; have := h8 hh; simp only [List.filter_append, List.length_append] ; omega
    | drop x =>
      simp only [step] at hs
      split at hs <;> simp only [Option.some.injEq, reduceCtorEq] at hs
      rename_i hx
      subst hs
      have hc : List.count Peripheral.Act.central [Peripheral.Act.drop x] = 0 := by simp
      rw [hc, Nat.add_zero]
      refine ⟨h1, ?_, ?_, ?_, ?_, ?_, ?_, ?_⟩
      · simp [announced_append, announced, ← h2]
      · simp [after_append, after, h3]
      · simp [known_append, h4, Known, h3, hx]
      · intro h
        have := h5 h
        simp only [List.mem_append, List.mem_singleton, Ev.disconnected.injEq]
        rw [h7.mem_erase_iff]
        grind
      · intro y hy; exact h6 y (List.mem_of_mem_erase hy)
      · exact h7.erase x
      · intro hh; have := h8 hh; simp only [List.filter_append, List.length_append] ; omega
    | event =>
      have hc : List.count Peripheral.Act.central [Peripheral.Act.event] = 0 := by decide
      rw [hc, Nat.add_zero]
      simp only [step] at hs
      split at hs <;> simp only [Option.some.injEq, reduceCtorEq] at hs
      rename_i e es ho he
      rw [he] at h2 h3 h4 h5 h8
      rw [ho] at h2
      cases e with
      | connected x =>
        simp only [handle] at hs
        subst hs
        refine ⟨h1, ?_, ?_, ?_, ?_, h6, h7, ?_⟩
        · simpa [announced] using h2
        · simpa [after] using h3
        · simpa [Known] using h4
        · intro h; simpa using h5 h
        · intro hh; simpa using h8 hh
      | disconnected x =>
        simp only [handle] at hs
        have hx : x ∈ t.conns := h4.1
        rw [if_pos hx] at hs
        subst hs
        refine ⟨h1, ?_, ?_, ?_, ?_, h6, h7, ?_⟩
        · simpa [announced, ho] using h2
        · simpa [after] using h3
        · exact h4.2
        · intro h
          have := h5 h
          simp only [List.mem_append, List.mem_singleton, List.mem_cons, Ev.disconnected.injEq] at this ⊢
          grind
        · intro hh; simpa using h8 hh
      | answer ok =>
        simp only [handle] at hs
        split at hs <;> subst hs <;> refine ⟨h1, ?_, ?_, ?_, ?_, h6, h7, ?_⟩
        all_goals first
          | (simpa [announced, ho] using h2)
          | (simpa [after] using h3)
          | (simpa [Known] using h4)
          | (intro h; simpa using h5 h)
          | simp_all
    | accept =>
      have hc : List.count Peripheral.Act.central [Peripheral.Act.accept] = 0 := by decide
      rw [hc, Nat.add_zero]
      simp only [step] at hs
      (repeat' split at hs) <;> simp only [Option.some.injEq, reduceCtorEq] at hs <;> subst hs <;>
        exact ⟨h1, by simp_all, h3, h4, h5, h6, h7, h8⟩
    | exec r =>
      have hc : List.count Peripheral.Act.central [Peripheral.Act.exec r] = 0 := by simp
      rw [hc, Nat.add_zero]
      simp only [step] at hs
      (repeat' split at hs) <;> simp only [Option.some.injEq, reduceCtorEq] at hs <;> subst hs <;>
        refine ⟨h1, ?_, ?_, ?_, ?_, h6, h7, ?_⟩
      all_goals first
        | (simp [announced_append, announced, ← h2]; done)
        | (simp [after_append, after, h3]; done)
        | (simp [known_append, h4, Known]; done)
        | (intro h; simpa using h5 h)
        | (intro hh; simp; omega)
    | _ =>
      have hc : ∀ a : Peripheral.Act, a ≠ .central → List.count Peripheral.Act.central [a] = 0 := by
        intro a ha; simp [ha]
      rw [hc _ (by simp), Nat.add_zero]
      simp only [step] at hs
      (repeat' split at hs) <;> simp only [Option.some.injEq, reduceCtorEq] at hs <;> subst hs <;>
        exact ⟨h1, h2, h3, h4, h5, h6, h7, by simp_all <;> omega⟩

end PeriAux

/-- **C102 (partial, safety).** After any history, once nothing is on its way: the centrals that connected have all got an ATT server, each
exactly once and in the order in which they connected; the stack's table of connections is that of the controller; and the connections
that were closed for the application are exactly those that ended. What is missing is that something is always on its way for a bounded
time only: with `OptListenerTimeout` it is not so, see `listener_timeout_freezes`; without, see `quiesces`. -/
theorem every_central_served_partial (as : List Peripheral.Act) (s : Peripheral.St) (h : Peripheral.run {} as = some s) (hq : Quiet s) :
    s.served = List.range (as.count .central) ∧ s.conns = s.up ∧
    ∀ h, h ∈ s.gone ↔ h < as.count .central ∧ h ∉ s.up := by
  have hb := books h
  refine ⟨?_, ?_, ?_⟩
  · simpa [hq.evq, hq.offering, announced] using hb.served
  · simpa [hq.evq, after] using hb.up
  · intro x; simpa [hq.evq] using hb.gone x

/-- Also before: no connection is served twice, none that the controller did not report, and they are served in order. -/
theorem served_in_order (as : List Peripheral.Act) (s : Peripheral.St) (h : Peripheral.run {} as = some s) :
    s.served <+: List.range (as.count .central) := by
  have hb := (books h).served
  rw [List.append_assoc] at hb
  exact ⟨_, hb⟩

namespace PeriAux

def weight : Ev → Nat
  | .connected _ => 10
  | .disconnected _ => 1
  | .answer _ => 1

def work (s : Peripheral.St) : Nat :=
  3 * s.pend.length + 2 * s.cmds.length + (s.evq.map weight).sum + (if s.offering.isSome then 9 else 0)

theorem work_step (s : Peripheral.St) (hacc : s.accepting = true)
    (hans : s.held.isSome = true → 1 ≤ s.cmds.length + (s.evq.filter fun e => match e with | .answer _ => true | _ => false).length)
    (hn : ¬ Quiet s) : ∃ a s', Internal a ∧ a ≠ .exec true ∧ step s a = some s' ∧ work s' < work s ∧ s'.accepting = true ∧ s'.field = s.field := by
  cases ho : s.offering with
  | some x =>
    refine ⟨.accept, { s with offering := none, served := s.served ++ [x], pend := if s.field then s.pend ++ [.reenable] else s.pend },
      trivial, by simp, by simp [step, ho, hacc], ?_, hacc, rfl⟩
    simp only [work, ho]
    split <;> simp <;> omega
  | none =>
    cases he : s.evq with
    | cons e es =>
      refine ⟨.event, handle { s with evq := es } e, trivial, by simp, by simp [step, ho, he], ?_, ?_, ?_⟩
      · cases e <;> simp only [handle] <;> (try split) <;> simp [work, he, ho, weight] <;> omega
      · cases e <;> simp only [handle] <;> (try split) <;> exact hacc
      · cases e <;> simp only [handle] <;> (try split) <;> rfl
    | nil =>
      cases hc : s.cmds with
      | cons c cs =>
        cases c with
        | true =>
          refine ⟨.exec false, { s with cmds := cs, adv := true, evq := s.evq ++ [.answer true] }, trivial, by simp, by simp [step, hc], ?_, hacc, rfl⟩
          simp [work, hc, weight, he]; omega
        | false =>
          refine ⟨.exec false, { s with cmds := cs, adv := false, evq := s.evq ++ [.answer true] }, trivial, by simp, by simp [step, hc], ?_, hacc, rfl⟩
          simp [work, hc, weight, he]; omega
      | nil =>
        cases hh : s.held with
        | some w => simp [hh, hc, he] at hans
        | none =>
          cases hp : s.pend with
          | nil => exact absurd ⟨hp, hh, hc, he, ho⟩ hn
          | cons w ws =>
            refine ⟨.lock 0, { s with held := some w, pend := ws, cmds := s.cmds ++ [s.field] }, trivial, by simp, ?_, ?_, hacc, rfl⟩
            · simp [step, hh, hp]
            · simp [work, hp, hc]; omega

end PeriAux

/-- **C102 (liveness).** From every state that can be reached without a listener timeout, the program and the controller by themselves come
to rest. -/
theorem quiesces (as : List Peripheral.Act) (s : Peripheral.St) (h : Peripheral.run {} as = some s)
    (hl : Peripheral.Act.listenerTimeout ∉ as) :
    ∃ bs s', (∀ b ∈ bs, Internal b) ∧ Peripheral.run s bs = some s' ∧ Quiet s' := by
  have hacc : s.accepting = true := by
    refine runT_ind (P := fun as s => Peripheral.Act.listenerTimeout ∉ as → s.accepting = true) (fun _ => rfl) ?_ as s h hl
    intro es t e t' _ ih hs hn
    have g := ih fun h => hn (by simp [h])
    have hne : e ≠ .listenerTimeout := fun h => hn (by simp [h])
    clear hn
    cases e <;> simp only [step, handle] at hs <;> (repeat' split at hs) <;> simp only [Option.some.injEq, reduceCtorEq] at hs <;> subst hs <;> simp_all
  clear hl
  generalize hw : PeriAux.work s = w
  induction w using Nat.strongRecOn generalizing s as with
  | ind w ih =>
    by_cases hq : Quiet s
    · exact ⟨[], s, by simp, rfl, hq⟩
    · obtain ⟨a, s', hi, -, hs, hlt, hacc', -⟩ := PeriAux.work_step s hacc (PeriAux.books h).answers hq
      obtain ⟨bs, s'', hb, hr, hq'⟩ := ih _ (hw ▸ hlt) (as ++ [a]) s' (runT_snoc.2 ⟨s, h, hs⟩) hacc' rfl
      refine ⟨a :: bs, s'', ?_, ?_, hq'⟩
      · intro b hb'
        rcases List.mem_cons.1 hb' with rfl | hb'
        · exact hi
        · exact hb b hb'
      · simp only [runT, hs]; exact hr

/-- No internal step is possible for ever: each run of internal steps is at most as long as the work that is left. -/
theorem internal_runs_bounded (s : Peripheral.St) (bs : List Peripheral.Act) (s' : Peripheral.St) (hb : ∀ b ∈ bs, Internal b)
    (hr : Peripheral.run s bs = some s') : bs.length + PeriAux.work s' ≤ PeriAux.work s := by
  refine runT_ind (step := step) (s0 := s) (P := fun bs s' => (∀ b ∈ bs, Internal b) → bs.length + PeriAux.work s' ≤ PeriAux.work s) (by simp) ?_ bs s' hr hb
  intro es t e t' _ ih hs hi
  have g := ih fun b hb => hi b (by simp [hb])
  have hie : Internal e := hi e (by simp)
  have : PeriAux.work t' + 1 ≤ PeriAux.work t := by
    clear g ih hi
    cases e with
    | lock i =>
      simp only [step] at hs
      split at hs <;> simp only [Option.some.injEq, reduceCtorEq] at hs
      rename_i w _ hw
      subst hs
      have hi := (List.getElem?_eq_some_iff.1 hw).1
      simp only [PeriAux.work, List.length_eraseIdx, hi, if_true, List.length_append, List.length_singleton]
      omega
    | exec r =>
      simp only [step] at hs
      split at hs <;> simp only [Option.some.injEq, reduceCtorEq] at hs <;> subst hs <;>
        simp_all [PeriAux.work, PeriAux.weight] <;> omega
    | event =>
      simp only [step] at hs
      split at hs <;> simp only [Option.some.injEq, reduceCtorEq] at hs
      rename_i e es ho he
      subst hs
      cases e <;> simp only [handle] <;> (try split) <;> simp [PeriAux.work, he, ho, PeriAux.weight] <;> omega
    | accept =>
      simp only [step] at hs
      (repeat' split at hs) <;> simp only [Option.some.injEq, reduceCtorEq] at hs <;> subst hs <;> simp_all [PeriAux.work] <;> omega
    | _ => simp [Internal] at hie
  simp only [List.length_append, List.length_singleton]
  omega

/-- **C100 and C102 together.** After any history without a refusal and without a listener timeout, whose last call was `Advertise`: by
themselves the program and the controller come to rest, and then the controller advertises and every central that connected has been served. -/
theorem advertising_resumes (as : List Peripheral.Act) (s : Peripheral.St) (h : Peripheral.run {} as = some s)
    (hr : Peripheral.Act.exec true ∉ as) (hl : Peripheral.Act.listenerTimeout ∉ as) (hc : lastCall as = some true) :
    ∃ bs s', (∀ b ∈ bs, Internal b) ∧ Peripheral.run s bs = some s' ∧ s'.adv = true ∧
      s'.served = List.range (as.count .central) ∧ s'.conns = s'.up := by
  obtain ⟨bs, s', hb, hrun, hq⟩ := quiesces as s h hl
  have hall : Peripheral.run {} (as ++ bs) = some s' := runT_append.2 ⟨s, h, hrun⟩
  have hcnt : bs.count .central = 0 := by
    rw [List.count_eq_zero]; intro hm; simpa [Internal] using hb _ hm
  have hcall : lastCall (as ++ bs) = some true := by
    have : (bs.filterMap fun a : Peripheral.Act => match a with
      | .advertise => some true
      | .stop => some false
      | _ => none) = [] := by
      rw [List.filterMap_eq_nil_iff]
      intro a ha
      have := hb a ha
      cases a <;> simp_all [Internal]
    unfold lastCall at hc ⊢
    rw [List.filterMap_append, this, List.append_nil]
    exact hc
  have hr' : Peripheral.Act.exec true ∉ as ++ bs := by
    rw [List.mem_append]
    rintro (h | h)
    · exact hr h
    · simpa [Internal] using hb _ h
  have h2 := every_central_served_partial _ _ hall hq
  refine ⟨bs, s', hb, hrun, advertising_goes_on_partial _ _ hall hr' hq hcall, ?_, h2.2.1⟩
  rw [h2.1, List.count_append, hcnt, Nat.add_zero]

/-- **C102: where it fails.** With `OptListenerTimeout`, once `Accept` has timed out, the accept loop is over. Advertising goes on, and the
next central that connects is never served; the event loop waits for ever to hand it over, so no event is handled any more: the
disconnections of other centrals are not noticed, and every command fails. -/
theorem listener_timeout_freezes (s : Peripheral.St) (hq : Quiet s) (hacc : s.accepting = false) (ha : s.adv = true) :
    ∃ s', Peripheral.run s [.central, .event] = some s' ∧ s'.up = s.up ++ [s.used] ∧
      ∀ bs s'', Peripheral.run s' bs = some s'' →
        s''.served = s.served ∧ s''.conns = s.conns ++ [s.used] ∧ s''.gone = s.gone ∧
        ∃ new, s''.results = s.results ++ new ∧ ∀ r ∈ new, r.2 = false := by
  obtain ⟨q1, q2, q3, q4, q5⟩ := hq
  refine ⟨{ s with
            adv := false, up := s.up ++ [s.used], used := s.used + 1, conns := s.conns ++ [s.used], offering := some s.used }, ?_, rfl, ?_⟩
  · simp [runT, step, handle, q4, q5, ha]
  · intro bs s'' hb
    have := runT_ind (step := step)
      (P := fun _ s'' => s''.accepting = false ∧ s''.offering = some s.used ∧
        (s''.served = s.served ∧ s''.conns = s.conns ++ [s.used] ∧ s''.gone = s.gone ∧
        ∃ new, s''.results = s.results ++ new ∧ ∀ r ∈ new, r.2 = false))
      (by exact ⟨hacc, rfl, rfl, rfl, rfl, [], by simp, by simp⟩)
      (by
        rintro es t e t' _ ⟨g1, g2, g3, g4, g5, new, g6, g7⟩ hst
        cases e <;> simp only [step, handle] at hst <;> (repeat' split at hst) <;> simp only [Option.some.injEq, reduceCtorEq] at hst <;>
          subst hst <;> first
            | exact ⟨g1, g2, g3, g4, g5, new, g6, g7⟩
            | (simp_all; done)
            | exact ⟨g1, g2, g3, g4, g5, new ++ [_], by rw [g6, List.append_assoc], by
                intro r hr; rcases List.mem_append.1 hr with hr | hr
                · exact g7 r hr
                · rw [List.mem_singleton.1 hr]⟩)
      bs s'' hb
    exact this.2.2

/-- Such states are reached: advertising, a listener timeout, two centrals, one of which leaves. -/
theorem example_frozen : ∃ s, Peripheral.run {} [.advertise, .lock 0, .exec false, .event, .central, .event, .accept, .lock 0, .exec false, .event,
      .listenerTimeout] = some s ∧ Quiet s ∧ s.accepting = false ∧ s.adv = true ∧ s.served = [0] ∧ s.up = [0] :=
  ⟨_, rfl, ⟨rfl, rfl, rfl, rfl, rfl⟩, rfl, rfl, rfl, rfl⟩

/-- Three centrals; one of them leaves before it is handed over. -/
theorem example_served : ∃ s, Peripheral.run {} [.advertise, .lock 0, .exec false, .event, .central, .event, .accept, .lock 0, .exec false, .central,
      .event, .drop 1, .event, .accept, .event, .lock 0, .exec false, .event, .central, .event, .accept, .lock 0, .exec false, .event] = some s ∧
      Quiet s ∧ s.adv = true ∧ s.served = [0, 1, 2] ∧ s.conns = [0, 2] ∧ s.gone = [1] :=
  ⟨_, rfl, ⟨rfl, rfl, rfl, rfl, rfl⟩, rfl, rfl, rfl, rfl⟩

/-- A late answer does no harm to C101: `StopAdvertising` overtakes the re-enabling of the event loop. -/
theorem example_stop : ∃ s0 s, Peripheral.run {} [.advertise, .lock 0, .exec false, .event, .central, .event, .accept] = some s0 ∧
      Peripheral.run s0 [.stop, .lock 1, .exec false, .event, .lock 0, .exec false, .event] = some s ∧
      (Who.stop s0.calls, true) ∈ s.results ∧ s.adv = false ∧ s.cmds = [] :=
  ⟨_, _, rfl, rfl, by decide, rfl, rfl⟩

end Ble.Props
