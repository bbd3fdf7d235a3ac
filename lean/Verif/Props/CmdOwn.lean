import Verif.Hci.CmdOwn
import Verif.Props.Cmd
import Verif.Props.CmdEnc
set_option autoImplicit false

/-!
# Whose answer a command gets (C176), and the RSSI of a connection (C177)
-/

namespace Ble.Props

open Ble.Cmd Ble.CmdOwn CmdFlow

namespace CmdOwnAux

/-- The command of the call has been written. -/
def Written : Phase → Prop
  | .want | .locked | .ready => False
  | _ => True

theorem key_ordinary {oc : Nat} (h : Ordinary oc) : key oc = oc := by
  unfold key; rw [Nat.shiftRight_eq_div_pow]; exact if_neg h.2.1

theorem key_eq {oc oc' : Nat} (h : Ordinary oc) (hk : key oc' = oc) : oc' = oc := by
  unfold key at hk
  split at hk
  · exact absurd hk.symm h.2.2
  · exact hk

/-- Forward: a step of the host keeps calls, their opcodes, what was written and what was returned. -/
theorem adv {s s' : St} {a : Act} (hs : step s a = some s') {j oc : Nat} {ph : Phase} (hj : s.callers[j]? = some (oc, ph)) :
    ∃ ph', s'.callers[j]? = some (oc, ph') ∧ (Written ph → Written ph') ∧ (∀ r, ph = .done r → ph' = .done r) ∧ (ph = .timedOut → ph' = .timedOut ∨ ph' = .done none) := by
  have same : ∀ {cs : List (Nat × Phase)}, cs[j]? = s.callers[j]? → ∃ ph', cs[j]? = some (oc, ph') ∧ (Written ph → Written ph') ∧ (∀ r, ph = .done r → ph' = .done r) ∧ (ph = .timedOut → ph' = .timedOut ∨ ph' = .done none) :=
    fun h => ⟨ph, by rw [h, hj], id, fun _ h => h, .inl⟩
  have move : ∀ (i : Nat) (oci : Nat) (q p : Phase), s.callers[i]? = some (oci, q) → (Written q → Written p) → (∀ r, q ≠ .done r) → (q = .timedOut → p = .done none) →
      ∃ ph', (setPhase s i p)[j]? = some (oc, ph') ∧ (Written ph → Written ph') ∧ (∀ r, ph = .done r → ph' = .done r) ∧ (ph = .timedOut → ph' = .timedOut ∨ ph' = .done none) := by
    intro i oci q p hi hw hd ht
    by_cases hji : j = i
    · subst hji
      rw [hj] at hi
      injection hi with hi; injection hi with h1 h2
      subst h1; subst h2
      exact ⟨p, get_set_same hj, hw, fun r hr => absurd hr (hd r), fun h => .inr (ht h)⟩
    · exact same (get_set_other hji)
  cases a with
  | call oc' =>
    simp only [step, Option.some.injEq] at hs; subst hs
    apply same
    rw [List.getElem?_append_left]
    exact (List.getElem?_eq_some_iff.1 hj).1
  | lock i =>
    simp only [step] at hs
    split at hs
    · rename_i oci hi
      split at hs
      · simp only [Option.some.injEq] at hs; subst hs
        exact move i oci _ _ hi (by simp [Written]) (by simp) (by simp)
      · simp at hs
    · simp at hs
  | getBuf i =>
    simp only [step] at hs
    split at hs
    · rename_i oci hi
      split at hs
      · simp only [Option.some.injEq] at hs; subst hs
        exact move i oci _ _ hi (by simp [Written]) (by simp) (by simp)
      · simp at hs
    · simp at hs
  | noBuf i =>
    simp only [step] at hs
    split at hs
    · rename_i oci hi
      simp only [Option.some.injEq] at hs; subst hs
      exact move i oci _ _ hi (by simp [Written]) (by simp) (by simp)
    · simp at hs
  | write i =>
    simp only [step] at hs
    split at hs
    · rename_i oci hi
      simp only [Option.some.injEq] at hs; subst hs
      exact move i oci _ _ hi (by simp [Written]) (by simp) (by simp)
    · simp at hs
  | timeout i =>
    simp only [step] at hs
    split at hs
    · rename_i oci hi
      simp only [Option.some.injEq] at hs; subst hs
      exact move i oci _ _ hi (by simp [Written]) (by simp) (by simp)
    · simp at hs
  | finish i =>
    simp only [step] at hs
    split at hs
    · rename_i oci hi
      simp only [Option.some.injEq] at hs; subst hs
      exact move i oci _ _ hi (by simp [Written]) (by simp) (by simp)
    · rename_i oci ps k hi
      simp only [Option.some.injEq] at hs; subst hs
      exact move i oci _ _ hi (by simp [Written]) (by simp) (by simp)
    · simp at hs
  | raise e => simp only [step, Option.some.injEq] at hs; subst hs; exact same rfl
  | handle =>
    simp only [step] at hs
    split at hs
    · simp only [Option.some.injEq] at hs; subst hs; exact same rfl
    · simp at hs
  | deliver =>
    simp only [step] at hs
    split at hs
    · rename_i i ps k hh
      split at hs
      · rename_i oci hi
        simp only [Option.some.injEq] at hs; subst hs
        exact move i oci _ _ hi (by simp [Written]) (by simp) (by simp)
      · simp at hs
    · simp at hs

/-- Backward: where the phase of a call comes from. -/
theorem back {s s' : St} {a : Act} (hs : step s a = some s') {j oc : Nat} {ph : Phase} (hj : s'.callers[j]? = some (oc, ph)) :
    s.callers[j]? = some (oc, ph) ∨ (∃ oc', a = .call oc' ∧ ph = .want ∧ j = s.callers.length) ∨ (s.callers[j]? = some (oc, .want) ∧ ph = .locked) ∨ (s.callers[j]? = some (oc, .locked) ∧ (ph = .ready ∨ ph = .done none)) ∨
    (s.callers[j]? = some (oc, .ready) ∧ ph = .waiting ∧ a = .write j) ∨ (s.callers[j]? = some (oc, .waiting) ∧ ph = .timedOut) ∨ (s.callers[j]? = some (oc, .timedOut) ∧ ph = .done none) ∨
    (∃ ps k, s.callers[j]? = some (oc, .got ps k) ∧ ph = .done (some (ps, k))) ∨ (∃ ps k, s.callers[j]? = some (oc, .waiting) ∧ ph = .got ps k ∧ s.handler = some (j, ps, k) ∧ a = .deliver) := by
  have move : ∀ (i : Nat) (oci : Nat) (q p : Phase), s.callers[i]? = some (oci, q) → (setPhase s i p)[j]? = some (oc, ph) → (s.callers[j]? = some (oc, ph)) ∨ (j = i ∧ s.callers[j]? = some (oc, q) ∧ ph = p) := by
    intro i oci q p hi h
    by_cases hji : j = i
    · subst hji
      rw [get_set_same hi] at h
      injection h with h; injection h with h1 h2
      subst h1; subst h2
      exact .inr ⟨rfl, hi, rfl⟩
    · rw [get_set_other hji] at h; exact .inl h
  cases a with
  | call oc' =>
    simp only [step, Option.some.injEq] at hs; subst hs
    simp only at hj
    rw [List.getElem?_append] at hj
    split at hj
    · exact .inl hj
    · rename_i hge
      have : j - s.callers.length = 0 := by
        rcases Nat.eq_zero_or_pos (j - s.callers.length) with h0 | h0
        · exact h0
        · rw [List.getElem?_eq_none (by simp; omega)] at hj; cases hj
      rw [this] at hj
      simp only [List.getElem?_cons_zero, Option.some.injEq, Prod.mk.injEq] at hj
      exact .inr (.inl ⟨oc', rfl, hj.2.symm, by omega⟩)
  | lock i =>
    simp only [step] at hs
    split at hs
    · rename_i oci hi
      split at hs
      · simp only [Option.some.injEq] at hs; subst hs
        rcases move i oci _ _ hi hj with h | ⟨_, h, h2⟩
        · exact .inl h
        · exact .inr (.inr (.inl ⟨h, h2⟩))
      · simp at hs
    · simp at hs
  | getBuf i =>
    simp only [step] at hs
    split at hs
    · rename_i oci hi
      split at hs
      · simp only [Option.some.injEq] at hs; subst hs
        rcases move i oci _ _ hi hj with h | ⟨_, h, h2⟩
        · exact .inl h
        · exact .inr (.inr (.inr (.inl ⟨h, .inl h2⟩)))
      · simp at hs
    · simp at hs
  | noBuf i =>
    simp only [step] at hs
    split at hs
    · rename_i oci hi
      simp only [Option.some.injEq] at hs; subst hs
      rcases move i oci _ _ hi hj with h | ⟨_, h, h2⟩
      · exact .inl h
      · exact .inr (.inr (.inr (.inl ⟨h, .inr h2⟩)))
    · simp at hs
  | write i =>
    simp only [step] at hs
    split at hs
    · rename_i oci hi
      simp only [Option.some.injEq] at hs; subst hs
      rcases move i oci _ _ hi hj with h | ⟨h0, h, h2⟩
      · exact .inl h
      · exact .inr (.inr (.inr (.inr (.inl ⟨h, h2, by rw [h0]⟩))))
    · simp at hs
  | timeout i =>
    simp only [step] at hs
    split at hs
    · rename_i oci hi
      simp only [Option.some.injEq] at hs; subst hs
      rcases move i oci _ _ hi hj with h | ⟨h0, h, h2⟩
      · exact .inl h
      · exact .inr (.inr (.inr (.inr (.inr (.inl ⟨h, h2⟩)))))
    · simp at hs
  | finish i =>
    simp only [step] at hs
    split at hs
    · rename_i oci hi
      simp only [Option.some.injEq] at hs; subst hs
      rcases move i oci _ _ hi hj with h | ⟨h0, h, h2⟩
      · exact .inl h
      · exact .inr (.inr (.inr (.inr (.inr (.inr (.inl ⟨h, h2⟩))))))
    · rename_i oci ps k hi
      simp only [Option.some.injEq] at hs; subst hs
      rcases move i oci _ _ hi hj with h | ⟨h0, h, h2⟩
      · exact .inl h
      · exact .inr (.inr (.inr (.inr (.inr (.inr (.inr (.inl ⟨ps, k, h, h2⟩)))))))
    · simp at hs
  | raise e => simp only [step, Option.some.injEq] at hs; subst hs; exact .inl hj
  | handle =>
    simp only [step] at hs
    split at hs
    · simp only [Option.some.injEq] at hs; subst hs; exact .inl hj
    · simp at hs
  | deliver =>
    simp only [step] at hs
    split at hs
    · rename_i i ps k hh
      split at hs
      · rename_i oci hi
        simp only [Option.some.injEq] at hs; subst hs
        rcases move i oci _ _ hi hj with h | ⟨h0, h, h2⟩
        · exact .inl h
        · exact .inr (.inr (.inr (.inr (.inr (.inr (.inr (.inr ⟨ps, k, h, h2, by rw [hh, h0], rfl⟩)))))))
      · simp at hs
    · simp at hs

/-- The event queue and the event loop in a step of the host other than `raise`. -/
theorem loop {s s' : St} {a : Act} (hs : step s a = some s') (hr : ∀ e, a ≠ .raise e) :
    (s'.evq = s.evq ∧ s'.handled = s.handled ∧ (s'.handler = s.handler ∨ s'.handler = none) ∧ a ≠ .handle) ∨
    (∃ e es, a = .handle ∧ s.evq = e :: es ∧ s'.evq = es ∧ s'.handled = s.handled ++ [e] ∧ s.handler = none ∧ s'.callers = s.callers ∧
      ∀ i ps k, s'.handler = some (i, ps, k) → k = s.handled.length ∧ ∃ q, looks e = some (q, ps) ∧ s.sent q = some i) := by
  cases a with
  | call oc => simp only [step, Option.some.injEq] at hs; subst hs; exact .inl ⟨rfl, rfl, .inl rfl, by simp⟩
  | lock i =>
    simp only [step] at hs
    split at hs
    · split at hs
      · simp only [Option.some.injEq] at hs; subst hs; exact .inl ⟨rfl, rfl, .inl rfl, by simp⟩
      · simp at hs
    · simp at hs
  | getBuf i =>
    simp only [step] at hs
    split at hs
    · split at hs
      · simp only [Option.some.injEq] at hs; subst hs; exact .inl ⟨rfl, rfl, .inl rfl, by simp⟩
      · simp at hs
    · simp at hs
  | noBuf i =>
    simp only [step] at hs
    split at hs
    · simp only [Option.some.injEq] at hs; subst hs; exact .inl ⟨rfl, rfl, .inl rfl, by simp⟩
    · simp at hs
  | write i =>
    simp only [step] at hs
    split at hs
    · simp only [Option.some.injEq] at hs; subst hs; exact .inl ⟨rfl, rfl, .inl rfl, by simp⟩
    · simp at hs
  | timeout i =>
    simp only [step] at hs
    split at hs
    · simp only [Option.some.injEq] at hs; subst hs; exact .inl ⟨rfl, rfl, .inl rfl, by simp⟩
    · simp at hs
  | finish i =>
    simp only [step] at hs
    split at hs
    · simp only [Option.some.injEq] at hs; subst hs; exact .inl ⟨rfl, rfl, .inl rfl, by simp⟩
    · simp only [Option.some.injEq] at hs; subst hs; exact .inl ⟨rfl, rfl, .inl rfl, by simp⟩
    · simp at hs
  | raise e => exact absurd rfl (hr e)
  | handle =>
    simp only [step] at hs
    split at hs
    · rename_i e es hh he
      simp only [Option.some.injEq] at hs; subst hs
      refine .inr ⟨e, es, rfl, he, rfl, rfl, hh, rfl, ?_⟩
      intro i ps k h
      simp only [looks_eq] at h
      cases hl : looks e with
      | none => rw [hl] at h; simp at h
      | some qp =>
        obtain ⟨q, ps'⟩ := qp
        rw [hl] at h
        simp only [Option.map_eq_some_iff, Prod.mk.injEq] at h
        obtain ⟨i', h1, h2, h3, h4⟩ := h
        subst h2; subst h3
        exact ⟨h4.symm, q, rfl, h1⟩
    · simp at hs
  | deliver =>
    simp only [step] at hs
    split at hs
    · split at hs
      · simp only [Option.some.injEq] at hs; subst hs; exact .inl ⟨rfl, rfl, .inr rfl, by simp⟩
      · simp at hs
    · simp at hs

/-- Calls with answers on their way. -/
def coming (t : Sys) : List Nat := (t.tags.drop t.host.handled.length).filterMap id

theorem mem_coming {t : Sys} {j : Nat} : j ∈ coming t ↔ some j ∈ t.tags.drop t.host.handled.length := by simp [coming]

/-- Event `k` answers the command of call `i`, or that of a call with the same opcode that has returned. -/
def Rep (t : Sys) (i oc k : Nat) : Prop := ∃ j, t.tags[k]? = some (some j) ∧ (j = i ∨ ∃ r, t.host.callers[j]? = some (oc, .done r))

/-- No call with this opcode has failed. -/
def Clean (oc : Nat) (s : St) : Prop := ∀ (j : Nat) ph, s.callers[j]? = some (oc, ph) → ph ≠ .timedOut ∧ ph ≠ .done none

structure OInv (t : Sys) : Prop where
  inv : Inv t.host
  len : t.tags.length = t.host.handled.length + t.host.evq.length
  pend : ∀ j ∈ t.pend, ∃ oc ph, t.host.callers[j]? = some (oc, ph) ∧ Written ph
  tagged : ∀ (m : Nat) e j, t.host.evq[m]? = some e → t.tags[t.host.handled.length + m]? = some (some j) →
    ∃ oc ph ps, t.host.callers[j]? = some (oc, ph) ∧ Written ph ∧ Ordinary oc ∧ looks e = some (oc, ps)
  untagged : ∀ (m : Nat) e, t.host.evq[m]? = some e → t.tags[t.host.handled.length + m]? = some none → ∀ q ps, looks e = some (q, ps) → q = 0x3f
  nodup : (t.pend ++ coming t).Nodup
  handler : ∀ i ps k oc ph, t.host.handler = some (i, ps, k) → t.host.callers[i]? = some (oc, ph) → Ordinary oc →
    Rep t i oc k ∧ (t.tags[k]? = some (some i) → i ∉ t.pend ∧ i ∉ coming t)
  got : ∀ (i oc : Nat) ps k, t.host.callers[i]? = some (oc, .got ps k) → Ordinary oc → Rep t i oc k
  done : ∀ (i oc : Nat) ps k, t.host.callers[i]? = some (oc, .done (some (ps, k))) → Ordinary oc → Rep t i oc k

/-- As long as no call with the opcode has failed. -/
structure CInv (oc : Nat) (t : Sys) : Prop where
  pend : ∀ j ∈ t.pend, ∀ ph, t.host.callers[j]? = some (oc, ph) → ph = .waiting
  coming : ∀ j ∈ coming t, ∀ ph, t.host.callers[j]? = some (oc, ph) → ph = .waiting
  handler : ∀ i ps k ph, t.host.handler = some (i, ps, k) → t.host.callers[i]? = some (oc, ph) → t.tags[k]? = some (some i)
  got : ∀ (i : Nat) ps k, t.host.callers[i]? = some (oc, .got ps k) → t.tags[k]? = some (some i)
  done : ∀ (i : Nat) ps k, t.host.callers[i]? = some (oc, .done (some (ps, k))) → t.tags[k]? = some (some i)

theorem clean_back {oc : Nat} {s s' : St} {a : Act} (hs : step s a = some s') (h : Clean oc s') : Clean oc s := by
  intro j ph hj
  obtain ⟨ph', h1, _, h3, h4⟩ := adv hs hj
  have := h j ph' h1
  constructor
  · intro hp; rcases h4 hp with rfl | rfl
    · exact this.1 rfl
    · exact this.2 rfl
  · intro hp; exact this.2 (h3 _ hp)

theorem init_inv : OInv {} := by
  constructor
  · exact Inv_init
  all_goals simp [init, coming]

theorem tags_mono {tags : List (Option Nat)} {x : Option Nat} {k : Nat} {y : Option Nat} (h : tags[k]? = some y) : (tags ++ [x])[k]? = some y := by
  rw [List.getElem?_append_left (List.getElem?_eq_some_iff.1 h).1]; exact h

/-- A step of the host. `t'` has the new host; `pend'` differs in a write only. -/
theorem host_step {t : Sys} {a : Act} {s' : St} {pend' : List Nat} (h : OInv t) (hs : step t.host a = some s') (hr : ∀ e, a ≠ .raise e)
    (hp : (pend' = t.pend ∧ ∀ i, a ≠ .write i) ∨ ∃ i, a = .write i ∧ pend' = t.pend ++ [i]) : OInv { t with host := s', pend := pend' } := by
  have hinv : Inv s' := Inv_step h.inv hs
  have hrep : ∀ i oc k, Rep t i oc k → Rep { t with host := s', pend := pend' } i oc k := by
    rintro i oc k ⟨j, h1, h2⟩
    refine ⟨j, h1, h2.imp id ?_⟩
    rintro ⟨r, hr⟩
    obtain ⟨ph', g1, _, g3, _⟩ := adv hs hr
    exact ⟨r, by rw [g3 r rfl] at g1; exact g1⟩
  have hpend : ∀ j ∈ pend', ∃ oc ph, s'.callers[j]? = some (oc, ph) ∧ Written ph := by
    intro j hj
    have old : j ∈ t.pend → ∃ oc ph, s'.callers[j]? = some (oc, ph) ∧ Written ph := by
      intro hj
      obtain ⟨oc, ph, h1, h2⟩ := h.pend j hj
      obtain ⟨ph', g1, g2, _⟩ := adv hs h1
      exact ⟨oc, ph', g1, g2 h2⟩
    rcases hp with ⟨rfl, _⟩ | ⟨i, rfl, rfl⟩
    · exact old hj
    · rcases List.mem_append.1 hj with hj | hj
      · exact old hj
      · simp at hj; subst hj
        simp only [step] at hs
        split at hs
        · rename_i oci hi
          simp only [Option.some.injEq] at hs; subst hs
          exact ⟨oci, _, get_set_same hi, by simp [Written]⟩
        · simp at hs
  -- whoever is new in `pend` was ready
  have hnew : ∀ i, a = .write i → ∃ oc, t.host.callers[i]? = some (oc, .ready) := by
    rintro i rfl
    simp only [step] at hs
    split at hs
    · rename_i oci hi; exact ⟨oci, hi⟩
    · simp at hs
  have hsub : ∀ i, i ∈ pend' → i ∈ t.pend ∨ a = .write i := by
    intro i hi
    rcases hp with ⟨rfl, _⟩ | ⟨i', rfl, rfl⟩
    · exact .inl hi
    · rcases List.mem_append.1 hi with hi | hi
      · exact .inl hi
      · simp at hi; subst hi; exact .inr rfl
  have hcomingW : ∀ j ∈ coming t, ∃ oc ph, t.host.callers[j]? = some (oc, ph) ∧ Written ph := by
    intro j hj
    rw [mem_coming, List.mem_iff_getElem?] at hj
    obtain ⟨m, hm⟩ := hj
    rw [List.getElem?_drop] at hm
    have : m < t.host.evq.length := by
      have := (List.getElem?_eq_some_iff.1 hm).1
      have := h.len
      omega
    obtain ⟨oc, ph, _, h1, h2, _⟩ := h.tagged m _ j (List.getElem?_eq_getElem this) hm
    exact ⟨oc, ph, h1, h2⟩
  have hnd : ∀ c : List Nat, (t.pend ++ c).Nodup → (∀ j ∈ c, j ∈ coming t) → (pend' ++ c).Nodup := by
    intro c hc hcc
    rcases hp with ⟨rfl, _⟩ | ⟨i, hi, rfl⟩
    · exact hc
    · obtain ⟨oc, hi⟩ := hnew i hi
      have n1 : i ∉ t.pend := fun hm => by
        obtain ⟨_, ph, g1, g2⟩ := h.pend i hm
        rw [hi] at g1; injection g1 with g1; injection g1 with _ g1; subst g1; exact g2
      have n2 : i ∉ c := fun hm => by
        obtain ⟨_, ph, g1, g2⟩ := hcomingW i (hcc i hm)
        rw [hi] at g1; injection g1 with g1; injection g1 with _ g1; subst g1; exact g2
      rw [List.append_assoc]
      rw [List.nodup_append] at hc ⊢
      refine ⟨hc.1, by simp [n2, hc.2.1], ?_⟩
      intro x hx y hy
      rcases List.mem_append.1 hy with hy | hy
      · simp at hy; subst hy; intro hxy; subst hxy; exact n1 hx
      · exact hc.2.2 x hx y hy
  have hgot : ∀ (i oc : Nat) ps k, s'.callers[i]? = some (oc, .got ps k) → Ordinary oc → Rep { t with host := s', pend := pend' } i oc k := by
    intro i oc ps k hi ho
    rcases back hs hi with g | ⟨_, _, g, _⟩ | ⟨_, g⟩ | ⟨_, g | g⟩ | ⟨_, g, _⟩ | ⟨_, g⟩ | ⟨_, g⟩ | ⟨_, _, _, g⟩ | ⟨ps', k', g1, g2, g3, _⟩
    · exact hrep _ _ _ (h.got i oc ps k g ho)
    all_goals first | (simp at g; done) | skip
    injection g2 with g2 g4; subst g2; subst g4
    exact hrep _ _ _ (h.handler i _ _ oc _ g3 g1 ho).1
  have hdone : ∀ (i oc : Nat) ps k, s'.callers[i]? = some (oc, .done (some (ps, k))) → Ordinary oc → Rep { t with host := s', pend := pend' } i oc k := by
    intro i oc ps k hi ho
    rcases back hs hi with g | ⟨_, _, g, _⟩ | ⟨_, g⟩ | ⟨_, g | g⟩ | ⟨_, g, _⟩ | ⟨_, g⟩ | ⟨_, g⟩ | ⟨ps', k', g1, g2⟩ | ⟨_, _, _, g, _⟩
    · exact hrep _ _ _ (h.done i oc ps k g ho)
    all_goals first | (simp at g; done) | skip
    simp only [Phase.done.injEq, Option.some.injEq, Prod.mk.injEq] at g2
    obtain ⟨rfl, rfl⟩ := g2
    exact hrep _ _ _ (h.got i oc _ _ g1 ho)
  rcases loop hs hr with ⟨e1, e2, e3, e4⟩ | ⟨e, es, rfl, e1, e2, e3, e4, e5, e6⟩
  · have hcm : coming { t with host := s', pend := pend' } = coming t := by simp [coming, e2]
    refine ⟨hinv, ?_, hpend, ?_, ?_, ?_, ?_, hgot, hdone⟩
    · show t.tags.length = s'.handled.length + s'.evq.length
      rw [e1, e2]; exact h.len
    · intro m e j hm ht
      obtain ⟨oc, ph, ps, h1, h2, h3, h4⟩ := h.tagged m e j (e1 ▸ hm) (e2 ▸ ht)
      obtain ⟨ph', g1, g2, _⟩ := adv hs h1
      exact ⟨oc, ph', ps, g1, g2 h2, h3, h4⟩
    · intro m e hm ht
      exact h.untagged m e (e1 ▸ hm) (e2 ▸ ht)
    · rw [hcm]; exact hnd _ h.nodup (fun _ hj => hj)
    · intro i ps k oc ph hh hc ho
      have hh : t.host.handler = some (i, ps, k) := by
        rcases e3 with e3 | e3
        · exact e3 ▸ hh
        · simp only at hh; rw [e3] at hh; simp at hh
      obtain ⟨oci, phi, g1, g2, g3, g4, _⟩ := h.inv.handlerIs i ps k hh
      obtain ⟨ph', g5, _⟩ := adv hs g1
      simp only at hc
      rw [hc] at g5; injection g5 with g5; injection g5 with g5 g6; subst g5
      obtain ⟨r1, r2⟩ := h.handler i ps k oc phi hh g1 ho
      refine ⟨hrep _ _ _ r1, fun ht => ?_⟩
      obtain ⟨r3, r4⟩ := r2 ht
      refine ⟨fun hm => ?_, by rw [hcm]; exact r4⟩
      rcases hsub i hm with hm | hm
      · exact r3 hm
      · obtain ⟨oc', g7⟩ := hnew i hm
        rw [g1] at g7; injection g7 with g7; injection g7 with _ g7; exact g4 g7
  · have hpe : pend' = t.pend := by
      rcases hp with ⟨rfl, _⟩ | ⟨i, hi, _⟩
      · rfl
      · cases hi
    subst hpe
    have hlen := h.len
    rw [e1] at hlen
    have hlt : t.host.handled.length < t.tags.length := by rw [hlen]; simp
    have hdrop : t.tags.drop t.host.handled.length = t.tags[t.host.handled.length] :: t.tags.drop (t.host.handled.length + 1) := List.drop_eq_getElem_cons hlt
    have hcm : coming { t with host := s' } = (t.tags.drop (t.host.handled.length + 1)).filterMap id := by simp [coming, e3]
    have hcsub : ∀ j ∈ coming { t with host := s' }, j ∈ coming t := by
      intro j hj
      rw [hcm] at hj
      rw [mem_coming, hdrop]
      simp at hj
      exact List.mem_cons_of_mem _ hj
    have hnd2 : (t.pend ++ coming { t with host := s' }).Nodup := by
      have := h.nodup
      rw [List.nodup_append] at this ⊢
      refine ⟨this.1, ?_, fun x hx y hy => this.2.2 x hx y (hcsub y hy)⟩
      have h2 := this.2.1
      unfold coming at h2
      rw [hdrop, List.filterMap_cons] at h2
      rw [hcm]
      split at h2
      · exact h2
      · exact (List.nodup_cons.1 h2).2
    refine ⟨hinv, ?_, hpend, ?_, ?_, hnd2, ?_, hgot, hdone⟩
    · show t.tags.length = s'.handled.length + s'.evq.length
      rw [e2, e3, hlen]; simp; omega
    · intro m e' j hm ht
      simp only [e2] at hm
      simp only [e3, List.length_append, List.length_singleton] at ht
      have := h.tagged (m + 1) e' j (by rw [e1]; simpa using hm) (by rw [show t.host.handled.length + (m + 1) = t.host.handled.length + 1 + m by omega]; exact ht)
      simp only [e5]; exact this
    · intro m e' hm ht
      simp only [e2] at hm
      simp only [e3, List.length_append, List.length_singleton] at ht
      exact h.untagged (m + 1) e' (by rw [e1]; simpa using hm) (by rw [show t.host.handled.length + (m + 1) = t.host.handled.length + 1 + m by omega]; exact ht)
    · intro i ps k oc ph hh hc ho
      obtain ⟨hk, q, hl, hsent⟩ := e6 i ps k hh
      subst hk
      obtain ⟨oci, phi, g1, g2, _, g3⟩ := h.inv.sentIs q i hsent
      simp only [e5] at hc
      rw [hc] at g1; injection g1 with g1; injection g1 with g1 g4; subst g1; subst g4
      have hq : q = oc := by rw [← g2, key_ordinary ho]
      subst hq
      have hget := List.getElem?_eq_getElem hlt
      cases htag : t.tags[t.host.handled.length] with
      | none =>
        exfalso
        exact ho.2.2 (h.untagged 0 e (by rw [e1]; rfl) (by rw [Nat.add_zero, hget, htag]) q ps hl)
      | some j =>
        rw [htag] at hget
        obtain ⟨oc', ph', ps', k1, k2, k3, k4⟩ := h.tagged 0 e j (by rw [e1]; rfl) (by rw [Nat.add_zero, hget])
        rw [hl] at k4
        simp only [Option.some.injEq, Prod.mk.injEq] at k4
        obtain ⟨rfl, rfl⟩ := k4
        refine ⟨⟨j, hget, ?_⟩, fun ht => ?_⟩
        · have lock : InFlight ph' → j = i := by
            intro hf
            have l1 := h.inv.lockOf j q ph' k1 hf
            have l2 := h.inv.lockOf i q ph hc (by rcases g3 with rfl | rfl | ⟨_, _, rfl⟩ <;> trivial)
            rw [l1] at l2; simpa using l2
          cases ph' with
          | done r => exact .inr ⟨r, by simp only [e5]; exact k1⟩
          | want => exact absurd k2 id
          | _ => exact .inl (lock trivial)
        · simp only at ht
          rw [hget] at ht
          simp at ht
          subst ht
          have hnd := h.nodup
          unfold coming at hnd
          rw [hdrop, htag] at hnd
          simp only [List.filterMap_cons, id] at hnd
          rw [List.nodup_append] at hnd
          refine ⟨fun hm => hnd.2.2 j hm j (by simp) rfl, fun hm => ?_⟩
          rw [hcm] at hm
          exact (List.nodup_cons.1 hnd.2.1).1 hm

theorem coming_waiting_sub {t : Sys} {a : Act} {s' : St} {p : List Nat} (hs : step t.host a = some s') (hr : ∀ e, a ≠ .raise e) :
    ∀ j ∈ coming { t with host := s', pend := p }, j ∈ coming t := by
  intro j hj
  rw [mem_coming] at hj ⊢
  rcases loop hs hr with ⟨_, e2, _, _⟩ | ⟨e, es, rfl, e1, e2, e3, e4, e5, e6⟩
  · simp only [e2] at hj; exact hj
  · simp only [e3, List.length_append, List.length_singleton] at hj
    rw [← List.drop_drop] at hj
    exact List.mem_of_mem_drop hj

/-- Who is waiting with an ordinary opcode stays so in a clean step, unless it is the one to which the reply is handed. -/
theorem stay_waiting {oc : Nat} {s s' : St} {a : Act} (hs : step s a = some s') (hc : Clean oc s') {j : Nat} {ph ph' : Phase} (hj : s.callers[j]? = some (oc, ph)) (hw : ph = .waiting)
    (hj' : s'.callers[j]? = some (oc, ph')) : ph' = .waiting ∨ ∃ ps k, s.handler = some (j, ps, k) ∧ ph' = .got ps k := by
  subst hw
  rcases back hs hj' with g | ⟨_, _, _, g⟩ | ⟨g, _⟩ | ⟨g, _⟩ | ⟨g, _⟩ | ⟨_, g⟩ | ⟨g, _⟩ | ⟨_, _, g, _⟩ | ⟨ps, k, g1, g2, g3, _⟩
  · rw [hj] at g; injection g with g; injection g with _ g; exact .inl g.symm
  · subst g; rw [List.getElem?_eq_none (by omega)] at hj; simp at hj
  · rw [hj] at g; simp at g
  · rw [hj] at g; simp at g
  · rw [hj] at g; simp at g
  · subst g; exact absurd rfl (hc j _ hj').1
  · rw [hj] at g; simp at g
  · rw [hj] at g; simp at g
  · exact .inr ⟨ps, k, g3, g2⟩

theorem host_clean {oc : Nat} (ho : Ordinary oc) {t : Sys} {a : Act} {s' : St} {pend' : List Nat} (h : OInv t) (hc : CInv oc t) (hcl : Clean oc s') (hs : step t.host a = some s') (hr : ∀ e, a ≠ .raise e)
    (hp : (pend' = t.pend ∧ ∀ i, a ≠ .write i) ∨ ∃ i, a = .write i ∧ pend' = t.pend ++ [i]) : CInv oc { t with host := s', pend := pend' } := by
  have wait : ∀ j, (j ∈ t.pend ∨ j ∈ coming t) → ∀ ph', s'.callers[j]? = some (oc, ph') → ph' = .waiting := by
    intro j hj ph' hj'
    have hex : ∃ ph, t.host.callers[j]? = some (oc, ph) ∧ Written ph := by
      have hw : ∃ oc0 ph, t.host.callers[j]? = some (oc0, ph) ∧ Written ph := by
        rcases hj with hj | hj
        · exact h.pend j hj
        · rw [mem_coming, List.mem_iff_getElem?] at hj
          obtain ⟨m, hm⟩ := hj
          rw [List.getElem?_drop] at hm
          have : m < t.host.evq.length := by
            have := (List.getElem?_eq_some_iff.1 hm).1
            have := h.len
            omega
          obtain ⟨oc, ph, _, h1, h2, _⟩ := h.tagged m _ j (List.getElem?_eq_getElem this) hm
          exact ⟨oc, ph, h1, h2⟩
      obtain ⟨oc0, ph, h1, h2⟩ := hw
      obtain ⟨ph'', g1, _⟩ := adv hs h1
      rw [hj'] at g1; injection g1 with g1; injection g1 with g1 _; subst g1
      exact ⟨ph, h1, h2⟩
    obtain ⟨ph, h1, _⟩ := hex
    have hw : ph = .waiting := by
      rcases hj with hj | hj
      · exact hc.pend j hj ph h1
      · exact hc.coming j hj ph h1
    rcases stay_waiting hs hcl h1 hw hj' with g | ⟨ps, k, g1, _⟩
    · exact g
    · exfalso
      have := (h.handler j ps k oc ph g1 h1 ho).2 (hc.handler j ps k ph g1 h1)
      rcases hj with hj | hj
      · exact this.1 hj
      · exact this.2 hj
  refine ⟨?_, ?_, ?_, ?_, ?_⟩
  · intro j hj ph hjp
    have : j ∈ t.pend ∨ a = .write j := by
      rcases hp with ⟨rfl, _⟩ | ⟨i', rfl, rfl⟩
      · exact .inl hj
      · rcases List.mem_append.1 hj with hj | hj
        · exact .inl hj
        · simp at hj; subst hj; exact .inr rfl
    rcases this with hj | rfl
    · exact wait j (.inl hj) ph hjp
    · simp only [step] at hs
      split at hs
      · rename_i oci hi
        simp only [Option.some.injEq] at hs; subst hs
        simp only [get_set_same hi, Option.some.injEq, Prod.mk.injEq] at hjp
        exact hjp.2.symm
      · simp at hs
  · intro j hj ph hjp
    exact wait j (.inr (coming_waiting_sub hs hr j hj)) ph hjp
  · intro i ps k ph hh hi
    rcases loop hs hr with ⟨e1, e2, e3, e4⟩ | ⟨e, es, rfl, e1, e2, e3, e4, e5, e6⟩
    · have hh : t.host.handler = some (i, ps, k) := by
        rcases e3 with e3 | e3
        · exact e3 ▸ hh
        · simp only at hh; rw [e3] at hh; simp at hh
      obtain ⟨oci, phi, g1, _⟩ := h.inv.handlerIs i ps k hh
      obtain ⟨ph', g5, _⟩ := adv hs g1
      simp only at hi
      rw [hi] at g5; injection g5 with g5; injection g5 with g5 g6; subst g5
      exact hc.handler i ps k phi hh g1
    · obtain ⟨hk, q, hl, hsent⟩ := e6 i ps k hh
      subst hk
      obtain ⟨oci, phi, g1, g2, _, g3⟩ := h.inv.sentIs q i hsent
      simp only [e5] at hi
      rw [hi] at g1; injection g1 with g1; injection g1 with g1 g4; subst g1; subst g4
      have hq : q = oc := by rw [← g2, key_ordinary ho]
      subst hq
      have hlen := h.len
      rw [e1] at hlen
      have hlt : t.host.handled.length < t.tags.length := by rw [hlen]; simp
      have hget := List.getElem?_eq_getElem hlt
      have hdrop : t.tags.drop t.host.handled.length = t.tags[t.host.handled.length] :: t.tags.drop (t.host.handled.length + 1) := List.drop_eq_getElem_cons hlt
      cases htag : t.tags[t.host.handled.length] with
      | none =>
        exfalso
        exact ho.2.2 (h.untagged 0 e (by rw [e1]; rfl) (by rw [Nat.add_zero, hget, htag]) q ps hl)
      | some j =>
        rw [htag] at hget
        obtain ⟨oc', ph', ps', k1, k2, k3, k4⟩ := h.tagged 0 e j (by rw [e1]; rfl) (by rw [Nat.add_zero, hget])
        rw [hl] at k4
        simp only [Option.some.injEq, Prod.mk.injEq] at k4
        obtain ⟨rfl, rfl⟩ := k4
        have hjc : j ∈ coming t := by rw [mem_coming, hdrop, htag]; simp
        have hw := hc.coming j hjc ph' k1
        subst hw
        have l1 := h.inv.lockOf j q _ k1 trivial
        have l2 := h.inv.lockOf i q ph hi (by rcases g3 with rfl | rfl | ⟨_, _, rfl⟩ <;> trivial)
        rw [l1] at l2
        simp only [Option.some.injEq] at l2
        subst l2
        exact hget
  · intro i ps k hi
    rcases back hs hi with g | ⟨_, _, g, _⟩ | ⟨_, g⟩ | ⟨_, g | g⟩ | ⟨_, g, _⟩ | ⟨_, g⟩ | ⟨_, g⟩ | ⟨_, _, _, g⟩ | ⟨ps', k', g1, g2, g3, _⟩
    · exact hc.got i ps k g
    all_goals first | (simp at g; done) | skip
    injection g2 with g2 g4; subst g2; subst g4
    exact hc.handler i _ _ _ g3 g1
  · intro i ps k hi
    rcases back hs hi with g | ⟨_, _, g, _⟩ | ⟨_, g⟩ | ⟨_, g | g⟩ | ⟨_, g, _⟩ | ⟨_, g⟩ | ⟨_, g⟩ | ⟨ps', k', g1, g2⟩ | ⟨_, _, _, g, _⟩
    · exact hc.done i ps k g
    all_goals first | (simp at g; done) | skip
    simp only [Phase.done.injEq, Option.some.injEq, Prod.mk.injEq] at g2
    obtain ⟨rfl, rfl⟩ := g2
    exact hc.got i _ _ g1

theorem raise_eq {s s' : St} {e : Evt} (hs : step s (.raise e) = some s') :
    s'.callers = s.callers ∧ s'.evq = s.evq ++ [e] ∧ s'.handled = s.handled ∧ s'.handler = s.handler := by
  simp only [step, Option.some.injEq] at hs; subst hs; exact ⟨rfl, rfl, rfl, rfl⟩

/-- An event with a tag is raised. -/
theorem raise_step {t : Sys} {e : Evt} {s' : St} {x : Option Nat} {pend' : List Nat} (h : OInv t) (hs : step t.host (.raise e) = some s')
    (hx : (x = none ∧ pend' = t.pend ∧ ∀ q ps, looks e = some (q, ps) → q = 0x3f) ∨
      ∃ j oc ph ps, x = some j ∧ j ∈ t.pend ∧ pend' = t.pend.erase j ∧ t.host.callers[j]? = some (oc, ph) ∧ Ordinary oc ∧ looks e = some (oc, ps)) :
    OInv ⟨s', pend', t.tags ++ [x]⟩ ∧ (∀ oc, CInv oc t → CInv oc ⟨s', pend', t.tags ++ [x]⟩) := by
  obtain ⟨c1, c2, c3, c4⟩ := raise_eq hs
  have hnd0 := (List.nodup_append.1 h.nodup).1
  have hsub : ∀ j ∈ pend', j ∈ t.pend := by
    intro j hj
    rcases hx with ⟨_, rfl, _⟩ | ⟨_, _, _, _, _, _, rfl, _⟩
    · exact hj
    · exact List.mem_of_mem_erase hj
  have hdl : t.host.handled.length ≤ t.tags.length := by rw [h.len]; omega
  have hcm : coming ⟨s', pend', t.tags ++ [x]⟩ = coming t ++ x.toList := by
    unfold coming
    simp only [c3]
    rw [List.drop_append_of_le_length hdl, List.filterMap_append]
    cases x <;> simp
  have hnew : ∀ j ∈ coming ⟨s', pend', t.tags ++ [x]⟩, j ∈ coming t ∨ j ∈ t.pend := by
    intro j hj
    rw [hcm] at hj
    rcases List.mem_append.1 hj with hj | hj
    · exact .inl hj
    · rcases hx with ⟨rfl, _, _⟩ | ⟨j', _, _, _, rfl, g, _⟩
      · simp at hj
      · simp at hj; subst hj; exact .inr g
  have hrep : ∀ i oc k, Rep t i oc k → Rep ⟨s', pend', t.tags ++ [x]⟩ i oc k := by
    rintro i oc k ⟨j, h1, h2⟩
    exact ⟨j, tags_mono h1, by simp only [c1]; exact h2⟩
  -- positions of events
  have hpos : ∀ (m : Nat) e', (t.host.evq ++ [e])[m]? = some e' → t.host.evq[m]? = some e' ∨ m = t.host.evq.length ∧ e' = e := by
    intro m e' hm
    rw [List.getElem?_append] at hm
    split at hm
    · exact .inl hm
    · rename_i hge
      have : m - t.host.evq.length = 0 := by
        rcases Nat.eq_zero_or_pos (m - t.host.evq.length) with h0 | h0
        · exact h0
        · rw [List.getElem?_eq_none (by simp; omega)] at hm; cases hm
      rw [this] at hm
      simp at hm
      exact .inr ⟨by omega, hm.symm⟩
  have htag : ∀ (m : Nat) y, m < t.host.evq.length → (t.tags ++ [x])[t.host.handled.length + m]? = some y → t.tags[t.host.handled.length + m]? = some y := by
    intro m y hm hy
    rw [List.getElem?_append_left (by rw [h.len]; omega)] at hy
    exact hy
  have htagl : ∀ y, (t.tags ++ [x])[t.host.handled.length + t.host.evq.length]? = some y → y = x := by
    intro y hy
    rw [← h.len, List.getElem?_append_right (Nat.le_refl _)] at hy
    simp at hy; exact hy.symm
  refine ⟨⟨Inv_step h.inv hs, ?_, ?_, ?_, ?_, ?_, ?_, ?_, ?_⟩, ?_⟩
  · simp [c2, c3, h.len]; omega
  · intro j hj
    simp only [c1]
    exact h.pend j (hsub j hj)
  · intro m e' j hm ht
    simp only [c1, c2, c3] at hm ht ⊢
    rcases hpos m e' hm with g | ⟨g1, g2⟩
    · exact h.tagged m e' j g (htag m _ (List.getElem?_eq_some_iff.1 g).1 ht)
    · subst g1; subst g2
      have := htagl _ ht
      rcases hx with ⟨rfl, _⟩ | ⟨j', oc, ph, ps, rfl, k1, _, k2, k3, k4⟩
      · simp at this
      · simp at this; subst this
        obtain ⟨oc', ph', k5, k6⟩ := h.pend _ k1
        rw [k2] at k5; injection k5 with k5; injection k5 with k5 k7; subst k5; subst k7
        exact ⟨oc, ph, ps, k2, k6, k3, k4⟩
  · intro m e' hm ht
    simp only [c2, c3] at hm ht
    rcases hpos m e' hm with g | ⟨g1, g2⟩
    · exact h.untagged m e' g (htag m _ (List.getElem?_eq_some_iff.1 g).1 ht)
    · subst g1; subst g2
      have := htagl _ ht
      rcases hx with ⟨_, _, k⟩ | ⟨j', oc, ph, ps, rfl, _⟩
      · exact k
      · simp at this
  · rw [hcm]
    have hnd := h.nodup
    rw [List.nodup_append] at hnd
    rcases hx with ⟨rfl, rfl, _⟩ | ⟨j, _, _, _, rfl, k1, rfl, _⟩
    · simpa using h.nodup
    · simp only [Option.toList_some]
      rw [List.nodup_append]
      refine ⟨hnd.1.erase j, ?_, ?_⟩
      · rw [List.nodup_append]
        exact ⟨hnd.2.1, by simp, fun x hx y hy => by simp at hy; subst hy; exact fun hxy => hnd.2.2 y k1 x hx hxy.symm⟩
      · intro y hy z hz
        rcases List.mem_append.1 hz with hz | hz
        · exact hnd.2.2 y (List.mem_of_mem_erase hy) z hz
        · simp at hz; subst hz
          intro hyz; subst hyz
          exact (List.Nodup.not_mem_erase hnd.1) hy
  · intro i ps k oc ph hh hi ho
    simp only [c1, c4] at hh hi
    obtain ⟨r1, r2⟩ := h.handler i ps k oc ph hh hi ho
    refine ⟨hrep _ _ _ r1, fun ht => ?_⟩
    have hk : t.tags[k]? = some (some i) := by
      obtain ⟨j, hj, _⟩ := r1
      have := tags_mono (x := x) hj
      simp only at ht
      rw [this] at ht; rw [hj]; exact ht
    obtain ⟨r3, r4⟩ := r2 hk
    exact ⟨fun hm => r3 (hsub i hm), fun hm => (hnew i hm).elim r4 r3⟩
  · intro i oc ps k hi ho
    simp only [c1] at hi
    exact hrep _ _ _ (h.got i oc ps k hi ho)
  · intro i oc ps k hi ho
    simp only [c1] at hi
    exact hrep _ _ _ (h.done i oc ps k hi ho)
  · intro oc hc
    refine ⟨?_, ?_, ?_, ?_, ?_⟩
    · intro j hj ph hjp
      simp only [c1] at hjp
      exact hc.pend j (hsub j hj) ph hjp
    · intro j hj ph hjp
      simp only [c1] at hjp
      rcases hnew j hj with g | g
      · exact hc.coming j g ph hjp
      · exact hc.pend j g ph hjp
    · intro i ps k ph hh hi
      simp only [c1, c4] at hh hi
      exact tags_mono (hc.handler i ps k ph hh hi)
    · intro i ps k hi
      simp only [c1] at hi
      exact tags_mono (hc.got i ps k hi)
    · intro i ps k hi
      simp only [c1] at hi
      exact tags_mono (hc.done i ps k hi)

theorem looks_opcode {e : Evt} {oc : Nat} (ho : Ordinary oc) (h : e.opcode = some oc) : ∃ ps, looks e = some (oc, ps) := by
  cases e with
  | complete n o ps => simp [Evt.opcode] at h; subst h; exact ⟨ps, by simp [looks, evtEffect, ho.1]⟩
  | status n o st => simp [Evt.opcode] at h; subst h; exact ⟨[st], rfl⟩
  | vendor => simp [Evt.opcode] at h

theorem sys_step {t t' : Sys} {ev : Ev} (h : OInv t) (hs : sysStep t ev = some t') :
    OInv t' ∧ ∀ oc, Ordinary oc → (Clean oc t.host → CInv oc t) → Clean oc t'.host → CInv oc t' := by
  cases ev with
  | host a =>
    have main : ∀ {s'} {p : List Nat}, step t.host a = some s' → (∀ e, a ≠ .raise e) → ((p = t.pend ∧ ∀ i, a ≠ .write i) ∨ ∃ i, a = .write i ∧ p = t.pend ++ [i]) →
        OInv { t with host := s', pend := p } ∧ ∀ oc, Ordinary oc → (Clean oc t.host → CInv oc t) → Clean oc s' → CInv oc { t with host := s', pend := p } :=
      fun h1 h2 h3 => ⟨host_step h h1 h2 h3, fun oc ho hc hcl => host_clean ho h (hc (clean_back h1 hcl)) hcl h1 h2 h3⟩
    simp only [sysStep, hostStep] at hs
    split at hs
    · simp at hs
    · simp only [Option.map_eq_some_iff] at hs
      obtain ⟨s', h1, rfl⟩ := hs
      exact main h1 (by simp) (.inr ⟨_, rfl, rfl⟩)
    · rename_i hn1 hn2
      simp only [Option.map_eq_some_iff] at hs
      obtain ⟨s', h1, rfl⟩ := hs
      exact main (p := t.pend) h1 (fun e => hn1 e) (.inl ⟨rfl, fun i => hn2 i⟩)
  | answer j e =>
    simp only [sysStep] at hs
    split at hs
    · rename_i oc ph hj
      split at hs
      · rename_i hcond
        simp only [Option.map_eq_some_iff] at hs
        obtain ⟨s', h1, rfl⟩ := hs
        obtain ⟨ps, hl⟩ := looks_opcode hcond.2.1 hcond.2.2
        have := raise_step (x := some j) (pend' := t.pend.erase j) h h1 (.inr ⟨j, oc, ph, ps, rfl, hcond.1, rfl, hj, hcond.2.1, hl⟩)
        exact ⟨this.1, fun oc _ hc hcl => this.2 oc (hc (clean_back h1 hcl))⟩
      · simp at hs
    · simp at hs
  | event e =>
    simp only [sysStep] at hs
    split at hs
    · rename_i hcond
      simp only [Option.map_eq_some_iff] at hs
      obtain ⟨s', h1, rfl⟩ := hs
      have := raise_step (x := none) (pend' := t.pend) h h1 (.inl ⟨rfl, rfl, by
        intro q ps hq
        rcases hcond with rfl | ⟨_, hc⟩
        · simp [looks, evtEffect] at hq; exact hq.1.symm
        · unfold looks at hq; rw [hc] at hq; simp at hq⟩)
      exact ⟨this.1, fun oc _ hc hcl => this.2 oc (hc (clean_back h1 hcl))⟩
    · simp at hs

theorem sys_inv (es : List Ev) (t : Sys) (h : sysRun {} es = some t) : OInv t ∧ ∀ oc, Ordinary oc → Clean oc t.host → CInv oc t := by
  refine runT_ind (P := fun _ t => OInv t ∧ ∀ oc, Ordinary oc → Clean oc t.host → CInv oc t) ⟨init_inv, ?_⟩ ?_ es t h
  · intro oc _ _
    constructor <;> simp [init, coming]
  · intro es s e s' _ hp hs
    have := sys_step hp.1 hs
    exact ⟨this.1, fun oc ho hcl => this.2 oc ho (hp.2 oc ho) hcl⟩

/-- The tags tell which answers were raised. -/
theorem sys_tags (es : List Ev) (t : Sys) (h : sysRun {} es = some t) :
    t.tags.length = t.host.handled.length + t.host.evq.length ∧ ∀ (k j : Nat), t.tags[k]? = some (some j) → ∃ e, (t.host.handled ++ t.host.evq)[k]? = some e ∧ Ev.answer j e ∈ es := by
  refine runT_ind (P := fun es t => t.tags.length = t.host.handled.length + t.host.evq.length ∧
    ∀ (k j : Nat), t.tags[k]? = some (some j) → ∃ e, (t.host.handled ++ t.host.evq)[k]? = some e ∧ Ev.answer j e ∈ es) ⟨rfl, by simp⟩ ?_ es t h
  intro es s ev s' hrun hp hs
  obtain ⟨hlen, hp⟩ := hp
  have host : ∀ {a : Act} {s1 : St}, step s.host a = some s1 → (∀ e, a ≠ .raise e) → s1.handled ++ s1.evq = s.host.handled ++ s.host.evq := by
    intro a s1 h1 h2
    rcases loop h1 h2 with ⟨e1, e2, _⟩ | ⟨e, es, _, e1, e2, e3, _⟩
    · rw [e1, e2]
    · rw [e1, e2, e3]; simp
  have old : ∀ {x : Ev}, ∀ (k j : Nat), s.tags[k]? = some (some j) → ∃ e, (s.host.handled ++ s.host.evq)[k]? = some e ∧ Ev.answer j e ∈ es ++ [x] := by
    intro x k j hk
    obtain ⟨e, g1, g2⟩ := hp k j hk
    exact ⟨e, g1, by simp [g2]⟩
  have fin : ∀ {a : Act} {s1 : St} {p : List Nat}, step s.host a = some s1 → (∀ e, a ≠ .raise e) →
      s.tags.length = s1.handled.length + s1.evq.length ∧ ∀ (k j : Nat), s.tags[k]? = some (some j) → ∃ e, (s1.handled ++ s1.evq)[k]? = some e ∧ Ev.answer j e ∈ es ++ [ev] := by
    intro a s1 p h1 h2
    have := host h1 h2
    refine ⟨?_, fun k j hk => by rw [this]; exact old k j hk⟩
    have hl := congrArg List.length this
    simp only [List.length_append] at hl
    omega
  have app : ∀ {x : Option Nat} {e : Evt} {s1 : St}, step s.host (.raise e) = some s1 → (∀ j, x = some j → ev = .answer j e) →
      (s.tags ++ [x]).length = s1.handled.length + s1.evq.length ∧ ∀ (k j : Nat), (s.tags ++ [x])[k]? = some (some j) → ∃ e, (s1.handled ++ s1.evq)[k]? = some e ∧ Ev.answer j e ∈ es ++ [ev] := by
    intro x e s1 h1 hx
    obtain ⟨_, c2, c3, _⟩ := raise_eq h1
    rw [c2, c3]
    refine ⟨by simp; omega, ?_⟩
    intro k j hk
    rw [← List.append_assoc]
    by_cases hlt : k < s.tags.length
    · rw [List.getElem?_append_left hlt] at hk
      obtain ⟨e', g1, g2⟩ := old (x := ev) k j hk
      exact ⟨e', by rw [List.getElem?_append_left (by simp; omega)]; exact g1, g2⟩
    · rw [List.getElem?_append_right (by omega)] at hk
      have hk0 : k = s.tags.length := by
        have := (List.getElem?_eq_some_iff.1 hk).1
        simp at this; omega
      subst hk0
      simp at hk
      refine ⟨e, ?_, by rw [hx j hk]; simp⟩
      rw [List.getElem?_append_right (by simp; omega)]
      simp [hlen]
  cases ev with
  | host a =>
    simp only [sysStep, hostStep] at hs
    split at hs
    · simp at hs
    · simp only [Option.map_eq_some_iff] at hs
      obtain ⟨s1, h1, rfl⟩ := hs
      exact fin (p := []) h1 (by simp)
    · rename_i hn1 hn2
      simp only [Option.map_eq_some_iff] at hs
      obtain ⟨s1, h1, rfl⟩ := hs
      exact fin (p := []) h1 (fun e => hn1 e)
  | answer j e =>
    simp only [sysStep] at hs
    split at hs
    · split at hs
      · simp only [Option.map_eq_some_iff] at hs
        obtain ⟨s1, h1, rfl⟩ := hs
        exact app h1 (by intro j' hj'; simp at hj'; rw [hj'])
      · simp at hs
    · simp at hs
  | event e =>
    simp only [sysStep] at hs
    split at hs
    · simp only [Option.map_eq_some_iff] at hs
      obtain ⟨s1, h1, rfl⟩ := hs
      exact app h1 (by simp)
    · simp at hs

/-- The host of a run is a run of the host. -/
theorem sys_host (es : List Ev) (t : Sys) (h : sysRun {} es = some t) : Inv t.host := (sys_inv es t h).1.inv

theorem answers_of {es : List Ev} {t : Sys} (h : sysRun {} es = some t) {i oc : Nat} (ho : Ordinary oc) {ps : Bytes} {k : Nat} (hi : t.host.callers[i]? = some (oc, .done (some (ps, k)))) {j : Nat}
    (hj : t.tags[k]? = some (some j)) : ∃ e, Ev.answer j e ∈ es ∧ Answers oc ps e := by
  obtain ⟨e, g1, g2, _⟩ := (sys_host es t h).doneIs i oc ps k hi
  obtain ⟨e', g3, g4⟩ := (sys_tags es t h).2 k j hj
  rw [List.getElem?_append_left (List.getElem?_eq_some_iff.1 g1).1, g1] at g3
  injection g3 with g3
  subst g3
  refine ⟨e, g4, ?_⟩
  rw [key_ordinary ho] at g2
  cases e with
  | complete n o ps' =>
    simp only [looks, evtEffect] at g2
    split at g2
    · simp at g2
    · simp at g2; exact g2
  | status n o st => simp [looks, evtEffect] at g2; exact ⟨g2.1, g2.2.symm⟩
  | vendor => simp [looks, evtEffect] at g2; exact absurd g2.1.symm ho.2.2

end CmdOwnAux

open CmdOwnAux

/-- **C176.** With a controller that answers each command once, in any order and at any time: the reply that a call gets is the answer to its own command as long as no call with the same opcode has failed. Missing: after a failed (timed
out) call the next one with its opcode may get its answer (`late_reply_answers_next_call`). -/
theorem cmd_reply_own_partial (es : List Ev) (t : Sys) (h : sysRun {} es = some t) (i oc : Nat) (ho : Ordinary oc) (ps : Bytes) (k : Nat)
    (hok : ∀ (j : Nat) ph, t.host.callers[j]? = some (oc, ph) → ph ≠ .timedOut ∧ ph ≠ .done none) (hi : t.host.callers[i]? = some (oc, .done (some (ps, k)))) :
    ∃ e, Ev.answer i e ∈ es ∧ Answers oc ps e :=
  answers_of h ho hi (((sys_inv es t h).2 oc ho hok).done i ps k hi)

/-- **C176.** Always: the reply answers the command of this call, or that of a call with the same opcode that has returned before. -/
theorem cmd_reply_own_or_late (es : List Ev) (t : Sys) (h : sysRun {} es = some t) (i oc : Nat) (ho : Ordinary oc) (ps : Bytes) (k : Nat)
    (hi : t.host.callers[i]? = some (oc, .done (some (ps, k)))) :
    ∃ j e, Ev.answer j e ∈ es ∧ Answers oc ps e ∧ (j = i ∨ ∃ r, t.host.callers[j]? = some (oc, .done r)) := by
  obtain ⟨j, h1, h2⟩ := (sys_inv es t h).1.done i oc ps k hi ho
  obtain ⟨e, h3, h4⟩ := answers_of h ho hi h1
  exact ⟨j, e, h3, h4, h2⟩

/-- One command with its own answer, then another. -/
def twoCommands (oc : Nat) (p q : Bytes) : List Ev :=
  [.host (.call oc), .host (.lock 0), .host (.getBuf 0), .host (.write 0), .answer 0 (.complete 1 oc p), .host .handle, .host .deliver, .host (.finish 0),
   .host (.call oc), .host (.lock 1), .host (.getBuf 1), .host (.write 1), .answer 1 (.complete 1 oc q), .host .handle, .host .deliver, .host (.finish 1)]

/-- The first call times out, the controller allows one more command by an event of its own, and then answers the first command while the second waits. -/
def lateAnswer (oc : Nat) (p : Bytes) : List Ev :=
  [.host (.call oc), .host (.lock 0), .host (.getBuf 0), .host (.write 0), .host (.timeout 0), .host (.finish 0), .event (.complete 1 0 []), .host .handle,
   .host (.call oc), .host (.lock 1), .host (.getBuf 1), .host (.write 1), .answer 0 (.complete 1 oc p), .host .handle, .host .deliver, .host (.finish 1)]

/-- The hypotheses of `cmd_reply_own_partial` are met. -/
theorem example_own_replies (p q : Bytes) : ∃ t, sysRun {} (twoCommands rssiOp p q) = some t ∧ t.host.callers = [(rssiOp, .done (some (p, 0))), (rssiOp, .done (some (q, 1)))] :=
  ⟨_, rfl, rfl⟩

/-- **C176** fails: after a call that has timed out the next one with the same opcode gets its answer. -/
theorem late_reply_answers_next_call (p : Bytes) : ∃ t, sysRun {} (lateAnswer rssiOp p) = some t ∧ t.host.callers = [(rssiOp, .done none), (rssiOp, .done (some (p, 1)))] :=
  ⟨_, rfl, rfl⟩

/-! ## ReadRSSI -/

/-- **C177.** The command names the connection: opcode 0x1405, two octets, the handle. -/
theorem rssi_command (h : UInt16) (buf : Bytes) (hb : buf.length = 64) :
    rssiPacket h buf = .ok [0x01, 0x05, 0x14, 0x02, UInt8.ofNat h.toNat, UInt8.ofNat (h.toNat / 256)] := by
  unfold rssiPacket HciCmd.Command.packet
  rw [CmdEncAux.packet_ok _ _ _ _ hb (by decide), CmdEncAux.encodeAll_eq]
  simp [HciCmd.Val.octets, HciCmd.leBytes, HciCmd.bufferWrite, rssiOp]
  exact ⟨by rw [CmdEncAux.u8_of_mod]; simp, CmdEncAux.u8_of_mod _⟩

/-- **C177.** `ReadRSSI` returns a value and nil exactly if the reply is complete with status zero, and then the value is its fourth octet, a signed number; otherwise it returns 127 and an error. -/
theorem rssi_result (reply : Option Bytes) :
    (∀ h0 h1 x rest, reply = some (0 :: h0 :: h1 :: x :: rest) → readRSSI reply = .ok (x.toInt8, true)) ∧
    ((∀ h0 h1 x rest, reply ≠ some (0 :: h0 :: h1 :: x :: rest)) → readRSSI reply = .ok (127, false)) := by
  constructor
  · rintro h0 h1 x rest rfl
    have hlen : ¬ (rest.length + 1 + 1 + 1 + 1 < 4) := by omega
    simp [hlen, readRSSI, HciCmd.afterReply, HciCmd.Reply.unmarshal, rssiRP, HciCmd.Reply.tys, HciCmd.Ty.size, HciCmd.decodeAll, HciCmd.Ty.decode, Go.bind_ok]
  · intro hne
    cases reply with
    | none => rfl
    | some b =>
      match b, hne with
      | [], _ => simp [readRSSI, HciCmd.afterReply, HciCmd.Reply.unmarshal, rssiRP, HciCmd.Reply.tys, HciCmd.Ty.size, bind, Go.bind]
      | [s], _ => by_cases hs : s = 0 <;> simp [hs, readRSSI, HciCmd.afterReply, HciCmd.Reply.unmarshal, rssiRP, HciCmd.Reply.tys, HciCmd.Ty.size, bind, Go.bind]
      | [s, _], _ => by_cases hs : s = 0 <;> simp [hs, readRSSI, HciCmd.afterReply, HciCmd.Reply.unmarshal, rssiRP, HciCmd.Reply.tys, HciCmd.Ty.size, bind, Go.bind]
      | [s, _, _], _ => by_cases hs : s = 0 <;> simp [hs, readRSSI, HciCmd.afterReply, HciCmd.Reply.unmarshal, rssiRP, HciCmd.Reply.tys, HciCmd.Ty.size, bind, Go.bind]
      | s :: h0 :: h1 :: x :: rest, hne =>
        have hs : s ≠ 0 := fun h => hne h0 h1 x rest (by rw [h])
        simp [hs, readRSSI, HciCmd.afterReply]

/-- **C177.** While no `ReadRSSI` has failed, a `ReadRSSI` that returns a value returns the one in the controller's answer to this very command, that is for its own connection, whatever connections are asked for at the same time. Missing:
after a time-out the value may be that of another connection (`rssi_of_other_connection`). -/
theorem rssi_own_partial (es : List Ev) (t : Sys) (h : sysRun {} es = some t) (i : Nat) (ps : Bytes) (k : Nat) (v : Int8)
    (hok : ∀ (j : Nat) ph, t.host.callers[j]? = some (rssiOp, ph) → ph ≠ .timedOut ∧ ph ≠ .done none) (hi : t.host.callers[i]? = some (rssiOp, .done (some (ps, k))))
    (hv : readRSSI (some ps) = .ok (v, true)) :
    ∃ n h0 h1 x rest, Ev.answer i (.complete n rssiOp (0 :: h0 :: h1 :: x :: rest)) ∈ es ∧ v = x.toInt8 := by
  obtain ⟨e, h1, h2⟩ := cmd_reply_own_partial es t h i rssiOp (by decide) ps k hok hi
  have hps : ∃ h0 h1 x rest, ps = 0 :: h0 :: h1 :: x :: rest := by
    apply Classical.byContradiction
    intro hn
    have := (rssi_result (some ps)).2 (fun h0 h1 x rest hh => hn ⟨h0, h1, x, rest, by simpa using hh⟩)
    rw [this] at hv
    simp at hv
  obtain ⟨h0, h1', x, rest, rfl⟩ := hps
  have hx := (rssi_result _).1 h0 h1' x rest rfl
  rw [hx] at hv
  simp at hv
  cases e with
  | complete n oc ps' =>
    obtain ⟨rfl, rfl⟩ := h2
    exact ⟨n, h0, h1', x, rest, h1, hv.symm⟩
  | status n oc st => simp [Answers] at h2
  | vendor => simp [Answers] at h2

/-- **C177** fails: `ReadRSSI` of the connection 0x0040 times out, and the `ReadRSSI` of the connection 0x0041 made afterwards returns the value measured for 0x0040. -/
theorem rssi_of_other_connection (x : UInt8) :
    ∃ t, sysRun {} (lateAnswer rssiOp [0, 0x40, 0, x]) = some t ∧ t.host.callers[1]? = some (rssiOp, .done (some ([0, 0x40, 0, x], 1))) ∧ Ev.answer 0 (.complete 1 rssiOp [0, 0x40, 0, x]) ∈ lateAnswer rssiOp [0, 0x40, 0, x] ∧
      readRSSI (some [0, 0x40, 0, x]) = .ok (x.toInt8, true) := by
  obtain ⟨t, h1, h2⟩ := late_reply_answers_next_call [0, 0x40, 0, x]
  exact ⟨t, h1, by rw [h2]; rfl, by simp [lateAnswer], (rssi_result _).1 0x40 0 x [] rfl⟩

/-- The opcode and the reply are those of the table of commands. -/
theorem rssi_in_table : (∃ c ∈ HciCmd.commands, c.name = "ReadRSSI" ∧ c.opCode = rssiOp ∧ c.len = 2) ∧ rssiRP ∈ HciCmd.replies := by decide

end Ble.Props
