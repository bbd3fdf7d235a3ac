import Verif.Hci.Scanning
set_option autoImplicit false

/-!
# Scanning: who gets the reports, and when scanning is on
-/

namespace Ble.Scanning

variable {R : Type}

/-! ## Specification -/

/-- The reports waiting to be handled. -/
def waiting (q : List (In R)) : List R := q.filterMap fun | .report r => some r | .answer _ => none

/-- The call whose handler was set last in a history. -/
def latest (es : List (Ev R)) : Option Nat := (es.filterMap fun | .setHandler i => some i | _ => none).getLast?

/-- Every call made so far has returned. -/
def Idle (s : St R) : Prop := ∀ i c, s.calls i = some c → ∃ ok, c.phase = .returned ok

/-- A call is made only when no other is in progress. -/
def Sequential (es : List (Ev R)) : Prop := ∀ pre k d post s, es = pre ++ .call k d :: post → runT step {} pre = some s → Idle s

/-- Only blocking scans, and the controller refuses nothing. -/
def Plain (es : List (Ev R)) : Prop := (∀ k d, Ev.call k d ∈ es → k = .scan) ∧ Ev.exec false ∉ es

/-! ## Every schedule -/

namespace ScanAux

def answers (q : List (In R)) : Nat := (q.filter fun | .report _ => false | .answer _ => true).length

@[simp] theorem waiting_append (a b : List (In R)) : waiting (a ++ b) = waiting a ++ waiting b := by simp [waiting]
@[simp] theorem waiting_report (r : R) (q : List (In R)) : waiting (.report r :: q) = r :: waiting q := by simp [waiting]
@[simp] theorem waiting_answer (ok : Bool) (q : List (In R)) : waiting (.answer ok :: q) = waiting q := by simp [waiting]
@[simp] theorem waiting_nil : waiting ([] : List (In R)) = [] := rfl
@[simp] theorem answers_append (a b : List (In R)) : answers (a ++ b) = answers a + answers b := by simp [answers]
@[simp] theorem answers_report (r : R) (q : List (In R)) : answers (.report r :: q) = answers q := by simp [answers]
@[simp] theorem answers_answer (ok : Bool) (q : List (In R)) : answers (.answer ok :: q) = answers q + 1 := by simp [answers]
@[simp] theorem answers_nil : answers ([] : List (In R)) = 0 := rfl

structure Inv (s : St R) : Prop where
  dom : ∀ i c, s.calls i = some c → i < s.n
  hold1 : ∀ i, s.holder = some i → ∃ c on, s.calls i = some c ∧ c.phase = .sent on
  hold2 : ∀ i c on, s.calls i = some c → c.phase = .sent on → s.holder = some i
  cmdh : s.cmd ≠ none → s.holder ≠ none
  ans : answers s.queue = if s.holder ≠ none ∧ s.cmd = none then 1 else 0
  lst : s.ctl = none → s.queue = [] ∨ ∃ q ok, s.queue = q ++ [.answer ok]
  hset : ∀ i c, s.calls i = some c → c.phase = .handlerSet → s.handler ≠ none
  hon : s.enable = true ∨ (∃ f, s.cmd = some (true, f)) ∨ s.ctl ≠ none ∨ waiting s.queue ≠ [] → s.handler ≠ none
  ord : s.log.map (·.2) ++ waiting s.queue = s.emitted.map (·.2)
  hdom : ∀ h, s.handler = some h → ∃ c, s.calls h = some c ∧ c.kind ≠ .stop ∧ c.phase ≠ .called
  ldom : ∀ x ∈ s.log, ∃ c, s.calls x.1 = some c ∧ c.kind ≠ .stop

theorem inv_init : Inv ({} : St R) := by constructor <;> simp

theorem snoc_cons {α : Type} {x : α} {q q' : List α} {y : α} (h : x :: q = q' ++ [y]) : (q = [] ∧ x = y) ∨ ∃ t, q = t ++ [y] := by
  cases q' with
  | nil => simp at h; exact .inl ⟨h.2, h.1⟩
  | cons a as => simp at h; exact .inr ⟨as, h.2⟩

set_option maxHeartbeats 4000000 in
theorem inv_step {s s' : St R} {e : Ev R} (i : Inv s) (h : step s e = some s') : Inv s' := by
  have ⟨dom, hold1, hold2, cmdh, ans, lst, hset, hon, ord, hdom, ldom⟩ := i
  cases e with
  | call k d =>
    simp only [step, Option.some.injEq] at h; subst h
    constructor <;> simp only <;> grind
  | setHandler j =>
    simp only [step] at h
    repeat' split at h
    all_goals simp only [Option.some.injEq, reduceCtorEq] at h
    all_goals subst h
    all_goals (constructor <;> simp only [St.at_] <;> grind)
  | setFields j =>
    simp only [step] at h
    repeat' split at h
    all_goals simp only [Option.some.injEq, reduceCtorEq] at h
    all_goals subst h
    all_goals (constructor <;> simp only [St.at_] <;> grind)
  | endCtx j =>
    simp only [step] at h
    repeat' split at h
    all_goals simp only [Option.some.injEq, reduceCtorEq] at h
    all_goals subst h
    all_goals (constructor <;> simp only [St.at_] <;> grind)
  | clear j =>
    simp only [step] at h
    repeat' split at h
    all_goals simp only [Option.some.injEq, reduceCtorEq] at h
    all_goals subst h
    all_goals (constructor <;> simp only [St.at_] <;> grind)
  | write j =>
    simp only [step] at h
    repeat' split at h
    all_goals simp only [Option.some.injEq, reduceCtorEq] at h
    subst h
    rename_i c hc hp
    constructor <;> simp only [St.at_]
    case hold1 =>
      intro k hk
      simp only [Option.some.injEq] at hk
      subst hk
      exact ⟨_, _, by rw [if_pos rfl], rfl⟩
    all_goals grind
  | exec ok =>
    simp only [step] at h
    repeat' split at h
    all_goals simp only [Option.some.injEq, reduceCtorEq] at h
    all_goals subst h
    all_goals (constructor <;> simp only [waiting_append, answers_append, waiting_answer, answers_answer, waiting_nil, answers_nil] <;> grind)
  | emit r =>
    simp only [step] at h
    repeat' split at h
    all_goals simp only [Option.some.injEq, reduceCtorEq] at h
    all_goals subst h
    all_goals (constructor <;> simp only [waiting_append, answers_append, waiting_report, answers_report, waiting_nil, answers_nil, List.map_append, List.map_cons, List.map_nil] <;> grind)
  | handle =>
    simp only [step] at h
    split at h
    · simp at h
    · rename_i r q hq
      simp only [hq, waiting_report, answers_report] at ans hon ord lst
      split at h
      · simp only [Option.some.injEq] at h; subst h
        constructor <;> simp only [List.map_append, List.map_cons, List.map_nil] <;> grind [snoc_cons]
      · rename_i hn
        exact absurd hn (hon (by simp))
    · rename_i ok q hq
      simp only [hq, waiting_answer, answers_answer] at ans hon ord lst
      repeat' split at h
      all_goals simp only [Option.some.injEq, reduceCtorEq] at h
      all_goals subst h
      all_goals (constructor <;> simp only [St.at_] <;> grind [snoc_cons, answered])

theorem inv_run {es : List (Ev R)} {s : St R} (h : runT step {} es = some s) : Inv s :=
  runT_ind (P := fun _ s => Inv s) inv_init (fun _ _ _ _ _ i hs => inv_step i hs) es s h

end ScanAux

open ScanAux

/-- **C118** Whatever calls are made, from whatever goroutines: every report the controller sends is dispatched exactly once, in the order of sending, and to a handler that was given to `Scan` or `NonblockingScan`. -/
theorem reports_dispatched_in_order {es : List (Ev R)} {s : St R} (h : runT step {} es = some s) :
    s.log.map (·.2) ++ waiting s.queue = s.emitted.map (·.2) ∧ ∀ x ∈ s.log, ∃ c, s.calls x.1 = some c ∧ c.kind ≠ .stop :=
  ⟨(inv_run h).ord, (inv_run h).ldom⟩

namespace ScanAux

theorem handler_latest {es : List (Ev R)} {s : St R} (h : runT step {} es = some s) : s.handler = latest es := by
  refine runT_ind (P := fun es s => s.handler = latest es) rfl ?_ es s h
  intro es s e s' _ hp hs
  have hl : latest (es ++ [e]) = match e with | .setHandler i => some i | _ => latest es := by
    cases e <;> simp [latest, List.filterMap_append]
  rw [hl]
  cases e <;> simp only [step] at hs <;> (repeat' split at hs) <;> simp only [Option.some.injEq, reduceCtorEq] at hs <;> subst hs <;> simp_all [St.at_]

end ScanAux

/-- **C118** A report goes to the handler that was set last, of whatever call, at the time it is dispatched. -/
theorem dispatched_to_latest {es : List (Ev R)} {s s' : St R} (h : runT step {} es = some s) {r : R} {q : List (In R)} (hq : s.queue = .report r :: q) (hs : step s .handle = some s') :
    ∃ i, latest es = some i ∧ s'.log = s.log ++ [(i, r)] ∧ s'.queue = q := by
  rw [← handler_latest h]
  simp only [step, hq] at hs
  split at hs
  · rename_i i hi
    simp only [Option.some.injEq] at hs
    subst hs
    exact ⟨i, hi, rfl, rfl⟩
  · rename_i hn
    exact absurd hn ((inv_run h).hon (by simp [hq]))

/-! ## Blocking scans, in any interleaving -/

namespace ScanAux

/-- A call that has still to stop what it started. -/
def Busy (s : St R) : Prop := ∃ i c, s.calls i = some c ∧ (c.phase = .wantOn ∨ c.phase = .sent true ∨ c.phase = .scanning)

structure Off (s : St R) : Prop where
  kind : ∀ i c, s.calls i = some c → c.kind = .scan
  en : s.enable = true → Busy s
  on : (match s.cmd with | some c => c.1 = true | none => s.ctl ≠ none) → Busy s ∨ ∃ i c, s.calls i = some c ∧ c.phase = .wantOff
  okq : ∀ ok, In.answer ok ∈ s.queue → ok = true
  okr : ∀ i c, s.calls i = some c → c.phase ≠ .returned false

theorem off_init : Off ({} : St R) := by constructor <;> simp

set_option maxHeartbeats 4000000 in
theorem off_step {s s' : St R} {e : Ev R} (iv : Inv s) (i : Off s) (hk : ∀ k d, e = .call k d → k = .scan) (hf : e ≠ .exec false) (h : step s e = some s') : Off s' := by
  have ⟨kind, en, on, okq, okr⟩ := i
  have ⟨dom, hold1, hold2, cmdh, _, _, _, _, _, _, _⟩ := iv
  unfold Busy at en on
  cases e with
  | call k d =>
    simp only [step, Option.some.injEq] at h; subst h
    constructor <;> simp only [Busy]
    · grind
    · intro he
      obtain ⟨j, c, h1, h2⟩ := en he
      exact ⟨j, c, by have := dom j c h1; rw [if_neg (by omega)]; exact h1, h2⟩
    · intro he
      rcases on he with ⟨j, c, h1, h2⟩ | ⟨j, c, h1, h2⟩
      · exact .inl ⟨j, c, by have := dom j c h1; rw [if_neg (by omega)]; exact h1, h2⟩
      · exact .inr ⟨j, c, by have := dom j c h1; rw [if_neg (by omega)]; exact h1, h2⟩
    · exact okq
    · grind
  | emit r =>
    simp only [step] at h
    split at h
    · simp only [Option.some.injEq] at h; subst h
      exact ⟨kind, en, on, by grind, okr⟩
    · simp at h
  | exec ok =>
    have hok : ok = true := by cases ok; · exact absurd rfl hf
                               · rfl
    subst hok
    simp only [step] at h
    split at h
    · rename_i a f hc
      simp only [Option.some.injEq] at h; subst h
      rw [hc] at on
      refine ⟨kind, en, ?_, by grind, okr⟩
      simp only
      intro hh
      apply on
      cases a <;> simp_all
    · simp at h
  | handle =>
    simp only [step] at h
    split at h
    · simp at h
    · rename_i r q hq
      split at h
      · simp only [Option.some.injEq] at h; subst h
        exact ⟨kind, en, on, fun ok ho => okq ok (by simp [hq, ho]), okr⟩
      · simp only [Option.some.injEq] at h; subst h
        exact ⟨kind, en, on, fun ok ho => okq ok (by simp [hq, ho]), okr⟩
    · rename_i ok q hq
      have hok : ok = true := okq ok (by simp [hq])
      subst hok
      split at h
      · rename_i j hj
        split at h
        · rename_i c hc
          split at h
          · rename_i o hp
            simp only [Option.some.injEq] at h; subst h
            have hks := kind j c hc
            have hb : ∀ k d, s.calls k = some d → (d.phase = .wantOn ∨ d.phase = .sent true ∨ d.phase = .scanning) →
                ∃ k d, (if k = j then some { c with phase := answered c.kind o true } else s.calls k) = some d ∧ (d.phase = .wantOn ∨ d.phase = .sent true ∨ d.phase = .scanning) := by
              intro k d hd hdp
              by_cases hkj : k = j
              · subst hkj
                rw [hc] at hd
                simp only [Option.some.injEq] at hd
                subst hd
                rw [hp] at hdp
                simp at hdp
                subst hdp
                exact ⟨k, _, by rw [if_pos rfl], by simp [answered, hks]⟩
              · exact ⟨k, d, by rw [if_neg hkj]; exact hd, hdp⟩
            constructor <;> simp only [St.at_, Busy]
            · grind
            · intro he
              obtain ⟨k, d, h1, h2⟩ := en he
              exact hb k d h1 h2
            · intro he
              rcases on he with ⟨k, d, h1, h2⟩ | ⟨k, d, h1, h2⟩
              · exact .inl (hb k d h1 h2)
              · refine .inr ⟨k, d, ?_, h2⟩
                rw [if_neg]
                · exact h1
                · intro hkj
                  subst hkj
                  rw [hc] at h1
                  simp only [Option.some.injEq] at h1
                  subst h1
                  rw [hp] at h2
                  simp at h2
            · exact fun ok ho => okq ok (by simp [hq, ho])
            · intro k d hd
              split at hd
              · simp only [Option.some.injEq] at hd
                subst hd
                simp only [answered]
                grind
              · exact okr k d hd
          · simp at h
        · simp at h
      · simp at h
  | setHandler j =>
    simp only [step] at h
    repeat' split at h
    all_goals simp only [Option.some.injEq, reduceCtorEq] at h
    subst h
    rename_i c hc hp
    have hb : ∀ k d, s.calls k = some d → d.phase ≠ .called → (if k = j then some { c with phase := .handlerSet } else s.calls k) = some d := by
      intro k d hd hdp
      rw [if_neg]
      · exact hd
      · intro hkj; subst hkj; rw [hc] at hd; simp only [Option.some.injEq] at hd; subst hd; exact hdp hp.2
    constructor <;> simp only [St.at_, Busy]
    · grind
    · intro he
      obtain ⟨k, d, h1, h2⟩ := en he
      exact ⟨k, d, hb k d h1 (by grind), h2⟩
    · intro he
      rcases on he with ⟨k, d, h1, h2⟩ | ⟨k, d, h1, h2⟩
      · exact .inl ⟨k, d, hb k d h1 (by grind), h2⟩
      · exact .inr ⟨k, d, hb k d h1 (by grind), h2⟩
    · exact okq
    · grind
  | setFields j =>
    simp only [step] at h
    repeat' split at h
    all_goals simp only [Option.some.injEq, reduceCtorEq] at h
    subst h
    rename_i c hc hp
    constructor <;> simp only [St.at_, Busy]
    · grind
    · exact fun _ => ⟨j, _, by rw [if_pos rfl], .inl rfl⟩
    · exact fun _ => .inl ⟨j, _, by rw [if_pos rfl], .inl rfl⟩
    · exact okq
    · grind
  | endCtx j =>
    simp only [step] at h
    repeat' split at h
    all_goals simp only [Option.some.injEq, reduceCtorEq] at h
    subst h
    rename_i c hc
    have hb : ∀ k d, s.calls k = some d → ∃ d', (if k = j then some { c with ended := true, phase := c.phase } else s.calls k) = some d' ∧ d'.phase = d.phase := by
      intro k d hd
      by_cases hkj : k = j
      · subst hkj; rw [hc] at hd; simp only [Option.some.injEq] at hd; subst hd; exact ⟨{ c with ended := true, phase := c.phase }, by rw [if_pos rfl], rfl⟩
      · exact ⟨d, by rw [if_neg hkj]; exact hd, rfl⟩
    constructor <;> simp only [St.at_, Busy]
    · grind
    · intro he
      obtain ⟨k, d, h1, h2⟩ := en he
      obtain ⟨d', h3, h4⟩ := hb k d h1
      exact ⟨k, d', h3, by rw [h4]; exact h2⟩
    · intro he
      rcases on he with ⟨k, d, h1, h2⟩ | ⟨k, d, h1, h2⟩ <;> obtain ⟨d', h3, h4⟩ := hb k d h1
      · exact .inl ⟨k, d', h3, by rw [h4]; exact h2⟩
      · exact .inr ⟨k, d', h3, by rw [h4]; exact h2⟩
    · exact okq
    · grind
  | clear j =>
    simp only [step] at h
    repeat' split at h
    all_goals simp only [Option.some.injEq, reduceCtorEq] at h
    subst h
    rename_i c hc hp
    constructor <;> simp only [St.at_, Busy]
    · grind
    · simp
    · exact fun _ => .inr ⟨j, _, by rw [if_pos rfl], rfl⟩
    · exact okq
    · grind
  | write j =>
    simp only [step] at h
    repeat' split at h
    all_goals simp only [Option.some.injEq, reduceCtorEq] at h
    subst h
    rename_i c hc hp
    have hb : ∀ k d, s.calls k = some d → (d.phase = .wantOn ∨ d.phase = .sent true ∨ d.phase = .scanning) →
        ∃ k d, (if k = j then some { c with phase := .sent (decide (c.phase = .wantOn)) } else s.calls k) = some d ∧ (d.phase = .wantOn ∨ d.phase = .sent true ∨ d.phase = .scanning) := by
      intro k d hd hdp
      by_cases hkj : k = j
      · subst hkj
        rw [hc] at hd
        simp only [Option.some.injEq] at hd
        subst hd
        have : c.phase = .wantOn := by grind
        exact ⟨k, _, by rw [if_pos rfl], by simp [this]⟩
      · exact ⟨k, d, by rw [if_neg hkj]; exact hd, hdp⟩
    constructor <;> simp only [St.at_, Busy]
    · grind
    · intro he
      obtain ⟨k, d, h1, h2⟩ := en he
      exact hb k d h1 h2
    · intro he
      obtain ⟨k, d, h1, h2⟩ := en he
      exact .inl (hb k d h1 h2)
    · exact okq
    · grind

theorem off_run {es : List (Ev R)} {s : St R} (h : runT step {} es = some s) (hp : Plain es) : Off s := by
  refine runT_ind (P := fun es s => Plain es → Off s) (fun _ => off_init) ?_ es s h hp
  intro es s e s' hr ih hs hp
  exact off_step (inv_run hr) (ih ⟨fun k d hm => hp.1 k d (by simp [hm]), fun hm => hp.2 (by simp [hm])⟩) (fun k d he => hp.1 k d (by simp [he])) (fun he => hp.2 (by simp [he])) hs

end ScanAux

/-- **C118** However many blocking scans overlap, in whatever interleaving: when all of them have returned, and the controller refused nothing, the controller is not scanning, no report is on its way, and everything it had reported has
been dispatched. -/
theorem all_returned_all_quiet {es : List (Ev R)} {s : St R} (h : runT step {} es = some s) (hp : Plain es) (hi : Idle s) : s.ctl = none ∧ s.queue = [] ∧ s.log.map (·.2) = s.emitted.map (·.2) := by
  have iv := inv_run h
  have io := off_run h hp
  have hnb : ¬ (Busy s ∨ ∃ i c, s.calls i = some c ∧ c.phase = .wantOff) := by
    rintro (⟨i, c, h1, h2⟩ | ⟨i, c, h1, h2⟩) <;> obtain ⟨ok, h3⟩ := hi i c h1 <;> rw [h3] at h2 <;> simp at h2
  have hh : s.holder = none := by
    cases hh : s.holder with
    | none => rfl
    | some i =>
      obtain ⟨c, on, h1, h2⟩ := iv.hold1 i hh
      obtain ⟨ok, h3⟩ := hi i c h1
      rw [h3] at h2; simp at h2
  have hcmd : s.cmd = none := Classical.byContradiction fun hc => iv.cmdh hc hh
  have hctl : s.ctl = none := by
    refine Classical.byContradiction fun hc => hnb (io.on ?_)
    rw [hcmd]; exact hc
  have hq : s.queue = [] := by
    rcases iv.lst hctl with hq | ⟨q, ok, hq⟩
    · exact hq
    · have := iv.ans
      rw [hq, hh] at this
      simp at this
  refine ⟨hctl, hq, ?_⟩
  have := iv.ord
  rw [hq] at this
  simpa using this

/-! ## One scan after the other -/

namespace ScanAux

def Phase.live : Phase → Bool
  | .sent _ | .scanning | .wantOff => true
  | _ => false

structure Seq (s : St R) : Prop where
  cur : ∀ i c, s.calls i = some c → i + 1 = s.n ∨ ∃ ok, c.phase = .returned ok
  act : s.ctl ≠ none ∨ waiting s.queue ≠ [] → ∃ i c, i + 1 = s.n ∧ s.calls i = some c ∧ Phase.live c.phase = true
  dup : ∀ i c f, i + 1 = s.n → s.calls i = some c → s.ctl = some f → f = !c.allowDup
  fld : ∀ i c, s.calls i = some c → c.phase = .wantOn → s.enable = true ∧ s.filter = !c.allowDup
  fl0 : ∀ i c, s.calls i = some c → c.phase = .wantOff → s.enable = false
  cm1 : ∀ i c on a, s.calls i = some c → c.phase = .sent on → s.cmd = some a → a.1 = on ∧ (on = true → a.2 = !c.allowDup)
  cm0 : ∀ i c on, s.calls i = some c → c.phase = .sent on → s.cmd = none → s.ctl = if on then some (!c.allowDup) else none
  scn : ∀ i c, s.calls i = some c → c.phase = .scanning ∨ c.phase = .wantOff → s.ctl = some (!c.allowDup)
  hnd : ∀ i c, i + 1 = s.n → s.calls i = some c → c.phase ≠ .called → s.handler = some i
  emi : (s.log.map fun x => (x.1 + 1, x.2)) ++ (waiting s.queue).map (fun r => (s.n, r)) = s.emitted

theorem seq_init : Seq ({} : St R) := by constructor <;> simp

theorem noAnswers {q : List (In R)} (h : answers q = 0) (hl : q = [] ∨ ∃ t ok, q = t ++ [.answer ok]) : q = [] := by
  rcases hl with h1 | ⟨t, ok, rfl⟩
  · exact h1
  · simp at h

set_option maxHeartbeats 8000000 in
theorem seq_step {s s' : St R} {e : Ev R} (iv : Inv s) (io : Off s) (i : Seq s) (hk : ∀ k d, e = .call k d → s.ctl = none ∧ s.queue = [] ∧ Idle s) (hf : e ≠ .exec false) (h : step s e = some s') : Seq s' := by
  have ⟨dom, hold1, hold2, cmdh, ans, lst, hset, hon, ord, hdom, ldom⟩ := iv
  have ⟨cur, act, dup, fld, fl0, cm1, cm0, scn, hnd, emi⟩ := i
  have ⟨kind, _, _, okq, _⟩ := io
  cases e with
  | call k d =>
    obtain ⟨h1, h2, h3⟩ := hk k d rfl
    unfold Idle at h3
    simp only [step, Option.some.injEq] at h; subst h
    simp only [h2, waiting_nil, List.map_nil, List.append_nil] at emi
    constructor <;> simp only [h1, h2, waiting_nil] <;> grind
  | emit r =>
    simp only [step] at h
    split at h
    · simp only [Option.some.injEq] at h; subst h
      constructor <;> simp only [waiting_append, waiting_report, waiting_nil] <;> grind
    · simp at h
  | exec ok =>
    have hok : ok = true := by cases ok; · exact absurd rfl hf
                               · rfl
    subst hok
    simp only [step] at h
    split at h
    · rename_i a f hc
      obtain ⟨j, hj⟩ : ∃ j, s.holder = some j := by
        cases hh : s.holder with
        | none => exact absurd hh (cmdh (by simp [hc]))
        | some j => exact ⟨j, rfl⟩
      obtain ⟨c, o, h1, h2⟩ := hold1 j hj
      obtain ⟨h3, h4⟩ := cm1 j c o (a, f) h1 h2 hc
      simp only at h3 h4
      subst h3
      have hjn : j + 1 = s.n := (cur j c h1).resolve_right (by rintro ⟨ok, h5⟩; rw [h2] at h5; simp at h5)
      have hoth : ∀ k d, s.calls k = some d → k = j ∨ ∃ ok, d.phase = .returned ok := by grind
      simp only [Option.some.injEq] at h; subst h
      clear ord ldom hon ans lst
      constructor <;> simp only [waiting_append, waiting_answer, waiting_nil]
      · exact cur
      · exact fun _ => ⟨j, c, hjn, h1, by simp [h2, Phase.live]⟩
      · grind
      · exact fld
      · exact fl0
      · grind
      · intro k d o hd hp _
        have : k = j := by grind
        subst this
        rw [h1] at hd
        simp only [Option.some.injEq] at hd
        subst hd
        rw [h2] at hp
        simp only [Phase.sent.injEq] at hp
        subst hp
        cases a <;> simp_all
      · intro k d hd hp
        exfalso
        have : k = j := by grind
        subst this
        rw [h1] at hd
        simp only [Option.some.injEq] at hd
        subst hd
        rw [h2] at hp
        simp at hp
      · exact hnd
      · simpa using emi
    · simp at h
  | handle =>
    simp only [step] at h
    split at h
    · simp at h
    · rename_i r q hq
      simp only [hq, waiting_report] at act emi
      split at h
      · rename_i hd hh
        obtain ⟨j, c, h1, h2, h3⟩ := act (.inr (by simp))
        have h4 := hnd j c h1 h2 (by intro h5; rw [h5] at h3; simp [Phase.live] at h3)
        rw [hh] at h4
        simp only [Option.some.injEq] at h4
        subst h4
        simp only [Option.some.injEq] at h; subst h
        refine ⟨cur, fun _ => ⟨hd, c, h1, h2, h3⟩, dup, fld, fl0, cm1, cm0, scn, hnd, ?_⟩
        simp only [List.map_append, List.map_cons, List.map_nil, h1]
        simpa using emi
      · rename_i hh
        exact absurd hh (hon (by simp [hq]))
    · rename_i ok q hq
      have hok : ok = true := okq ok (by simp [hq])
      subst hok
      simp only [hq, waiting_answer, answers_answer] at act emi ans lst
      split at h
      · rename_i j hj
        split at h
        · rename_i c hc
          split at h
          · rename_i o hp
            simp only [Option.some.injEq] at h; subst h
            have hks := kind j c hc
            have hcn : s.cmd = none := by grind
            have hctl := cm0 j c o hc hp hcn
            have hq0 : answers q = 0 := by grind
            have hjn : j + 1 = s.n := (cur j c hc).resolve_right (by rintro ⟨ok, h5⟩; rw [hp] at h5; simp at h5)
            have hoth : ∀ k d, s.calls k = some d → k = j ∨ ∃ ok, d.phase = .returned ok := by grind
            cases o with
            | true => constructor <;> simp only [St.at_, answered, hks] <;> grind [Phase.live]
            | false =>
              have hqn : q = [] := noAnswers hq0 (by
                rcases lst (by simpa using hctl) with h1 | ⟨t, ok, h1⟩
                · simp at h1
                · rcases snoc_cons h1 with ⟨h2, -⟩ | ⟨t, h2⟩
                  · exact .inl h2
                  · exact .inr ⟨t, ok, h2⟩)
              subst hqn
              have hctl0 : s.ctl = none := by simpa using hctl
              simp only [waiting_nil, List.map_nil, List.append_nil] at emi
              clear lst ans hctl ord okq hq io iv i hon
              constructor <;> simp only [St.at_, answered, hks, waiting_nil] <;> grind [Phase.live]
          · simp at h
        · simp at h
      · simp at h
  | setHandler j =>
    simp only [step] at h
    repeat' split at h
    all_goals simp only [Option.some.injEq, reduceCtorEq] at h
    subst h
    rename_i c hc hp
    constructor <;> simp only [St.at_] <;> grind [Phase.live]
  | setFields j =>
    simp only [step] at h
    repeat' split at h
    all_goals simp only [Option.some.injEq, reduceCtorEq] at h
    subst h
    rename_i c hc hp
    constructor <;> simp only [St.at_] <;> grind [Phase.live]
  | endCtx j =>
    simp only [step] at h
    repeat' split at h
    all_goals simp only [Option.some.injEq, reduceCtorEq] at h
    subst h
    rename_i c hc
    constructor <;> simp only [St.at_] <;> grind [Phase.live]
  | clear j =>
    simp only [step] at h
    repeat' split at h
    all_goals simp only [Option.some.injEq, reduceCtorEq] at h
    subst h
    rename_i c hc hp
    constructor <;> simp only [St.at_] <;> grind [Phase.live]
  | write j =>
    simp only [step] at h
    repeat' split at h
    all_goals simp only [Option.some.injEq, reduceCtorEq] at h
    subst h
    rename_i c hc hp
    constructor <;> simp only [St.at_] <;> grind [Phase.live]

theorem seq_run {es : List (Ev R)} {s : St R} (h : runT step {} es = some s) (hp : Plain es) (hq : Sequential es) : Seq s := by
  refine runT_ind (P := fun es s => Plain es → Sequential es → Seq s) (fun _ _ => seq_init) ?_ es s h hp hq
  intro es s e s' hr ih hs hp hq
  have hp' : Plain es := ⟨fun k d hm => hp.1 k d (by simp [hm]), fun hm => hp.2 (by simp [hm])⟩
  have hq' : Sequential es := fun pre k d post t he ht => hq pre k d (post ++ [e]) t (by simp [he]) ht
  refine seq_step (inv_run hr) (off_run hr hp') (ih hp' hq') ?_ (fun he => hp.2 (by simp [he])) hs
  intro k d he
  have hi : Idle s := hq es k d [] s (by simp [he]) hr
  obtain ⟨h1, h2, -⟩ := all_returned_all_quiet hr hp' hi
  exact ⟨h1, h2, hi⟩

end ScanAux

/-- **C119, the part that holds.** Overlapping scans lose, double or reorder no report, hand each to the handler of a scan that was called, and once all have returned, none of their commands refused, nothing is left behind. Missing: that the
handler of a scan in progress gets the reports (`second_takes_reports`: false), that a scan goes on when another ends (`first_to_end_stops_all`: false) and that each call sends its own command (`scan_sends_stop`, `stop_sends_scan`: false). -/
theorem overlapping_scans_partial {es : List (Ev R)} {s : St R} (h : runT step {} es = some s) :
    (s.log.map (·.2) ++ waiting s.queue = s.emitted.map (·.2) ∧ ∀ x ∈ s.log, ∃ c, s.calls x.1 = some c ∧ c.kind ≠ .stop) ∧
    (Plain es → Idle s → s.ctl = none ∧ s.queue = [] ∧ s.log.map (·.2) = s.emitted.map (·.2)) :=
  ⟨reports_dispatched_in_order h, all_returned_all_quiet h⟩

/-- **C118** Blocking scans one after the other: every report the controller sends during a call is dispatched to the handler of that call, all of them, in order, and before the call returns; nothing is dispatched to it afterwards; the
controller scans only during calls, and filters duplicates exactly if the call in progress asked for it. -/
theorem scan_sequential {es : List (Ev R)} {s : St R} (h : runT step {} es = some s) (hp : Plain es) (hq : Sequential es) :
    (s.log.map fun x => (x.1 + 1, x.2)) ++ (waiting s.queue).map (fun r => (s.n, r)) = s.emitted ∧ (Idle s → (s.log.map fun x => (x.1 + 1, x.2)) = s.emitted ∧ s.ctl = none) ∧
    (∀ f, s.ctl = some f → ∃ i c, i + 1 = s.n ∧ s.calls i = some c ∧ ¬ (∃ ok, c.phase = .returned ok) ∧ f = !c.allowDup) ∧
    ∀ i c, s.calls i = some c → c.phase = .scanning → s.ctl = some (!c.allowDup) := by
  have iq := seq_run h hp hq
  refine ⟨iq.emi, fun hi => ?_, ?_, fun i c h1 h2 => iq.scn i c h1 (.inl h2)⟩
  · obtain ⟨h1, h2, -⟩ := all_returned_all_quiet h hp hi
    have := iq.emi
    rw [h2] at this
    exact ⟨by simpa using this, h1⟩
  · intro f hf
    obtain ⟨i, c, h1, h2, h3⟩ := iq.act (.inl (by simp [hf]))
    exact ⟨i, c, h1, h2, by rintro ⟨ok, h4⟩; rw [h4] at h3; simp [Phase.live] at h3, iq.dup i c f h1 h2 hf⟩

/-! ## Overlapping scans: where it goes wrong -/

/-- What a call needs to come to wait for its context, if nobody interferes. -/
def starts (i : Nat) : List (Ev R) := [.call .scan true, .setHandler i, .setFields i, .write i, .exec true, .handle]

/-- And to return, once its context has ended. -/
def ends (i : Nat) : List (Ev R) := [.endCtx i, .clear i, .write i, .exec true, .handle]

/-- **C119: where it fails.** Of two scans that overlap, the first to end stops both: the other one is still waiting for its context, with nothing to wait for, and no error. -/
theorem first_to_end_stops_all : ∃ s : St R, runT step {} (starts 0 ++ starts 1 ++ ends 0) = some s ∧ (∃ c, s.calls 1 = some c ∧ c.phase = .scanning ∧ c.ended = false) ∧ s.ctl = none ∧ s.queue = [] := by
  refine ⟨_, rfl, ⟨_, rfl, rfl, rfl⟩, rfl, rfl⟩

/-- **C119: where it fails.** The handler of the first scan gets nothing more once a second has begun, although it is waiting: its reports go to the other's handler. -/
theorem second_takes_reports (r : R) : ∃ s : St R, runT step {} (starts 0 ++ starts 1 ++ [.emit r, .handle]) = some s ∧ (∃ c, s.calls 0 = some c ∧ c.phase = .scanning) ∧ s.log = [(1, r)] := by
  refine ⟨_, rfl, ⟨_, rfl, rfl⟩, rfl⟩

/-- **C119: where it fails.** What is sent is what the shared parameters say when the command is marshalled: the second scan ends up sending the command that stops scanning, the controller accepts it, and the call waits for reports that
never come. -/
theorem scan_sends_stop : ∃ s : St R, runT step {} (starts 0 ++ [.call .scan true, .setHandler 1, .setFields 1, .endCtx 0, .clear 0, .write 1, .exec true, .handle]) = some s ∧
    (∃ c, s.calls 1 = some c ∧ c.phase = .scanning ∧ c.ended = false) ∧ s.ctl = none := by
  refine ⟨_, rfl, ⟨_, rfl, rfl, rfl⟩, rfl⟩

/-- **C119: where it fails.** And `StopScan` may send the command that starts it, and return without error while the controller is scanning. -/
theorem stop_sends_scan : ∃ s : St R, runT step {} (starts 0 ++ [.call .stop true, .clear 1, .call .nonblocking true, .setHandler 2, .setFields 2, .write 1, .exec true, .handle]) = some s ∧
    (∃ c, s.calls 1 = some c ∧ c.phase = .returned true) ∧ s.ctl = some false := by
  refine ⟨_, rfl, ⟨_, rfl, rfl⟩, rfl⟩

/-- If the controller refuses to stop, the handler of a call that has returned (with the error) is still called. -/
theorem called_after_failed_stop (r : R) : ∃ s : St R, runT step {} (starts 0 ++ [.endCtx 0, .clear 0, .write 0, .exec false, .handle, .emit r, .handle]) = some s ∧
    (∃ c, s.calls 0 = some c ∧ c.phase = .returned false) ∧ s.log = [(0, r)] := by
  refine ⟨_, rfl, ⟨_, rfl, rfl⟩, rfl⟩

theorem Sequential_nil : Sequential ([] : List (Ev R)) := by
  intro pre k d post s h; simp at h

/-- One more call after an idle state. -/
theorem Sequential_call {es post : List (Ev R)} {k : Kind} {d : Bool} {s : St R} (h : Sequential es) (hr : runT step {} es = some s) (hi : Idle s) (hp : ∀ k d, Ev.call k d ∉ post) :
    Sequential (es ++ .call k d :: post) := by
  intro pre k' d' post' t he ht
  rcases List.append_eq_append_iff.1 he with ⟨m, h1, h2⟩ | ⟨m, h1, h2⟩
  · cases m with
    | nil =>
      simp at h1
      subst h1
      rw [hr] at ht
      simp only [Option.some.injEq] at ht
      subst ht
      exact hi
    | cons x m =>
      simp at h2
      exact absurd (by rw [h2.2]; simp) (hp k' d')
  · cases m with
    | nil =>
      simp at h1 h2
      subst h1
      rw [hr] at ht
      simp only [Option.some.injEq] at ht
      subst ht
      exact hi
    | cons x m =>
      simp at h2
      obtain ⟨h2, -⟩ := h2
      subst h2
      exact h pre k' d' m t h1 ht

/-- A history the positive theorems speak about: two scans one after the other, with a report each. -/
theorem scanning_example (a b : R) : ∃ s, runT step {} (starts 0 ++ [.emit a, .handle] ++ ends 0 ++ starts 1 ++ [.emit b] ++ [.endCtx 1, .clear 1, .write 1, .exec true, .handle, .handle]) = some s ∧ Idle s ∧
    s.log = [(0, a), (1, b)] ∧ s.ctl = none ∧ Plain (starts 0 ++ [.emit a, .handle] ++ ends 0 ++ starts 1 ++ [.emit b] ++ [.endCtx 1, .clear 1, .write 1, .exec true, .handle, .handle]) ∧
    Sequential (starts 0 ++ [.emit a, .handle] ++ ends 0 ++ starts 1 ++ [.emit b] ++ [.endCtx 1, .clear 1, .write 1, .exec true, .handle, .handle]) := by
  refine ⟨_, rfl, ?_, rfl, rfl, ⟨by simp [starts, ends], by simp [starts, ends]⟩, ?_⟩
  rotate_left
  · have h0 : Idle ({} : St R) := by intro i c hc; simp at hc
    have h1 : Sequential ([] ++ .call .scan true :: ([.setHandler 0, .setFields 0, .write 0, .exec true, .handle, .emit a, .handle] ++ ends 0) : List (Ev R)) :=
      Sequential_call Sequential_nil rfl h0 (by simp [ends])
    have h2 := Sequential_call (k := .scan) (d := true) (post := [.setHandler 1, .setFields 1, .write 1, .exec true, .handle, .emit b, .endCtx 1, .clear 1, .write 1, .exec true, .handle, .handle]) h1 rfl (by
      intro i c hc
      simp only [starts, ends] at hc
      by_cases h0 : i = 0
      · subst h0; cases hc; exact ⟨_, rfl⟩
      · simp [St.at_, h0] at hc) (by simp)
    simpa [starts, ends] using h2
  intro i c hc
  simp only [starts, ends] at hc
  by_cases h0 : i = 0
  · subst h0; cases hc; exact ⟨_, rfl⟩
  · by_cases h1 : i = 1
    · subst h1; cases hc; exact ⟨_, rfl⟩
    · simp [St.at_, h0, h1] at hc

namespace ScanAux

theorem results_inv {es : List (Ev R)} {s : St R} (h : runT step {} es = some s) :
    (∀ ok, In.answer ok ∈ s.queue → Ev.exec ok ∈ es) ∧ ∀ i c ok, s.calls i = some c → c.phase = .returned ok → Ev.exec ok ∈ es := by
  refine runT_ind (P := fun es s => (∀ ok, In.answer ok ∈ s.queue → Ev.exec ok ∈ es) ∧ ∀ i c ok, s.calls i = some c → c.phase = .returned ok → Ev.exec ok ∈ es) (by simp) ?_ es s h
  intro es s e s' hr ih hs
  obtain ⟨h1, h2⟩ := ih
  have hm : ∀ {x : Ev R}, x ∈ es → x ∈ es ++ [e] := fun h => List.mem_append_left _ h
  cases e with
  | call k d =>
    simp only [step, Option.some.injEq] at hs; subst hs
    refine ⟨fun ok h => hm (h1 ok h), fun i c ok hc hp => ?_⟩
    simp only at hc
    split at hc
    · simp only [Option.some.injEq] at hc; subst hc; cases hp
    · exact hm (h2 i c ok hc hp)
  | exec ok' =>
    simp only [step] at hs
    split at hs
    · simp only [Option.some.injEq] at hs; subst hs
      refine ⟨fun ok h => ?_, fun i c ok hc hp => hm (h2 i c ok hc hp)⟩
      simp only [List.mem_append, List.mem_singleton] at h
      rcases h with h | h
      · exact hm (h1 ok h)
      · cases h; simp
    · cases hs
  | emit r =>
    simp only [step] at hs
    split at hs
    · simp only [Option.some.injEq] at hs; subst hs
      refine ⟨fun ok h => ?_, fun i c ok hc hp => hm (h2 i c ok hc hp)⟩
      simp only [List.mem_append, List.mem_singleton] at h
      rcases h with h | h
      · exact hm (h1 ok h)
      · cases h
    · cases hs
  | handle =>
    simp only [step] at hs
    split at hs
    · cases hs
    · rename_i r q hq
      rw [hq] at h1
      split at hs <;> simp only [Option.some.injEq] at hs <;> subst hs
      all_goals exact ⟨fun ok h => hm (h1 ok (List.mem_cons_of_mem _ h)), fun i c ok hc hp => hm (h2 i c ok hc hp)⟩
    · rename_i ok' q hq
      rw [hq] at h1
      split at hs
      · split at hs
        · split at hs
          · simp only [Option.some.injEq] at hs; subst hs
            refine ⟨fun ok h => hm (h1 ok (List.mem_cons_of_mem _ h)), fun i c ok hc hp => ?_⟩
            simp only [St.at_] at hc
            split at hc
            · simp only [Option.some.injEq] at hc; subst hc
              simp only [answered] at hp
              have : ok = ok' := by
                cases ok' <;> (repeat' split at hp) <;> simp_all
              subst this
              exact hm (h1 ok (List.mem_cons_self ..))
            · exact hm (h2 i c ok hc hp)
          · cases hs
        · cases hs
      · cases hs
  | _ =>
    simp only [step] at hs
    split at hs
    · rename_i j _ c hc
      try split at hs
      all_goals first | cases hs; done | skip
      all_goals
        simp only [Option.some.injEq] at hs; subst hs
        refine ⟨fun ok h => hm (h1 ok h), fun i' c' ok hc' hp => ?_⟩
        simp only [St.at_] at hc'
        split at hc'
        · simp only [Option.some.injEq] at hc'; subst hc'
          first | cases hp; done | exact hm (h2 _ c _ hc hp)
        · exact hm (h2 _ _ _ hc' hp)
    · cases hs

end ScanAux

/-- C119, results: a scan call or `StopScanning` returns an error only if the controller has refused a command, and returns without one only if it has accepted one. -/
theorem scan_results {es : List (Ev R)} {s : St R} (h : runT step {} es = some s) (i : Nat) (c : Call) (ok : Bool) (hc : s.calls i = some c) (hp : c.phase = .returned ok) : Ev.exec ok ∈ es :=
  (ScanAux.results_inv h).2 i c ok hc hp

end Ble.Scanning
