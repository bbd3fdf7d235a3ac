import Verif.Hci.SockConc
set_option autoImplicit false

/-!
# Concurrent use of an HCI socket
-/

namespace Ble.SockConc

/-- Holding `cmu`. -/
def PC.inC : PC → Bool
  | .cTest | .cWait | .cClose => true
  | _ => false

/-- Holding `rmu`. -/
def PC.inR : PC → Bool
  | .rPoll | .rRead _ | .rCheck | .cClose => true
  | _ => false

structure Inv (s : State) : Prop where
  cm : ∀ t, (∃ p, s.pc t = some p ∧ p.inC = true) ↔ s.cmu = some t
  rm : ∀ t, (∃ p, s.pc t = some p ∧ p.inR = true) ↔ s.rmu = some t
  wm : ∀ t, s.pc t = some .wWrite ↔ s.wmu = some t
  op : s.done = false → s.fd = .ours
  cl : ∀ t, s.pc t = some .cWait ∨ s.pc t = some .cClose → s.done = true ∧ s.fd = .ours
  nc : s.fd = .ours → (s.log.filter fun x => x.sys = .close) = []
  c1 : (s.log.filter fun x => x.sys = .close).length ≤ 1
  co : ∀ x ∈ s.log, x.sys = .close → x.file = .ours
  dn : s.done = true → s.fd = .ours → ∃ t, s.pc t = some .cWait ∨ s.pc t = some .cClose
  fi : ∀ t r, s.pc t = some (.fin .close r) → s.done = true ∧ s.fd ≠ .ours
  po : ∀ t, s.pc t = some (.rRead .ours) → s.fd = .ours
  pl : ∀ t, s.pc t ≠ some (.rRead .free)

theorem inv_init : Inv init := by
  constructor <;> simp [init]

set_option maxHeartbeats 4000000 in
theorem inv_step {s s' : State} {e : Ev} (i : Inv s) (h : step s e = some s') : Inv s' := by
  have ⟨cm, rm, wm, op, cl, nc, c1, co, dn, fi, po, pl⟩ := i
  cases e with
  | call t o =>
    simp only [step] at h
    split at h
    · simp only [Option.some.injEq] at h; subst h
      constructor <;> simp only [State.at_] <;> grind [PC.inC, PC.inR]
    · simp at h
  | reuse =>
    simp only [step] at h
    split at h
    · simp only [Option.some.injEq] at h; subst h
      constructor <;> grind
    · simp at h
  | release =>
    simp only [step] at h
    split at h
    · simp only [Option.some.injEq] at h; subst h
      constructor <;> grind
    · simp at h
  | go t p =>
    simp only [step, go] at h
    repeat' split at h
    all_goals simp only [Option.some.injEq, reduceCtorEq] at h
    all_goals subst h
    all_goals (constructor <;> simp only [State.at_, State.touch, List.filter_append, List.length_append] <;> grind [PC.inC, PC.inR])

theorem inv_run {es : List Ev} {s : State} (h : runT step init es = some s) : Inv s :=
  runT_ind (P := fun _ s => Inv s) inv_init (fun _ _ _ _ _ i hs => inv_step i hs) es s h

/-! ## C110: what holds for every schedule -/

/-- **Closed once, and only what is ours**: whatever goroutines call whatever methods in whatever interleaving, the descriptor is closed at most once, and when it is, it still stands for the HCI socket. Missing: that calls that began before `Close` make no system call after it (`write_after_close_wrong`, `read_after_close_wrong`: false). -/
theorem closed_once_partial {es : List Ev} {s : State} (h : runT step init es = some s) :
    (s.log.filter fun x => x.sys = .close).length ≤ 1 ∧ ∀ x ∈ s.log, x.sys = .close → x.file = .ours :=
  ⟨(inv_run h).c1, (inv_run h).co⟩

/-- **`Close` means closed**: when any `Close` call has returned — also one that found the socket closed already — the number does not stand for the HCI socket any more. -/
theorem close_returned {es : List Ev} {s : State} (h : runT step init es = some s) {t : Nat} {r : Ret}
    (hf : s.pc t = some (.fin .close r)) : s.fd ≠ .ours := ((inv_run h).fi t r hf).2

/-- **A read reads what it polled**: a `Read` whose poll was for the HCI socket reads from it; `Close` waits for it. -/
theorem read_polled {es : List Ev} {s s' : State} (h : runT step init es = some s) {t : Nat} {p : Poll}
    (hr : s.pc t = some (.rRead .ours)) (hs : step s (.go t p) = some s') : s'.log = s.log ++ [⟨t, .read, .ours⟩] := by
  have := (inv_run h).po t hr
  simp only [step, go, hr, Option.some.injEq] at hs
  subst hs
  simp [State.at_, State.touch, this]

/-- **Nothing is read from a number that stands for nothing.** -/
theorem read_not_free {es : List Ev} {s : State} (h : runT step init es = some s) (t : Nat) : s.pc t ≠ some (.rRead .free) :=
  (inv_run h).pl t

theorem done_mono {s s' : State} {e : Ev} (h : step s e = some s') (hd : s.done = true) : s'.done = true := by
  cases e with
  | go t p =>
    simp only [step, go] at h
    repeat' split at h
    all_goals simp only [Option.some.injEq, reduceCtorEq] at h
    all_goals subst h
    all_goals simp_all [State.at_, State.touch]
  | call t o => simp only [step] at h; split at h <;> simp only [Option.some.injEq, reduceCtorEq] at h; subst h; exact hd
  | reuse => simp only [step] at h; split at h <;> simp only [Option.some.injEq, reduceCtorEq] at h; subst h; exact hd
  | release => simp only [step] at h; split at h <;> simp only [Option.some.injEq, reduceCtorEq] at h; subst h; exact hd

/-- Where a call that began after the socket was closed can be. -/
def LatePC (op : Op) : PC → Prop
  | .start o => o = op
  | .cTest => op = .close
  | .fin o r => o = op ∧ r = if op = .close then .already else .eof
  | _ => False

theorem late_step {s s' : State} {e : Ev} {t : Nat} {op : Op} (h : step s e = some s') (hd : s.done = true)
    (hl : ∃ p, s.pc t = some p ∧ LatePC op p) :
    (∃ p, s'.pc t = some p ∧ LatePC op p) ∧ s'.log.filter (fun x => x.by_ = t) = s.log.filter (fun x => x.by_ = t) := by
  cases e with
  | go u p =>
    simp only [step, go] at h
    repeat' split at h
    all_goals simp only [Option.some.injEq, reduceCtorEq] at h
    all_goals subst h
    all_goals (constructor <;> simp only [State.at_, State.touch, List.filter_append] <;> grind [LatePC])
  | call u o =>
    simp only [step] at h; split at h <;> simp only [Option.some.injEq, reduceCtorEq] at h; subst h
    simp only [State.at_]
    grind
  | reuse => simp only [step] at h; split at h <;> simp only [Option.some.injEq, reduceCtorEq] at h; subst h; exact ⟨hl, rfl⟩
  | release => simp only [step] at h; split at h <;> simp only [Option.some.injEq, reduceCtorEq] at h; subst h; exact ⟨hl, rfl⟩

/-- **After `Close`**: a call that begins after some `Close` call has returned makes no system call on the descriptor; if it returns, a `Read` or `Write` gives the end of file and a `Close` succeeds. -/
theorem late_calls {es es' : List Ev} {s s1 s' : State} (h : runT step init es = some s) {u : Nat} {r : Ret}
    (hc : s.pc u = some (.fin .close r)) {t : Nat} {op : Op} (h1 : step s (.call t op) = some s1) (h2 : runT step s1 es' = some s') :
    s'.log.filter (fun x => x.by_ = t) = s.log.filter (fun x => x.by_ = t) ∧
      ∀ o q, s'.pc t = some (.fin o q) → o = op ∧ q = if op = .close then .already else .eof := by
  have hd := ((inv_run h).fi u r hc).1
  have hd1 := done_mono h1 hd
  have hs1 : (∃ p, s1.pc t = some p ∧ LatePC op p) ∧ s1.log = s.log := by
    simp only [step] at h1
    split at h1
    · simp only [Option.some.injEq] at h1; subst h1
      simp [State.at_, LatePC]
    · simp at h1
  have key := runT_ind (P := fun _ s' => s'.done = true ∧ (∃ p, s'.pc t = some p ∧ LatePC op p) ∧
      s'.log.filter (fun x => x.by_ = t) = s1.log.filter (fun x => x.by_ = t)) ⟨hd1, hs1.1, rfl⟩
    (fun _ s e s' _ i hs => ⟨done_mono hs i.1, (late_step hs i.1 i.2.1).1, (late_step hs i.1 i.2.1).2.trans i.2.2⟩) es' s' h2
  refine ⟨by rw [key.2.2, hs1.2], ?_⟩
  intro o q hq
  obtain ⟨p, hp, hl⟩ := key.2.1
  rw [hq] at hp
  simp only [Option.some.injEq] at hp
  subst hp
  exact hl

/-! ## C111: calls end -/

/-- The call has not returned. -/
def PC.live : PC → Bool
  | .fin _ _ => false
  | _ => true

/-- **No deadlock**: as long as some call has not returned, some call that has not returned can make a step, whatever the polls report. -/
theorem progress {es : List Ev} {s : State} (h : runT step init es = some s) {t : Nat} {pc : PC} (hp : s.pc t = some pc)
    (hl : pc.live = true) : ∃ u, ∀ p, (step s (.go u p)).isSome = true := by
  have ⟨cm, rm, wm, op, cl, nc, c1, co, dn, fi, po, pl⟩ := inv_run h
  -- a holder of `rmu` can go on
  have hR : ∀ u, s.rmu = some u → ∀ p, (step s (.go u p)).isSome = true := by
    intro u hu p
    obtain ⟨q, hq, hi⟩ := (rm u).2 hu
    cases q <;> simp [PC.inR] at hi <;> simp only [step, go, hq] <;> repeat' split
    all_goals simp
  have hW : ∀ u, s.wmu = some u → ∀ p, (step s (.go u p)).isSome = true := by
    intro u hu p
    have := (wm u).2 hu
    simp [step, go, this]
  have hC : ∀ u, s.cmu = some u → ∃ v, ∀ p, (step s (.go v p)).isSome = true := by
    intro u hu
    obtain ⟨q, hq, hi⟩ := (cm u).2 hu
    cases hr : s.rmu with
    | some v => exact ⟨v, hR v hr⟩
    | none =>
      refine ⟨u, fun p => ?_⟩
      cases q <;> simp [PC.inC] at hi <;> simp only [step, go, hq, hr] <;> repeat' split
      all_goals simp
  cases hr : s.rmu with
  | some v => exact ⟨v, hR v hr⟩
  | none =>
    cases hc : s.cmu with
    | some v => exact hC v hc
    | none =>
      cases hw : s.wmu with
      | some v => exact ⟨v, hW v hw⟩
      | none =>
        refine ⟨t, fun p => ?_⟩
        cases pc <;> simp [PC.live] at hl <;> simp only [step, go, hp, hr, hc, hw] <;> repeat' split
        all_goals simp_all

/-- Steps a call can still make. -/
def PC.rank : PC → Nat
  | .start _ => 5
  | .rWait => 4
  | .rPoll => 3
  | .rRead _ => 2
  | .rCheck => 1
  | .wWait => 2
  | .wWrite => 1
  | .cTest => 4
  | .cWait => 2
  | .cClose => 1
  | .fin _ _ => 0

def rankAt (s : State) (t : Nat) : Nat := ((s.pc t).map PC.rank).getD 0

/-- No new call. -/
def Ev.old : Ev → Bool
  | .call _ _ => false
  | _ => true

def Ev.isGo : Ev → Bool
  | .go _ _ => true
  | _ => false

theorem rank_go {s s' : State} {t : Nat} {p : Poll} (h : step s (.go t p) = some s') :
    rankAt s' t < rankAt s t ∧ ∀ u, u ≠ t → rankAt s' u = rankAt s u := by
  simp only [step, go] at h
  repeat' split at h
  all_goals simp only [Option.some.injEq, reduceCtorEq] at h
  all_goals subst h
  all_goals (constructor <;> simp only [rankAt, State.at_, State.touch] <;> grind [PC.rank])

theorem sum_lt {l : List Nat} {f g : Nat → Nat} {t : Nat} (ht : t ∈ l) (hle : ∀ u, f u ≤ g u) (hlt : f t < g t) :
    (l.map f).sum < (l.map g).sum := by
  induction l with
  | nil => simp at ht
  | cons a l ih =>
    simp only [List.map_cons, List.sum_cons]
    have hr : (l.map f).sum ≤ (l.map g).sum := by
      clear ih ht
      induction l with
      | nil => simp
      | cons b l ih => simp only [List.map_cons, List.sum_cons]; have := hle b; omega
    rcases List.mem_cons.1 ht with rfl | h
    · omega
    · have := ih h; have := hle a; omega

/-- **Every call ends**: with no new calls, a schedule has at most five steps per call that has not returned. -/
theorem steps_bounded (ts : List Nat) (es : List Ev) {s s' : State} (h : runT step s es = some s')
    (hts : ∀ t pc, s.pc t = some pc → pc.live = true → t ∈ ts) (ho : ∀ e ∈ es, e.old = true) :
    (es.filter Ev.isGo).length ≤ 5 * ts.length := by
  have hsum : (es.filter Ev.isGo).length + (ts.map (rankAt s')).sum ≤ (ts.map (rankAt s)).sum := by
    induction es generalizing s with
    | nil => simp [runT] at h; subst h; simp
    | cons e es ih =>
      simp only [runT] at h
      split at h
      · simp at h
      · rename_i s1 hs1
        have ho' : ∀ e ∈ es, e.old = true := fun e he => ho e (List.mem_cons_of_mem _ he)
        cases e with
        | call t o => have := ho _ (List.mem_cons_self ..); simp [Ev.old] at this
        | reuse =>
          simp only [step] at hs1; split at hs1 <;> simp only [Option.some.injEq, reduceCtorEq] at hs1; subst hs1
          have := ih h hts ho'
          simp only [List.filter_cons, Ev.isGo, Bool.false_eq_true, if_false]
          exact this
        | release =>
          simp only [step] at hs1; split at hs1 <;> simp only [Option.some.injEq, reduceCtorEq] at hs1; subst hs1
          have := ih h hts ho'
          simp only [List.filter_cons, Ev.isGo, Bool.false_eq_true, if_false]
          exact this
        | go t p =>
          have hr := rank_go hs1
          have hpos : 0 < rankAt s t := by omega
          have hlive : t ∈ ts := by
            simp only [rankAt] at hpos
            cases hq : s.pc t with
            | none => simp [hq] at hpos
            | some q =>
              refine hts t q hq ?_
              cases q <;> simp [PC.live] <;> simp [hq, PC.rank] at hpos
          have hts' : ∀ u pc, s1.pc u = some pc → pc.live = true → u ∈ ts := by
            intro u q hq hl
            by_cases hu : u = t
            · subst hu; exact hlive
            · have hrank := hr.2 u hu
              have : 0 < rankAt s u := by
                rw [← hrank]; simp only [rankAt, hq, Option.map_some, Option.getD_some]
                cases q <;> simp [PC.rank] <;> simp [PC.live] at hl
              simp only [rankAt] at this
              cases hq' : s.pc u with
              | none => simp [hq'] at this
              | some q' =>
                refine hts u q' hq' ?_
                cases q' <;> simp [PC.live] <;> simp [hq', PC.rank] at this
          have h1 := ih h hts' ho'
          have h2 := sum_lt hlive (f := rankAt s1) (g := rankAt s) (fun u => by
            by_cases hu : u = t
            · subst hu; omega
            · rw [hr.2 u hu]; exact Nat.le_refl _) hr.1
          simp only [List.filter_cons, Ev.isGo, if_true, List.length_cons]
          omega
  have hmax : (ts.map (rankAt s)).sum ≤ 5 * ts.length := by
    clear hsum hts
    induction ts with
    | nil => simp
    | cons a l ih =>
      have : rankAt s a ≤ 5 := by
        simp only [rankAt]
        cases s.pc a with
        | none => simp
        | some q => cases q <;> simp [PC.rank]
      simp only [List.map_cons, List.sum_cons, List.length_cons]
      omega
  omega

/-! ## What does not hold -/

/-- **`Write` writes to a file of somebody else**: `Close` does not wait for writers; a `Write` that found the socket open, is overtaken by `Close` and then goes on, writes its bytes — HCI commands — to whatever file was given the number. -/
theorem write_after_close_wrong : ∃ es s, runT step init es = some s ∧ (⟨0, .write, .foreign⟩ : Touch) ∈ s.log ∧
    s.pc 1 = some (.fin .close .sys) :=
  ⟨[.call 0 .write, .go 0 .data, .call 1 .close, .go 1 .data, .go 1 .data, .go 1 .data, .go 1 .data, .reuse, .go 0 .data, .go 0 .data], _, rfl,
    by simp [State.at_, State.touch, init], rfl⟩

/-- **`Read` reads from a file of somebody else**, and loses what it read: it tests whether the socket is open before it waits for the lock that `Close` holds, and afterwards reports the end of file. -/
theorem read_after_close_wrong : ∃ es s, runT step init es = some s ∧ (⟨0, .read, .foreign⟩ : Touch) ∈ s.log ∧
    s.pc 0 = some (.fin .read .eof) :=
  ⟨[.call 0 .read, .go 0 .data, .call 1 .close, .go 1 .data, .go 1 .data, .go 1 .data, .go 1 .data, .reuse, .go 0 .data, .go 0 .data, .go 0 .data, .go 0 .data], _, rfl,
    by simp [State.at_, State.touch, init], rfl⟩

/-- Two readers, a writer and two `Close` calls: the second `Close` returns with the descriptor closed. -/
example : ∃ es s, runT step init es = some s ∧ s.pc 4 = some (.fin .close .already) ∧ s.fd = .free ∧ s.pc 0 = some (.fin .read .eof) :=
  ⟨[.call 0 .read, .call 1 .read, .call 2 .write, .go 0 .data, .go 0 .data, .go 2 .data, .call 3 .close, .call 4 .close, .go 3 .data, .go 3 .data,
    .go 0 .data, .go 0 .data, .go 0 .data, .go 3 .data, .go 3 .data, .go 4 .data, .go 4 .data], _, rfl, rfl, rfl, rfl⟩

end Ble.SockConc
