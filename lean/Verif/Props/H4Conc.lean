import Verif.Hci.H4Conc
set_option autoImplicit false

/-!
# Concurrent use of an H4 transport
-/

namespace Ble.H4Conc

def PC.inR : PC → Bool
  | .rSel _ | .rCheck _ | .cClose => true
  | _ => false

def PC.inC : PC → Bool
  | .cTest | .cWait | .cClose => true
  | _ => false

/-- The packet a call has taken and not yet returned. -/
def held (s : State) : List Bytes :=
  match s.rmu with
  | none => []
  | some t => match s.pc t with
    | some (.rCheck b) => [b]
    | _ => []

/-- The packets the receive loop has not yet put on the queue. -/
def pushing (s : State) : List Bytes :=
  match s.rx with
  | .push ps => ps
  | _ => []

structure Inv (s : State) : Prop where
  cm : ∀ t, (∃ p, s.pc t = some p ∧ p.inC = true) ↔ s.cmu = some t
  rm : ∀ t, (∃ p, s.pc t = some p ∧ p.inR = true) ↔ s.rmu = some t
  op : s.done = false → s.up = true
  cl : ∀ t, s.pc t = some .cWait ∨ s.pc t = some .cClose → s.done = true ∧ s.up = true
  dn : s.done = true → s.up = true → ∃ t, s.pc t = some .cWait ∨ s.pc t = some .cClose
  fi : ∀ t, s.pc t = some (.fin .closed) ∨ s.pc t = some (.fin .already) → s.done = true ∧ s.up = false
  r0 : s.rx ≠ .ended → s.pc 0 = none
  ql : s.q.length ≤ cap

theorem inv_init : Inv init := by
  constructor <;> simp [init]

set_option maxHeartbeats 4000000 in
theorem inv_step {s s' : State} {e : Ev} (i : Inv s) (h : step s e = some s') : Inv s' := by
  have ⟨cm, rm, op, cl, dn, fi, r0, ql⟩ := i
  have rm1 : ∀ t p, s.pc t = some p → p.inR = true → s.rmu = some t := fun t p a b => (rm t).1 ⟨p, a, b⟩
  have cm1 : ∀ t p, s.pc t = some p → p.inC = true → s.cmu = some t := fun t p a b => (cm t).1 ⟨p, a, b⟩
  have rm2 := fun t => (rm t).2
  have cm2 := fun t => (cm t).2
  cases e with
  | call t o =>
    simp only [step] at h
    split at h
    · simp only [Option.some.injEq] at h; subst h
      constructor <;> simp only [State.at_] <;> grind [PC.inC, PC.inR]
    · simp at h
  | go t p =>
    simp only [step, go] at h
    repeat' split at h
    all_goals simp only [Option.some.injEq, reduceCtorEq] at h
    all_goals subst h
    all_goals (constructor <;> simp only [State.at_] <;> grind [PC.inC, PC.inR])
  | rx r =>
    simp only [step, rxStep] at h
    repeat' split at h
    all_goals simp only [Option.some.injEq, reduceCtorEq] at h
    all_goals subst h
    all_goals (constructor <;> simp only [State.at_] <;> grind [PC.inC, PC.inR])

theorem inv_run {es : List Ev} {s : State} (h : runT step init es = some s) : Inv s :=
  runT_ind (P := fun _ s => Inv s) inv_init (fun _ _ _ _ _ i hs => inv_step i hs) es s h

/-- All the packets found in the received bytes, in their order: those taken from the queue by calls that have returned, the one taken by a call that has not, those on the queue, and those the receive loop has not yet put there. -/
def Made (s : State) : Prop := s.made = s.taken.map Prod.fst ++ held s ++ s.q ++ pushing s

theorem held_of {s : State} (i : Inv s) {t : Nat} {p : PC} (hp : s.pc t = some p) (hr : p.inR = true) :
    s.rmu = some t := (i.rm t).1 ⟨p, hp, hr⟩

theorem made_step {s s' : State} {e : Ev} (i : Inv s) (md : Made s) (h : step s e = some s') : Made s' := by
  have hr := i.rm
  have h0 := i.r0
  have md' := md
  unfold Made at md'
  cases e with
  | call t o =>
    simp only [step] at h
    split at h
    · rename_i hc
      simp only [Option.some.injEq] at h; subst h
      have : held (s.at_ t (.start o)) = held s := by
        simp only [held, State.at_]
        cases hm : s.rmu with
        | none => rfl
        | some u =>
          have hne : u ≠ t := by
            rintro rfl
            obtain ⟨p, hp, _⟩ := (hr u).2 hm
            rw [hc.2] at hp; simp at hp
          simp [hne]
      simp only [Made, this]; exact md'
    · simp at h
  | go t p =>
    simp only [step, go] at h
    have hm : ∀ p, s.pc t = some p → p.inR = true → s.rmu = some t := fun p hp hq => held_of i hp hq
    have hn : ∀ p, s.pc t = some p → p.inR = false → s.rmu ≠ some t := by
      intro p hp hq he
      obtain ⟨p', hp', hq'⟩ := (hr t).2 he
      rw [hp] at hp'; simp only [Option.some.injEq] at hp'; subst hp'; simp [hq] at hq'
    have hz : ∀ p, s.pc t = some p → p.inR = false → ∀ q : PC, q.inR = false → ∀ s2 : State, s2.rmu = s.rmu → s2.pc = (fun n => if n = t then some q else s.pc n) →
        s2.made = s.made → s2.taken = s.taken → s2.q = s.q → s2.rx = s.rx → Made s2 := by
      intro p hp hq q _ s2 h1 h2 e1 e2 e3 e4
      have e5 : pushing s2 = pushing s := by simp only [pushing, e4]
      refine (?_ : held s2 = held s → Made s2) ?_
      · intro he; simp only [Made, e1, e2, e3, e5, he]; exact md'
      have := hn p hp hq
      simp only [held, h1, h2]
      cases hu : s.rmu with
      | none => rfl
      | some u =>
        have hne : u ≠ t := by rintro rfl; exact this hu
        simp [hne]
    repeat' split at h
    all_goals simp only [Option.some.injEq, reduceCtorEq] at h
    all_goals subst h
    · exact hz _ ‹_› rfl _ rfl _ rfl rfl rfl rfl rfl rfl
    · exact hz _ ‹_› rfl _ rfl _ rfl rfl rfl rfl rfl rfl
    · rename_i hq; simp_all [Made, held, pushing, State.at_]
    · have := hm _ ‹_› rfl; simp_all [Made, held, pushing, State.at_]
    · have := hm _ ‹_› rfl; simp_all [Made, held, pushing, State.at_]
    · have := hm _ ‹_› rfl; simp_all [Made, held, pushing, State.at_]
    · have := hm _ ‹_› rfl; simp_all [Made, held, pushing, State.at_]
    · have := hm _ ‹_› rfl; simp_all [Made, held, pushing, State.at_]
    · exact hz _ ‹_› rfl _ rfl _ rfl rfl rfl rfl rfl rfl
    · exact hz _ ‹_› rfl _ rfl _ rfl rfl rfl rfl rfl rfl
    · exact hz _ ‹_› rfl _ rfl _ rfl rfl rfl rfl rfl rfl
    · rename_i hq; simp_all [Made, held, pushing, State.at_]
    · have := hm _ ‹_› rfl; simp_all [Made, held, pushing, State.at_]
  | rx r =>
    have hz : ∀ s2 : State, s.rx ≠ .ended → s2.rmu = s.rmu → (s2.pc = s.pc ∨ ∃ q, s2.pc = (fun n => if n = 0 then some q else s.pc n)) → (held s2 = held s → Made s2) → Made s2 := by
      intro s2 hne h1 h2 hh
      apply hh
      rcases h2 with h2 | ⟨q, h2⟩
      · simp only [held, h1, h2]
      · simp only [held, h1, h2]
        cases hu : s.rmu with
        | none => rfl
        | some u =>
          have hne : u ≠ 0 := by
            rintro rfl
            obtain ⟨p, hp, _⟩ := (hr 0).2 hu
            rw [h0 hne] at hp; simp at hp
          simp [hne]
    simp only [step, rxStep] at h
    repeat' split at h
    all_goals simp only [Option.some.injEq, reduceCtorEq] at h
    all_goals subst h
    · rename_i hx _; refine hz _ (by rw [hx]; simp) rfl (.inr ⟨_, rfl⟩) (fun he => ?_); simp only [Made, he]; simp only [pushing, hx, State.at_] at *; simpa using md'
    · rename_i hx _; refine hz _ (by rw [hx]; simp) rfl (.inl rfl) (fun he => ?_); simp only [Made, he]; simp only [pushing, hx, State.at_] at *; simpa using md'
    · rename_i hx _ _ _; refine hz _ (by rw [hx]; simp) rfl (.inl rfl) (fun he => ?_); simp only [Made, he]; simp only [pushing, hx, State.at_] at *; simp only [md']; simp
    · rename_i hx _ _; refine hz _ (by rw [hx]; simp) rfl (.inl rfl) (fun he => ?_); simp only [Made, he]; simp only [pushing, hx, State.at_] at *; simpa using md'
    · rename_i hx _ _; refine hz _ (by rw [hx]; simp) rfl (.inr ⟨_, rfl⟩) (fun he => ?_); simp only [Made, he]; simp only [pushing, hx, State.at_] at *; simpa using md'
    · rename_i hx; refine hz _ (by rw [hx]; simp) rfl (.inl rfl) (fun he => ?_); simp only [Made, he]; simp only [pushing, hx, State.at_] at *; simpa using md'
    · rename_i hx _; refine hz _ (by rw [hx]; simp) rfl (.inl rfl) (fun he => ?_); simp only [Made, he]; simp only [pushing, hx, State.at_] at *; simpa using md'

theorem made_run {es : List Ev} {s : State} (h : runT step init es = some s) : Made s :=
  runT_ind (P := fun _ s => Made s) (by simp [Made, init, held, pushing]) (fun _ _ _ _ hr md hs => made_step (inv_run hr) md hs) es s h

/-! ## C112: the packets -/

/-- **In order, none lost, none twice**: whatever goroutines read in whatever interleaving, while nobody has closed the transport and every buffer was large enough, the packets the calls returned, in the order the calls took them, are the first of the packets received; the rest are held by a call in progress, on the queue or about to be put there. -/
theorem reads_in_order {es : List Ev} {s : State} (h : runT step init es = some s) (hall : ∀ x ∈ s.taken, x.2 = true) :
    s.made = (s.taken.filter fun x => x.2).map Prod.fst ++ held s ++ s.q ++ pushing s := by
  have hf : s.taken.filter (fun x => x.2) = s.taken := List.filter_eq_self.2 hall
  rw [hf]; exact made_run h

/-- In any case the packets returned are, in their order, among the packets received. -/
theorem reads_sublist {es : List Ev} {s : State} (h : runT step init es = some s) :
    List.Sublist ((s.taken.filter fun x => x.2).map Prod.fst) s.made := by
  rw [made_run h, List.append_assoc, List.append_assoc]
  exact ((List.filter_sublist).map _).trans (List.sublist_append_left ..)

/-- A packet is lost only by a `Read` whose buffer is too small, or one that finds the transport closed after it took the packet. -/
theorem loss_cause {s s' : State} {e : Ev} (h : step s e = some s') (b : Bytes) (hl : s'.taken = s.taken ++ [(b, false)]) :
    s.done = true ∨ ∃ t n, e = .go t false ∧ s.pc t = some (.rSel n) ∧ n < b.length := by
  cases e with
  | call t o =>
    simp only [step] at h; split at h <;> simp only [Option.some.injEq, reduceCtorEq] at h; subst h
    simp [State.at_] at hl
  | rx r =>
    simp only [step, rxStep] at h
    repeat' split at h
    all_goals simp only [Option.some.injEq, reduceCtorEq] at h
    all_goals subst h
    all_goals simp [State.at_] at hl
  | go t p =>
    simp only [step, go] at h
    repeat' split at h
    all_goals simp only [Option.some.injEq, reduceCtorEq] at h
    all_goals subst h
    all_goals simp [State.at_] at hl
    all_goals simp_all

/-- What `taken` records is what the calls returned: a packet is marked as returned exactly if the call that took it returns this packet. -/
theorem taken_means_returned {s s' : State} {t : Nat} {p f : Bool} (h : step s (.go t p) = some s') (b : Bytes) (hl : s'.taken = s.taken ++ [(b, f)]) :
    (f = true ↔ s'.pc t = some (.fin (.packet b))) ∧ (f = false ↔ s'.pc t = some (.fin .small) ∨ s'.pc t = some (.fin .eof)) := by
  simp only [step, go] at h
  repeat' split at h
  all_goals simp only [Option.some.injEq, reduceCtorEq] at h
  all_goals subst h
  all_goals simp [State.at_] at hl
  all_goals obtain ⟨h1, h2⟩ := hl
  all_goals subst h1
  all_goals simp_all [State.at_]

/-- The queue never holds more than 64 packets. -/
theorem queue_bound {es : List Ev} {s : State} (h : runT step init es = some s) : s.q.length ≤ 64 := (inv_run h).ql

/-! ## C113: the end of the receive loop -/

/-- **`Close` means closed**: when a `Close` call has returned, the transport is closed. -/
theorem close_returned {es : List Ev} {s : State} (h : runT step init es = some s) {t : Nat}
    (hf : s.pc t = some (.fin .closed) ∨ s.pc t = some (.fin .already)) : s.up = false := ((inv_run h).fi t hf).2

/-- The receive loop by itself. -/
def rxOnly (n : Nat) : List Ev := List.replicate n (.rx .again)

/-- **The loop ends after `Close`, if there is room**: once the transport is closed, if the packets the loop holds fit on the queue, the loop ends by itself in a number of steps. -/
theorem rx_ends_partial {s : State} (hd : s.done = true) (hu : s.up = false) (hroom : (s.q ++ pushing s).length ≤ 64) :
    ∃ n s', runT step s (rxOnly n) = some s' ∧ s'.rx = .ended := by
  have htest : ∀ s : State, s.done = true → s.rx = .test → ∃ s', runT step s (rxOnly 1) = some s' ∧ s'.rx = .ended := by
    intro s hd hx
    refine ⟨{ s with rx := .ended }.at_ 0 (.start .close), ?_, rfl⟩
    simp [rxOnly, runT, step, rxStep, hx, hd, List.replicate]
  have hpush : ∀ (ps : List Bytes) (s : State), s.done = true → s.rx = .push ps → (s.q ++ ps).length ≤ 64 →
      ∃ n s', runT step s (rxOnly n) = some s' ∧ s'.rx = .ended := by
    intro ps
    induction ps with
    | nil =>
      intro s hd hx _
      obtain ⟨s', h1, h2⟩ := htest { s with rx := .test } hd rfl
      refine ⟨2, s', ?_, h2⟩
      have : rxOnly 2 = .rx .again :: rxOnly 1 := rfl
      rw [this, runT]
      simp only [step, rxStep, hx]
      exact h1
    | cons b ps ih =>
      intro s hd hx hl
      obtain ⟨n, s', h1, h2⟩ := ih { s with rx := .push ps, q := s.q ++ [b] } hd rfl (by simpa using hl)
      refine ⟨n + 1, s', ?_, h2⟩
      have : rxOnly (n + 1) = .rx .again :: rxOnly n := by simp [rxOnly, List.replicate_succ]
      have hlt : s.q.length < cap := by simp [cap] at hl ⊢; omega
      rw [this, runT]
      simp only [step, rxStep, hx, hlt, if_true]
      exact h1
  cases hx : s.rx with
  | ended => exact ⟨0, s, rfl, hx⟩
  | test => obtain ⟨s', h⟩ := htest s hd hx; exact ⟨1, s', h⟩
  | read =>
    refine ⟨1, { s with rx := .ended }.at_ 0 (.start .close), ?_, rfl⟩
    simp [rxOnly, runT, step, rxStep, hx, hu, List.replicate]
  | push ps => exact hpush ps s hd hx (by simpa [pushing, hx] using hroom)

/-- A `Read` that has passed its first test. -/
def PC.reading : PC → Bool
  | .rWait _ | .rSel _ | .rCheck _ => true
  | _ => false

/-- **Otherwise it never ends**: after `Close`, with a full queue, a packet to put there and no `Read` in progress, the receive loop — its goroutine, its buffers and the queue — stays for ever, whatever is called afterwards. -/
theorem rx_stuck {s s' : State} (es : List Ev) (h : runT step s es = some s') (hd : s.done = true) (hq : s.q.length = 64)
    (hx : ∃ b ps, s.rx = .push (b :: ps)) (hn : ∀ t p, s.pc t = some p → p.reading = false) :
    s'.rx = s.rx ∧ s'.q = s.q := by
  have key := runT_ind (P := fun _ s' => s'.done = true ∧ s'.q = s.q ∧ s'.rx = s.rx ∧ ∀ t p, s'.pc t = some p → p.reading = false)
    ⟨hd, rfl, rfl, hn⟩ ?_ es s' h
  · exact ⟨key.2.2.1, key.2.1⟩
  · intro _ u e u' _ i hs
    obtain ⟨i1, i2, i3, i4⟩ := i
    obtain ⟨b, ps, hx⟩ := hx
    cases e with
    | call t o =>
      simp only [step] at hs; split at hs <;> simp only [Option.some.injEq, reduceCtorEq] at hs; subst hs
      refine ⟨i1, i2, i3, ?_⟩
      intro t' p hp
      simp only [State.at_] at hp
      split at hp
      · simp only [Option.some.injEq] at hp; subst hp; rfl
      · exact i4 _ _ hp
    | rx r =>
      simp only [step, rxStep, i3, hx, i2, hq, cap, Nat.lt_irrefl, if_false, reduceCtorEq] at hs
    | go t p =>
      simp only [step, go] at hs
      repeat' split at hs
      all_goals simp only [Option.some.injEq, reduceCtorEq] at hs
      all_goals subst hs
      all_goals simp only [State.at_] at *
      all_goals grind [PC.reading]

/-- Such a state arises: more than 64 packets arrive before anybody reads, then the transport is closed. -/
theorem rx_stuck_reachable : ∃ es s, runT step init es = some s ∧ s.done = true ∧ s.q.length = 64 ∧ s.rx = .push [[]] ∧
    s.pc 1 = some (.fin .closed) ∧ ∀ t p, s.pc t = some p → p.reading = false := by
  have h1 : ∀ (n : Nat) (s : State) (ps : List Bytes), s.rx = .push (List.replicate n [] ++ ps) → s.q.length + n ≤ 64 →
      runT step s (rxOnly n) = some { s with rx := .push ps, q := s.q ++ List.replicate n [] } := by
    intro n
    induction n with
    | zero => intro s ps hx _; simp [rxOnly, runT] at hx ⊢; cases s; simp_all
    | succ n ih =>
      intro s ps hx hl
      have e1 : rxOnly (n + 1) = .rx .again :: rxOnly n := by simp [rxOnly, List.replicate_succ]
      have hlt : s.q.length < cap := by simp [cap]; omega
      rw [e1, runT]
      simp only [step, rxStep, hx, List.replicate_succ, List.cons_append, hlt, if_true]
      rw [ih _ ps rfl (by simp; omega)]
      simp
  refine ⟨[.rx .again, .rx (.data (List.replicate 64 [] ++ [[]]))] ++ rxOnly 64 ++ [.call 1 .close, .go 1 false, .go 1 false, .go 1 false, .go 1 false], ?_⟩
  have h2 : runT step init [.rx .again, .rx (.data (List.replicate 64 [] ++ [[]]))] =
      some { init with rx := .push (List.replicate 64 [] ++ [[]]), made := List.replicate 64 [] ++ [[]] } := by
    simp [runT, step, rxStep, init]
  have h3 := h1 64 { init with rx := .push (List.replicate 64 [] ++ [[]]), made := List.replicate 64 [] ++ [[]] } [[]] rfl (by simp [init])
  refine ⟨_, runT_append.2 ⟨_, runT_append.2 ⟨_, h2, h3⟩, rfl⟩, ?_, ?_, ?_, ?_, ?_⟩
  · simp [State.at_]
  · simp [State.at_, init]
  · simp [State.at_]
  · simp [State.at_]
  · intro t p hp
    simp only [State.at_, init] at hp
    repeat' split at hp
    all_goals simp_all
    all_goals (subst hp; rfl)

/-! ## C114: waiting for silence -/

/-- A read that says there is nothing to read. -/
def Quiet (eofAsError : Bool) : Rd × Bool → Prop
  | (.data n, _) => n = 0
  | (.timeout, late) => late = false
  | (.eof, late) => eofAsError = false ∧ late = false
  | (.fail, _) => False

/-- Bytes that were read in time. -/
def Noise : Rd × Bool → Prop
  | (.data n, late) => n ≠ 0 ∧ late = false
  | _ => False

/-- **Exactly**: the transport counts as idle if and only if some read finds nothing — an empty read at any time, or a time-out (or an end of file that stands for one) before the deadline — and all reads before it gave bytes before the deadline; those bytes are dropped. -/
theorem waitIdle_idle (eofAsError : Bool) (l : List (Rd × Bool)) :
    waitIdle eofAsError l = .idle ↔ ∃ pre x post, l = pre ++ x :: post ∧ (∀ y ∈ pre, Noise y) ∧ Quiet eofAsError x := by
  induction l with
  | nil => simp [waitIdle]
  | cons y l ih =>
    have hcons : ∀ (hN : Noise y) (_ : ¬ Quiet eofAsError y), (∃ pre x post, y :: l = pre ++ x :: post ∧ (∀ y ∈ pre, Noise y) ∧ Quiet eofAsError x) ↔
        ∃ pre x post, l = pre ++ x :: post ∧ (∀ y ∈ pre, Noise y) ∧ Quiet eofAsError x := by
      intro hN hQ
      constructor
      · rintro ⟨pre, x, post, h1, h2, h3⟩
        cases pre with
        | nil => simp at h1; rw [← h1.1] at h3; exact absurd h3 hQ
        | cons p pre =>
          simp only [List.cons_append, List.cons.injEq] at h1
          exact ⟨pre, x, post, h1.2, fun z hz => h2 z (List.mem_cons_of_mem _ hz), h3⟩
      · rintro ⟨pre, x, post, h1, h2, h3⟩
        refine ⟨y :: pre, x, post, by rw [h1]; rfl, ?_, h3⟩
        intro z hz
        rcases List.mem_cons.1 hz with rfl | hz
        · exact hN
        · exact h2 z hz
    have hnil : Quiet eofAsError y → ∃ pre x post, y :: l = pre ++ x :: post ∧ (∀ y ∈ pre, Noise y) ∧ Quiet eofAsError x :=
      fun h => ⟨[], y, l, rfl, by simp, h⟩
    have hno : ¬ Quiet eofAsError y → ¬ Noise y → ¬ ∃ pre x post, y :: l = pre ++ x :: post ∧ (∀ y ∈ pre, Noise y) ∧ Quiet eofAsError x := by
      rintro hQ hN ⟨pre, x, post, h1, h2, h3⟩
      cases pre with
      | nil => simp at h1; rw [← h1.1] at h3; exact hQ h3
      | cons p pre =>
        simp only [List.cons_append, List.cons.injEq] at h1
        exact hN (h1.1 ▸ h2 p (List.mem_cons_self ..))
    obtain ⟨r, late⟩ := y
    cases r with
    | data n =>
      cases n with
      | zero => simp only [waitIdle, true_iff]; exact hnil (by simp [Quiet])
      | succ n =>
        cases late with
        | true => simp only [waitIdle, reduceCtorEq, false_iff]; exact hno (by simp [Quiet]) (by simp [Noise])
        | false => simp only [waitIdle]; rw [ih, hcons (by simp [Noise]) (by simp [Quiet])]
    | timeout =>
      cases late with
      | true => simp only [waitIdle, reduceCtorEq, false_iff]; exact hno (by simp [Quiet]) (by simp [Noise])
      | false => simp only [waitIdle, true_iff]; exact hnil (by simp [Quiet])
    | eof =>
      cases late with
      | true => simp only [waitIdle, reduceCtorEq, false_iff]; exact hno (by simp [Quiet]) (by simp [Noise])
      | false =>
        cases eofAsError with
        | true => simp [waitIdle]; simpa using hno (by simp [Quiet]) (by simp [Noise])
        | false => simp only [waitIdle]; exact iff_of_true rfl (hnil (by simp [Quiet]))
    | fail =>
      cases late with
      | true => simp only [waitIdle, reduceCtorEq, false_iff]; exact hno (by simp [Quiet]) (by simp [Noise])
      | false => simp only [waitIdle, reduceCtorEq, false_iff]; exact hno (by simp [Quiet]) (by simp [Noise])

/-- **It ends**: once a read returns after the deadline, the wait is over. -/
theorem waitIdle_ends (eofAsError : Bool) (l : List (Rd × Bool)) (h : ∃ x ∈ l, x.2 = true) : waitIdle eofAsError l ≠ .waiting := by
  induction l with
  | nil => simp at h
  | cons y l ih =>
    obtain ⟨r, late⟩ := y
    cases late with
    | true => cases r with
      | data n => cases n <;> simp [waitIdle]
      | _ => simp [waitIdle]
    | false =>
      have h' : ∃ x ∈ l, x.2 = true := by simpa using h
      cases r with
      | data n => cases n <;> simp [waitIdle, ih h']
      | eof => cases eofAsError <;> simp [waitIdle]
      | _ => simp [waitIdle]

/-- **A silent transport can be refused**: if the read that finds nothing times out after the deadline — it may, having begun before — opening fails although the transport is idle. -/
theorem waitIdle_late_wrong (eofAsError : Bool) (n : Nat) : waitIdle eofAsError [(.data (n + 1), false), (.timeout, true)] = .late := rfl

/-- The bytes sent to make the controller start afresh are an HCI Reset command. -/
theorem reset_bytes (e w : Bool) (l : List (Rd × Bool)) : (resetAndWaitIdle e w l).1 = [1, 3, 12, 0] := rfl

/-- If the command cannot be written, opening fails. -/
theorem reset_write_fails (e : Bool) (l : List (Rd × Bool)) : (resetAndWaitIdle e false l).2 ≠ .idle := by simp [resetAndWaitIdle]

theorem reset_idle (e : Bool) (l : List (Rd × Bool)) : (resetAndWaitIdle e true l).2 = waitIdle e l := rfl

/-- Two packets, two readers: both are returned, in order. -/
example : ∃ es s, runT step init es = some s ∧ s.pc 1 = some (.fin (.packet [4])) ∧ s.pc 2 = some (.fin (.packet [2, 2])) ∧
    s.taken = [([4], true), ([2, 2], true)] :=
  ⟨[.rx .again, .rx (.data [[4], [2, 2]]), .call 2 (.read 9), .call 1 (.read 9), .go 1 false, .go 1 false, .go 2 false, .rx .again, .rx .again, .go 1 false,
    .go 1 false, .go 2 false, .go 2 false, .go 2 false], _, rfl, rfl, rfl, rfl⟩

end Ble.H4Conc
