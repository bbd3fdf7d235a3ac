import Verif.Att.SrvEnd
set_option autoImplicit false

/-!
# C206: the goroutines of an accepted connection end with it, and what was received is handled
-/

namespace Ble.SrvEnd

/-! ## Specification -/

/-- Steps of the library's goroutines, and calls that return. -/
def Own : Ev → Prop
  | .arrive _ | .down | .indCall => False
  | _ => True

/-- Nothing the library does is left to do. -/
def AtRest (s : State) : Prop := ∀ e, Own e → step s e = none

/-- All three goroutines have ended (`Loop` with its notifiers closed) and no indication waits. -/
def AllEnded (s : State) : Prop := s.rdr = .ended ∧ s.reader = .ended ∧ s.loop = .ended ∧ s.ind = 0 ∧ s.indWait = false

/-- All but the recombining goroutine, which waits for room in a queue nobody reads any more. -/
def Leaked (s : State) : Prop := (∃ p, s.rdr = .sending p) ∧ s.pdus.length = 16 ∧ s.reader = .ended ∧ s.loop = .ended ∧ s.ind = 0 ∧ s.indWait = false

/-- A PDU after which the connection goes on. -/
def fine : Pdu → Bool
  | .req _ | .conf => true
  | _ => false

/-- The requests among PDUs. -/
def reqs (ps : List Pdu) : List Nat := ps.filterMap fun | .req n => some n | _ => none

/-- The requests that are to be handled: those before the first PDU that ends the connection. -/
def due (ps : List Pdu) : List Nat := reqs (ps.takeWhile fine)

/-! ## Invariants -/

def rHolds : Reader → Nat
  | .swap => 0
  | _ => 1

def lHolds : Loop → Nat
  | .handling | .giving => 1
  | _ => 0

structure Inv (s : State) : Prop where
  pdus : s.pdus.length ≤ 16
  pool : s.loop = .ended ∨ s.loop = .cleaning ∨ s.pool + rHolds s.reader + lHolds s.loop = 2
  loop : s.loop = .cleaning ∨ s.loop = .ended → s.closed = true
  closed : s.closed = true ↔ s.reader = .hangup ∨ s.reader = .ended
  sending : s.rdr ≠ .sending .big

theorem inv_init : Inv init := by constructor <;> simp [init, rHolds, lHolds]

theorem inv_step {s s' : State} {e : Ev} (hi : Inv s) (h : step s e = some s') : Inv s' := by
  obtain ⟨h1, h2, h3, h4, h5⟩ := hi
  cases e <;> simp only [step] at h <;> (repeat' split at h) <;> first
    | (cases h; done)
    | (obtain rfl := Option.some.inj h
       constructor <;> simp_all [rHolds, lHolds] <;> try (first | omega | grind [rHolds, lHolds]))

theorem inv_run {s : State} {es : List Ev} (h : run init es = some s) : Inv s :=
  runT_ind (P := fun (_ : List Ev) (s : State) => Inv s) inv_init (fun _ _ _ _ _ hi hs => inv_step hi hs) es s h

/-! ## Measure -/

def mRdr : Rec → Nat
  | .ended => 0
  | .idle => 1
  | .sending _ => 7

def mReader : Reader → Nat
  | .ended => 0
  | .hangup => 1
  | .closing => 2
  | .reading => 3
  | .swap => 4
  | .offer _ => 7

def mLoop : Loop → Nat
  | .ended => 0
  | .cleaning => 1
  | .waiting => 2
  | .giving => 3
  | .handling => 4

/-- A bound for the number of steps that are left. -/
def left (s : State) : Nat := 7 * s.pkts.length + mRdr s.rdr + 5 * s.pdus.length + mReader s.reader + mLoop s.loop + 2 * s.ind + (if s.indWait then 1 else 0)

theorem left_step {s s' : State} {e : Ev} (ho : Own e) (h : step s e = some s') : left s' < left s := by
  cases e <;> simp only [Own] at ho <;> simp only [step] at h <;> (repeat' split at h) <;> first
    | (cases h; done)
    | (obtain rfl := Option.some.inj h
       simp_all [left, mRdr, mReader, mLoop]
       try (first | omega | grind))

theorem left_run {s s' : State} {es : List Ev} (ho : ∀ e ∈ es, Own e) (h : run s es = some s') : es.length + left s' ≤ left s := by
  induction es generalizing s with
  | nil =>
    simp only [run, runT, Option.some.injEq] at h
    subst h
    simp
  | cons e es ih =>
    simp only [run, runT] at h
    split at h
    · cases h
    · next t ht =>
      have h1 := left_step (ho e (List.mem_cons_self ..)) ht
      have h3 := ih (fun x hx => ho x (List.mem_cons_of_mem _ hx)) h
      simp only [List.length_cons]
      omega

/-- What is left when nothing more happens. -/
theorem rest {s : State} (hi : Inv s) (hd : s.up = false) (hr : AtRest s) : AllEnded s ∨ Leaked s := by
  have hrdr : s.rdr = .ended ∨ ((∃ k, s.rdr = .sending k) ∧ s.pdus.length = 16) := by
    have h1 := hr .take trivial
    have h2 := hr .push trivial
    have h3 := hr .recEnd trivial
    simp only [step] at h1 h2 h3
    cases hx : s.rdr with
    | ended => exact Or.inl rfl
    | sending k =>
      right
      refine ⟨⟨k, rfl⟩, ?_⟩
      rw [hx] at h2
      simp only at h2
      split at h2
      · cases h2
      · have := hi.pdus; omega
    | idle =>
      rw [hx] at h1 h3
      cases hp : s.pkts with
      | nil => simp [hp, hd] at h3
      | cons k r => rw [hp] at h1; cases k <;> cases h1
  have hloop : s.loop = .waiting ∨ s.loop = .ended := by
    have h1 := hr .handle trivial
    have h2 := hr .giveBack trivial
    have h3 := hr .clean trivial
    simp only [step] at h1 h2 h3
    have hp := hi.pool
    cases hl : s.loop with
    | waiting => exact Or.inl rfl
    | ended => exact Or.inr rfl
    | handling => simp [hl] at h1
    | cleaning => simp [hl] at h3
    | giving =>
      rw [hl] at hp
      simp only [lHolds] at hp
      have : s.pool < 2 := by
        rcases hp with hp | hp | hp
        · cases hp
        · cases hp
        · omega
      simp [hl, this] at h2
  have hreader : s.reader = .ended := by
    have h1 := hr (.read false) trivial
    have h2 := hr .give trivial
    have h3 := hr .swap trivial
    have h4 := hr .close trivial
    have h5 := hr .hangup trivial
    simp only [step] at h1 h2 h3 h4 h5
    cases hx : s.reader with
    | ended => rfl
    | hangup => simp [hx] at h5
    | closing => simp [hx] at h4
    | swap =>
      have hp := hi.pool
      have hc := hi.loop
      have hcl := hi.closed
      rw [hx] at hp
      have : 0 < s.pool := by
        rcases hloop with hl | hl
        · rw [hl] at hp
          simp [rHolds, lHolds] at hp
          omega
        · rcases hcl.1 (hc (Or.inr hl)) with h | h <;> rw [hx] at h <;> cases h
      simp [hx, this] at h3
    | offer n =>
      rw [hx] at h2
      rcases hloop with hl | hl
      · simp [hl] at h2
      · rcases hi.closed.1 (hi.loop (Or.inr hl)) with h | h <;> rw [hx] at h <;> cases h
    | reading =>
      rw [if_pos hx] at h1
      cases hp : s.pdus with
      | nil =>
        rcases hrdr with hy | ⟨_, hy⟩
        · simp [hp, hy] at h1
        · rw [hp] at hy; cases hy
      | cons k r => rw [hp] at h1; cases k <;> simp at h1
  have hl : s.loop = .ended := by
    rcases hloop with hl | hl
    · have h1 := hr .loopEnd trivial
      have := hi.closed.2 (Or.inr hreader)
      simp [step, hl, this] at h1
    · exact hl
  have hw : s.indWait = false := by
    have h1 := hr .indEnd trivial
    cases hx : s.indWait with
    | false => rfl
    | true => simp [step, hx] at h1
  have hn : s.ind = 0 := by
    have h1 := hr .indGet trivial
    cases hx : s.ind with
    | zero => rfl
    | succ n => simp [step, hx, hw] at h1
  rcases hrdr with hx | ⟨hx, hy⟩
  · exact Or.inl ⟨hx, hreader, hl, hn, hw⟩
  · exact Or.inr ⟨hx, hy, hreader, hl, hn, hw⟩

/-! ## What is handled -/

def live : Reader → Bool
  | .reading | .offer _ | .swap => true
  | _ => false

def offered : Reader → List Nat
  | .offer n => [n]
  | _ => []

def onWay : Rec → List Pdu
  | .sending p => [p]
  | _ => []

/-- Where the received PDUs are. -/
inductive Where (s : State) (past : List Pdu) : Prop
  | flowing (h : s.received = past ++ s.pdus ++ onWay s.rdr ++ s.pkts) (hb : Pdu.big ∉ s.pdus) (hl : live s.reader = true ∨ (s.rdr = .ended ∧ s.pdus = [] ∧ s.pkts = [])) (hr : s.rdr = .ended → s.pkts = [] ∧ s.up = false)
  | big (t : List Pdu) (h : s.received = past ++ s.pdus ++ .big :: t) (hb : Pdu.big ∉ s.pdus) (hr : s.rdr = .ended) (hu : s.up = false) (hl : live s.reader = true ∨ s.pdus = [])
  | empty (t : List Pdu) (h : s.received = past ++ .empty :: t) (hl : live s.reader = false)

def Flow (s : State) : Prop := ∃ past : List Pdu, (∀ p ∈ past, fine p = true) ∧ reqs past = s.handled ++ offered s.reader ∧ Where s past

theorem flow_init : Flow init := ⟨[], by simp, rfl, .flowing rfl (by simp [init]) (Or.inl rfl) (by simp [init])⟩

/-- A step that changes nothing of this. -/
theorem flow_same {s s' : State} (hf : Flow s) (h1 : s'.received = s.received) (h2 : s'.pdus = s.pdus) (h3 : s'.rdr = s.rdr) (h4 : s'.pkts = s.pkts) (h5 : s'.up = s.up ∨ s'.up = false) (h6 : live s'.reader = live s.reader)
    (h7 : s'.handled ++ offered s'.reader = s.handled ++ offered s.reader) : Flow s' := by
  obtain ⟨past, hp, hq, hw⟩ := hf
  have hup : s.up = false → s'.up = false := by
    intro h
    rcases h5 with h5 | h5
    · rw [h5]; exact h
    · exact h5
  refine ⟨past, hp, by rw [h7, hq], ?_⟩
  cases hw with
  | flowing a b c d => exact .flowing (by rw [h1, h2, h3, h4, a]) (by rw [h2]; exact b) (by rw [h6, h3, h2, h4]; exact c) (by rw [h3, h4]; exact fun h => ⟨(d h).1, hup (d h).2⟩)
  | big t a b c d e => exact .big t (by rw [h1, h2, a]) (by rw [h2]; exact b) (by rw [h3]; exact c) (hup d) (by rw [h6, h2]; exact e)
  | empty t a b => exact .empty t (by rw [h1, a]) (by rw [h6]; exact b)

theorem reqs_snoc (past : List Pdu) (p : Pdu) : reqs (past ++ [p]) = reqs past ++ (match p with | .req n => [n] | _ => []) := by
  cases p <;> simp [reqs]

theorem flow_step {s s' : State} {e : Ev} (hi : Inv s) (hf : Flow s) (h : step s e = some s') : Flow s' := by
  cases e with
  | arrive p =>
    simp only [step] at h
    split at h
    · next hc =>
      obtain rfl := Option.some.inj h
      obtain ⟨past, hp, hq, hw⟩ := hf
      refine ⟨past, hp, hq, ?_⟩
      cases hw with
      | flowing a b c d =>
        refine .flowing (by simp [a]) b ?_ (fun he => ?_)
        · rcases c with c | c
          · exact Or.inl c
          · have := (d c.1).2
            simp [this] at hc
        · have := (d he).2
          simp [this] at hc
      | big t a b c d e => simp [d] at hc
      | empty t a b => exact .empty (t ++ [p]) (by simp [a]) b
    · cases h
  | down =>
    simp only [step] at h
    split at h
    · obtain rfl := Option.some.inj h
      exact flow_same hf rfl rfl rfl rfl (Or.inr rfl) rfl rfl
    · cases h
  | take =>
    simp only [step] at h
    split at h
    · next hx hy =>
      obtain rfl := Option.some.inj h
      next rest =>
      obtain ⟨past, hp, hq, hw⟩ := hf
      refine ⟨past, hp, hq, ?_⟩
      cases hw with
      | flowing a b c d =>
        refine .big rest (by simp [a, hx, hy, onWay]) b rfl rfl ?_
        rcases c with c | c
        · exact Or.inl c
        · exact Or.inr c.2.1
      | big t a b c d e => rw [hx] at c; cases c
      | empty t a b => exact .empty t a b
    · next p rest hn hx hy =>
      obtain rfl := Option.some.inj h
      obtain ⟨past, hp, hq, hw⟩ := hf
      refine ⟨past, hp, hq, ?_⟩
      cases hw with
      | flowing a b c d =>
        refine .flowing (by simp [a, hx, hy, onWay]) b ?_ (by simp)
        rcases c with c | c
        · exact Or.inl c
        · rw [hx] at c; cases c.1
      | big t a b c d e => rw [hx] at c; cases c
      | empty t a b => exact .empty t a b
    · cases h
  | push =>
    simp only [step] at h
    split at h
    · next p hx =>
      split at h
      · obtain rfl := Option.some.inj h
        obtain ⟨past, hp, hq, hw⟩ := hf
        refine ⟨past, hp, hq, ?_⟩
        have hs := hi.sending
        cases hw with
        | flowing a b c d =>
          refine .flowing (by simp [a, hx, onWay]) ?_ ?_ (by simp)
          · simp only [List.mem_append, List.mem_singleton]
            rintro (h | rfl)
            · exact b h
            · exact hs hx
          · rcases c with c | c
            · exact Or.inl c
            · rw [hx] at c; cases c.1
        | big t a b c d e => rw [hx] at c; cases c
        | empty t a b => exact .empty t a b
      · cases h
    · cases h
  | recEnd =>
    simp only [step] at h
    split at h
    · next hc =>
      obtain ⟨hx, hy, hz⟩ := hc
      obtain rfl := Option.some.inj h
      obtain ⟨past, hp, hq, hw⟩ := hf
      refine ⟨past, hp, hq, ?_⟩
      cases hw with
      | flowing a b c d =>
        refine .flowing (by simp [a, hx, onWay]) b ?_ (fun _ => ⟨hy, hz⟩)
        rcases c with c | c
        · exact Or.inl c
        · rw [hx] at c; cases c.1
      | big t a b c d e => rw [hx] at c; cases c
      | empty t a b => exact .empty t a b
    · cases h
  | read taken =>
    simp only [step] at h
    split at h
    · next hx =>
      obtain ⟨past, hp, hq, hw⟩ := hf
      rw [hx] at hq
      simp only [offered, List.append_nil] at hq
      split at h
      · next n rest hy =>
        obtain rfl := Option.some.inj h
        refine ⟨past ++ [.req n], ?_, by rw [reqs_snoc, hq]; rfl, ?_⟩
        · intro p hm
          rcases List.mem_append.1 hm with hm | hm
          · exact hp p hm
          · rw [List.mem_singleton.1 hm]; rfl
        · cases hw with
          | flowing a b c d => exact .flowing (by simp [a, hy]) (by rw [hy] at b; exact fun h => b (List.mem_cons_of_mem _ h)) (Or.inl rfl) d
          | big t a b c d e => exact .big t (by simp [a, hy]) (by rw [hy] at b; exact fun h => b (List.mem_cons_of_mem _ h)) c d (Or.inl rfl)
          | empty t a b => rw [hx] at b; cases b
      · next rest hy =>
        have key : ∀ t : State, t.received = s.received → t.pdus = rest → t.rdr = s.rdr → t.pkts = s.pkts → t.up = s.up → t.reader = s.reader → t.handled = s.handled → Flow t := by
          intro t k1 k2 k3 k4 k5 k6 k7
          refine ⟨past ++ [.conf], ?_, by rw [reqs_snoc, hq, k7, k6, hx]; rfl, ?_⟩
          · intro p hm
            rcases List.mem_append.1 hm with hm | hm
            · exact hp p hm
            · rw [List.mem_singleton.1 hm]; rfl
          · cases hw with
            | flowing a b c d => exact .flowing (by rw [k1, k2, k3, k4]; simp [a, hy]) (by rw [k2]; rw [hy] at b; exact fun h => b (List.mem_cons_of_mem _ h)) (Or.inl (by rw [k6, hx]; rfl)) (by rw [k3, k4, k5]; exact d)
            | big u a b c d e => exact .big u (by rw [k1, k2]; simp [a, hy]) (by rw [k2]; rw [hy] at b; exact fun h => b (List.mem_cons_of_mem _ h)) (by rw [k3]; exact c) (by rw [k5]; exact d) (Or.inl (by rw [k6, hx]; rfl))
            | empty u a b => rw [hx] at b; cases b
        split at h
        · split at h
          · obtain rfl := Option.some.inj h
            exact key _ rfl rfl rfl rfl rfl rfl rfl
          · cases h
        · obtain rfl := Option.some.inj h
          exact key _ rfl rfl rfl rfl rfl rfl rfl
      · next k rest hn1 hn2 hy =>
        obtain rfl := Option.some.inj h
        refine ⟨past, hp, by simp [offered, hq], ?_⟩
        have hk : k = .empty ∨ k = .big := by
          cases k with
          | req n => exact absurd rfl (hn1 n)
          | conf => exact absurd rfl hn2
          | empty => exact Or.inl rfl
          | big => exact Or.inr rfl
        cases hw with
        | flowing a b c d =>
          rcases hk with rfl | rfl
          · exact .empty (rest ++ onWay s.rdr ++ s.pkts) (by simp [a, hy]) rfl
          · rw [hy] at b; exact absurd (List.mem_cons_self ..) b
        | big t a b c d e =>
          rcases hk with rfl | rfl
          · exact .empty (rest ++ .big :: t) (by simp [a, hy]) rfl
          · rw [hy] at b; exact absurd (List.mem_cons_self ..) b
        | empty t a b => rw [hx] at b; cases b
      · next hy =>
        split at h
        · next hz =>
          obtain rfl := Option.some.inj h
          refine ⟨past, hp, by simp [offered, hq], ?_⟩
          cases hw with
          | flowing a b c d => exact .flowing a b (Or.inr ⟨hz, hy, (d hz).1⟩) d
          | big t a b c d e => exact .big t a b c d (Or.inr hy)
          | empty t a b => rw [hx] at b; cases b
        · cases h
    · cases h
  | give =>
    simp only [step] at h
    split at h
    · next n hx =>
      split at h
      · obtain rfl := Option.some.inj h
        exact flow_same hf rfl rfl rfl rfl (Or.inl rfl) (by simp [hx, live]) (by simp [hx, offered])
      · cases h
    · cases h
  | swap =>
    simp only [step] at h
    split at h
    · next hx =>
      obtain rfl := Option.some.inj h
      exact flow_same hf rfl rfl rfl rfl (Or.inl rfl) (by simp [hx.1, live]) (by simp [hx.1, offered])
    · cases h
  | close =>
    simp only [step] at h
    split at h
    · next hx =>
      obtain rfl := Option.some.inj h
      exact flow_same hf rfl rfl rfl rfl (Or.inl rfl) (by simp [hx, live]) (by simp [hx, offered])
    · cases h
  | hangup =>
    simp only [step] at h
    split at h
    · next hx =>
      obtain rfl := Option.some.inj h
      exact flow_same hf rfl rfl rfl rfl (Or.inl rfl) (by simp [hx, live]) (by simp [hx, offered])
    · cases h
  | _ =>
    simp only [step] at h
    (try split at h) <;> first
      | (cases h; done)
      | (obtain rfl := Option.some.inj h
         exact flow_same hf rfl rfl rfl rfl (Or.inl rfl) rfl rfl)

theorem flow_run {s : State} {es : List Ev} (h : run init es = some s) : Flow s :=
  (runT_ind (P := fun (_ : List Ev) (s : State) => Inv s ∧ Flow s) ⟨inv_init, flow_init⟩ (fun _ _ _ _ _ hi hs => ⟨inv_step hi.1 hs, flow_step hi.1 hi.2 hs⟩) es s h).2

theorem takeWhile_stop (past t : List Pdu) (p : Pdu) (hp : ∀ x ∈ past, fine x = true) (hn : fine p = false) : (past ++ p :: t).takeWhile fine = past := by
  induction past with
  | nil => simp [hn]
  | cons a as ih => simp [hp a (List.mem_cons_self ..), ih (fun x hx => hp x (List.mem_cons_of_mem _ hx))]

theorem takeWhile_all (past : List Pdu) (hp : ∀ x ∈ past, fine x = true) : past.takeWhile fine = past := by
  induction past with
  | nil => rfl
  | cons a as ih => simp [hp a (List.mem_cons_self ..), ih (fun x hx => hp x (List.mem_cons_of_mem _ hx))]

theorem takeWhile_prefix_all (past t : List Pdu) (hp : ∀ x ∈ past, fine x = true) : past <+: (past ++ t).takeWhile fine := by
  induction past with
  | nil => exact ⟨_, rfl⟩
  | cons a as ih =>
    obtain ⟨u, hu⟩ := ih (fun x hx => hp x (List.mem_cons_of_mem _ hx))
    exact ⟨u, by simp [hp a (List.mem_cons_self ..), hu]⟩

theorem reqs_append (a b : List Pdu) : reqs (a ++ b) = reqs a ++ reqs b := by simp [reqs]

/-! ## Theorems -/

/-- **C206** At every time the requests handled are the first ones of those received before a PDU that ends the connection, each once and in order. -/
theorem handled_in_order (es : List Ev) (s : State) (h : run init es = some s) : s.handled <+: due s.received := by
  obtain ⟨past, hp, hq, hw⟩ := flow_run h
  have key : ∀ t, s.received = past ++ t → s.handled <+: due s.received := by
    intro t ht
    obtain ⟨u, hu⟩ := takeWhile_prefix_all past t hp
    refine ⟨offered s.reader ++ reqs u, ?_⟩
    rw [due, ht, ← hu, reqs_append, hq, List.append_assoc]
  cases hw with
  | flowing a b c d => exact key (s.pdus ++ onWay s.rdr ++ s.pkts) (by simp [a])
  | big t a b c d e => exact key (s.pdus ++ .big :: t) (by simp [a])
  | empty t a b => exact key _ a

/-- **C206** Once the connection has ended, the library comes to rest within a bounded number of steps, in every order of the steps; where it comes to rest, every request received before a PDU that ends the connection has been handled,
and either all goroutines have ended and every indication has returned, or all but the recombining one. -/
theorem comes_to_rest (pre : List Ev) (s : State) (h : run init pre = some s) (hd : s.up = false) :
    (∀ es s', (∀ e ∈ es, Own e) → run s es = some s' → es.length ≤ left s) ∧ (AtRest s → s.handled = due s.received ∧ (AllEnded s ∨ Leaked s)) := by
  refine ⟨fun es s' ho hr => ?_, fun hr => ⟨?_, rest (inv_run h) hd hr⟩⟩
  · have := left_run ho hr
    omega
  · have he : s.reader = .ended := by
      rcases rest (inv_run h) hd hr with h | h
      · exact h.2.1
      · exact h.2.2.1
    obtain ⟨past, hp, hq, hw⟩ := flow_run h
    rw [he] at hq
    simp only [offered, List.append_nil] at hq
    rw [← hq, due]
    cases hw with
    | flowing a b c d =>
      rcases c with c | ⟨c1, c2, c3⟩
      · rw [he] at c; cases c
      · rw [a, c1, c2, c3]
        simp only [onWay, List.append_nil]
        rw [takeWhile_all past hp]
    | big t a b c d e =>
      rcases e with e | e
      · rw [he] at e; cases e
      · rw [a, e, List.append_nil, takeWhile_stop past t .big hp rfl]
    | empty t a b => rw [a, takeWhile_stop past t .empty hp rfl]

/-- **C206** Whatever the state in which a connection ends, the library has a way to come to rest. -/
theorem can_rest (s : State) : ∃ es s', (∀ e ∈ es, Own e) ∧ run s es = some s' ∧ AtRest s' := by
  have key : ∀ n (t : State), left t ≤ n → ∃ es s', (∀ e ∈ es, Own e) ∧ run t es = some s' ∧ AtRest s' := by
    intro n
    induction n with
    | zero =>
      intro t hl
      refine ⟨[], t, by simp, rfl, fun e he => ?_⟩
      cases hs : step t e with
      | none => rfl
      | some t' => have := left_step he hs; omega
    | succ n ih =>
      intro t hl
      by_cases hr : AtRest t
      · exact ⟨[], t, by simp, rfl, hr⟩
      · obtain ⟨e, he⟩ := Classical.not_forall.1 hr
        obtain ⟨he, hs⟩ := Classical.not_imp.1 he
        obtain ⟨t', ht'⟩ := Option.ne_none_iff_exists'.1 hs
        have h1 := left_step he ht'
        obtain ⟨es, s', h3, h4, h5⟩ := ih t' (by omega)
        refine ⟨e :: es, s', ?_, ?_, h5⟩
        · intro x hx
          rcases List.mem_cons.1 hx with rfl | hx
          · exact he
          · exact h3 x hx
        · simp only [run, runT, ht']
          exact h4
  exact key _ s (Nat.le_refl _)

/-- **C206** If the peer has sent no PDU without octets, all goroutines of the connection end, and all indications return.
Missing: after a PDU without octets the recombining goroutine stays if more than 16 PDUs follow (`goroutine_leaks`). -/
theorem all_end_partial (es : List Ev) (s : State) (h : run init es = some s) (hd : s.up = false) (he : Pdu.empty ∉ s.received) (hr : AtRest s) : AllEnded s := by
  rcases rest (inv_run h) hd hr with h1 | h1
  · exact h1
  · exfalso
    obtain ⟨⟨p, h1⟩, h2, h3, _⟩ := h1
    obtain ⟨past, hp, hq, hw⟩ := flow_run h
    cases hw with
    | flowing a b c d =>
      rcases c with c | c
      · rw [h3] at c; cases c
      · rw [h1] at c; cases c.1
    | big t a b c d e => rw [h1] at c; cases c
    | empty t a b => exact he (by rw [a]; simp)

/-- **C206** A goroutine that stays, stays for ever. -/
theorem leaked_for_ever (s : State) (hl : Leaked s) (es : List Ev) (s' : State) (hr : run s es = some s') : s'.rdr = s.rdr ∧ s'.rdr ≠ .ended := by
  have key : ∀ (es : List Ev) (t : State), (∃ k, t.rdr = .sending k) → t.pdus.length = 16 → t.reader = .ended → run t es = some s' → s'.rdr = t.rdr := by
    intro es
    induction es with
    | nil => intro t _ _ _ h; simp only [run, runT, Option.some.injEq] at h; rw [h]
    | cons e es ih =>
      intro t h2 h3 h4 h
      simp only [run, runT] at h
      split at h
      · cases h
      · next u hu =>
        have : u.rdr = t.rdr ∧ u.pdus.length = 16 ∧ u.reader = .ended := by
          obtain ⟨k, hk⟩ := h2
          cases e <;> simp only [step] at hu <;> (repeat' split at hu) <;> first
            | (cases hu; done)
            | (obtain rfl := Option.some.inj hu
               simp_all)
        rw [ih u (this.1 ▸ h2) this.2.1 this.2.2 h, this.1]
  obtain ⟨h1, h2, h3, _⟩ := hl
  have := key es s h1 h2 h3 hr
  refine ⟨this, ?_⟩
  obtain ⟨k, hk⟩ := h1
  rw [this, hk]
  simp

/-- A peer sends a PDU without octets and 17 confirmations, then the connection is lost. -/
def flood : List Ev := [.arrive .empty, .take, .push, .read false, .close, .hangup, .loopEnd, .clean] ++ (List.replicate 16 [Ev.arrive .conf, .take, .push]).flatten ++ [.arrive .conf, .take, .down]

def floodEnd : State :=
  { up := false, pkts := [], rdr := .sending .conf, pdus := List.replicate 16 .conf, reader := .ended, pool := 1, closed := true, loop := .ended, ind := 0, indWait := false, received := .empty :: List.replicate 17 .conf, handled := [] }

/-- **C206 is false without the restriction**: a state in which the recombining goroutine waits for ever. -/
theorem goroutine_leaks : run init flood = some floodEnd ∧ floodEnd.up = false ∧ Leaked floodEnd :=
  ⟨by decide, rfl, ⟨.conf, rfl⟩, rfl, rfl, rfl, rfl, rfl⟩

/-- Requests and an indication are under way when the connection ends. -/
def busy : List Ev := [.indCall, .indCall, .indGet, .arrive (.req 1), .take, .push, .read false, .give, .swap, .arrive (.req 2), .take, .push, .read false, .arrive .conf, .arrive (.req 3), .take, .arrive .big, .arrive (.req 4), .down]

def busyEnd : State :=
  { up := false, pkts := [.req 3, .big, .req 4], rdr := .sending .conf, pdus := [], reader := .offer 2, pool := 0, closed := false, loop := .handling, ind := 1, indWait := true, received := [.req 1, .req 2, .conf, .req 3, .big, .req 4],
    handled := [1] }

/-- In this case everything ends, and the three requests before the one that is too long are handled. -/
theorem ending_example : run init busy = some busyEnd ∧ ∃ es s', (∀ e ∈ es, Own e) ∧ run busyEnd es = some s' ∧ AtRest s' ∧ s'.up = false ∧ AllEnded s' ∧ s'.handled = [1, 2, 3] := by
  have hb : run init busy = some busyEnd := by decide
  have fixed : ∀ (es : List Ev) (t t' : State), (∀ e ∈ es, Own e) → t.up = false → run t es = some t' → t'.up = false ∧ t'.received = t.received := by
    intro es
    induction es with
    | nil => intro t t' _ hu h; simp only [run, runT, Option.some.injEq] at h; subst h; exact ⟨hu, rfl⟩
    | cons e es ih =>
      intro t t' ho hu h
      simp only [run, runT] at h
      split at h
      · cases h
      · next u hs =>
        have he := ho e (List.mem_cons_self ..)
        have : u.up = false ∧ u.received = t.received := by
          cases e <;> simp only [Own] at he <;> simp only [step] at hs <;> (repeat' split at hs) <;> first
            | (cases hs; done)
            | (obtain rfl := Option.some.inj hs
               simp_all)
        obtain ⟨h1, h2⟩ := ih u t' (fun x hx => ho x (List.mem_cons_of_mem _ hx)) this.1 h
        exact ⟨h1, by rw [h2, this.2]⟩
  refine ⟨hb, ?_⟩
  obtain ⟨es, s', h1, h2, h3⟩ := can_rest busyEnd
  obtain ⟨h4, h5⟩ := fixed es busyEnd s' h1 rfl h2
  have hr : run init (busy ++ es) = some s' := runT_append.2 ⟨_, hb, h2⟩
  refine ⟨es, s', h1, h2, h3, h4, all_end_partial _ s' hr h4 (by rw [h5]; decide) h3, ?_⟩
  rw [((comes_to_rest _ s' hr h4).2 h3).1, h5]
  decide

end Ble.SrvEnd
