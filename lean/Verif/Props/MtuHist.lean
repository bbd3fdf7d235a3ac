import Verif.Client.MtuHist
import Verif.Props.ClientCalls
set_option autoImplicit false

/-!
# C204: a client call never overruns the transmit buffer
-/

namespace Ble.MtuHist

open Ble.Client Ble.Props

/-! ## Specification -/

/-- Octets of the PDU a call sends. -/
def need : Req → Nat
  | .mtu _ => 3
  | .find .. => 5
  | .read _ => 3
  | .blob .. => 5
  | .multiple hs => 1 + 2 * hs.length
  | .write _ v => 3 + v.length
  | .command _ v => 3 + v.length
  | .signed _ v _ => 15 + v.length
  | .prepare _ _ v => 5 + v.length

/-- The arguments the calls document, with `tx` the MTU of the connection. -/
def accepted (tx : Nat) : Req → Prop
  | .mtu m => 23 ≤ m ∧ m ≤ 515
  | .find lo hi => 0 < lo ∧ lo ≤ hi
  | .read _ => True
  | .blob .. => True
  | .multiple hs => 2 ≤ hs.length ∧ 1 + 2 * hs.length ≤ tx
  | .write _ v => 3 + v.length ≤ tx
  | .command _ v => 3 + v.length ≤ tx
  | .signed _ v _ => 15 + v.length ≤ tx
  | .prepare _ _ v => 5 + v.length ≤ tx

/-- The sizes of transmit buffer and MTU after an event: an accepted request of the peer changes the MTU; an answered exchange of the client gives the buffer the size answered, and the MTU too unless the buffer has that size already. -/
def resize (s : Nat × Nat) : Ev → Nat × Nat
  | .peer m => (s.1, if m < 23 then s.2 else m)
  | .call (.mtu m) (some [op, lo, hi]) => if 23 ≤ m ∧ m ≤ 515 ∧ op ≠ 1 then (le16 lo hi, if s.1 = le16 lo hi then s.2 else le16 lo hi) else s
  | _ => s

def sizes (es : List Ev) : Nat × Nat := es.foldl resize (23, 23)

/-- Responses have at least one octet (an empty one never gets to the caller: client.go:665, 522). -/
def Sound : Ev → Prop
  | .call _ rsp => rsp ≠ some []
  | .peer _ => True

/-! ## Lemmas -/

theorem sound_answered {rsp : Option Bytes} (h : rsp ≠ some []) : SoundEx (answered rsp) := by
  intro p req
  cases rsp with
  | none => simp [answered]
  | some b =>
    refine ⟨by simp [answered], fun p' r hr => ?_⟩
    simp only [answered, Go.ok.injEq, Prod.mk.injEq] at hr
    obtain ⟨-, rfl⟩ := hr
    intro e
    exact h (by rw [e])

/-- A call made of one exchange, the check of the response and a continuation that does not panic. -/
theorem exchange_panics_iff {σ β : Type} {ex : Exchange σ} (hx : SoundEx ex) (c : Cli σ) (req : Bytes) (k : Cli σ × Bytes → Call β)
    (hk : ∀ c'' rsp, rsp ≠ [] → k (c'', rsp) ≠ .panic) :
    (Cli.send ex c req >>= fun r => checkError r.2 >>= fun _ => k r) = .panic ↔ c.buf.length < req.length := by
  constructor
  · intro h
    refine Classical.byContradiction fun hn => ?_
    have hr : req.length ≤ c.buf.length := by omega
    rcases Go.bind_eq_panic.1 h with h | ⟨⟨c'', rsp⟩, h1, h2⟩
    · exact (send_returns hx hr).1 h
    · have hne := (send_returns hx hr).2 _ _ h1
      rcases Go.bind_eq_panic.1 h2 with h | ⟨_, _, h4⟩
      · exact checkError_returns hne h
      · exact hk c'' rsp hne h4
  · intro h
    unfold Cli.send
    rw [if_pos h]
    rfl

theorem bind_pure_panic {α β : Type} {x : Call α} {f : α → β} : (x >>= fun r => (pure (f r) : Call β)) = .panic ↔ x = .panic := by
  cases x <;> simp [bind, Go.bind, pure]


/-- Exactly when a call panics. -/
theorem perform_panics_iff {σ : Type} {ex : Exchange σ} (hx : SoundEx ex) (c : Cli σ) (r : Req) : perform ex c r = .panic ↔ accepted c.txMTU r ∧ c.buf.length < need r := by
  cases r with
  | mtu m =>
    simp only [perform, accepted, need]
    rw [bind_pure_panic]
    unfold exchangeMTU
    by_cases h : m < 23 ∨ m > 515
    · rw [if_pos h]; simp; omega
    · rw [if_neg h]
      have := exchange_panics_iff hx { c with rxMTU := m } (0x02 :: put16 m) (fun r => if r.2.length ≠ 3 then (.err .invalidResponse : Call (Cli σ × Nat)) else do
        let t ← le16At r.2 1
        if r.1.buf.length ≠ t then pure ({ r.1 with txMTU := t, buf := List.replicate t 0 }, t) else pure (r.1, t)) (by
        intro c'' rsp _
        simp only []
        by_cases h3 : rsp.length = 3
        · rw [if_neg (by omega)]
          simp only [le16At, index_of_lt (show 1 < rsp.length by omega), index_of_lt (show 1 + 1 < rsp.length by omega), Go.bind_ok, Go.pure_def]
          split <;> simp
        · rw [if_pos h3]; simp)
      refine Iff.trans this ?_
      simp
      omega
  | find lo hi =>
    simp only [perform, accepted, need]
    rw [bind_pure_panic]
    unfold findInformation
    by_cases h : lo = 0 ∨ lo > hi
    · rw [if_pos h]; simp; omega
    · rw [if_neg h]
      refine Iff.trans (exchange_panics_iff hx c (0x04 :: (put16 lo ++ put16 hi)) _ ?_) ?_
      · intro c'' rsp _
        simp only []
        by_cases h3 : rsp.length < 6
        · rw [if_pos h3]; simp
        · rw [if_neg h3]
          simp only [index_of_lt (show 1 < rsp.length by omega), Go.bind_ok, Go.pure_def]
          split
          · simp
          · split <;> simp
      · simp; omega
  | read h =>
    simp only [perform, accepted, need]
    rw [bind_pure_panic]
    unfold Client.read
    refine Iff.trans (exchange_panics_iff hx c (0x0A :: put16 h) _ (fun _ _ _ => by simp)) ?_
    simp
  | blob h off =>
    simp only [perform, accepted, need]
    rw [bind_pure_panic]
    unfold readBlob
    refine Iff.trans (exchange_panics_iff hx c (0x0C :: (put16 h ++ put16 off)) _ (fun _ _ _ => by simp)) ?_
    simp
  | multiple hs =>
    simp only [perform, accepted, need]
    rw [bind_pure_panic]
    unfold readMultiple
    by_cases h : hs.length < 2 ∨ (hs.length * 2 : Int) > (c.txMTU : Int) - 1
    · rw [if_pos h]; simp; omega
    · rw [if_neg h]
      refine Iff.trans (exchange_panics_iff hx c (0x0E :: hs.flatMap put16) _ (fun _ _ _ => by simp)) ?_
      rw [List.length_cons, flatMap_put16_length hs]
      omega
  | write h v =>
    simp only [perform, accepted, need]
    unfold Client.write
    by_cases hv : (v.length : Int) > (c.txMTU : Int) - 3
    · rw [if_pos hv]; simp; omega
    · rw [if_neg hv]
      refine Iff.trans (exchange_panics_iff hx c (0x12 :: (put16 h ++ v)) _ (fun _ _ _ => by simp)) ?_
      simp only [List.length_cons, List.length_append, put16_length]
      omega
  | command h v =>
    simp only [perform, accepted, need]
    rw [bind_pure_panic]
    unfold writeCommandPDU
    by_cases hv : (v.length : Int) > (c.txMTU : Int) - 3
    · rw [if_pos hv]; simp; omega
    · rw [if_neg hv]
      split
      · simp; omega
      · simp; omega
  | signed h v sig =>
    simp only [perform, accepted, need]
    rw [bind_pure_panic]
    unfold signedWritePDU
    by_cases hv : (v.length : Int) > (c.txMTU : Int) - 15
    · rw [if_pos hv]; simp; omega
    · rw [if_neg hv]
      split
      · simp; omega
      · simp; omega
  | prepare h off v =>
    simp only [perform, accepted, need]
    rw [bind_pure_panic]
    unfold prepareWrite
    by_cases hv : (v.length : Int) > (c.txMTU : Int) - 5
    · rw [if_pos hv]; simp; omega
    · rw [if_neg hv]
      split
      · simp; omega
      · refine Iff.trans (exchange_panics_iff hx c (0x16 :: (put16 h ++ (put16 off ++ ((c.buf.take (5 + v.length)).drop 5)))) _ ?_) ?_
        · intro c'' rsp _
          simp only []
          by_cases h3 : rsp.length < 5
          · rw [if_pos h3]; simp
          · rw [if_neg h3]
            simp only [le16At, index_of_lt (show 1 < rsp.length by omega), index_of_lt (show 1 + 1 < rsp.length by omega),
              index_of_lt (show 3 < rsp.length by omega), index_of_lt (show 3 + 1 < rsp.length by omega), Go.bind_ok, Go.pure_def]
            simp
        · simp only [List.length_cons, List.length_append, put16_length, List.length_drop, List.length_take]
          omega

theorem send_sizes {σ : Type} {ex : Exchange σ} {c c' : Cli σ} {req rsp : Bytes} (h : Cli.send ex c req = .ok (c', rsp)) :
    c'.buf.length = c.buf.length ∧ c'.txMTU = c.txMTU ∧ ∃ p, ex c.peer req = .ok (p, rsp) := by
  unfold Cli.send at h
  split at h
  · cases h
  · obtain ⟨⟨p, r⟩, h1, h2⟩ := Go.bind_eq_ok.1 h
    simp only [Go.pure_def, Go.ok.injEq, Prod.mk.injEq] at h2
    obtain ⟨rfl, rfl⟩ := h2
    refine ⟨?_, rfl, p, h1⟩
    simp
    omega

/-- A call other than an MTU exchange changes no size. -/
theorem perform_sizes {σ : Type} {ex : Exchange σ} {c c' : Cli σ} {r : Req} (hr : ∀ m, r ≠ .mtu m) (h : perform ex c r = .ok c') : c'.buf.length = c.buf.length ∧ c'.txMTU = c.txMTU := by
  have key : ∀ {β : Type} (req : Bytes) (k : Cli σ × Bytes → Call β) (f : β → Cli σ), (∀ x rsp b, k (x, rsp) = .ok b → f b = x) →
      ∀ b, (Cli.send ex c req >>= fun r => checkError r.2 >>= fun _ => k r) = .ok b → (f b).buf.length = c.buf.length ∧ (f b).txMTU = c.txMTU := by
    intro β req k f hk b hb
    obtain ⟨⟨x, rsp⟩, h1, h2⟩ := Go.bind_eq_ok.1 hb
    obtain ⟨_, _, h3⟩ := Go.bind_eq_ok.1 h2
    rw [hk x rsp b h3]
    exact ⟨(send_sizes h1).1, (send_sizes h1).2.1⟩
  cases r with
  | mtu m => exact absurd rfl (hr m)
  | find lo hi =>
    obtain ⟨b, h1, h2⟩ := Go.bind_eq_ok.1 h
    simp only [Go.pure_def, Go.ok.injEq] at h2
    subst h2
    unfold findInformation at h1
    split at h1
    · cases h1
    · refine key _ _ (fun b => b.1) ?_ b h1
      intro x rsp b hb
      simp only [] at hb
      split at hb
      · cases hb
      · obtain ⟨f, _, hb⟩ := Go.bind_eq_ok.1 hb
        split at hb
        · cases hb
        · split at hb
          · cases hb
          · simp only [Go.pure_def, Go.ok.injEq] at hb; rw [← hb]
  | read h' =>
    obtain ⟨b, h1, h2⟩ := Go.bind_eq_ok.1 h
    simp only [Go.pure_def, Go.ok.injEq] at h2
    subst h2
    refine key _ _ (fun b => b.1) ?_ b h1
    intro x rsp b hb
    simp only [Go.pure_def, Go.ok.injEq] at hb; rw [← hb]
  | blob h' off =>
    obtain ⟨b, h1, h2⟩ := Go.bind_eq_ok.1 h
    simp only [Go.pure_def, Go.ok.injEq] at h2
    subst h2
    refine key _ _ (fun b => b.1) ?_ b h1
    intro x rsp b hb
    simp only [Go.pure_def, Go.ok.injEq] at hb; rw [← hb]
  | multiple hs =>
    obtain ⟨b, h1, h2⟩ := Go.bind_eq_ok.1 h
    simp only [Go.pure_def, Go.ok.injEq] at h2
    subst h2
    unfold readMultiple at h1
    split at h1
    · cases h1
    · refine key _ _ (fun b => b.1) ?_ b h1
      intro x rsp b hb
      simp only [Go.pure_def, Go.ok.injEq] at hb; rw [← hb]
  | write h' v =>
    simp only [perform] at h
    unfold Client.write at h
    split at h
    · cases h
    · refine key _ _ (fun b => b) ?_ c' h
      intro x rsp b hb
      simp only [Go.pure_def, Go.ok.injEq] at hb; rw [← hb]
  | command h' v =>
    obtain ⟨b, h1, h2⟩ := Go.bind_eq_ok.1 h
    simp only [Go.pure_def, Go.ok.injEq] at h2
    subst h2
    unfold writeCommandPDU at h1
    split at h1
    · cases h1
    · split at h1
      · cases h1
      · simp only [Go.pure_def, Go.ok.injEq] at h1
        subst h1
        refine ⟨?_, rfl⟩
        simp only [List.length_append, List.length_drop, List.length_cons, put16_length]
        omega
  | signed h' v sig =>
    obtain ⟨b, h1, h2⟩ := Go.bind_eq_ok.1 h
    simp only [Go.pure_def, Go.ok.injEq] at h2
    subst h2
    unfold signedWritePDU at h1
    split at h1
    · cases h1
    · split at h1
      · cases h1
      · simp only [Go.pure_def, Go.ok.injEq] at h1
        subst h1
        refine ⟨?_, rfl⟩
        simp only [List.length_append, List.length_drop, List.length_cons, put16_length, List.length_ofFn, List.length_take]
        omega
  | prepare h' off v =>
    obtain ⟨b, h1, h2⟩ := Go.bind_eq_ok.1 h
    simp only [Go.pure_def, Go.ok.injEq] at h2
    subst h2
    unfold prepareWrite at h1
    split at h1
    · cases h1
    · split at h1
      · cases h1
      · refine key _ _ (fun b => b.1) ?_ b h1
        intro x rsp b hb
        simp only [] at hb
        split at hb
        · cases hb
        · obtain ⟨f, _, hb⟩ := Go.bind_eq_ok.1 hb
          obtain ⟨g, _, hb⟩ := Go.bind_eq_ok.1 hb
          simp only [Go.pure_def, Go.ok.injEq] at hb; rw [← hb]

/-- What an exchange answered with three octets does. -/
theorem mtu_sizes {c c' : Cli Unit} {m : Nat} {rsp : Option Bytes} (h : perform (answered rsp) c (.mtu m) = .ok c') :
    ∃ op lo hi, rsp = some [op, lo, hi] ∧ op ≠ 1 ∧ 23 ≤ m ∧ m ≤ 515 ∧ c'.buf.length = le16 lo hi ∧ c'.txMTU = if c.buf.length = le16 lo hi then c.txMTU else le16 lo hi := by
  obtain ⟨⟨x, t⟩, h1, h2⟩ := Go.bind_eq_ok.1 h
  simp only [Go.pure_def, Go.ok.injEq] at h2
  subst h2
  unfold exchangeMTU at h1
  split at h1
  · cases h1
  next hm =>
  obtain ⟨⟨y, b⟩, h3, h1⟩ := Go.bind_eq_ok.1 h1
  obtain ⟨u, h4, h1⟩ := Go.bind_eq_ok.1 h1
  obtain ⟨s1, s2, p, hp⟩ := send_sizes h3
  simp only at s1 s2
  have hrsp : rsp = some b := by
    cases rsp with
    | none => cases hp
    | some d => simp only [answered, Go.ok.injEq, Prod.mk.injEq] at hp; rw [hp.2]
  split at h1
  · cases h1
  next hl =>
  obtain ⟨op, lo, hi, rfl⟩ : ∃ op lo hi, b = [op, lo, hi] := by
    match b, hl with
    | [a, b, c], _ => exact ⟨a, b, c, rfl⟩
    | [], hl | [_], hl | [_, _], hl => simp at hl
    | _ :: _ :: _ :: _ :: _, hl => simp at hl
  have hop : op ≠ 1 := by
    intro e
    subst e
    simp [checkError, index] at h4
  refine ⟨op, lo, hi, hrsp, hop, by omega, by omega, ?_⟩
  obtain ⟨t', ht, h1⟩ := Go.bind_eq_ok.1 h1
  have ht' : t' = le16 lo hi := by
    have : (le16At [op, lo, hi] 1 : Go CErr Nat) = .ok (le16 lo hi) := rfl
    rw [this] at ht
    exact (Go.ok.inj ht).symm
  subst ht'
  split at h1
  · next hne =>
    simp only [Go.pure_def, Go.ok.injEq, Prod.mk.injEq] at h1
    obtain ⟨rfl, rfl⟩ := h1
    refine ⟨by simp, ?_⟩
    rw [if_neg (by omega)]
  · next heq =>
    simp only [Go.pure_def, Go.ok.injEq, Prod.mk.injEq] at h1
    obtain ⟨rfl, rfl⟩ := h1
    have heq : y.buf.length = le16 lo hi := by simpa using heq
    refine ⟨heq, ?_⟩
    rw [if_pos (by omega), s2]

/-- When an exchange succeeds. -/
theorem mtu_ok (c : Cli Unit) (m : Nat) (op lo hi : UInt8) (h1 : 23 ≤ m) (h2 : m ≤ 515) (h3 : op ≠ 1) (h4 : 3 ≤ c.buf.length) : ∃ c', perform (answered (some [op, lo, hi])) c (.mtu m) = .ok c' := by
  simp only [perform]
  unfold exchangeMTU
  rw [if_neg (by omega), send_exchange (by simp; omega)]
  simp only [answered, Go.bind_ok]
  have hc : checkError [op, lo, hi] = .ok () := by
    simp [checkError, index_cons_zero, h3]
  rw [hc]
  simp only [Go.bind_ok, List.length_cons, List.length_nil, ne_eq, not_true_eq_false, if_false]
  have : (le16At [op, lo, hi] 1 : Go CErr Nat) = .ok (le16 lo hi) := rfl
  rw [this]
  simp only [Go.bind_ok]
  split
  · exact ⟨_, rfl⟩
  · exact ⟨_, rfl⟩

/-- One event changes the sizes as the specification says. -/
theorem step_sizes {c c' : Cli Unit} {e : Ev} (h : step c e = some c') : (c'.buf.length, c'.txMTU) = resize (c.buf.length, c.txMTU) e := by
  cases e with
  | peer m =>
    simp only [step, resize] at h ⊢
    split at h <;> (obtain rfl := Option.some.inj h; simp [*])
  | call r rsp =>
    simp only [step] at h
    cases hp : perform (answered rsp) c r with
    | panic => rw [hp] at h; cases h
    | ok x =>
      rw [hp] at h
      obtain rfl := Option.some.inj h
      by_cases hr : ∀ m, r ≠ .mtu m
      · obtain ⟨h1, h2⟩ := perform_sizes hr hp
        rw [h1, h2]
        cases r <;> first | rfl | exact absurd rfl (hr _)
      · obtain ⟨m, rfl⟩ : ∃ m, r = .mtu m := Classical.byContradiction fun hn => hr fun m e => hn ⟨m, e⟩
        obtain ⟨op, lo, hi, rfl, h1, h2, h3, h4, h5⟩ := mtu_sizes hp
        simp only [resize]
        rw [if_pos ⟨h2, h3, h1⟩, h4, h5]
    | err e =>
      rw [hp] at h
      obtain rfl := Option.some.inj h
      unfold resize
      split
      · next heq => cases heq
      · next m op lo hi heq =>
        cases heq
        by_cases hc : 23 ≤ m ∧ m ≤ 515 ∧ op ≠ 1
        · by_cases h4 : 3 ≤ c.buf.length
          · obtain ⟨c', hc'⟩ := mtu_ok c m op lo hi hc.1 hc.2.1 hc.2.2 h4
            rw [hc'] at hp; cases hp
          · have := (perform_panics_iff (sound_answered (rsp := some [op, lo, hi]) (by simp)) c (.mtu m)).2 ⟨⟨hc.1, hc.2.1⟩, by simp only [need]; omega⟩
            rw [this] at hp; cases hp
        · rw [if_neg hc]
      · rfl

theorem run_sizes' {c c' : Cli Unit} {es : List Ev} (h : run c es = some c') : (c'.buf.length, c'.txMTU) = es.foldl resize (c.buf.length, c.txMTU) := by
  induction es generalizing c with
  | nil => obtain rfl := Option.some.inj h; rfl
  | cons e es ih =>
    obtain ⟨x, hx, h⟩ := Option.bind_eq_some_iff.1 h
    rw [ih h, step_sizes hx]
    rfl

/-! ## Theorems -/

/-- **C204** After any history without a crash, transmit buffer and MTU have the sizes of the specification. -/
theorem sizes_exact (es : List Ev) (c : Cli Unit) (h : run start es = some c) : (c.buf.length, c.txMTU) = sizes es := by
  rw [run_sizes' h]
  simp [sizes, start, Cli.new]

/-- **C204** Exactly when the next call crashes the program. -/
theorem call_crashes_iff (es : List Ev) (c : Cli Unit) (h : run start es = some c) (r : Req) (rsp : Option Bytes) (hr : rsp ≠ some []) :
    step c (.call r rsp) = none ↔ accepted (sizes es).2 r ∧ (sizes es).1 < need r := by
  rw [← sizes_exact es c h, ← perform_panics_iff (sound_answered hr) c r]
  simp only [step]
  cases perform (answered rsp) c r <;> simp

/-- The MTU differs from the buffer's size only after a request of the peer, so it is at least 23 then. -/
theorem sizes_differ (es : List Ev) : (sizes es).1 = (sizes es).2 ∨ 23 ≤ (sizes es).2 := by
  unfold sizes
  have : ∀ (s : Nat × Nat), (s.1 = s.2 ∨ 23 ≤ s.2) → ((es.foldl resize s).1 = (es.foldl resize s).2 ∨ 23 ≤ (es.foldl resize s).2) := by
    induction es with
    | nil => intro s hs; exact hs
    | cons e es ih =>
      intro s hs
      refine ih _ ?_
      unfold resize
      split
      · simp only
        split
        · exact hs
        · right; omega
      · split
        · simp only
          split
          · next e => rw [e] at hs; exact hs
          · left; rfl
        · exact hs
      · exact hs
  exact this _ (Or.inl rfl)

/-- **C204** Exactly when some call would crash the program: when the MTU in force exceeds the transmit buffer (then, say, writing a value that just fits the MTU does), or the peer answered an exchange with less than 5. -/
theorem crash_possible_iff (es : List Ev) (c : Cli Unit) (h : run start es = some c) :
    (∃ r rsp, rsp ≠ some [] ∧ step c (.call r rsp) = none) ↔ (sizes es).1 < (sizes es).2 ∨ (sizes es).1 < 5 := by
  constructor
  · rintro ⟨r, rsp, hr, hc⟩
    rw [call_crashes_iff es c h r rsp hr] at hc
    obtain ⟨h1, h2⟩ := hc
    cases r <;> simp only [accepted, need] at h1 h2 <;> omega
  · rintro (hlt | hlt)
    · have h23 : 23 ≤ (sizes es).2 := by rcases sizes_differ es with h | h <;> omega
      refine ⟨.write 1 (List.replicate ((sizes es).2 - 3) 0), none, by simp, ?_⟩
      rw [call_crashes_iff es c h _ none (by simp)]
      simp only [accepted, need, List.length_replicate]
      omega
    · refine ⟨.find 1 1, none, by simp, ?_⟩
      rw [call_crashes_iff es c h _ none (by simp)]
      simp only [accepted, need]
      omega

/-- **C204** No history crashes the program as long as the peer never asks for a larger MTU than the transmit buffer has (in particular, if it never asks) and answers every exchange with at least 23.
Missing: peers that ask for more, see `peer_request_crashes`, and that answer with less than 5, see `small_answer_crashes`. -/
theorem calls_do_not_crash_partial (es : List Ev) (hs : ∀ e ∈ es, Sound e)
    (hp : ∀ pre m post, es = pre ++ .peer m :: post → m ≤ (sizes pre).1)
    (ha : ∀ m op lo hi, Ev.call (.mtu m) (some [op, lo, hi]) ∈ es → 23 ≤ le16 lo hi) : ∃ c, run start es = some c := by
  have key : ∀ (es pre : List Ev) (c : Cli Unit), (c.buf.length, c.txMTU) = sizes pre → 23 ≤ c.buf.length → c.txMTU ≤ c.buf.length → (∀ e ∈ es, Sound e) →
      (∀ p m post, pre ++ es = p ++ .peer m :: post → m ≤ (sizes p).1) → (∀ m op lo hi, Ev.call (.mtu m) (some [op, lo, hi]) ∈ es → 23 ≤ le16 lo hi) → ∃ c', run c es = some c' := by
    intro es
    induction es with
    | nil => intro pre c _ _ _ _ _ _; exact ⟨c, rfl⟩
    | cons e es ih =>
      intro pre c h1 h2 h3 h4 h5 h6
      have hstep : ∃ c', step c e = some c' := by
        cases e with
        | peer m => simp only [step]; split <;> exact ⟨_, rfl⟩
        | call r rsp =>
          simp only [step]
          cases hp : perform (answered rsp) c r with
          | ok x => exact ⟨x, rfl⟩
          | err e => exact ⟨c, rfl⟩
          | panic =>
            exfalso
            rw [perform_panics_iff (sound_answered (h4 _ (List.mem_cons_self ..)))] at hp
            obtain ⟨g1, g2⟩ := hp
            cases r <;> simp only [accepted, need] at g1 g2 <;> omega
      obtain ⟨c', hc'⟩ := hstep
      have hsz := step_sizes hc'
      have hpre : (c'.buf.length, c'.txMTU) = sizes (pre ++ [e]) := by
        rw [hsz, h1]
        simp [sizes]
      have hle : 23 ≤ c'.buf.length ∧ c'.txMTU ≤ c'.buf.length := by
        unfold resize at hsz
        split at hsz
        · next m =>
          obtain ⟨g1, g2⟩ := Prod.mk.inj hsz
          simp only at g1 g2
          have := h5 pre m es rfl
          rw [← h1] at this
          simp only at this
          split at g2 <;> omega
        · next m op lo hi =>
          split at hsz
          · have := h6 m op lo hi (List.mem_cons_self ..)
            obtain ⟨g1, g2⟩ := Prod.mk.inj hsz
            simp only at g2
            split at g2 <;> omega
          · obtain ⟨g1, g2⟩ := Prod.mk.inj hsz
            omega
        · obtain ⟨g1, g2⟩ := Prod.mk.inj hsz
          omega
      obtain ⟨d, hd⟩ := ih (pre ++ [e]) c' hpre hle.1 hle.2 (fun x hx => h4 x (List.mem_cons_of_mem _ hx)) (by simpa using h5)
        (fun m op lo hi hm => h6 m op lo hi (List.mem_cons_of_mem _ hm))
      exact ⟨d, by simp only [run]; rw [hc']; exact hd⟩
  exact key es [] start rfl (by simp [start, Cli.new]) (by simp [start, Cli.new]) hs (by simpa using hp) ha

/-- **C204 is false without the restriction**: the peer asks for an MTU of 100; the next write of 60 octets, which the MTU allows, crashes the program; an MTU exchange of the client before it, answered with 23, does not help. -/
theorem peer_request_crashes : (∃ c, run start [.peer 100] = some c) ∧
    run start [.peer 100, .call (.write 3 (List.replicate 60 7)) (some [0x13])] = none ∧
    run start [.peer 100, .call (.mtu 100) (some [0x03, 23, 0]), .call (.write 3 (List.replicate 60 7)) (some [0x13])] = none ∧
    (∃ c, run start [.peer 100, .call (.mtu 100) (some [0x03, 100, 0]), .call (.write 3 (List.replicate 60 7)) (some [0x13])] = some c) :=
  ⟨⟨_, rfl⟩, by rfl, by rfl, ⟨_, rfl⟩⟩

/-- And so does every read after an exchange the peer answered with 2. -/
theorem small_answer_crashes : run start [.call (.mtu 100) (some [0x03, 2, 0]), .call (.read 3) none] = none := by rfl

/-- The hypotheses of `calls_do_not_crash_partial` are met by a history with a request of the peer, exchanges and long writes. -/
theorem no_crash_example : ∃ c, run start [.call (.mtu 200) (some [0x03, 185, 0]), .peer 100, .call (.write 3 (List.replicate 90 7)) (some [0x13]), .call (.read 3) (some [0x0B, 1]), .call (.signed 3 [1] fun _ => 0) none] = some c := by
  apply calls_do_not_crash_partial
  · intro e he
    simp only [List.mem_cons, List.not_mem_nil, or_false] at he
    rcases he with rfl | rfl | rfl | rfl | rfl <;> simp [Sound]
  · intro pre m post h
    match pre with
    | [] => simp at h
    | [a] =>
      simp only [List.cons_append, List.nil_append, List.cons.injEq, Ev.peer.injEq] at h
      obtain ⟨rfl, rfl, _⟩ := h
      decide
    | [a, b] | [a, b, c] | [a, b, c, d] => simp at h
    | _ :: _ :: _ :: _ :: _ :: _ => simp at h
  · intro m op lo hi h
    simp only [List.mem_cons, List.not_mem_nil, or_false, Ev.call.injEq, Req.mtu.injEq, reduceCtorEq, false_and, Option.some.injEq, List.cons.injEq, and_true] at h
    obtain ⟨_, _, rfl, rfl⟩ := h
    decide

end Ble.MtuHist
