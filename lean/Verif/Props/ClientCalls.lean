import Verif.Client.Lemmas
set_option autoImplicit false

/-!
# The ATT client's calls: errors, MTU, malformed responses, encoding (C16, C17, C23, C24)
-/

namespace Ble.Spec

/-- The requests of the Attribute Protocol (Core Specification, Vol 3, Part F, 3.4), as values. -/
inductive AttReq where
  | exchangeMTU (m : Nat)
  | findInformation (lo hi : Nat)
  | readByType (lo hi : Nat) (uuid : Bytes)
  | readByGroupType (lo hi : Nat) (uuid : Bytes)
  | read (h : Nat)
  | readBlob (h off : Nat)
  | readMultiple (hs : List Nat)
  | write (h : Nat) (v : Bytes)
  | writeCommand (h : Nat) (v : Bytes)
  | prepareWrite (h off : Nat) (v : Bytes)
  | signedWrite (h : Nat) (v sig : Bytes)
deriving Repr, DecidableEq

/-- Pairs of bytes as handles. -/
def handles : Bytes → List Nat
  | a :: b :: t => le16 a b :: handles t
  | _ => []

/-- What a receiver reads in a request PDU. -/
def parseReq : Bytes → Option AttReq
  | [0x02, a, b] => some (.exchangeMTU (le16 a b))
  | [0x04, a, b, c, d] => some (.findInformation (le16 a b) (le16 c d))
  | 0x08 :: a :: b :: c :: d :: u => some (.readByType (le16 a b) (le16 c d) u)
  | 0x10 :: a :: b :: c :: d :: u => some (.readByGroupType (le16 a b) (le16 c d) u)
  | [0x0A, a, b] => some (.read (le16 a b))
  | [0x0C, a, b, c, d] => some (.readBlob (le16 a b) (le16 c d))
  | 0x0E :: t => some (.readMultiple (handles t))
  | 0x12 :: a :: b :: v => some (.write (le16 a b) v)
  | 0x52 :: a :: b :: v => some (.writeCommand (le16 a b) v)
  | 0x16 :: a :: b :: c :: d :: v => some (.prepareWrite (le16 a b) (le16 c d) v)
  | 0xD2 :: a :: b :: t => some (.signedWrite (le16 a b) (t.take (t.length - 12)) (t.drop (t.length - 12)))
  | _ => none

end Ble.Spec

namespace Ble.Props

open Ble.Att Ble.Spec Ble.Client

variable {α σ : Type}

theorem send_exchange {ex : Exchange σ} {c : Cli σ} {req : Bytes} (hb : req.length ≤ c.buf.length) :
    Cli.send ex c req = (ex c.peer req >>= fun r => .ok ({ c with peer := r.1, buf := req ++ c.buf.drop req.length }, r.2)) := by
  unfold Cli.send; rw [if_neg (by omega)]; rfl

theorem flatMap_put16_length (hs : List Nat) : (hs.flatMap put16).length = 2 * hs.length := by
  induction hs with
  | nil => rfl
  | cons x xs ih => rw [List.flatMap_cons, List.length_append, ih, put16_length, List.length_cons]; omega

/-! ## C94 -/

/-- **C94.** The value of a positive answer is handed to the caller as it is, whatever the call that reads. -/
theorem read_calls_return_value (ex : Exchange σ) (c : Cli σ) (hb : 23 ≤ c.buf.length) (hbt : c.txMTU ≤ c.buf.length) (op : UInt8) (v : Bytes) (hop : op ≠ 0x01) (hx : ∀ p req, ∃ p', ex p req = .ok (p', op :: v)) :
    (∀ h, ∃ c', read ex c h = .ok (c', v)) ∧ (∀ h off, ∃ c', readBlob ex c h off = .ok (c', v)) ∧
    (∀ hs : List Nat, 2 ≤ hs.length → 1 + 2 * hs.length ≤ c.txMTU → ∃ c', readMultiple ex c hs = .ok (c', v)) := by
  have hce : checkError (op :: v) = .ok () := by simp [checkError, hop]
  have hsend : ∀ (c' : Cli σ) (req : Bytes), req.length ≤ c'.buf.length → ∃ c'', Cli.send ex c' req = .ok (c'', op :: v) := by
    intro c' req hr
    obtain ⟨p', hp⟩ := hx c'.peer req
    exact ⟨_, by rw [send_exchange hr, hp]; rfl⟩
  refine ⟨?_, ?_, ?_⟩
  · intro h
    obtain ⟨c'', hc⟩ := hsend c (0x0A :: put16 h) (by simp; omega)
    unfold Client.read
    rw [hc]
    simp only [Go.bind_ok, hce]
    exact ⟨c'', rfl⟩
  · intro h off
    obtain ⟨c'', hc⟩ := hsend c (0x0C :: (put16 h ++ put16 off)) (by simp; omega)
    unfold readBlob
    rw [hc]
    simp only [Go.bind_ok, hce]
    exact ⟨c'', rfl⟩
  · intro hs h2 h3
    have hfl : (hs.flatMap put16).length = 2 * hs.length := flatMap_put16_length hs
    obtain ⟨c'', hc⟩ := hsend c (0x0E :: hs.flatMap put16) (by rw [List.length_cons, hfl]; omega)
    unfold readMultiple
    rw [if_neg (by omega), hc]
    simp only [Go.bind_ok, hce]
    exact ⟨c'', rfl⟩

/-! ## C16 -/

/-- **C16.** A client that gets an Error Response reports its code, whatever the call. -/
theorem client_reports_error (ex : Exchange σ) (c : Cli σ) (hb : 23 ≤ c.buf.length) (hbt : c.txMTU ≤ c.buf.length) (op h1 h2 e : UInt8)
    (hx : ∀ p req, ∃ p', ex p req = .ok (p', [0x01, op, h1, h2, e])) :
    (∀ m, 23 ≤ m → m ≤ 515 → exchangeMTU ex c m = .err (.att e)) ∧
    (∀ lo hi, 0 < lo → lo ≤ hi → findInformation ex c lo hi = .err (.att e)) ∧
    (∀ lo hi u, lo ≤ hi → UuidOk u → readByType ex c lo hi u = .err (.att e) ∧ readByGroupType ex c lo hi u = .err (.att e)) ∧
    (∀ h, read ex c h = .err (.att e)) ∧ (∀ h off, readBlob ex c h off = .err (.att e)) ∧
    (∀ hs : List Nat, 2 ≤ hs.length → 1 + 2 * hs.length ≤ c.txMTU → readMultiple ex c hs = .err (.att e)) ∧
    (∀ h v, 3 + v.length ≤ c.txMTU → write ex c h v = .err (.att e)) ∧
    (∀ h off v, 5 + v.length ≤ c.txMTU → prepareWrite ex c h off v = .err (.att e)) := by
  have hce : checkError [0x01, op, h1, h2, e] = .err (.att e) := by simp [checkError]
  have hsend : ∀ (c' : Cli σ) (req : Bytes), req.length ≤ c'.buf.length → ∃ c'', Cli.send ex c' req = .ok (c'', [0x01, op, h1, h2, e]) := by
    intro c' req hr
    obtain ⟨p', hp⟩ := hx c'.peer req
    exact ⟨_, by rw [send_exchange hr, hp]; rfl⟩
  refine ⟨?_, ?_, ?_, ?_, ?_, ?_, ?_, ?_⟩
  · intro m h1 h2
    obtain ⟨c'', hc⟩ := hsend { c with rxMTU := m } (0x02 :: put16 m) (by simp; omega)
    unfold exchangeMTU
    rw [if_neg (by omega), hc]
    simp only [Go.bind_ok, hce, Go.bind_err]
  · intro lo hi h1 h2
    obtain ⟨c'', hc⟩ := hsend c (0x04 :: (put16 lo ++ put16 hi)) (by simp; omega)
    unfold findInformation
    rw [if_neg (by omega), hc]
    simp only [Go.bind_ok, hce, Go.bind_err]
  · have hl : ∀ op' lo hi u, lo ≤ hi → UuidOk u → readList op' ex c lo hi u = .err (.att e) := by
      intro op' lo hi u h1 h2
      unfold UuidOk at h2
      obtain ⟨c'', hc⟩ := hsend c (op' :: (put16 lo ++ (put16 hi ++ u))) (by simp only [List.length_cons, List.length_append, put16_length]; omega)
      unfold readList
      rw [if_neg (by omega), hc]
      simp only [Go.bind_ok, hce, Go.bind_err]
    exact fun lo hi u h1 h2 => ⟨hl _ lo hi u h1 h2, hl _ lo hi u h1 h2⟩
  · intro h
    obtain ⟨c'', hc⟩ := hsend c (0x0A :: put16 h) (by simp; omega)
    unfold Client.read
    rw [hc]
    simp only [Go.bind_ok, hce, Go.bind_err]
  · intro h off
    obtain ⟨c'', hc⟩ := hsend c (0x0C :: (put16 h ++ put16 off)) (by simp; omega)
    unfold readBlob
    rw [hc]
    simp only [Go.bind_ok, hce, Go.bind_err]
  · intro hs h2 h3
    have hfl : (hs.flatMap put16).length = 2 * hs.length := by
      exact flatMap_put16_length hs
    obtain ⟨c'', hc⟩ := hsend c (0x0E :: hs.flatMap put16) (by rw [List.length_cons, hfl]; omega)
    unfold readMultiple
    rw [if_neg (by omega), hc]
    simp only [Go.bind_ok, hce, Go.bind_err]
  · intro h v h3
    obtain ⟨c'', hc⟩ := hsend c (0x12 :: (put16 h ++ v)) (by simp only [List.length_cons, List.length_append, put16_length]; omega)
    unfold write
    rw [if_neg (by omega), hc]
    simp only [Go.bind_ok, hce, Go.bind_err]
  · intro h off v h3
    obtain ⟨c'', hc⟩ := hsend c (0x16 :: (put16 h ++ (put16 off ++ ((c.buf.take (5 + v.length)).drop 5)))) (by
      simp only [List.length_cons, List.length_append, put16_length, List.length_drop, List.length_take]; omega)
    unfold prepareWrite
    rw [if_neg (by omega), if_neg (by omega), hc]
    simp only [Go.bind_ok, hce, Go.bind_err]

example : read (fun (p : Unit) _ => .ok (p, [0x01, 0x0A, 3, 0, 0x0A])) (Cli.new () 23 23) 3 = .err (.att 0x0A) := rfl

/-! ## C17 -/

/-- **C17, client side.** `ExchangeMTU m` against this library's server succeeds for every `m` from 23 to 515. The server then uses `m` and the
client 515, the value the server announced, not the smaller of the two. Missing: the client using the smaller value (`exchangeMTU_not_min`: false). -/
theorem exchangeMTU_with_server_partial (srv : Server σ) (c : Cli (Server σ)) (hc : c.peer = srv) (hb : 3 ≤ c.buf.length) (m : Nat) (h1 : 23 ≤ m) (h2 : m ≤ 515)
    (hbt : c.buf.length = c.txMTU) :
    ∃ c', exchangeMTU serverPeer c m = .ok (c', 515) ∧ c'.peer = { srv with mtu := m, rxMTU := 515 } ∧ c'.txMTU = 515 ∧ c'.buf.length = 515 ∧
      c'.rxMTU = m := by
  have hreq : handleRequest srv (0x02 :: put16 m) = .ok ({ srv with mtu := m, rxMTU := 515 }, some (0x03 :: put16 515)) := by
    show handleExchangeMTU srv (0x02 :: put16 m) = _
    unfold handleExchangeMTU
    have e1 : le16At (ε := Empty) (0x02 :: put16 m) 1 = .ok m := by have := le16At_put16 (ε := Empty) 0x02 m (by omega) []; rwa [List.append_nil] at this
    rw [e1]
    simp only [index_cons_zero, Go.bind_ok]
    rw [if_neg (by simp), if_neg (by omega)]
    rfl
  obtain ⟨c1, hc1, hs⟩ := send_server (c := { c with rxMTU := m }) (s := srv) (n := c.buf.length) (tx := c.txMTU) (rx := m) ⟨hc, rfl, rfl, rfl⟩
    (req := 0x02 :: put16 m) (op := 0x03) (by simp; omega) hreq rfl (.inr rfl)
  unfold exchangeMTU
  rw [if_neg (by omega), hs]
  simp only [Go.bind_ok]
  rw [checkError_other (by decide)]
  simp only [Go.bind_ok]
  rw [if_neg (by simp)]
  have e2 : le16At (ε := CErr) (0x03 :: put16 515) 1 = .ok 515 := rfl
  rw [e2]
  simp only [Go.bind_ok]
  by_cases h5 : c1.buf.length = 515
  · rw [if_neg (by omega)]
    exact ⟨c1, rfl, hc1.peer, by rw [hc1.tx]; have := hc1.buf; omega, h5, hc1.rx⟩
  · rw [if_pos h5]
    exact ⟨_, rfl, hc1.peer, rfl, List.length_replicate, hc1.rx⟩

/-- The claim "the client then uses the smaller of the two values" is false: after `ExchangeMTU 100` the client uses 515. -/
theorem exchangeMTU_not_min : ∃ (srv : Server (CState Unit)) (c' : Cli (Server (CState Unit))),
    exchangeMTU serverPeer (Cli.new srv 23 23) 100 = .ok (c', 515) ∧ c'.peer.mtu = 100 ∧ c'.txMTU = 515 ∧ c'.txMTU ≠ min 100 515 := by
  obtain ⟨c', h1, h2, h3, -, -⟩ := exchangeMTU_with_server_partial (σ := CState Unit)
    { db := newDB [] 1, mtu := 23, rxMTU := 515, prep := none, prepData := [], st := CState.init () }
    (Cli.new { db := newDB [] 1, mtu := 23, rxMTU := 515, prep := none, prepData := [], st := CState.init () } 23 23) rfl (by simp [Cli.new]) 100
    (by omega) (by omega) (by simp [Cli.new])
  exact ⟨_, c', h1, by rw [h2], h3, by rw [h3]; decide⟩

/-- **C17.** A refused or invalid exchange leaves the sizes alone: an out-of-range argument sends nothing. -/
theorem exchangeMTU_bad_argument (ex : Exchange σ) (c : Cli σ) (m : Nat) (h : m < 23 ∨ 515 < m) : exchangeMTU ex c m = .err .invalidArgument := by
  unfold exchangeMTU; rw [if_pos h]

/-! ## C23 -/

/-- An exchange as `sendReq` makes it: it never panics, and what it hands back is not empty. -/
def SoundEx (ex : Exchange σ) : Prop := ∀ p req, ex p req ≠ .panic ∧ ∀ p' rsp, ex p req = .ok (p', rsp) → rsp ≠ []

theorem checkError_returns {rsp : Bytes} (h : rsp ≠ []) : checkError rsp ≠ .panic := by
  cases rsp with
  | nil => exact absurd rfl h
  | cons x xs =>
    simp only [checkError, index_cons_zero, Go.bind_ok]
    by_cases h1 : x = 0x01
    · rw [if_pos h1]
      by_cases h5 : (x :: xs).length = 5
      · rw [if_pos h5, index_of_lt (by omega)]; simp
      · rw [if_neg h5]; simp
    · rw [if_neg h1]; simp

theorem send_returns {ex : Exchange σ} (hx : SoundEx ex) {c : Cli σ} {req : Bytes} (hb : req.length ≤ c.buf.length) :
    Cli.send ex c req ≠ .panic ∧ ∀ c' rsp, Cli.send ex c req = .ok (c', rsp) → rsp ≠ [] := by
  rw [send_exchange hb]
  have h := hx c.peer req
  cases he : ex c.peer req with
  | panic => exact absurd he h.1
  | err e => simp
  | ok r =>
    obtain ⟨p', rsp⟩ := r
    simp only [Go.bind_ok, ne_eq, reduceCtorEq, not_false_eq_true, true_and, Go.ok.injEq, Prod.mk.injEq]
    rintro c' rsp' ⟨-, rfl⟩
    exact h.2 p' _ he

/-- **C23.** A call that sends one request and looks only at the opcode and the length of the response never panics, whatever a server answers, as
long as the transmit buffer has the size of the MTU. -/
theorem client_simple_calls_total (ex : Exchange σ) (hx : SoundEx ex) (c : Cli σ) (hb : 23 ≤ c.buf.length) (hbt : c.txMTU ≤ c.buf.length) :
    (∀ m, exchangeMTU ex c m ≠ .panic) ∧ (∀ lo hi, findInformation ex c lo hi ≠ .panic) ∧ (∀ h, read ex c h ≠ .panic) ∧
    (∀ h off, readBlob ex c h off ≠ .panic) ∧ (∀ hs, readMultiple ex c hs ≠ .panic) ∧ (∀ h v, write ex c h v ≠ .panic) ∧
    (∀ h off v, prepareWrite ex c h off v ≠ .panic) ∧ (∀ h v, writeCommandPDU c h v ≠ .panic) ∧ (∀ h v sig, signedWritePDU c h v sig ≠ .panic) := by
  have key : ∀ {β : Type} (c' : Cli σ) (req : Bytes) (k : Cli σ × Bytes → Call β), req.length ≤ c'.buf.length →
      (∀ c'' rsp, rsp ≠ [] → checkError rsp = .ok () → k (c'', rsp) ≠ .panic) →
      (Cli.send ex c' req >>= fun r => checkError r.2 >>= fun _ => k r) ≠ .panic := by
    intro β c' req k hr hk h
    rcases Go.bind_eq_panic.1 h with h | ⟨⟨c'', rsp⟩, h1, h2⟩
    · exact (send_returns hx hr).1 h
    · have hne := (send_returns hx hr).2 _ _ h1
      rcases Go.bind_eq_panic.1 h2 with h | ⟨_, h3, h4⟩
      · exact checkError_returns hne h
      · exact hk c'' rsp hne h3 h4
  refine ⟨?_, ?_, ?_, ?_, ?_, ?_, ?_, ?_, ?_⟩
  · intro m
    unfold exchangeMTU
    by_cases h : m < 23 ∨ m > 515
    · rw [if_pos h]; simp
    · rw [if_neg h]
      refine key _ (0x02 :: put16 m) _ (by simp; omega) ?_
      intro c'' rsp _ _
      simp only []
      by_cases h3 : rsp.length = 3
      · rw [if_neg (by omega)]
        simp only [le16At, index_of_lt (show 1 < rsp.length by omega), index_of_lt (show 1 + 1 < rsp.length by omega), Go.bind_ok, Go.pure_def]
        split <;> simp
      · rw [if_pos h3]; simp
  · intro lo hi
    unfold findInformation
    by_cases h : lo = 0 ∨ lo > hi
    · rw [if_pos h]; simp
    · rw [if_neg h]
      refine key _ (0x04 :: (put16 lo ++ put16 hi)) _ (by simp; omega) ?_
      intro c'' rsp _ _
      simp only []
      by_cases h3 : rsp.length < 6
      · rw [if_pos h3]; simp
      · rw [if_neg h3]
        simp only [index_of_lt (show 1 < rsp.length by omega), Go.bind_ok, Go.pure_def]
        split
        · simp
        · split <;> simp
  · intro h
    unfold Client.read
    exact key _ (0x0A :: put16 h) _ (by simp; omega) (fun c'' rsp _ _ => by simp)
  · intro h off
    unfold readBlob
    exact key _ (0x0C :: (put16 h ++ put16 off)) _ (by simp; omega) (fun c'' rsp _ _ => by simp)
  · intro hs
    unfold readMultiple
    by_cases h : hs.length < 2 ∨ (hs.length * 2 : Int) > (c.txMTU : Int) - 1
    · rw [if_pos h]; simp
    · rw [if_neg h]
      have hfl : (hs.flatMap put16).length = 2 * hs.length := flatMap_put16_length hs
      exact key _ (0x0E :: hs.flatMap put16) _ (by rw [List.length_cons, hfl]; omega) (fun c'' rsp _ _ => by simp)
  · intro h v
    unfold write
    by_cases hv : (v.length : Int) > (c.txMTU : Int) - 3
    · rw [if_pos hv]; simp
    · rw [if_neg hv]
      exact key _ (0x12 :: (put16 h ++ v)) _ (by simp only [List.length_cons, List.length_append, put16_length]; omega) (fun c'' rsp _ _ => by simp)
  · intro h off v
    unfold prepareWrite
    by_cases hv : (v.length : Int) > (c.txMTU : Int) - 5
    · rw [if_pos hv]; simp
    · rw [if_neg hv, if_neg (by omega)]
      refine key _ (0x16 :: (put16 h ++ (put16 off ++ ((c.buf.take (5 + v.length)).drop 5)))) _
        (by simp only [List.length_cons, List.length_append, put16_length, List.length_drop, List.length_take]; omega) ?_
      intro c'' rsp _ _
      simp only []
      by_cases h3 : rsp.length < 5
      · rw [if_pos h3]; simp
      · rw [if_neg h3]
        simp only [le16At, index_of_lt (show 1 < rsp.length by omega), index_of_lt (show 1 + 1 < rsp.length by omega),
          index_of_lt (show 3 < rsp.length by omega), index_of_lt (show 3 + 1 < rsp.length by omega), Go.bind_ok, Go.pure_def]
        simp
  · intro h v
    unfold writeCommandPDU
    by_cases hv : (v.length : Int) > (c.txMTU : Int) - 3
    · rw [if_pos hv]; simp
    · rw [if_neg hv, if_neg (by omega)]; simp
  · intro h v sig
    unfold signedWritePDU
    by_cases hv : (v.length : Int) > (c.txMTU : Int) - 15
    · rw [if_pos hv]; simp
    · rw [if_neg hv, if_neg (by omega)]; simp

/-- **C23, the part that holds.** Missing: the calls that walk a list of records; they panic exactly under the conditions of `readList_panics_iff`, `discovery_loops_panic_iff` and `descriptor_loop_panics_iff`. -/
theorem client_simple_calls_total_partial (ex : Exchange σ) (hx : SoundEx ex) (c : Cli σ) (hb : 23 ≤ c.buf.length) (hbt : c.txMTU ≤ c.buf.length) :
    (∀ m, exchangeMTU ex c m ≠ .panic) ∧ (∀ lo hi, findInformation ex c lo hi ≠ .panic) ∧ (∀ h, read ex c h ≠ .panic) ∧
    (∀ h off, readBlob ex c h off ≠ .panic) ∧ (∀ hs, readMultiple ex c hs ≠ .panic) ∧ (∀ h v, write ex c h v ≠ .panic) ∧
    (∀ h off v, prepareWrite ex c h off v ≠ .panic) ∧ (∀ h v, writeCommandPDU c h v ≠ .panic) ∧ (∀ h v sig, signedWritePDU c h v sig ≠ .panic) :=
  client_simple_calls_total ex hx c hb hbt

/-- **C23, refuted for the list calls.** `ReadByType` and `ReadByGroupType` panic exactly when the response has at least four bytes and announces
entries of length 0. -/
theorem readList_panics_iff (op : UInt8) (ex : Exchange σ) (hx : SoundEx ex) (c : Cli σ) (hb : 21 ≤ c.buf.length) (lo hi : Nat) (u : Bytes)
    (h1 : lo ≤ hi) (h2 : UuidOk u) :
    readList op ex c lo hi u = .panic ↔
      ∃ p' o t, ex c.peer (op :: (put16 lo ++ (put16 hi ++ u))) = .ok (p', o :: 0 :: t) ∧ o ≠ 0x01 ∧ 2 ≤ t.length := by
  have hb' : (op :: (put16 lo ++ (put16 hi ++ u))).length ≤ c.buf.length := by
    unfold UuidOk at h2; simp only [List.length_cons, List.length_append, put16_length]; omega
  unfold readList
  rw [if_neg (by unfold UuidOk at h2; omega), send_exchange hb']
  have hxx := hx c.peer (op :: (put16 lo ++ (put16 hi ++ u)))
  cases he : ex c.peer (op :: (put16 lo ++ (put16 hi ++ u))) with
  | panic => exact absurd he hxx.1
  | err e => simp
  | ok r =>
    obtain ⟨p', rsp⟩ := r
    have hne := hxx.2 p' rsp he
    cases rsp with
    | nil => exact absurd rfl hne
    | cons o t =>
      simp only [Go.bind_ok]
      by_cases ho : o = 0x01
      · subst ho
        have : checkError (0x01 :: t) ≠ .ok () := by
          simp only [checkError, index_cons_zero, Go.bind_ok, if_pos]
          by_cases h5 : ((0x01 : UInt8) :: t).length = 5
          · rw [if_pos h5, index_of_lt (by omega)]; simp
          · rw [if_neg h5]; simp
        cases hce : checkError (0x01 :: t) with
        | ok a => exact absurd hce this
        | panic => exact absurd hce (checkError_returns (by simp))
        | err e =>
          simp only [Go.bind_ok, Go.bind_err, reduceCtorEq, false_iff]
          rintro ⟨p'', o', t', h, ho', -⟩
          simp only [Go.ok.injEq, Prod.mk.injEq, List.cons.injEq] at h
          exact ho' h.2.1.symm
      · rw [checkError_other ho]
        simp only [Go.bind_ok, Go.ok.injEq, Prod.mk.injEq, List.cons.injEq]
        cases t with
        | nil => simp
        | cons l t =>
          simp only [List.length_cons, index_cons_succ, index_cons_zero, Go.bind_ok]
          by_cases hl : t.length < 2
          · rw [if_pos (by omega)]
            simp only [reduceCtorEq, false_iff]
            rintro ⟨p'', o', t', ⟨-, rfl, h⟩, -, h3⟩
            cases h; omega
          · rw [if_neg (by omega)]
            by_cases hz : l = 0
            · rw [if_pos hz]
              simp only [true_iff]
              exact ⟨p', o, t, ⟨rfl, rfl, by rw [hz]⟩, ho, by omega⟩
            · rw [if_neg hz]
              have hnp : (if (t.length + 1 + 1 - 2) % l.toNat ≠ 0 then (Go.err CErr.invalidResponse : Call (Cli σ × Nat × Bytes))
                  else pure (⟨p', op :: (put16 lo ++ (put16 hi ++ u)) ++ c.buf.drop (op :: (put16 lo ++ (put16 hi ++ u))).length, c.txMTU, c.rxMTU⟩,
                    l.toNat, (o :: l :: t).drop 2)) ≠ .panic := by split <;> simp
              constructor
              · intro h; exact absurd h hnp
              · rintro ⟨p'', o', t', ⟨-, -, h⟩, -, -⟩
                cases h; exact absurd rfl hz

/-- The GATT loops index every entry: one response with entries too short for a service, a characteristic or (with an unknown format) a descriptor
ends the process. -/
theorem discovery_loops_panic_iff (filter : Option (List Bytes)) (len : Nat) (x : UInt8) (xs : Bytes) (start E : Nat) (hm : (x :: xs).length % len = 0)
    (hl : 0 < len) :
    (svcLoop filter len (x :: xs) start [] = .panic ↔ len < 4) ∧ (charLoop E len (x :: xs) start [] = .panic ↔ len < 5) := by
  have hlen : ∀ b : Bytes, b.length % len = 0 → b ≠ [] → len ≤ b.length := by
    intro b hb hne
    rcases Nat.lt_or_ge b.length len with h | h
    · rw [Nat.mod_eq_of_lt h] at hb
      exact absurd (List.length_eq_zero_iff.1 hb) hne
    · exact h
  constructor
  · constructor
    · intro h
      rcases Nat.lt_or_ge len 4 with h4 | h4
      · exact h4
      · exfalso
        have main : ∀ n (b : Bytes), b.length ≤ n → b.length % len = 0 → ∀ start acc, svcLoop filter len b start acc ≠ .panic := by
          intro n
          induction n with
          | zero =>
            intro b hb _ start acc
            have : b = [] := List.length_eq_zero_iff.1 (by omega)
            subst this; rw [svcLoop]; simp
          | succ n ih =>
            intro b hb hbm start acc
            cases b with
            | nil => rw [svcLoop]; simp
            | cons y ys =>
              have h1 := hlen _ hbm (by simp)
              rw [svcLoop, if_neg (by omega)]
              simp only [le16At, index_of_lt (show 0 < (y :: ys).length by omega), index_of_lt (show 0 + 1 < (y :: ys).length by omega),
                index_of_lt (show 2 < (y :: ys).length by omega), index_of_lt (show 2 + 1 < (y :: ys).length by omega), Go.bind_ok, Go.pure_def]
              have hd1 : ((y :: ys).drop len).length ≤ n := by rw [List.length_drop]; omega
              have hd2 : ((y :: ys).drop len).length % len = 0 := by
                rw [List.length_drop]; exact (Nat.mod_eq_sub_mod h1).symm.trans hbm
              repeat' split
              all_goals first | exact ih _ hd1 hd2 _ _ | (intro hh; cases hh)
        exact main _ _ (Nat.le_refl _) hm _ _ h
    · intro h
      rw [svcLoop, if_pos (Or.inl h)]
  · constructor
    · intro h
      rcases Nat.lt_or_ge len 5 with h4 | h4
      · exact h4
      · exfalso
        have main : ∀ n (b : Bytes), b.length ≤ n → b.length % len = 0 → ∀ start acc, charLoop E len b start acc ≠ .panic := by
          intro n
          induction n with
          | zero =>
            intro b hb _ start acc
            have : b = [] := List.length_eq_zero_iff.1 (by omega)
            subst this; rw [charLoop]; simp
          | succ n ih =>
            intro b hb hbm start acc
            cases b with
            | nil => rw [charLoop]; simp
            | cons y ys =>
              have h1 := hlen _ hbm (by simp)
              rw [charLoop, if_neg (by omega)]
              simp only [le16At, index_of_lt (show 0 < (y :: ys).length by omega), index_of_lt (show 0 + 1 < (y :: ys).length by omega),
                index_of_lt (show 2 < (y :: ys).length by omega), index_of_lt (show 3 < (y :: ys).length by omega),
                index_of_lt (show 3 + 1 < (y :: ys).length by omega), Go.bind_ok, Go.pure_def]
              apply ih
              · rw [List.length_drop]; omega
              · rw [List.length_drop]
                exact (Nat.mod_eq_sub_mod h1).symm.trans hbm
        exact main _ _ (Nat.le_refl _) hm _ _ h
    · intro h
      rw [charLoop, if_pos (Or.inl h)]

/-- The loop over a Find Information Response panics exactly when the data is not a whole number of entries, which the response check only rules out
for formats 1 and 2. -/
theorem descriptor_loop_panics_iff (len : Nat) (hl : 2 ≤ len) (b : Bytes) (start : Nat) (acc : List DescInfo) :
    descLoop len b start acc = .panic ↔ b.length % len ≠ 0 := by
  have main : ∀ n (b : Bytes), b.length ≤ n → ∀ start acc, (descLoop len b start acc = .panic ↔ b.length % len ≠ 0) := by
    intro n
    induction n with
    | zero =>
      intro b hb start acc
      have : b = [] := List.length_eq_zero_iff.1 (by omega)
      subst this; rw [descLoop]; simp
    | succ n ih =>
      intro b hb start acc
      cases b with
      | nil => rw [descLoop]; simp
      | cons y ys =>
        rw [descLoop]
        by_cases hs : (y :: ys).length < len
        · rw [if_pos (Or.inr hs), Nat.mod_eq_of_lt hs]
          simp
        · rw [if_neg (by omega)]
          simp only [le16At, index_of_lt (show 0 < (y :: ys).length by omega), index_of_lt (show 0 + 1 < (y :: ys).length by omega), Go.bind_ok, Go.pure_def]
          rw [ih _ (by rw [List.length_drop]; omega), List.length_drop, ← Nat.mod_eq_sub_mod (by omega)]
  exact main _ _ (Nat.le_refl _) _ _

/-- **C23, refuted.** One response of a malicious server ends the process: an entry length of 0 for `ReadByType` and `ReadByGroupType` and all of
discovery, entries of 3 bytes for `DiscoverServices`, of 4 bytes for `DiscoverCharacteristics`, an unknown format for `DiscoverDescriptors`. -/
theorem client_crashes (c : Cli Unit) (hb : 23 ≤ c.buf.length) :
    readByType (fun p _ => .ok (p, [0x09, 0, 1, 1])) c 1 0xFFFF (put16 0x2803) = .panic ∧
    (∀ fuel, discoverServices (fun p _ => .ok (p, [0x11, 3, 1, 1, 1])) none (fuel + 1) c 1 [] = .panic) ∧
    (∀ fuel s, s.handle ≤ s.endHandle →
      discoverCharacteristics (fun p _ => .ok (p, [0x09, 4, 1, 1, 1, 1])) none (fuel + 1) c s = .panic) ∧
    (∀ fuel ch, 0 < ch.valueHandle → ch.valueHandle < ch.endHandle → ch.endHandle < 65536 →
      discoverDescriptors (fun p _ => .ok (p, [0x05, 3, 1, 1, 1, 1, 1])) none (fuel + 1) c ch = .panic) := by
  have hsend : ∀ rsp req, req.length ≤ 23 → Cli.send (fun (p : Unit) _ => .ok (p, rsp)) c req =
      .ok ({ c with buf := req ++ c.buf.drop req.length }, rsp) := by
    intro rsp req h
    rw [send_exchange (by omega)]; rfl
  refine ⟨?_, ?_, ?_, ?_⟩
  · unfold readByType readList
    rw [if_neg (by simp), hsend _ _ (by simp)]
    rfl
  · intro fuel
    have hr : readByGroupType (fun (p : Unit) _ => .ok (p, [0x11, 3, 1, 1, 1])) c 1 0xFFFF (put16 0x2800) =
        .ok ({ c with buf := 0x10 :: (put16 1 ++ (put16 0xFFFF ++ put16 0x2800)) ++ c.buf.drop 7 }, 3, [1, 1, 1]) := by
      unfold readByGroupType readList
      rw [if_neg (by simp), hsend _ _ (by simp)]
      rfl
    rw [discoverServices, hr]
    simp only []
    rw [((discovery_loops_panic_iff none 3 1 [1, 1] 1 0 (by decide) (by omega)).1).2 (by omega)]
  · intro fuel s hs
    have hr : readByType (fun (p : Unit) _ => .ok (p, [0x09, 4, 1, 1, 1, 1])) c s.handle s.endHandle (put16 0x2803) =
        .ok ({ c with buf := 0x08 :: (put16 s.handle ++ (put16 s.endHandle ++ put16 0x2803)) ++ c.buf.drop 7 }, 4, [1, 1, 1, 1]) := by
      unfold readByType readList
      rw [if_neg (by simp; omega), hsend _ _ (by simp)]
      rfl
    unfold discoverCharacteristics
    rw [charOuter, if_neg (by omega), hr]
    simp only []
    rw [((discovery_loops_panic_iff none 4 1 [1, 1, 1] s.handle s.endHandle (by decide) (by omega)).2).2 (by omega)]
    rfl
  · intro fuel ch h1 h2 h3
    have ha : add16 ch.valueHandle 1 = ch.valueHandle + 1 := by simp only [add16]; omega
    have hr : findInformation (fun (p : Unit) _ => .ok (p, [0x05, 3, 1, 1, 1, 1, 1])) c (ch.valueHandle + 1) ch.endHandle =
        .ok ({ c with buf := 0x04 :: (put16 (ch.valueHandle + 1) ++ put16 ch.endHandle) ++ c.buf.drop 5 }, 3, [1, 1, 1, 1, 1]) := by
      unfold findInformation
      rw [if_neg (by omega), hsend _ _ (by simp)]
      rfl
    unfold discoverDescriptors
    rw [ha, descOuter, if_neg (by omega), hr]
    simp only []
    rw [(descriptor_loop_panics_iff _ (by decide) _ _ _).2 (by decide)]
    rfl

/-- **C23, refuted.** A server that answers an MTU exchange with a value below 3 makes every later read panic: the transmit buffer gets that size. -/
theorem client_crashes_after_small_mtu (ex : Exchange σ) (c c' : Cli σ) (m t : Nat) (h : exchangeMTU ex c m = .ok (c', t)) (ht : t < 3) (h' : Nat) :
    read ex c' h' = .panic := by
  have hbuf : c'.buf.length = t := by
    unfold exchangeMTU at h
    split at h
    · cases h
    · obtain ⟨⟨c1, rsp⟩, h1, h⟩ := Go.bind_eq_ok.1 h
      obtain ⟨_, h2, h⟩ := Go.bind_eq_ok.1 h

      split at h
      · cases h
      · obtain ⟨t', h3, h⟩ := Go.bind_eq_ok.1 h
        split at h
        · cases h; simp
        · cases h; rename_i h5; simpa using h5
  unfold Client.read Cli.send
  rw [if_pos (by simp; omega)]
  rfl

example : ∃ c', exchangeMTU (fun (p : Unit) _ => .ok (p, [0x03, 0, 0])) (Cli.new () 23 23) 23 = .ok (c', 0) := ⟨_, rfl⟩

/-- **C23, refuted.** A server that keeps naming a service that ends before it starts keeps `DiscoverServices` asking forever, with ever more
services. -/
theorem discoverServices_can_run_forever (fuel : Nat) (c : Cli Unit) (hb : 7 ≤ c.buf.length) (acc : List SvcInfo) :
    discoverServices (fun p _ => .ok (p, [0x11, 6, 1, 0, 0, 0, 0x0D, 0x18])) none fuel c 1 acc = .ok none := by
  induction fuel generalizing c acc with
  | zero => rfl
  | succ n ih =>
    have hr : readByGroupType (fun (p : Unit) _ => .ok (p, [0x11, 6, 1, 0, 0, 0, 0x0D, 0x18])) c 1 0xFFFF (put16 0x2800) =
        .ok ({ c with buf := 0x10 :: (put16 1 ++ (put16 0xFFFF ++ put16 0x2800)) ++ c.buf.drop 7 }, 6, [1, 0, 0, 0, 0x0D, 0x18]) := by
      unfold readByGroupType readList
      rw [if_neg (by simp), send_exchange (by simpa using hb)]
      simp [checkError, index]
    have hl : svcLoop none 6 [1, 0, 0, 0, 0x0D, 0x18] 1 acc = .ok (.again 1 (acc ++ [⟨put16 0x180D, 1, 0⟩])) := by
      have := svcLoop_scan none 2 1 [⟨put16 0x180D, 1, 0⟩] acc (by decide)
      have e : (svcScan none [⟨put16 0x180D, 1, 0⟩] acc) = (false, acc ++ [⟨put16 0x180D, 1, 0⟩]) := by
        simp [svcScan, addKept, kept]
      rw [e] at this
      exact this
    rw [discoverServices, hr]
    simp only []
    rw [hl]
    simp only []
    apply ih
    simp only [List.length_append, List.length_cons, put16_length, List.length_drop]; omega

/-! ## C24 -/

/-- A peer that remembers the requests it got and answers with `rsp`. -/
def recorder (rsp : Bytes) : Exchange (List Bytes) := fun l req => .ok (l ++ [req], rsp)

theorem send_recorder {rsp : Bytes} {c c' : Cli (List Bytes)} {req r : Bytes} (h : Cli.send (recorder rsp) c req = .ok (c', r)) :
    c'.peer = c.peer ++ [req] := by
  unfold Cli.send at h
  split at h
  · cases h
  · cases h; rfl

theorem handles_flatMap (hs : List Nat) (h : ∀ x ∈ hs, x < 65536) : handles (hs.flatMap put16) = hs := by
  induction hs with
  | nil => rfl
  | cons x xs ih =>
    rw [List.flatMap_cons]
    simp only [put16, List.cons_append, List.nil_append, handles]
    rw [le16_put16 x (h x (by simp))]
    congr 1
    exact ih (fun y hy => h y (by simp [hy]))

/-- **C24.** Every call that succeeds has put exactly one request on the air, and a receiver reads the call's arguments in it. (`PrepareWrite`,
`SignedWrite` and `ExecuteWrite` are the exceptions, see below.) -/
theorem client_requests_decode (rsp : Bytes) (c : Cli (List Bytes)) :
    (∀ m c' n, exchangeMTU (recorder rsp) c m = .ok (c', n) → ∃ b, c'.peer = c.peer ++ [b] ∧ parseReq b = some (.exchangeMTU m)) ∧
    (∀ lo hi r, lo < 65536 → hi < 65536 → findInformation (recorder rsp) c lo hi = .ok r →
      ∃ b, r.1.peer = c.peer ++ [b] ∧ parseReq b = some (.findInformation lo hi)) ∧
    (∀ lo hi u r, lo < 65536 → hi < 65536 → readByType (recorder rsp) c lo hi u = .ok r →
      ∃ b, r.1.peer = c.peer ++ [b] ∧ parseReq b = some (.readByType lo hi u)) ∧
    (∀ lo hi u r, lo < 65536 → hi < 65536 → readByGroupType (recorder rsp) c lo hi u = .ok r →
      ∃ b, r.1.peer = c.peer ++ [b] ∧ parseReq b = some (.readByGroupType lo hi u)) ∧
    (∀ h r, h < 65536 → read (recorder rsp) c h = .ok r → ∃ b, r.1.peer = c.peer ++ [b] ∧ parseReq b = some (.read h)) ∧
    (∀ h off r, h < 65536 → off < 65536 → readBlob (recorder rsp) c h off = .ok r →
      ∃ b, r.1.peer = c.peer ++ [b] ∧ parseReq b = some (.readBlob h off)) ∧
    (∀ hs r, (∀ x ∈ hs, x < 65536) → readMultiple (recorder rsp) c hs = .ok r →
      ∃ b, r.1.peer = c.peer ++ [b] ∧ parseReq b = some (.readMultiple hs)) ∧
    (∀ h v c', h < 65536 → write (recorder rsp) c h v = .ok c' → ∃ b, c'.peer = c.peer ++ [b] ∧ parseReq b = some (.write h v)) ∧
    (∀ h v b, h < 65536 → writeCommandPDU c h v = .ok b → parseReq b = some (.writeCommand h v)) := by
  have hput : ∀ n, n < 65536 → le16 (UInt8.ofNat n) (UInt8.ofNat (n / 256)) = n := fun n h => le16_put16 n h
  refine ⟨?_, ?_, ?_, ?_, ?_, ?_, ?_, ?_, ?_⟩
  · intro m c' n h
    unfold exchangeMTU at h
    split at h
    · cases h
    · rename_i hm
      obtain ⟨⟨c1, r⟩, h1, h⟩ := Go.bind_eq_ok.1 h
      obtain ⟨_, h2, h⟩ := Go.bind_eq_ok.1 h
      have hp := send_recorder h1
      refine ⟨0x02 :: put16 m, ?_, by simp only [put16, parseReq]; rw [hput m (by omega)]⟩

      split at h
      · cases h
      · obtain ⟨t, h3, h⟩ := Go.bind_eq_ok.1 h
        split at h <;> cases h <;> exact hp
  · intro lo hi r hlo hhi h
    unfold findInformation at h
    split at h
    · cases h
    · obtain ⟨⟨c1, rr⟩, h1, h⟩ := Go.bind_eq_ok.1 h
      obtain ⟨_, h2, h⟩ := Go.bind_eq_ok.1 h
      have hp := send_recorder h1
      refine ⟨0x04 :: (put16 lo ++ put16 hi), ?_, by simp only [put16, List.cons_append, List.nil_append, parseReq]; rw [hput lo hlo, hput hi hhi]⟩

      split at h
      · cases h
      · obtain ⟨t, h3, h⟩ := Go.bind_eq_ok.1 h
        split at h
        · cases h
        · split at h
          · cases h
          · cases h; exact hp
  · intro lo hi u r hlo hhi h
    unfold readByType readList at h
    split at h
    · cases h
    · obtain ⟨⟨c1, rr⟩, h1, h⟩ := Go.bind_eq_ok.1 h
      obtain ⟨_, h2, h⟩ := Go.bind_eq_ok.1 h
      have hp := send_recorder h1
      refine ⟨0x08 :: (put16 lo ++ (put16 hi ++ u)), ?_, by simp only [put16, List.cons_append, List.nil_append, parseReq]; rw [hput lo hlo, hput hi hhi]⟩

      split at h
      · cases h
      · obtain ⟨t, h3, h⟩ := Go.bind_eq_ok.1 h
        split at h
        · cases h
        · split at h
          · cases h
          · cases h; exact hp
  · intro lo hi u r hlo hhi h
    unfold readByGroupType readList at h
    split at h
    · cases h
    · obtain ⟨⟨c1, rr⟩, h1, h⟩ := Go.bind_eq_ok.1 h
      obtain ⟨_, h2, h⟩ := Go.bind_eq_ok.1 h
      have hp := send_recorder h1
      refine ⟨0x10 :: (put16 lo ++ (put16 hi ++ u)), ?_, by simp only [put16, List.cons_append, List.nil_append, parseReq]; rw [hput lo hlo, hput hi hhi]⟩

      split at h
      · cases h
      · obtain ⟨t, h3, h⟩ := Go.bind_eq_ok.1 h
        split at h
        · cases h
        · split at h
          · cases h
          · cases h; exact hp
  · intro h r hh hr
    unfold Client.read at hr
    obtain ⟨⟨c1, rr⟩, h1, hr⟩ := Go.bind_eq_ok.1 hr
    obtain ⟨_, h2, hr⟩ := Go.bind_eq_ok.1 hr
    have hp := send_recorder h1
    cases hr
    exact ⟨_, hp, by simp only [put16, parseReq]; rw [hput h hh]⟩
  · intro h off r hh hoff hr
    unfold readBlob at hr
    obtain ⟨⟨c1, rr⟩, h1, hr⟩ := Go.bind_eq_ok.1 hr
    obtain ⟨_, h2, hr⟩ := Go.bind_eq_ok.1 hr
    have hp := send_recorder h1
    cases hr
    exact ⟨_, hp, by simp only [put16, List.cons_append, List.nil_append, parseReq]; rw [hput h hh, hput off hoff]⟩
  · intro hs r hh hr
    unfold readMultiple at hr
    split at hr
    · cases hr
    · obtain ⟨⟨c1, rr⟩, h1, hr⟩ := Go.bind_eq_ok.1 hr
      obtain ⟨_, h2, hr⟩ := Go.bind_eq_ok.1 hr
      have hp := send_recorder h1
      cases hr
      exact ⟨_, hp, by simp only [parseReq]; rw [handles_flatMap hs hh]⟩
  · intro h v c' hh hr
    unfold write at hr
    split at hr
    · cases hr
    · obtain ⟨⟨c1, rr⟩, h1, hr⟩ := Go.bind_eq_ok.1 hr
      obtain ⟨_, h2, hr⟩ := Go.bind_eq_ok.1 hr
      have hp := send_recorder h1
      cases hr
      exact ⟨_, hp, by simp only [put16, List.cons_append, List.nil_append, parseReq]; rw [hput h hh]⟩
  · intro h v b hh hr
    unfold writeCommandPDU at hr
    split at hr
    · cases hr
    · split at hr
      · cases hr
      · cases hr
        simp only [put16, List.cons_append, List.nil_append, parseReq]; rw [hput h hh]

/-- **C24, the part that holds.** Missing: `PrepareWrite`, `SignedWrite` and `ExecuteWrite`, for which it is false (`prepareWrite_ignores_value`, `signedWrite_loses_value`, `executeWrite_panics`). -/
theorem client_requests_decode_partial (rsp : Bytes) (c : Cli (List Bytes)) :
    (∀ m c' n, exchangeMTU (recorder rsp) c m = .ok (c', n) → ∃ b, c'.peer = c.peer ++ [b] ∧ parseReq b = some (.exchangeMTU m)) ∧
    (∀ lo hi r, lo < 65536 → hi < 65536 → findInformation (recorder rsp) c lo hi = .ok r →
      ∃ b, r.1.peer = c.peer ++ [b] ∧ parseReq b = some (.findInformation lo hi)) ∧
    (∀ lo hi u r, lo < 65536 → hi < 65536 → readByType (recorder rsp) c lo hi u = .ok r →
      ∃ b, r.1.peer = c.peer ++ [b] ∧ parseReq b = some (.readByType lo hi u)) ∧
    (∀ lo hi u r, lo < 65536 → hi < 65536 → readByGroupType (recorder rsp) c lo hi u = .ok r →
      ∃ b, r.1.peer = c.peer ++ [b] ∧ parseReq b = some (.readByGroupType lo hi u)) ∧
    (∀ h r, h < 65536 → read (recorder rsp) c h = .ok r → ∃ b, r.1.peer = c.peer ++ [b] ∧ parseReq b = some (.read h)) ∧
    (∀ h off r, h < 65536 → off < 65536 → readBlob (recorder rsp) c h off = .ok r →
      ∃ b, r.1.peer = c.peer ++ [b] ∧ parseReq b = some (.readBlob h off)) ∧
    (∀ hs r, (∀ x ∈ hs, x < 65536) → readMultiple (recorder rsp) c hs = .ok r →
      ∃ b, r.1.peer = c.peer ++ [b] ∧ parseReq b = some (.readMultiple hs)) ∧
    (∀ h v c', h < 65536 → write (recorder rsp) c h v = .ok c' → ∃ b, c'.peer = c.peer ++ [b] ∧ parseReq b = some (.write h v)) ∧
    (∀ h v b, h < 65536 → writeCommandPDU c h v = .ok b → parseReq b = some (.writeCommand h v)) :=
  client_requests_decode rsp c

/-- The calls of `client_requests_decode` do succeed. -/
example : (match readBlob (recorder [0x0D, 7]) (Cli.new [] 23 23) 5 300 with | .ok (c, v) => (c.peer, v) | _ => ([], [])) =
    ([[0x0C, 5, 0, 44, 1]], [7]) := rfl

/-- **C24, refuted for `PrepareWrite`.** The value is not sent: two calls with values of the same length put the same bytes on the air, whatever the
values are. -/
theorem prepareWrite_ignores_value (ex : Exchange σ) (c : Cli σ) (h off : Nat) (v v' : Bytes) (hl : v.length = v'.length) :
    prepareWrite ex c h off v = prepareWrite ex c h off v' := by
  unfold prepareWrite; rw [hl]

/-- On a new client the value sent is zeros. -/
example : (match prepareWrite (recorder [0x17, 3, 0, 0, 0, 9, 9]) (Cli.new [] 23 23) 3 0 [9, 9] with | .ok (c, _) => c.peer | _ => []) =
    [[0x16, 3, 0, 0, 0, 0, 0]] := rfl

/-- **C24, refuted for `SignedWrite`.** The first twelve bytes of the value are overwritten by the signature: two values that agree after their
twelfth byte give the same PDU. -/
theorem signedWrite_loses_value (c : Cli σ) (h : Nat) (v v' sig : Bytes) (hl : v.length = v'.length) (hd : v.drop 12 = v'.drop 12) :
    signedWritePDU c h v sig = signedWritePDU c h v' sig := by
  unfold signedWritePDU; rw [hl, hd]

/-- A receiver finds neither the value nor the signature. -/
example : (match signedWritePDU (Cli.new () 40 40) 3 [1, 2] (List.replicate 12 5) with | .ok b => parseReq b | _ => none) =
    some (.signedWrite 3 [5, 5] (List.replicate 10 5 ++ [0, 0])) := rfl

/-- **C24, refuted for `ExecuteWrite`.** The call always panics. -/
theorem executeWrite_panics (ex : Exchange σ) (c : Cli σ) (f : UInt8) : executeWrite ex c f = .panic := rfl

end Ble.Props
