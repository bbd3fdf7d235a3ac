import Verif.Att.CrashLemmas
import Verif.Props.AttDb
set_option autoImplicit false

/-!
# The ATT server: sizes, answers, crashes, MTU, errors (C10, C11, C12, C16, C17)
-/

namespace Ble.Props

open Ble.Att Ble.Spec

variable {α σ : Type}

/-! ## Outcomes of `handleRequest` -/

theorem handleRequest_cases {s s' : Server σ} {op : UInt8} {t : Bytes} {o : Option Bytes}
    (h : handleRequest s (op :: t) = .ok (s', o)) :
    (op = 0x52 ∧ o = none ∧ s'.db = s.db ∧ s'.mtu = s.mtu) ∨
    (op = 0x16 ∧ o = some (0x17 :: t) ∧ s'.db = s.db ∧ s'.mtu = s.mtu) ∨
    (op ≠ 0x52 ∧ ∃ c, responseOpcode op = some c ∧ Good s s' op c o) ∨
    (op ≠ 0x52 ∧ responseOpcode op = none ∧ s' = s ∧ o = some (errorRsp op 0 0x06)) := by
  unfold handleRequest at h
  simp only [] at h
  by_cases h1 : op = 0x02
  · subst h1; exact Or.inr (Or.inr (Or.inl ⟨by decide, 0x03, by decide, handleExchangeMTU_good rfl h⟩))
  rw [if_neg h1] at h
  by_cases h2 : op = 0x04
  · subst h2; exact Or.inr (Or.inr (Or.inl ⟨by decide, 0x05, by decide, handleFindInfo_good h⟩))
  rw [if_neg h2] at h
  by_cases h3 : op = 0x06
  · subst h3; exact Or.inr (Or.inr (Or.inl ⟨by decide, 0x07, by decide, handleFindByTypeValue_good h⟩))
  rw [if_neg h3] at h
  by_cases h4 : op = 0x08
  · subst h4; exact Or.inr (Or.inr (Or.inl ⟨by decide, 0x09, by decide, handleReadByType_good h⟩))
  rw [if_neg h4] at h
  by_cases h5 : op = 0x0A
  · subst h5; exact Or.inr (Or.inr (Or.inl ⟨by decide, 0x0B, by decide, handleRead_good h⟩))
  rw [if_neg h5] at h
  by_cases h6 : op = 0x0C
  · subst h6; exact Or.inr (Or.inr (Or.inl ⟨by decide, 0x0D, by decide, handleReadBlob_good h⟩))
  rw [if_neg h6] at h
  by_cases h7 : op = 0x10
  · subst h7; exact Or.inr (Or.inr (Or.inl ⟨by decide, 0x11, by decide, handleReadByGroup_good h⟩))
  rw [if_neg h7] at h
  by_cases h8 : op = 0x12
  · subst h8; exact Or.inr (Or.inr (Or.inl ⟨by decide, 0x13, by decide, handleWrite_good h⟩))
  rw [if_neg h8] at h
  by_cases h9 : op = 0x52
  · subst h9
    obtain ⟨e1, e2, e3⟩ := handleWriteCommand_ok h
    exact Or.inl ⟨rfl, e1, e2, e3⟩
  rw [if_neg h9] at h
  by_cases h10 : op = 0x16
  · subst h10
    rcases handlePrepareWrite_ok h with hg | ⟨e1, e2, e3⟩
    · exact Or.inr (Or.inr (Or.inl ⟨by decide, 0x17, by decide, hg⟩))
    · exact Or.inr (Or.inl ⟨rfl, e3, e1, e2⟩)
  rw [if_neg h10] at h
  by_cases h11 : op = 0x18
  · subst h11; exact Or.inr (Or.inr (Or.inl ⟨by decide, 0x19, by decide, handleExecuteWrite_good h⟩))
  rw [if_neg h11] at h
  cases h
  refine Or.inr (Or.inr (Or.inr ⟨h9, ?_, rfl, rfl⟩))
  simp [responseOpcode, h1, h2, h3, h4, h5, h6, h7, h8, h10, h11]

/-- The table never changes while serving, and the MTU in force is the one the received PDUs say. -/
theorem handleRequest_mtu {s s' : Server σ} {b : Bytes} {o : Option Bytes} (h : handleRequest s b = .ok (s', o)) :
    s'.db = s.db ∧ s'.mtu = mtuAfter s.mtu [b] := by
  cases b with
  | nil => cases h; exact ⟨rfl, rfl⟩
  | cons op t =>
    by_cases hop : op = 0x02
    · subst hop
      unfold handleRequest handleExchangeMTU at h
      simp only [index_cons_zero, Go.bind_ok] at h
      rw [if_pos trivial] at h
      match t, h with
      | [], h => cases h; exact ⟨rfl, rfl⟩
      | [_], h => cases h; exact ⟨rfl, rfl⟩
      | [lo, hi], h =>
        rw [if_neg (by simp)] at h
        simp only [le16At, index_cons_succ, index_cons_zero, Go.bind_ok, Go.pure_def] at h
        split at h
        · cases h; refine ⟨rfl, ?_⟩; simp only [mtuAfter]; rw [if_neg (by omega)]
        · cases h; refine ⟨rfl, ?_⟩; simp only [mtuAfter]; rw [if_pos (by omega)]
      | _ :: _ :: _ :: _, h =>
        rw [if_pos (by simp)] at h
        cases h; exact ⟨rfl, rfl⟩
    · have e : mtuAfter s.mtu [op :: t] = s.mtu := by
        unfold mtuAfter; split
        · rfl
        · rename_i h; simp only [List.cons.injEq] at h; exact absurd h.1.1 hop
        · rename_i h; simp only [List.cons.injEq] at h; rw [← h.2]; rfl
      rw [e]
      rcases handleRequest_cases h with ⟨-, -, h1, h2⟩ | ⟨-, -, h1, h2⟩ | ⟨-, c, -, hg⟩ | ⟨-, -, rfl, -⟩
      · exact ⟨h1, h2⟩
      · exact ⟨h1, h2⟩
      · exact ⟨hg.db, hg.mtuSame hop⟩
      · exact ⟨rfl, rfl⟩

theorem loopStep_eq {s s' : Server σ} {b : Bytes} {out : List Bytes} (h : loopStep s b = .ok (s', out)) :
    (b.head? = some 0x1E ∧ s' = s ∧ out = []) ∨
    (b.head? ≠ some 0x1E ∧ ∃ o, handleRequest s b = .ok (s', o) ∧ out = match o with | some (x :: xs) => [x :: xs] | _ => []) := by
  unfold loopStep at h
  split at h
  · cases h; exact Or.inl ⟨rfl, rfl, rfl⟩
  · rename_i hb
    refine Or.inr ⟨?_, ?_⟩
    · intro hh
      cases b with
      | nil => simp at hh
      | cons x xs => simp at hh; subst hh; exact hb _ rfl
    · obtain ⟨⟨s1, o⟩, h1, h⟩ := Go.bind_eq_ok.1 h
      refine ⟨o, ?_⟩
      simp only [] at h
      split at h
      · cases h; exact ⟨h1, rfl⟩
      · cases h
        refine ⟨h1, ?_⟩
        cases o with
        | none => rfl
        | some l => cases l with
          | nil => rfl
          | cons x xs => rename_i hh; exact absurd rfl (hh x xs)

/-! ## C17: MTU exchange (server side) -/

/-- **C17.** After any sequence of received PDUs the server uses the MTU of the last acceptable Exchange MTU Request, 23 before any,
and serves the same table. -/
theorem mtu_follows_requests (s s' : Server σ) (bs : List Bytes) (outs : List (List Bytes))
    (h : loop s bs = .ok (s', outs)) : s'.mtu = mtuAfter s.mtu bs ∧ s'.db = s.db := by
  induction bs generalizing s outs with
  | nil => cases h; exact ⟨rfl, rfl⟩
  | cons b bs ih =>
    rw [loop] at h
    obtain ⟨⟨s1, o⟩, h1, h⟩ := Go.bind_eq_ok.1 h
    obtain ⟨⟨s2, os⟩, h2, h⟩ := Go.bind_eq_ok.1 h
    cases h
    have hstep : s1.db = s.db ∧ s1.mtu = mtuAfter s.mtu [b] := by
      rcases loopStep_eq h1 with ⟨hb, rfl, -⟩ | ⟨-, o', ho, -⟩
      · refine ⟨rfl, ?_⟩
        unfold mtuAfter; split
        · rfl
        · rename_i h; simp only [List.cons.injEq] at h; rw [h.1] at hb; simp at hb
        · rename_i h; simp only [List.cons.injEq] at h; rw [← h.2]; rfl
      · exact handleRequest_mtu ho
    obtain ⟨e1, e2⟩ := ih s1 os h2
    refine ⟨?_, e2.trans hstep.1⟩
    rw [e1, hstep.2]
    conv => lhs; unfold mtuAfter
    have key : ∀ (l : List Bytes), mtuAfter (mtuAfter s.mtu [b]) l = mtuAfter s.mtu (b :: l) := by
      intro l
      match b with
      | [] => rfl
      | [_] => simp [mtuAfter]
      | [_, _] => simp [mtuAfter]
      | [x, y, z] =>
        by_cases hx : x = 0x02
        · subst hx; simp [mtuAfter]
        · have e : ∀ m l, mtuAfter m ([x, y, z] :: l) = mtuAfter m l := by
            intro m l
            rw [mtuAfter]
            intro lo hi he; simp at he; exact hx he.1
          rw [e, e]; rfl
      | _ :: _ :: _ :: _ :: _ => simp [mtuAfter]
    have := key bs
    rw [← this]
    conv => rhs; unfold mtuAfter

/-- **C17.** A good request is answered with the server's MTU of 515, and the new value is used from then on. -/
theorem mtu_request_accepted (s : Server σ) (m : Nat) (h1 : 23 ≤ m) (h2 : m < 65536) :
    handleRequest s (0x02 :: put16 m) = .ok ({ s with mtu := m, rxMTU := 515 }, some (0x03 :: put16 515)) := by
  have e := le16_put16 m h2
  have e' : ¬ m < 23 := by omega
  simp [handleRequest, handleExchangeMTU, put16, le16At, e, e']

/-- **C17.** Any other Exchange MTU Request (wrong length, or a value below 23) is refused with Invalid PDU and changes nothing. -/
theorem mtu_request_refused (s : Server σ) (t : Bytes) (h : ∀ lo hi, t = [lo, hi] → le16 lo hi < 23) :
    handleRequest s (0x02 :: t) = .ok (s, some [0x01, 0x02, 0, 0, 0x04]) := by
  match t, h with
  | [], _ => rfl
  | [_], _ => rfl
  | [lo, hi], h =>
    have := h lo hi rfl
    simp [handleRequest, handleExchangeMTU, le16At, this, reject, errorRsp, errInvalidPDU, put16]
  | _ :: _ :: _ :: _, _ =>
    simp [handleRequest, handleExchangeMTU, reject, errorRsp, errInvalidPDU, put16]

/-! ## C10: sizes -/

/-- **C10, the whole truth.** Every PDU the server sends is at most the MTU in force, except that the response to a Prepare Write
Request has the length of the request. -/
theorem response_size (s0 s1 s2 : Server σ) (h0 : 23 ≤ s0.mtu) (pre : List Bytes) (outs : List (List Bytes)) (b : Bytes) (out : List Bytes)
    (hp : loop s0 pre = .ok (s1, outs)) (hb : loopStep s1 b = .ok (s2, out)) (p : Bytes) (hm : p ∈ out) :
    p.length ≤ mtuAfter s0.mtu pre ∨ (b.head? = some 0x16 ∧ p.length = b.length) := by
  obtain ⟨e1, -⟩ := mtu_follows_requests _ _ _ _ hp
  have hge : ∀ (m : Nat) (l : List Bytes), 23 ≤ m → 23 ≤ mtuAfter m l := by
    intro m l hm
    induction l generalizing m with
    | nil => exact hm
    | cons x l ih =>
      unfold mtuAfter; split
      · exact hm
      · rename_i h; rw [List.cons.injEq] at h; rw [← h.2]; apply ih; split <;> omega
      · rename_i h; rw [List.cons.injEq] at h; rw [← h.2]; apply ih; assumption
  have h1 : 23 ≤ s1.mtu := by rw [e1]; exact hge _ _ h0
  rw [← e1]
  rcases loopStep_eq hb with ⟨-, -, rfl⟩ | ⟨-, o, ho, rfl⟩
  · cases hm
  cases b with
  | nil => cases ho; cases hm
  | cons op t =>
    rcases handleRequest_cases ho with ⟨-, rfl, -⟩ | ⟨rfl, rfl, -, -⟩ | ⟨-, c, -, hg⟩ | ⟨-, -, rfl, rfl⟩
    · cases hm
    · simp only [List.mem_singleton] at hm; subst hm; exact Or.inr ⟨rfl, rfl⟩
    · obtain ⟨rsp, rfl, -, hl⟩ := hg.ans
      cases rsp with
      | nil => cases hm
      | cons x xs => simp only [List.mem_singleton] at hm; subst hm; exact Or.inl (hl h1)
    · simp only [errorRsp, List.cons_append, List.mem_singleton] at hm; subst hm; left; simp; omega

/-- **C10 (partial: the peer keeps to the MTU itself).** Then everything the server sends does, too. -/
theorem response_within_mtu_partial (s0 s1 s2 : Server σ) (h0 : 23 ≤ s0.mtu) (pre : List Bytes) (outs : List (List Bytes)) (b : Bytes)
    (out : List Bytes) (hp : loop s0 pre = .ok (s1, outs)) (hb : loopStep s1 b = .ok (s2, out))
    (hlen : b.length ≤ mtuAfter s0.mtu pre) (p : Bytes) (hm : p ∈ out) : p.length ≤ mtuAfter s0.mtu pre := by
  rcases response_size s0 s1 s2 h0 pre outs b out hp hb p hm with h | ⟨-, h⟩ <;> omega

/-- **C10, refuted in general.** A Prepare Write Request longer than the MTU is echoed in full: for every server with a writable
attribute, every MTU and every longer value. -/
theorem prepare_echo_exceeds_mtu (s : Server σ) (lo hi o1 o2 : UInt8) (v : Bytes) (a : Attr σ) (f : WriteH σ)
    (ha : s.db.at (le16 lo hi) = some a) (hf : a.wh = some f) (hv : s.mtu ≤ v.length) :
    ∃ s' p, loopStep s (0x16 :: lo :: hi :: o1 :: o2 :: v) = .ok (s', [p]) ∧ s.mtu < p.length := by
  have : ∃ s', loopStep s (0x16 :: lo :: hi :: o1 :: o2 :: v) = .ok (s', [0x17 :: lo :: hi :: o1 :: o2 :: v]) := by
    simp [loopStep, handleRequest, handlePrepareWrite, le16At, ha, handleATT, hf, sliceFrom]
    rw [if_neg (by omega)]
    exact ⟨_, rfl⟩
  obtain ⟨s', hs⟩ := this
  exact ⟨s', _, hs, by simp only [List.length_cons]; omega⟩

/-! ## C11: one answer of the right kind -/

/-- **C11 (partial: see `signed_write_command_answered`).** Exactly one PDU answers each received PDU: the response that belongs to the request, or an Error
Response naming the request's opcode. Write Commands, confirmations and empty PDUs get none. -/
theorem one_answer_partial (s s' : Server σ) (b : Bytes) (out : List Bytes) (h : loopStep s b = .ok (s', out)) :
    ((b = [] ∨ b.head? = some 0x52 ∨ b.head? = some 0x1E) → out = []) ∧
    ∀ op t, b = op :: t → op ≠ 0x52 → op ≠ 0x1E → ∃ rsp, out = [rsp] ∧
      ((∃ c r, responseOpcode op = some c ∧ rsp = c :: r) ∨
       (∃ h1 h2 e, rsp = [0x01, op, h1, h2, e])) := by
  rcases loopStep_eq h with ⟨hb, -, rfl⟩ | ⟨hne, o, ho, rfl⟩
  · refine ⟨fun _ => rfl, ?_⟩
    rintro op t rfl - h2
    simp at hb; exact absurd hb h2
  · refine ⟨?_, ?_⟩
    · rintro (rfl | hb | hb)
      · cases ho; rfl
      · cases b with
        | nil => simp at hb
        | cons op t =>
          simp at hb; subst hb
          rcases handleRequest_cases ho with ⟨-, rfl, -⟩ | ⟨h', -⟩ | ⟨h', -⟩ | ⟨h', -⟩
          · rfl
          · exact absurd h' (by decide)
          · exact absurd rfl h'
          · exact absurd rfl h'
      · exact absurd hb hne
    · rintro op t rfl h1 h2
      rcases handleRequest_cases ho with ⟨h', -⟩ | ⟨rfl, rfl, -, -⟩ | ⟨-, c, hc, hg⟩ | ⟨-, -, rfl, rfl⟩
      · exact absurd h' h1
      · exact ⟨_, rfl, Or.inl ⟨0x17, t, by decide, rfl⟩⟩
      · obtain ⟨rsp, rfl, ha, -⟩ := hg.ans
        rcases ha with ⟨r, rfl⟩ | ⟨hh, e, rfl⟩
        · exact ⟨_, rfl, Or.inl ⟨c, r, hc, rfl⟩⟩
        · exact ⟨_, rfl, Or.inr ⟨_, _, e, rfl⟩⟩
      · exact ⟨_, rfl, Or.inr ⟨_, _, _, rfl⟩⟩

/-- **C11, refuted part.** A Signed Write Command is a command, which shall not be answered; the server answers it with an error. -/
theorem signed_write_command_answered (s : Server σ) (t : Bytes) :
    loopStep s (0xD2 :: t) = .ok (s, [[0x01, 0xD2, 0, 0, 0x06]]) := by
  simp [loopStep, handleRequest, reject, errorRsp, errReqNotSupp, put16]

/-! ## C16: error responses -/

/-- **C16.** Whenever the server's answer is not the response of the request, it is the five bytes 01, request opcode, handle little-endian,
error code; the error code is not 0. (That a client reports this code is `client_reports_error`.) -/
theorem error_response_layout (op : UInt8) (h : Nat) (hh : h < 65536) (code : UInt8) :
    errorRsp op h code = [0x01, op, UInt8.ofNat h, UInt8.ofNat (h / 256), code] ∧
    le16 (UInt8.ofNat h) (UInt8.ofNat (h / 256)) = h := ⟨rfl, le16_put16 h hh⟩

/-- **C16.** Requests for a handle that does not exist are refused with Invalid Handle naming that handle. -/
theorem unknown_handle_refused (s : Server σ) (op : UInt8) (h : Nat) (hh : h < 65536) (t : Bytes) (hn : s.db.at h = none)
    (hop : op = 0x0A ∧ t = [] ∨ op = 0x0C ∧ t.length = 2 ∨ op = 0x12 ∨ op = 0x16) :
    handleRequest s (op :: put16 h ++ t) = .ok (s, some [0x01, op, UInt8.ofNat h, UInt8.ofNat (h / 256), 0x01]) := by
  have e := le16_put16 h hh
  rcases hop with ⟨rfl, rfl⟩ | ⟨rfl, ht⟩ | rfl | rfl
  · simp [handleRequest, handleRead, put16, le16At, e, hn, reject, errorRsp, errInvalidHandle]
  · simp [handleRequest, handleReadBlob, put16, le16At, e, hn, reject, errorRsp, errInvalidHandle, ht]
  · simp [handleRequest, handleWrite, put16, le16At, e, hn, reject, errorRsp, errInvalidHandle]; omega
  · simp [handleRequest, handlePrepareWrite, put16, le16At, e, hn, reject, errorRsp, errInvalidHandle]; omega

/-! ## C12: crashes -/

theorem sliceFrom_panic {b : Bytes} {n : Nat} : sliceFrom (ε := Empty) b n = .panic ↔ b.length < n := by
  unfold sliceFrom; split <;> simp <;> omega

theorem reject_ne_panic (s : Server σ) (op : UInt8) (h : Nat) (e : UInt8) : reject s op h e ≠ .panic := by simp [reject]

/-- **C12, the whole truth.** For a table with consecutive handles and read handlers that do not panic themselves, the requests that
make the server panic are exactly those of `Crash`. -/
theorem request_panics_iff (s : Server σ) (hm : 23 ≤ s.mtu) (hc : Consecutive s.db) (ht : ReadTotal s.db) (b : Bytes) :
    handleRequest s b = .panic ↔ Crash s b := by
  cases b with
  | nil => simp [handleRequest]; intro h; cases h
  | cons op t =>
    unfold handleRequest
    simp only []
    by_cases h1 : op = 0x02
    · subst h1; rw [if_pos rfl]
      refine ⟨fun h => ?_, fun h => by cases h⟩
      exfalso; revert h
      match t with
      | [] => simp [handleExchangeMTU, reject]
      | [_] => simp [handleExchangeMTU, reject]
      | [lo, hi] => simp only [handleExchangeMTU, le16At]; simp; split <;> simp [reject]
      | _ :: _ :: _ :: _ => simp [handleExchangeMTU, reject]
    rw [if_neg h1]
    by_cases h2 : op = 0x04
    · subst h2; rw [if_pos rfl]
      refine ⟨fun h => ?_, fun h => by cases h⟩
      exfalso
      unfold handleFindInfo at h
      simp only [index_cons_zero, Go.bind_ok] at h
      split at h
      · exact reject_ne_panic _ _ _ _ h
      rename_i hl
      have hl : t.length = 4 := by simpa using hl
      match t, hl with
      | [a, b, c, d], _ =>
        simp only [le16At, index_cons_succ, index_cons_zero, Go.bind_ok, Go.pure_def] at h
        split at h
        · exact reject_ne_panic _ _ _ _ h
        rw [subrange_of_le hc (by omega), Go.bind_ok] at h
        split at h
        · exact reject_ne_panic _ _ _ _ h
        · cases h
    rw [if_neg h2]
    by_cases h3 : op = 0x06
    · subst h3; rw [if_pos rfl]
      refine ⟨fun h => ?_, fun h => by cases h⟩
      exfalso
      unfold handleFindByTypeValue at h
      simp only [index_cons_zero, Go.bind_ok] at h
      split at h
      · exact reject_ne_panic _ _ _ _ h
      rename_i hl
      match t, hl with
      | [], hl => simp at hl
      | [_], hl => simp at hl
      | [_, _], hl => simp at hl
      | [_, _, _], hl => simp at hl
      | [_, _, _, _], hl => simp at hl
      | [_, _, _, _, _], hl => simp at hl
      | a :: b :: c :: d :: e :: f :: t, _ =>
        simp only [le16At, index_cons_succ, index_cons_zero, Go.bind_ok, Go.pure_def] at h
        split at h
        · exact reject_ne_panic _ _ _ _ h
        rw [subrange_of_le hc (by omega), sliceFrom_of_le (by simp), Go.bind_ok, Go.bind_ok] at h
        rcases Go.bind_eq_panic.1 h with h | ⟨⟨s1, out⟩, -, h⟩
        · exact findByTypeValueLoop_returns h
        · simp only [] at h
          split at h
          · exact reject_ne_panic _ _ _ _ h
          split at h
          · exact reject_ne_panic _ _ _ _ h
          · cases h
    rw [if_neg h3]
    by_cases h4 : op = 0x08
    · subst h4; rw [if_pos rfl]
      refine ⟨fun h => ?_, fun h => by cases h⟩
      exfalso
      unfold handleReadByType at h
      simp only [index_cons_zero, Go.bind_ok] at h
      split at h
      · exact reject_ne_panic _ _ _ _ h
      rename_i hl
      match t, hl with
      | [], hl => simp at hl
      | [_], hl => simp at hl
      | [_, _], hl => simp at hl
      | [_, _, _], hl => simp at hl
      | a :: b :: c :: d :: t, _ =>
        simp only [le16At, index_cons_succ, index_cons_zero, Go.bind_ok, Go.pure_def] at h
        split at h
        · exact reject_ne_panic _ _ _ _ h
        rw [subrange_of_le hc (by omega), sliceFrom_of_le (by simp), Go.bind_ok, Go.bind_ok] at h
        rcases Go.bind_eq_panic.1 h with h | ⟨⟨s1, out⟩, -, h⟩
        · refine readByTypeLoop_returns ?_ (by omega) h
          intro a ha
          exact ht a (List.mem_filter.1 ha |>.1)
        · simp only [] at h
          split at h
          · exact reject_ne_panic _ _ _ _ h
          split at h
          · exact reject_ne_panic _ _ _ _ h
          · cases h
    rw [if_neg h4]
    by_cases h5 : op = 0x0A
    · subst h5; rw [if_pos rfl]
      unfold handleRead
      simp only [index_cons_zero, Go.bind_ok]
      by_cases hl : t.length = 2
      · match t, hl with
        | [lo, hi], _ =>
          rw [if_neg (by simp)]
          simp only [le16At, index_cons_succ, index_cons_zero, Go.bind_ok, Go.pure_def]
          cases ha : s.db.at (le16 lo hi) with
          | none =>
            refine ⟨fun h => absurd h (reject_ne_panic _ _ _ _), fun h => ?_⟩
            cases h with
            | read h _ _ => rw [ha] at h; cases h
          | some a =>
            simp only []
            cases hv : a.v with
            | some v =>
              simp only []
              unfold staticValue
              by_cases hle : 1 + v.length ≤ s.mtu
              · rw [if_pos hle]
                refine ⟨fun h => by simp at h, fun h => ?_⟩
                cases h with
                | read h h' h'' => rw [ha] at h; cases h; rw [hv] at h'; cases h'; omega
              · rw [if_neg hle]
                exact ⟨fun _ => Crash.read ha hv (by omega), fun _ => rfl⟩
            | none =>
              simp only []
              constructor
              · intro h
                exfalso
                rcases Go.bind_eq_panic.1 h with h | ⟨⟨s1, e, w⟩, -, h⟩
                · simp only [handleATT, index_cons_zero, Go.bind_ok] at h
                  rw [if_pos (by simp)] at h
                  cases hr : a.rh with
                  | none => rw [hr] at h; cases h
                  | some f =>
                    rw [hr] at h
                    rcases Go.bind_eq_panic.1 h with h | ⟨x, -, h⟩
                    · exact ht a (at_handle hc ha).2 f hr _ _ _ h
                    · cases h
                · simp only [] at h
                  split at h
                  · exact reject_ne_panic _ _ _ _ h
                  · cases h
              · intro h
                cases h with
                | read h h' h'' => rw [ha] at h; cases h; rw [hv] at h'; cases h'
      · rw [if_pos (by simpa using hl)]
        refine ⟨fun h => absurd h (reject_ne_panic _ _ _ _), fun h => ?_⟩
        cases h; simp at hl
    rw [if_neg h5]
    by_cases h6 : op = 0x0C
    · subst h6; rw [if_pos rfl]
      unfold handleReadBlob
      simp only [index_cons_zero, Go.bind_ok]
      by_cases hl : t.length = 4
      · match t, hl with
        | [lo, hi, o1, o2], _ =>
          rw [if_neg (by simp)]
          simp only [le16At, index_cons_succ, index_cons_zero, Go.bind_ok, Go.pure_def]
          cases ha : s.db.at (le16 lo hi) with
          | none =>
            refine ⟨fun h => absurd h (reject_ne_panic _ _ _ _), fun h => ?_⟩
            cases h with
            | blob h _ _ => rw [ha] at h; cases h
          | some a =>
            simp only []
            cases hv : a.v with
            | some v =>
              simp only []
              unfold staticValue
              by_cases hle : 1 + v.length ≤ s.mtu
              · rw [if_pos hle]
                refine ⟨fun h => by simp at h, fun h => ?_⟩
                cases h with
                | blob h h' h'' => rw [ha] at h; cases h; rw [hv] at h'; cases h'; omega
              · rw [if_neg hle]
                exact ⟨fun _ => Crash.blob ha hv (by omega), fun _ => rfl⟩
            | none =>
              simp only []
              constructor
              · intro h
                exfalso
                rcases Go.bind_eq_panic.1 h with h | ⟨⟨s1, e, w⟩, -, h⟩
                · simp only [handleATT, index_cons_zero, Go.bind_ok] at h
                  rw [if_neg (by decide), if_pos trivial] at h
                  cases hr : a.rh with
                  | none => rw [hr] at h; cases h
                  | some f =>
                    rw [hr] at h
                    simp only [le16At, index_cons_succ, index_cons_zero, Go.bind_ok, Go.pure_def] at h
                    rcases Go.bind_eq_panic.1 h with h | ⟨x, -, h⟩
                    · exact ht a (at_handle hc ha).2 f hr _ _ _ h
                    · cases h
                · simp only [] at h
                  split at h
                  · exact reject_ne_panic _ _ _ _ h
                  · cases h
              · intro h
                cases h with
                | blob h h' h'' => rw [ha] at h; cases h; rw [hv] at h'; cases h'
      · rw [if_pos (by simpa using hl)]
        refine ⟨fun h => absurd h (reject_ne_panic _ _ _ _), fun h => ?_⟩
        cases h; simp at hl
    rw [if_neg h6]
    by_cases h7 : op = 0x10
    · subst h7; rw [if_pos rfl]
      unfold handleReadByGroup
      simp only [index_cons_zero, Go.bind_ok]
      by_cases hl : t.length = 6 ∨ t.length = 20
      · match t, hl with
        | [], hl => simp at hl
        | [_], hl => simp at hl
        | [_, _], hl => simp at hl
        | [_, _, _], hl => simp at hl
        | l1 :: l2 :: u1 :: u2 :: t, hl =>
          simp only [List.length_cons] at hl
          rw [if_neg (by simp only [List.length_cons]; omega)]
          simp only [le16At, index_cons_succ, index_cons_zero, Go.bind_ok, Go.pure_def]
          by_cases hr : le16 l1 l2 = 0 ∨ le16 l1 l2 > le16 u1 u2
          · rw [if_pos hr]
            refine ⟨fun h => absurd h (reject_ne_panic _ _ _ _), fun h => ?_⟩
            cases h with
            | group _ h1 h2 => omega
          · rw [if_neg hr, subrange_of_le hc (by omega), Go.bind_ok, Go.bind_eq_panic]
            rw [readByGroupLoop_start_panic_iff (by omega)]
            constructor
            · rintro (⟨x, v0, p, a, rest, e1, e2, e3, e4, e5, e6⟩ | ⟨⟨s1, out⟩, -, h⟩)
              · exact Crash.group (by omega) (by omega) (by omega) e1 e2 e3 e4 e5 e6
              · exfalso
                simp only [] at h
                split at h
                · exact reject_ne_panic _ _ _ _ h
                split at h
                · exact reject_ne_panic _ _ _ _ h
                · cases h
            · intro h
              cases h with
              | group e0 f1 f2 e1 e2 e3 e4 e5 e6 => exact Or.inl ⟨_, _, _, _, _, e1, e2, e3, e4, e5, e6⟩
      · rw [if_pos (by simp only [List.length_cons]; omega)]
        refine ⟨fun h => absurd h (reject_ne_panic _ _ _ _), fun h => ?_⟩
        cases h with
        | group h _ _ => simp only [List.length_cons] at hl; omega
    rw [if_neg h7]
    by_cases h8 : op = 0x12
    · subst h8; rw [if_pos rfl]
      unfold handleWrite
      simp only [index_cons_zero, Go.bind_ok]
      match t with
      | [] => simp [reject]; intro h; cases h
      | [_] => simp [reject]; intro h; cases h
      | lo :: hi :: v =>
        rw [if_neg (by simp)]
        simp only [le16At, index_cons_succ, index_cons_zero, Go.bind_ok, Go.pure_def]
        cases ha : s.db.at (le16 lo hi) with
        | none =>
          refine ⟨fun h => absurd h (reject_ne_panic _ _ _ _), fun h => ?_⟩
          cases h with
          | write h _ _ => rw [ha] at h; cases h
        | some a =>
          simp only [handleATT, index_cons_zero, Go.bind_ok]
          rw [if_neg (by decide), if_neg (by decide), if_neg (by decide), if_neg (by decide), if_pos (by decide)]
          cases hw : a.wh with
          | none =>
            simp only [Go.pure_def, Go.bind_ok]
            rw [if_pos (by decide)]
            refine ⟨fun h => absurd h (reject_ne_panic _ _ _ _), fun h => ?_⟩
            cases h with
            | write h h' _ => rw [ha] at h; cases h; rw [hw] at h'; cases h'
          | some f =>
            simp only [sliceFrom_of_le (b := 0x12 :: lo :: hi :: v) (lo := 3) (by simp), Go.bind_ok, List.drop_succ_cons, List.drop_zero]
            constructor
            · intro h
              cases hf : f s.st v with
              | panic => exact Crash.write ha hw hf
              | err e => exact e.elim
              | ok x =>
                rw [hf] at h
                simp only [Go.bind_ok, Go.pure_def] at h
                split at h
                · exact absurd h (reject_ne_panic _ _ _ _)
                · cases h
            · intro h
              cases h with
              | write h h' hf => rw [ha] at h; cases h; rw [hw] at h'; cases h'; rw [hf]; rfl
    rw [if_neg h8]
    by_cases h9 : op = 0x52
    · subst h9; rw [if_pos rfl]
      unfold handleWriteCommand
      match t with
      | [] => simp; intro h; cases h
      | [_] => simp; intro h; cases h
      | [_, _] => simp; intro h; cases h; contradiction
      | lo :: hi :: v1 :: v =>
        rw [if_neg (by simp)]
        simp only [le16At, index_cons_succ, index_cons_zero, Go.bind_ok, Go.pure_def]
        cases ha : s.db.at (le16 lo hi) with
        | none =>
          refine ⟨fun h => by simp at h, fun h => ?_⟩
          cases h with
          | command _ h _ _ => rw [ha] at h; cases h
        | some a =>
          simp only [handleATT, index_cons_zero, Go.bind_ok]
          rw [if_neg (by decide), if_neg (by decide), if_neg (by decide), if_neg (by decide), if_pos (by decide)]
          cases hw : a.wh with
          | none =>
            refine ⟨fun h => by simp at h, fun h => ?_⟩
            cases h with
            | command _ h h' _ => rw [ha] at h; cases h; rw [hw] at h'; cases h'
          | some f =>
            simp only [sliceFrom_of_le (b := 0x52 :: lo :: hi :: v1 :: v) (lo := 3) (by simp), Go.bind_ok, List.drop_succ_cons, List.drop_zero]
            constructor
            · intro h
              cases hf : f s.st (v1 :: v) with
              | panic => exact Crash.command (by simp) ha hw hf
              | err e => exact e.elim
              | ok x => rw [hf] at h; simp at h
            · intro h
              cases h with
              | command _ h h' hf => rw [ha] at h; cases h; rw [hw] at h'; cases h'; rw [hf]; rfl
    rw [if_neg h9]
    by_cases h10 : op = 0x16
    · subst h10; rw [if_pos rfl]
      unfold handlePrepareWrite
      match t with
      | [] => exact ⟨fun _ => Crash.prepareShort (by simp), fun _ => rfl⟩
      | [_] => exact ⟨fun _ => Crash.prepareShort (by simp), fun _ => rfl⟩
      | lo :: hi :: v =>
        simp only [le16At, index_cons_succ, index_cons_zero, Go.bind_ok, Go.pure_def]
        rw [if_neg (by simp)]
        cases ha : s.db.at (le16 lo hi) with
        | none =>
          refine ⟨fun h => absurd h (reject_ne_panic _ _ _ _), fun h => ?_⟩
          cases h with
          | prepareShort h => simp only [List.length_cons] at h; omega
          | prepareOffset _ h _ => rw [ha] at h; cases h
        | some a =>
          simp only [handleATT, index_cons_zero, Go.bind_ok]
          rw [if_neg (by decide), if_neg (by decide), if_pos (by decide)]
          cases hw : a.wh with
          | none =>
            simp only [Go.pure_def, Go.bind_ok]
            rw [if_pos (by decide)]
            refine ⟨fun h => absurd h (reject_ne_panic _ _ _ _), fun h => ?_⟩
            cases h with
            | prepareShort h => simp only [List.length_cons] at h; omega
            | prepareOffset _ h h' => rw [ha] at h; cases h; rw [hw] at h'; cases h'
          | some f =>
            simp only []
            by_cases hv : v.length < 2
            · have : sliceFrom (ε := Empty) (0x16 :: lo :: hi :: v) 5 = .panic :=
                sliceFrom_panic.2 (by simp only [List.length_cons]; omega)
              rw [this]
              exact ⟨fun _ => Crash.prepareOffset hv ha hw, fun _ => rfl⟩
            · rw [sliceFrom_of_le (by simp only [List.length_cons]; omega)]
              refine ⟨fun h => by simp at h, fun h => ?_⟩
              cases h with
              | prepareShort h => simp only [List.length_cons] at h; omega
              | prepareOffset h _ _ => omega
    rw [if_neg h10]
    by_cases h11 : op = 0x18
    · subst h11; rw [if_pos rfl]
      unfold handleExecuteWrite
      simp only [index_cons_zero, Go.bind_ok]
      match t with
      | [] => simp [reject]; intro h; cases h
      | fl :: t =>
        rw [if_neg (by simp)]
        simp only [index_cons_succ, index_cons_zero, Go.bind_ok, Go.pure_def]
        by_cases f0 : fl = 0
        · subst f0; rw [if_pos rfl]
          refine ⟨fun h => ?_, fun h => ?_⟩ <;> cases h
        rw [if_neg f0]
        by_cases f1 : fl = 1
        · subst f1; rw [if_pos rfl]
          simp only [handleATT, index_cons_zero, Go.bind_ok]
          rw [if_neg (by decide), if_neg (by decide), if_neg (by decide), if_pos (by decide)]
          cases hp : s.prep with
          | none => exact ⟨fun _ => Crash.executeNothing hp, fun _ => rfl⟩
          | some a =>
            simp only []
            cases hw : a.wh with
            | none =>
              simp only [Go.pure_def, Go.bind_ok]
              rw [if_pos (by decide)]
              refine ⟨fun h => absurd h (reject_ne_panic _ _ _ _), fun h => ?_⟩
              cases h with
              | executeNothing h => rw [hp] at h; cases h
              | execute h h' _ => rw [hp] at h; cases h; rw [hw] at h'; cases h'
            | some f =>
              simp only []
              constructor
              · intro h
                cases hf : f s.st s.prepData with
                | panic => exact Crash.execute hp hw hf
                | err e => exact e.elim
                | ok x =>
                  rw [hf] at h
                  simp only [Go.bind_ok, Go.pure_def] at h
                  split at h
                  · exact absurd h (reject_ne_panic _ _ _ _)
                  · cases h
              · intro h
                cases h with
                | executeNothing h => rw [hp] at h; cases h
                | execute h h' hf => rw [hp] at h; cases h; rw [hw] at h'; cases h'; rw [hf]; rfl
        · rw [if_neg f1]
          refine ⟨fun h => ?_, fun h => ?_⟩
          · cases h
          · cases h <;> exact absurd rfl f1
    rw [if_neg h11]
    refine ⟨fun h => absurd h (reject_ne_panic _ _ _ _), fun h => ?_⟩
    cases h <;> contradiction

/-- **C12 (partial).** Every request that is not one of the crashing ones returns, with at most one answer; in particular no
PDU of an opcode other than 0x0A, 0x0C, 0x10, 0x12, 0x16, 0x18 and 0x52 can crash the server. -/
theorem server_returns_partial (s : Server σ) (hm : 23 ≤ s.mtu) (hc : Consecutive s.db) (ht : ReadTotal s.db) (b : Bytes)
    (hb : ¬ Crash s b) : ∃ s' o, handleRequest s b = .ok (s', o) := by
  cases h : handleRequest s b with
  | ok x => exact ⟨x.1, x.2, rfl⟩
  | err e => exact e.elim
  | panic => exact absurd ((request_panics_iff s hm hc ht b).1 h) hb

theorem server_returns_other_opcodes (s : Server σ) (hm : 23 ≤ s.mtu) (hc : Consecutive s.db) (ht : ReadTotal s.db) (op : UInt8) (t : Bytes)
    (hop : op ∉ ([0x0A, 0x0C, 0x10, 0x12, 0x16, 0x18, 0x52] : List UInt8)) : ∃ s' o, handleRequest s (op :: t) = .ok (s', o) := by
  apply server_returns_partial s hm hc ht
  intro h
  cases h <;> exact hop (by decide)

/-- **C12, refuted.** One byte, 0x16, crashes every server in every state. -/
theorem crash_short_prepare (s : Server σ) : handleRequest s [0x16] = .panic := rfl

/-- **C76** (start). A server is made exactly for the receive MTUs from 23 to 515; it starts with the database it is given, MTU 23 and nothing prepared. -/
theorem new_server_exact (db : DB σ) (m : Nat) (st : σ) (s : Server σ) :
    Server.new db m st = some s ↔ 23 ≤ m ∧ m ≤ 515 ∧ s = { db := db, mtu := 23, rxMTU := m, prep := none, prepData := [], st := st } := by
  unfold Server.new
  split
  · constructor
    · intro h; cases h
    · rintro ⟨h1, h2, -⟩; omega
  · constructor
    · intro h; cases h; exact ⟨by omega, by omega, rfl⟩
    · rintro ⟨-, -, rfl⟩; rfl

/-- **C12, refuted.** Executing without having prepared anything crashes every new server. -/
theorem crash_execute_nothing (db : DB σ) (m : Nat) (st : σ) (s : Server σ) (h : Server.new db m st = some s) :
    handleRequest s [0x18, 0x01] = .panic := by
  unfold Server.new at h
  split at h
  · cases h
  · cases h; rfl

/-- **C12, refuted.** Writing fewer than two bytes to any CCCD crashes the server. -/
theorem crash_short_cccd_write (s : Server (CState α)) (lo hi : UInt8) (a : Attr (CState α)) (c : CharRef)
    (ha : s.db.at (le16 lo hi) = some a) (hw : a.wh = some (cccdWrite c)) (v : Bytes) (hv : v.length < 2) :
    handleRequest s (0x12 :: lo :: hi :: v) = .panic := by
  have : cccdWrite c s.st v = .panic := by
    match v, hv with
    | [], _ => rfl
    | [_], _ => rfl
  have hl : ¬ v.length + 1 + 1 + 1 < 3 := by omega
  simp [handleRequest, handleWrite, le16At, ha, handleATT, hw, sliceFrom, this, hl]

/-- **C12, refuted.** A default-MTU Read By Group Type Request starting at the declaration of a characteristic with a 16-byte UUID and
no static value crashes the server. -/
theorem crash_group_request (s : Server σ) (hm : s.mtu = 23) (hc : Consecutive s.db) (h1 h2 : UInt8) (d v : Attr σ)
    (hd : s.db.at (le16 h1 h2) = some d) (hv : s.db.at (le16 h1 h2 + 1) = some v) (h0 : 0 < le16 h1 h2) (htop : le16 h1 h2 < 65535)
    (x : Bytes) (hx : d.v = some x) (hlen : 17 ≤ x.length) (hn : v.v = none) :
    handleRequest s [0x10, h1, h2, 0xFF, 0xFF, 0x00, 0x28] = .panic := by
  have hrange : ∃ rest, inRange s.db (le16 h1 h2) 65535 = [d] ++ v :: rest := by
    unfold inRange
    rw [filter_consec _ _ _ _ (consec_of_consecutive hc)]
    rw [at_eq] at hd hv
    by_cases hb : le16 h1 h2 < s.db.base
    · rw [if_pos hb] at hd; cases hd
    rw [if_neg hb] at hd
    rw [if_neg (by omega)] at hv
    obtain ⟨i1, e1⟩ := List.getElem?_eq_some_iff.1 hd
    obtain ⟨i2, e2⟩ := List.getElem?_eq_some_iff.1 hv
    have e3 : le16 h1 h2 + 1 - s.db.base = le16 h1 h2 - s.db.base + 1 := by omega
    simp only [e3] at i2 e2
    have l1 : le16 h1 h2 - s.db.base < (s.db.attrs.take (65535 + 1 - s.db.base)).length := by simp only [List.length_take]; omega
    have l2 : le16 h1 h2 - s.db.base + 1 < (s.db.attrs.take (65535 + 1 - s.db.base)).length := by simp only [List.length_take]; omega
    refine ⟨(s.db.attrs.take (65535 + 1 - s.db.base)).drop (le16 h1 h2 - s.db.base + 1 + 1), ?_⟩
    rw [List.drop_eq_getElem_cons l1, List.drop_eq_getElem_cons l2]
    simp [e1, e2]
  obtain ⟨rest, hr⟩ := hrange
  have e : le16 0xFF 0xFF = 65535 := by decide
  have hcond : ¬ (le16 h1 h2 = 0 ∨ le16 h1 h2 > 65535) := by omega
  simp only [handleRequest, handleReadByGroup, le16At, index_cons_succ, index_cons_zero, Go.bind_ok, Go.pure_def, e]
  simp only [hcond, subrange_of_le hc (show le16 h1 h2 ≤ 65535 + 1 by omega), hr, hm]
  have : readByGroupLoop (23 - 2) [0x10, h1, h2, 0xFF, 0xFF, 0x00, 0x28] s ([d] ++ v :: rest) 0 [] = .panic := by
    rw [readByGroupLoop_start_panic_iff (by omega)]
    have em : min (min (4 + x.length) 255) (23 - 2) = 21 := by omega
    exact ⟨d, x, [], v, rest, rfl, hx, hn, by simp, by rw [em]; simp, by rw [em]; simp⟩
  have this' : readByGroupLoop 21 [0x10, h1, h2, 0xFF, 0xFF, 0x00, 0x28] s (d :: v :: rest) 0 [] = .panic := this
  simp [this']

/-! ### These situations arise -/

/-- A service with a 16-byte characteristic that notifies and is read through a handler. -/
def crashServices : List (Svc Unit) :=
  [ { uuid := put16 0x180D, chars := [{ uuid := List.replicate 16 9, prop := 0x10, hasNotify := true,
                                        rh := some fun st _ _ => .ok (st, [[1]], 0) }] } ]

def crashServer : Server (CState Unit) :=
  { db := newDB crashServices 1, mtu := 23, rxMTU := 515, prep := none, prepData := [], st := CState.init () }

example : Server.new (newDB crashServices 1) 515 (CState.init ()) = some crashServer := rfl
example : handleRequest crashServer [0x10, 2, 0, 0xFF, 0xFF, 0x00, 0x28] = .panic := by
  exact crash_group_request crashServer rfl (table_handles crashServices 1 (by decide)).2 2 0 _ _ rfl rfl (by decide) (by decide) _ rfl
    (by decide) rfl
example : handleRequest crashServer [0x12, 4, 0, 1] = .panic :=
  crash_short_cccd_write crashServer 4 0 _ ⟨2, 0x10, true, false⟩ rfl rfl [1] (by decide)
example : ReadTotal crashServer.db := by
  intro a ha f hf st off cap
  have : a ∈ svcsAt crashServices 1 := ha
  simp [crashServices, svcsAt, svcAt, charsAt, charAt, descsAt, attachCCCD, genDescAttr] at this
  rcases this with rfl | rfl | rfl | rfl
  · cases hf
  · cases hf
  · cases hf; simp [liftRead]
  · cases hf; simp [cccdRead]
example : ¬ Crash crashServer [0x0A, 3, 0] := by
  intro h
  cases h with
  | read h h' _ => cases h; cases h'

end Ble.Props
