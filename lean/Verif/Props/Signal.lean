import Verif.Hci.Signal
import Verif.Hci.L2capSpec
set_option autoImplicit false

/-!
# C39: L2CAP signalling
-/

namespace Ble.Props

open Ble.Signal Ble.L2cap Ble.L2capSpec

/-! ## Specification -/

/-- A signalling command: code, identifier, data [Core, Vol 3, Part A, 4]. -/
structure SigCommand where
  code : UInt8
  id : UInt8
  data : Bytes
deriving Repr, DecidableEq

/-- Its encoding: code, identifier, data length, data. -/
def SigCommand.encode (c : SigCommand) : Bytes := c.code :: c.id :: (put16 c.data.length ++ c.data)

/-- The bytes are a sequence of complete commands. -/
def IsCommands (b : Bytes) (cs : List SigCommand) : Prop := (∀ c ∈ cs, c.data.length < 65536) ∧ b = cs.flatMap SigCommand.encode

/-- The fields of a message are 16-bit numbers. -/
def MsgOk : Msg → Prop
  | .commandReject r _ => r < 65536
  | .connectionRequest a b => a < 65536 ∧ b < 65536
  | .connectionResponse a b c d e => a < 65536 ∧ b < 65536 ∧ c < 65536 ∧ d < 65536 ∧ e < 65536
  | .disconnectRequest a b => a < 65536 ∧ b < 65536
  | .disconnectResponse a b => a < 65536 ∧ b < 65536
  | .paramUpdateRequest a b c d => a < 65536 ∧ b < 65536 ∧ c < 65536 ∧ d < 65536
  | .paramUpdateResponse a => a < 65536
  | .creditConnectionRequest a b c d e => a < 65536 ∧ b < 65536 ∧ c < 65536 ∧ d < 65536 ∧ e < 65536
  | .creditConnectionResponse a b c d e => a < 65536 ∧ b < 65536 ∧ c < 65536 ∧ d < 65536 ∧ e < 65536
  | .flowControlCredit a b => a < 65536 ∧ b < 65536
  | .l2capCreditRequest a b c d e => a < 65536 ∧ b < 65536 ∧ c < 65536 ∧ d < 65536 ∧ e < 65536
  | .l2capCreditResponse a b c d e => a < 65536 ∧ b < 65536 ∧ c < 65536 ∧ d < 65536 ∧ e < 65536

/-- The effect is: a signalling PDU with exactly one command, of this code and data and with the identifier of `c`, is written. -/
def IsReply (c : SigCommand) (code : UInt8) (data : Bytes) (e : Eff) : Prop := ∃ p, e = .send p ∧ IsFrame 5 (SigCommand.encode ⟨code, c.id, data⟩) p

/-- What happens to one command of a signalling PDU; `pending` are the identifiers of our own requests that wait for a response. -/
def Handled (master : Bool) (pending : List UInt8) (c : SigCommand) (es : List Eff) : Prop :=
  if c.code = 0x06 then
    match c.data with
    | d0 :: d1 :: s0 :: s1 :: _ =>
      if le16 d0 d1 ≠ 4 then ∃ e, es = [e] ∧ IsReply c 0x01 [] e
      else if le16 s0 s1 ≠ 4 then es = []
      else ∃ e, es = [e] ∧ IsReply c 0x07 [d0, d1, s0, s1] e
    | _ => es = []
  else if c.code = 0x12 then
    if master then
      match c.data with
      | a :: b :: c' :: d :: e :: f :: g :: h :: _ => ∃ r, es = [.connUpdate (le16 a b) (le16 c' d) (le16 e f) (le16 g h), r] ∧ IsReply c 0x13 [0, 0] r
      | _ => es = []
    else ∃ e, es = [e] ∧ IsReply c 0x01 [] e
  else if c.code = 0x14 then es = []
  else if c.code = 0x16 then
    match c.data with
    | a :: b :: d :: e :: _ => es = [.credits (le16 a b) (le16 d e)]
    | _ => es = []
  else if c.id ∈ pending then ∃ tail, es = [.deliver c.id (c.encode ++ tail)]
  else ∃ e, es = [e] ∧ IsReply c 0x01 [] e

/-- A command that must be answered by its receiver. -/
def IsRequest (code : UInt8) : Prop := code ∈ [0x02, 0x04, 0x06, 0x08, 0x0a, 0x12, 0x14, 0x17, (0x19 : UInt8)]

/-! ## Messages -/

/-- C39, round trip. Every message except Command Reject decodes to what was encoded, also when followed by other bytes. -/
theorem signal_roundtrip (m : Msg) (junk : Bytes) (h : MsgOk m) (hr : m.code ≠ 1) : unmarshal m.code (m.marshal ++ junk) = some m := by
  cases m <;> simp only [MsgOk, Msg.code, ne_eq, not_true_eq_false] at h hr <;>
    simp [unmarshal, Msg.code, Msg.marshal, writeFields, put16, readFields, le16_put16, h]

/-- A message never encodes to another length than its fields need. -/
theorem signal_message_length (m : Msg) (h : m.code ≠ 1) :
    m.marshal.length = match m with
      | .commandReject _ d => 2 + d.length
      | .connectionRequest .. | .disconnectRequest .. | .disconnectResponse .. | .flowControlCredit .. => 4
      | .paramUpdateRequest .. => 8
      | .paramUpdateResponse .. => 2
      | _ => 10 := by
  cases m <;> first | exact absurd rfl h | rfl

/-- C39 is false for Command Reject: whatever its reason and data, it is sent without them, and a received one cannot be decoded. -/
theorem command_reject_loses_reason (reason : Nat) (data b : Bytes) : (Msg.commandReject reason data).marshal = [] ∧ unmarshal 0x01 b = none := ⟨rfl, rfl⟩

/-! ## Identifiers -/

/-- The identifier of the `n`-th call of `Signal` (counting from 0) on a connection. -/
def sigIdOf : Nat → UInt8
  | 0 => nextSigID 0
  | n + 1 => nextSigID (sigIdOf n)

theorem sigIdOf_eq (n : Nat) : sigIdOf n = UInt8.ofNat (n % 255 + 1) := by
  induction n with
  | zero => rfl
  | succ n ih =>
    rw [sigIdOf, ih, nextSigID]
    have hlt : n % 255 < 255 := Nat.mod_lt _ (by decide)
    have hadd : UInt8.ofNat (n % 255 + 1) + 1 = UInt8.ofNat (n % 255 + 2) := by
      apply UInt8.toNat_inj.1
      simp only [UInt8.toNat_add, UInt8.toNat_ofNat', UInt8.toNat_one]; omega
    rw [hadd]
    by_cases hc : n % 255 = 254
    · have : (n + 1) % 255 = 0 := by omega
      rw [hc, this]; decide
    · have h2 : (n + 1) % 255 = n % 255 + 1 := by omega
      rw [h2, if_neg]
      intro e
      have := congrArg UInt8.toNat e
      simp only [UInt8.toNat_ofNat', UInt8.toNat_zero] at this
      omega

/-- C39, identifiers. However many requests are made, no identifier is 0. -/
theorem signal_id_never_zero (n : Nat) : sigIdOf n ≠ 0 := by
  rw [sigIdOf_eq]
  intro e
  have := congrArg UInt8.toNat e
  simp only [UInt8.toNat_ofNat', UInt8.toNat_zero] at this
  omega

/-- Any 255 requests in a row have different identifiers. -/
theorem signal_ids_distinct (i j : Nat) (h : i < j) (h2 : j < i + 255) : sigIdOf i ≠ sigIdOf j := by
  rw [sigIdOf_eq, sigIdOf_eq]
  intro e
  have := congrArg UInt8.toNat e
  simp only [UInt8.toNat_ofNat'] at this
  omega

/-! ## PDUs -/

/-- What `Signal` and `sendResponse` write is an L2CAP frame on the signalling channel containing exactly one command. -/
theorem signal_pdu_is_frame (code id : UInt8) (data : Bytes) (h : data.length + 4 < 65536) :
    IsFrame 5 (SigCommand.encode ⟨code, id, data⟩) (sigPdu code.toNat id.toNat data) := by
  refine ⟨by decide, by simp [SigCommand.encode, put16]; omega, ?_⟩
  have e : (SigCommand.encode ⟨code, id, data⟩).length = 4 + data.length := by simp [SigCommand.encode, put16]; omega
  rw [e]
  simp [sigPdu, SigCommand.encode, put16, cidSignal]

theorem encode_cons (c : SigCommand) : c.encode = c.code :: c.id :: UInt8.ofNat c.data.length :: UInt8.ofNat (c.data.length / 256) :: c.data := rfl

private theorem rej (c : SigCommand) (r : Nat) (d : Bytes) : IsReply c 0x01 [] (.send (sigPdu 0x01 c.id.toNat (Msg.marshal (.commandReject r d)))) :=
  ⟨_, rfl, signal_pdu_is_frame 0x01 c.id [] (by simp)⟩

private theorem read4_some (a b c d : UInt8) (r : Bytes) : readFields 2 (a :: b :: c :: d :: r) = some [le16 a b, le16 c d] := rfl

private theorem handleOne_spec (master : Bool) (pending : List UInt8) (c : SigCommand) (tail : Bytes) (h : c.data.length < 65536) :
    ∃ es, handleOne master pending (c.encode ++ tail) = some (es, if (c.code ≠ 0x06 ∧ c.code ≠ 0x12 ∧ c.code ≠ 0x14 ∧ c.code ≠ 0x16) then pending.filter (· ≠ c.id) else pending) ∧
      Handled master pending c es := by
  have hlen : le16 (UInt8.ofNat c.data.length) (UInt8.ofNat (c.data.length / 256)) = c.data.length := le16_put16 _ h
  rw [encode_cons]
  simp only [List.cons_append, handleOne, hlen, List.length_append, Nat.le_add_right, if_true, List.take_left]
  by_cases h6 : c.code = 0x06
  · refine ⟨handleDisconnectRequest c.id c.data, by simp [h6], ?_⟩
    unfold Handled
    rw [if_pos h6]
    split
    · rename_i d0 d1 s0 s1 r hd
      simp only [hd, handleDisconnectRequest, unmarshal, read4_some, cidAtt]
      by_cases e1 : le16 d0 d1 = 4
      · by_cases e2 : le16 s0 s1 = 4
        · simp only [e1, e2, ne_eq, not_true_eq_false, if_false]
          refine ⟨_, rfl, _, rfl, ?_⟩
          have := signal_pdu_is_frame 0x07 c.id [d0, d1, s0, s1] (by simp)
          have w : writeFields [4, 4] = [d0, d1, s0, s1] := by
            have g1 := put16_le16 d0 d1; have g2 := put16_le16 s0 s1
            rw [e1] at g1; rw [e2] at g2
            have : writeFields [4, 4] = put16 4 ++ put16 4 := rfl
            rw [this]; conv => lhs; arg 1; rw [g1]
            rw [g2]; rfl
          simp only [Msg.marshal, w]
          exact this
        · simp [e1, e2]
      · simp only [e1, ne_eq, not_false_eq_true, if_true]
        exact ⟨_, rfl, rej c _ _⟩
    · rename_i hd
      cases hdat : c.data with
      | nil => rfl
      | cons a l =>
        cases l with
        | nil => rfl
        | cons b l =>
          cases l with
          | nil => rfl
          | cons d l =>
            cases l with
            | nil => rfl
            | cons e l => exact absurd hdat (hd _ _ _ _ _)
  · by_cases h12 : c.code = 0x12
    · cases master with
      | false =>
        refine ⟨_, by simp [h6, h12, handleParamUpdate]; rfl, ?_⟩
        unfold Handled
        rw [if_neg h6, if_pos h12]
        exact ⟨_, rfl, rej c _ _⟩
      | true =>
        refine ⟨match unmarshal 0x12 c.data with
          | some (.paramUpdateRequest a b d t) => [.connUpdate a b d t, .send (sigPdu 0x13 c.id.toNat (Msg.marshal (.paramUpdateResponse 0)))]
          | _ => [], ?_, ?_⟩
        · rw [if_neg h6, if_pos h12, if_neg (by simp [h12])]
          simp only [handleParamUpdate]
          rw [if_neg (by simp)]
          cases unmarshal 0x12 c.data with
          | none => rfl
          | some m => cases m <;> rfl
        · unfold Handled
          rw [if_neg h6, if_pos h12]
          simp only [if_true]
          split
          · rename_i a b d e f g i j r hd
            simp only [hd, unmarshal, readFields, Option.map_some]
            refine ⟨_, rfl, _, rfl, ?_⟩
            exact signal_pdu_is_frame 0x13 c.id [0, 0] (by simp)
          · rename_i hd
            have : readFields 4 c.data = none := by
              cases hdat : c.data with
              | nil => rfl
              | cons a l =>
              cases l with
              | nil => rfl
              | cons a1 l =>
              cases l with
              | nil => rfl
              | cons a2 l =>
              cases l with
              | nil => rfl
              | cons a3 l =>
              cases l with
              | nil => rfl
              | cons a4 l =>
              cases l with
              | nil => rfl
              | cons a5 l =>
              cases l with
              | nil => rfl
              | cons a6 l =>
              cases l with
              | nil => rfl
              | cons a7 l => exact absurd hdat (hd _ _ _ _ _ _ _ _ _)
            simp [unmarshal, this]
    · by_cases h14 : c.code = 0x14
      · refine ⟨[], by simp [h14], ?_⟩
        unfold Handled
        rw [if_neg h6, if_neg h12, if_pos h14]
      · by_cases h16 : c.code = 0x16
        · refine ⟨handleCredit c.data, by simp [h16], ?_⟩
          unfold Handled
          rw [if_neg h6, if_neg h12, if_neg h14, if_pos h16]
          split
          · rename_i a b d e r hd
            rw [hd]; rfl
          · rename_i hd
            cases hdat : c.data with
            | nil => rfl
            | cons a l =>
              cases l with
              | nil => rfl
              | cons b l =>
                cases l with
                | nil => rfl
                | cons d l =>
                  cases l with
                  | nil => rfl
                  | cons e l => exact absurd hdat (hd _ _ _ _ _)
        · simp only [h6, h12, h14, h16, if_false, ne_eq, not_false_eq_true, and_self, if_true]
          by_cases hp : c.id ∈ pending
          · refine ⟨_, by rw [if_pos hp], ?_⟩
            unfold Handled
            rw [if_neg h6, if_neg h12, if_neg h14, if_neg h16, if_pos hp]
            exact ⟨tail, rfl⟩
          · refine ⟨[.send (sigPdu 0x01 c.id.toNat (Msg.marshal (.commandReject 0 [])))], ?_, ?_⟩
            · rw [if_neg hp]
              have : pending.filter (fun x => decide (¬ x = c.id)) = pending := by
                rw [List.filter_eq_self]; intro x hx; simp; rintro rfl; exact hp hx
              rw [this]
            · unfold Handled
              rw [if_neg h6, if_neg h12, if_neg h14, if_neg h16, if_neg hp]
              exact ⟨_, rfl, rej c _ _⟩

/-- The identifiers still pending after a command. -/
def pendingAfter (pending : List UInt8) (c : SigCommand) : List UInt8 :=
  if c.code ≠ 0x06 ∧ c.code ≠ 0x12 ∧ c.code ≠ 0x14 ∧ c.code ≠ 0x16 then pending.filter (· ≠ c.id) else pending

/-- The effects of a sequence of commands are the effects of the commands, in order; a response uses up its pending identifier. -/
def HandledAll (master : Bool) : List UInt8 → List SigCommand → List Eff → List UInt8 → Prop
  | pending, [], es, pending' => es = [] ∧ pending' = pending
  | pending, c :: cs, es, pending' => ∃ e1 e2, es = e1 ++ e2 ∧ Handled master pending c e1 ∧ HandledAll master (pendingAfter pending c) cs e2 pending'

private theorem handleCmds_spec (master : Bool) (cs : List SigCommand) : ∀ (pending : List UInt8), (∀ c ∈ cs, c.data.length < 65536) →
    ∃ es pending', handleCmds master pending (cs.flatMap SigCommand.encode) = (es, pending', false) ∧ HandledAll master pending cs es pending' := by
  induction cs with
  | nil => intro pending _; exact ⟨[], pending, by rw [handleCmds]; simp, rfl, rfl⟩
  | cons c cs ih =>
    intro pending h
    have hc := h c (by simp)
    have hlen : le16 (UInt8.ofNat c.data.length) (UInt8.ofNat (c.data.length / 256)) = c.data.length := le16_put16 _ hc
    obtain ⟨e1, h1, h2⟩ := handleOne_spec master pending c (cs.flatMap SigCommand.encode) hc
    obtain ⟨e2, p2, h3, h4⟩ := ih (pendingAfter pending c) (fun x hx => h x (by simp [hx]))
    refine ⟨e1 ++ e2, p2, ?_, e1, e2, rfl, h2, h4⟩
    rw [List.flatMap_cons, handleCmds]
    have hne : c.encode ++ cs.flatMap SigCommand.encode ≠ [] := by simp [encode_cons]
    rw [dif_neg hne, h1]
    simp only [encode_cons, List.cons_append, hlen, List.length_append, Nat.le_add_right, if_true, List.drop_left]
    have h3' := h3
    unfold pendingAfter at h3'
    rw [h3']

/-- C39, answers. A signalling PDU of at most 515 bytes made of any number (at least one) of complete commands is handled command by command, in order, without a panic; each command is
treated as `Handled` says: its reply, if any, is one PDU with one command carrying the same identifier. -/
theorem signal_pdu_handled (master : Bool) (pending : List UInt8) (p b : Bytes) (cs : List SigCommand) (hf : IsFrame 5 b p) (hb : IsCommands b cs) (hne : cs ≠ [])
    (hmtu : b.length ≤ 515) : ∃ es pending', handleSignal master pending p = (es, pending', false) ∧ HandledAll master pending cs es pending' := by
  obtain ⟨-, hlen, rfl⟩ := hf
  obtain ⟨hd, rfl⟩ := hb
  obtain ⟨es, pending', h1, h2⟩ := handleCmds_spec master cs pending hd
  refine ⟨es, pending', ?_, h2⟩
  rw [← h1]
  obtain ⟨c, cs', rfl⟩ := List.exists_cons_of_ne_nil hne
  simp only [put16, handleSignal, List.cons_append, List.nil_append, le16_put16 _ hlen]
  rw [if_neg (by unfold sigRxMTU; omega)]
  simp [encode_cons]

/-- In particular every PDU written while a signalling PDU is handled carries the identifier of one of its commands and is a Command Reject, a Disconnect Response or a Connection Parameter
Update Response. -/
theorem signal_replies_carry_request_id (master : Bool) (pending : List UInt8) (p b : Bytes) (cs : List SigCommand) (hf : IsFrame 5 b p) (hb : IsCommands b cs) (hne : cs ≠ [])
    (hmtu : b.length ≤ 515) (q : Bytes) (hq : Eff.send q ∈ (handleSignal master pending p).1) :
    ∃ c ∈ cs, ∃ code data, IsFrame 5 (SigCommand.encode ⟨code, c.id, data⟩) q ∧ (code = 0x01 ∨ code = 0x07 ∨ code = 0x13) := by
  obtain ⟨es, pending', h1, h2⟩ := signal_pdu_handled master pending p b cs hf hb hne hmtu
  rw [h1] at hq
  simp only at hq
  clear h1 hf hb hne hmtu
  induction cs generalizing pending es with
  | nil => rw [h2.1] at hq; simp at hq
  | cons c cs ih =>
    obtain ⟨e1, e2, rfl, h3, h4⟩ := h2
    rcases List.mem_append.1 hq with hq | hq
    · refine ⟨c, by simp, ?_⟩
      have hrep : ∀ code data, (code = 0x01 ∨ code = 0x07 ∨ code = 0x13) → (∃ e, Eff.send q = e ∧ IsReply c code data e) →
          ∃ code data, IsFrame 5 (SigCommand.encode ⟨code, c.id, data⟩) q ∧ (code = 0x01 ∨ code = 0x07 ∨ code = 0x13) := by
        rintro code data hc ⟨e, rfl, p', he, hf⟩
        injection he with he; subst he
        exact ⟨code, data, hf, hc⟩
      unfold Handled at h3
      split at h3
      · split at h3
        · split at h3
          · obtain ⟨e, rfl, he⟩ := h3
            exact hrep _ _ (Or.inl rfl) ⟨e, by simpa using hq, he⟩
          · split at h3
            · subst h3; simp at hq
            · obtain ⟨e, rfl, he⟩ := h3
              exact hrep _ _ (Or.inr (Or.inl rfl)) ⟨e, by simpa using hq, he⟩
        · subst h3; simp at hq
      · split at h3
        · split at h3
          · split at h3
            · obtain ⟨e, rfl, he⟩ := h3
              exact hrep _ _ (Or.inr (Or.inr rfl)) ⟨e, by simpa using hq, he⟩
            · subst h3; simp at hq
          · obtain ⟨e, rfl, he⟩ := h3
            exact hrep _ _ (Or.inl rfl) ⟨e, by simpa using hq, he⟩
        · split at h3
          · subst h3; simp at hq
          · split at h3
            · split at h3
              · subst h3; simp at hq
              · subst h3; simp at hq
            · split at h3
              · obtain ⟨_, rfl⟩ := h3; simp at hq
              · obtain ⟨e, rfl, he⟩ := h3
                exact hrep _ _ (Or.inl rfl) ⟨e, by simpa using hq, he⟩
    · obtain ⟨c', hc', r⟩ := ih _ e2 hq h4
      exact ⟨c', by simp [hc'], r⟩

/-- C39, requests with one reply. Every request except those listed gets exactly one reply with its identifier: not answered are LE Credit Based Connection Requests, disconnect requests for
the ATT channel with another source channel, requests that are too short, and requests whose identifier is that of a pending request of our own. -/
theorem signal_request_answered_partial (master : Bool) (pending : List UInt8) (c : SigCommand) (es : List Eff) (h : Handled master pending c es) (hr : IsRequest c.code)
    (h14 : c.code ≠ 0x14) (hp : c.id ∉ pending) (hlen : 8 ≤ c.data.length ∨ (c.code = 0x06 ∧ 4 ≤ c.data.length) ∨ (c.code ≠ 0x06 ∧ c.code ≠ 0x12))
    (hscid : c.code = 0x06 → ∀ d0 d1 s0 s1 r, c.data = d0 :: d1 :: s0 :: s1 :: r → le16 d0 d1 = 4 → le16 s0 s1 = 4) :
    ∃ pre e code data, es = pre ++ [e] ∧ IsReply c code data e ∧ ∀ x ∈ pre, ∀ q, x ≠ .send q := by
  have hreq : c.code ≠ 0x16 := by
    intro e; unfold IsRequest at hr; rw [e] at hr; simp at hr
  unfold Handled at h
  split at h
  · rename_i h6
    split at h
    · rename_i d0 d1 s0 s1 r hd
      split at h
      · obtain ⟨e, rfl, he⟩ := h; exact ⟨[], e, _, _, rfl, he, by simp⟩
      · rename_i hd4
        have := hscid h6 d0 d1 s0 s1 r hd (Decidable.of_not_not hd4)
        rw [if_neg (by simp [this])] at h
        obtain ⟨e, rfl, he⟩ := h; exact ⟨[], e, _, _, rfl, he, by simp⟩
    · rename_i hd
      exfalso
      have h4 : 4 ≤ c.data.length := by rcases hlen with h | h | h <;> first | omega | exact absurd h6 h.1
      match hc : c.data, h4 with
      | a :: b :: d :: e :: l, _ => exact hd a b d e l hc
  · rename_i h6
    split at h
    · rename_i h12
      split at h
      · split at h
        · obtain ⟨e, rfl, he⟩ := h
          refine ⟨[_], e, _, _, rfl, he, ?_⟩
          intro x hx q; simp only [List.mem_singleton] at hx; subst hx; simp
        · rename_i hd
          exfalso
          have h8 : 8 ≤ c.data.length := by
            rcases hlen with h | h | h
            · exact h
            · exact absurd h.1 h6
            · exact absurd h12 h.2
          match hc : c.data, h8 with
          | a :: b :: d :: e :: f :: g :: i :: j :: l, _ => exact hd a b d e f g i j l hc
      · obtain ⟨e, rfl, he⟩ := h; exact ⟨[], e, _, _, rfl, he, by simp⟩
    · try rw [if_neg h14, if_neg hreq, if_neg hp] at h
      obtain ⟨e, rfl, he⟩ := h; exact ⟨[], e, _, _, rfl, he, by simp⟩

/-- The claim is false for LE Credit Based Connection Requests: they are never answered. -/
theorem credit_connection_request_unanswered (master : Bool) (pending : List UInt8) (id : UInt8) (data : Bytes) (es : List Eff)
    (h : Handled master pending ⟨0x14, id, data⟩ es) : es = [] := by
  unfold Handled at h
  simpa using h

/-- A peer cannot disconnect a credit-based channel: a disconnect request for any channel but ATT is rejected, even if the channel is open. -/
theorem disconnect_of_channel_rejected (master : Bool) (pending : List UInt8) (id d0 d1 s0 s1 : UInt8) (es : List Eff) (hd : le16 d0 d1 ≠ 4)
    (h : Handled master pending ⟨0x06, id, [d0, d1, s0, s1]⟩ es) : ∃ e, es = [e] ∧ IsReply ⟨0x06, id, [d0, d1, s0, s1]⟩ 0x01 [] e := by
  unfold Handled at h
  simpa [hd] using h

/-- A PDU longer than the signalling MTU gets one Command Reject with the identifier of its first command, and nothing in it is executed. -/
theorem signal_over_mtu_rejected (master : Bool) (pending : List UInt8) (b p : Bytes) (code id : UInt8) (rest : Bytes) (hf : IsFrame 5 b p) (hb : b = code :: id :: rest)
    (h : 515 < b.length) : ∃ e, handleSignal master pending p = ([e], pending, false) ∧ IsReply ⟨code, id, []⟩ 0x01 [] e := by
  obtain ⟨-, hlen, rfl⟩ := hf
  refine ⟨_, ?_, rej ⟨code, id, []⟩ 1 (put16 sigRxMTU)⟩
  simp only [put16, handleSignal, List.cons_append, List.nil_append, le16_put16 _ hlen]
  rw [if_pos (by unfold sigRxMTU; omega)]
  subst hb
  rfl

/-! ## Malformed PDUs (C32) -/

private theorem handleCmds_panics (master : Bool) : ∀ (n : Nat) (s : Bytes) (pending : List UInt8), s.length ≤ n → (handleCmds master pending s).2.2 = false →
    ∃ cs, IsCommands s cs := by
  intro n
  induction n with
  | zero =>
    intro s pending hn _
    have : s = [] := List.eq_nil_of_length_eq_zero (by omega)
    subst this
    exact ⟨[], by simp, rfl⟩
  | succ n ih =>
    intro s pending hn h
    rw [handleCmds] at h
    split at h
    · rename_i hs; subst hs; exact ⟨[], by simp, rfl⟩
    · split at h
      · simp at h
      · rename_i es p' ho
        split at h
        · rename_i code id l hh rest hne
          split at h
          · rename_i hle
            simp only [] at h
            obtain ⟨cs, h1, h2⟩ := ih (rest.drop (le16 l hh)) p' (by simp at hn ⊢; omega) h
            refine ⟨⟨code, id, rest.take (le16 l hh)⟩ :: cs, ?_, ?_⟩
            · intro c hc
              rcases List.mem_cons.1 hc with rfl | hc
              · have := le16_lt l hh; simp; omega
              · exact h1 c hc
            · rw [List.flatMap_cons, ← h2]
              have hl : (rest.take (le16 l hh)).length = le16 l hh := by simp; omega
              simp only [SigCommand.encode, hl, put16_le16]
              simp
          · simp at h
        · simp at h

/-- C32, signalling. A signalling PDU within the MTU crashes the host exactly when it is not a non-empty sequence of complete commands. -/
theorem signal_panics_iff (master : Bool) (pending : List UInt8) (p b : Bytes) (hf : IsFrame 5 b p) (hmtu : b.length ≤ 515) :
    (handleSignal master pending p).2.2 = true ↔ ¬ ∃ cs, cs ≠ [] ∧ IsCommands b cs := by
  constructor
  · rintro h ⟨cs, hne, hb⟩
    obtain ⟨es, pending', h1, _⟩ := signal_pdu_handled master pending p b cs hf hb hne hmtu
    rw [h1] at h; cases h
  · intro h
    cases hc : (handleSignal master pending p).2.2 with
    | true => rfl
    | false =>
      exfalso; apply h
      obtain ⟨-, hlen, rfl⟩ := hf
      simp only [put16, handleSignal, List.cons_append, List.nil_append, le16_put16 _ hlen] at hc
      rw [if_neg (by unfold sigRxMTU; omega)] at hc
      split at hc
      · obtain ⟨cs, h1⟩ := handleCmds_panics master _ _ pending (Nat.le_refl _) hc
        refine ⟨cs, ?_, h1⟩
        rintro rfl
        have := h1.2
        simp at this
      · cases hc

/-- For instance the shortest: a frame with an empty payload. -/
theorem empty_signal_crashes (master : Bool) (pending : List UInt8) : (handleSignal master pending [0, 0, 5, 0]).2.2 = true := rfl

private theorem handleOne_replies (master : Bool) (pending : List UInt8) (s : Bytes) (es : List Eff) (pending' : List UInt8) (h : handleOne master pending s = some (es, pending')) (q : Bytes) (hq : Eff.send q ∈ es) :
    ∃ code id data, IsFrame 5 (SigCommand.encode ⟨code, id, data⟩) q ∧ s[1]? = some id ∧ (code = 0x01 ∨ code = 0x07 ∨ code = 0x13) := by
  have rj : ∀ (id : UInt8) (r : Nat) (d : Bytes), IsFrame 5 (SigCommand.encode ⟨0x01, id, []⟩) (sigPdu 0x01 id.toNat (Msg.marshal (.commandReject r d))) := fun id r d => signal_pdu_is_frame 0x01 id [] (by simp)
  have fields : ∀ (xs : List Nat), (writeFields xs).length = 2 * xs.length := by
    intro xs; induction xs with
    | nil => rfl
    | cons x xs ih => simp [writeFields, put16] at ih ⊢; omega
  have hdis : ∀ (id : UInt8) (d q : Bytes), Eff.send q ∈ handleDisconnectRequest id d → ∃ code data, IsFrame 5 (SigCommand.encode ⟨code, id, data⟩) q ∧ (code = 0x01 ∨ code = 0x07 ∨ code = 0x13) := by
    intro id d q hq
    unfold handleDisconnectRequest at hq
    split at hq
    · split at hq
      · simp only [List.mem_singleton, Eff.send.injEq] at hq; subst hq; exact ⟨0x01, [], rj id _ _, .inl rfl⟩
      · split at hq
        · simp at hq
        · simp only [List.mem_singleton, Eff.send.injEq] at hq; subst hq
          exact ⟨0x07, _, signal_pdu_is_frame 0x07 id _ (by simp [Msg.marshal, fields]), .inr (.inl rfl)⟩
    · simp at hq
  have hcred : ∀ (d q : Bytes), Eff.send q ∉ handleCredit d := by
    intro d q hq; unfold handleCredit at hq; split at hq <;> simp at hq
  have hpar : ∀ (id : UInt8) (d : Option Bytes) (es : List Eff) (q : Bytes), handleParamUpdate master id d = some es → Eff.send q ∈ es →
      ∃ code data, IsFrame 5 (SigCommand.encode ⟨code, id, data⟩) q ∧ (code = 0x01 ∨ code = 0x07 ∨ code = 0x13) := by
    intro id d es q h hq
    unfold handleParamUpdate at h
    split at h
    · cases h
      simp only [List.mem_singleton, Eff.send.injEq] at hq; subst hq; exact ⟨0x01, [], rj id _ _, .inl rfl⟩
    · split at h
      · cases h
      · split at h <;> cases h
        · simp only [List.mem_cons, reduceCtorEq, Eff.send.injEq, List.not_mem_nil, or_false, false_or] at hq; subst hq
          exact ⟨0x13, _, signal_pdu_is_frame 0x13 id _ (by simp [Msg.marshal, fields]), .inr (.inr rfl)⟩
        · simp at hq
  match s, h with
  | code :: id :: l :: hh :: rest, h =>
    simp only [handleOne] at h
    suffices ∃ code data, IsFrame 5 (SigCommand.encode ⟨code, id, data⟩) q ∧ (code = 0x01 ∨ code = 0x07 ∨ code = 0x13) by
      obtain ⟨c, d, h1, h2⟩ := this; exact ⟨c, id, d, h1, rfl, h2⟩
    split at h
    · simp only [Option.map_eq_some_iff, Prod.mk.injEq] at h
      obtain ⟨d, -, rfl, -⟩ := h
      exact hdis _ _ _ hq
    · split at h
      · simp only [Option.map_eq_some_iff, Prod.mk.injEq] at h
        obtain ⟨e, h1, rfl, -⟩ := h
        exact hpar _ _ _ _ h1 hq
      · split at h
        · cases h; simp at hq
        · split at h
          · simp only [Option.map_eq_some_iff, Prod.mk.injEq] at h
            obtain ⟨d, -, rfl, -⟩ := h
            exact absurd hq (hcred _ _)
          · split at h <;> cases h
            · simp at hq
            · simp only [List.mem_singleton, Eff.send.injEq] at hq; subst hq; exact ⟨0x01, [], rj id _ _, .inl rfl⟩
  | [code, id], h =>
    simp only [handleOne] at h
    refine ⟨0x01, id, [], ?_, rfl, .inl rfl⟩
    (repeat' split at h) <;> cases h <;> simp only [List.mem_singleton, Eff.send.injEq, List.not_mem_nil, reduceCtorEq] at hq <;> subst hq <;> exact rj id _ _
  | [code, id, x], h =>
    simp only [handleOne] at h
    refine ⟨0x01, id, [], ?_, rfl, .inl rfl⟩
    (repeat' split at h) <;> cases h <;> simp only [List.mem_singleton, Eff.send.injEq, List.not_mem_nil, reduceCtorEq] at hq <;> subst hq <;> exact rj id _ _
  | [code], h => simp only [handleOne] at h; split at h <;> cases h; simp at hq
  | [], h => simp [handleOne] at h

/-- Whatever bytes a peer sends on the signalling channel, everything written in reply is a signalling PDU with one command: a Command Reject, a Disconnection Response or a Connection Parameter Update Response, with an identifier that
the peer sent. -/
theorem signal_replies_wellformed (master : Bool) (pending : List UInt8) (p : Bytes) (q : Bytes) (hq : Eff.send q ∈ (handleSignal master pending p).1) :
    ∃ code id data, IsFrame 5 (SigCommand.encode ⟨code, id, data⟩) q ∧ id ∈ p ∧ (code = 0x01 ∨ code = 0x07 ∨ code = 0x13) := by
  have key : ∀ (n : Nat) (s : Bytes) (pending : List UInt8), s.length ≤ n → Eff.send q ∈ (handleCmds master pending s).1 →
      ∃ code id data, IsFrame 5 (SigCommand.encode ⟨code, id, data⟩) q ∧ id ∈ s ∧ (code = 0x01 ∨ code = 0x07 ∨ code = 0x13) := by
    intro n
    induction n with
    | zero => intro s pending hn hq; have : s = [] := by simpa using hn
              subst this; rw [handleCmds] at hq; simp at hq
    | succ n ih =>
      intro s pending hn hq
      rw [handleCmds] at hq
      split at hq
      · simp at hq
      · split at hq
        · simp at hq
        · rename_i es pending' h1
          have one : ∀ q, Eff.send q ∈ es → ∃ code id data, IsFrame 5 (SigCommand.encode ⟨code, id, data⟩) q ∧ id ∈ s ∧ (code = 0x01 ∨ code = 0x07 ∨ code = 0x13) := by
            intro q hq
            obtain ⟨c, i, d, a1, a2, a3⟩ := handleOne_replies master pending s es pending' h1 q hq
            exact ⟨c, i, d, a1, List.mem_of_getElem? a2, a3⟩
          split at hq
          · rename_i x y l hh rest hs
            split at hq
            · simp only [List.mem_append] at hq
              rcases hq with hq | hq
              · exact one q hq
              · obtain ⟨c, i, d, a1, a2, a3⟩ := ih (rest.drop (le16 l hh)) pending' (by simp at hn ⊢; omega) hq
                exact ⟨c, i, d, a1, by have := List.mem_of_mem_drop a2; simp [this], a3⟩
            · exact one q hq
          · exact one q hq
  unfold handleSignal at hq
  split at hq
  · split at hq
    · split at hq
      · rename_i x id r
        simp only [List.mem_singleton, Eff.send.injEq] at hq
        exact ⟨0x01, id, [], hq ▸ signal_pdu_is_frame 0x01 id [] (by simp), by simp, .inl rfl⟩
      · simp at hq
    · split at hq
      · obtain ⟨c, i, d, a1, a2, a3⟩ := key _ _ _ (Nat.le_refl _) hq
        exact ⟨c, i, d, a1, by simp only [List.mem_cons] at a2 ⊢; grind, a3⟩
      · simp at hq
  · simp at hq

example : (handleSignal false [] [3, 0, 5, 0, 0x99, 7, 1]).1 = [.send (sigPdu 0x01 7 [])] ∧ (handleSignal false [] [3, 0, 5, 0, 0x99, 7, 1]).2.2 = true := ⟨by simp [handleSignal, le16, sigRxMTU, handleCmds, handleOne, Msg.marshal], by simp [handleSignal, le16, sigRxMTU, handleCmds, handleOne]⟩

/-! ## Our own requests -/

/-- A response with the expected code and the current identifier is decoded and returned. -/
theorem signal_response_accepted (m : Msg) (id : UInt8) (tail : Bytes) (h : MsgOk m) (hr : m.code ≠ 1) :
    signalResult m.code id (SigCommand.encode ⟨UInt8.ofNat m.code, id, m.marshal⟩ ++ tail) = .ok m := by
  have hc : (UInt8.ofNat m.code).toNat = m.code := by cases m <;> rfl
  have hl : m.marshal.length < 65536 := by cases m <;> simp [Msg.marshal, writeFields, put16]
  have hu := signal_roundtrip m [] h hr
  rw [List.append_nil] at hu
  simp [signalResult, SigCommand.encode, put16, le16At, le16_put16 _ hl, hc, slice]
  rw [if_pos (by omega)]
  have : 4 + m.marshal.length = m.marshal.length + 1 + 1 + 1 + 1 := by omega
  rw [this]
  simp [hu]

/-- A response with another code or identifier is refused. -/
theorem signal_wrong_response_refused (rspCode : Nat) (sigID : UInt8) (c : SigCommand) (tail : Bytes) (h : c.code.toNat ≠ rspCode ∨ c.id ≠ sigID) :
    ∃ e, signalResult rspCode sigID (c.encode ++ tail) = .err e := by
  unfold signalResult
  simp only [SigCommand.encode, List.cons_append, index_cons_zero, index_cons_succ, Go.bind_ok]
  by_cases h1 : c.code.toNat = rspCode
  · rcases h with h | h
    · exact absurd h1 h
    · exact ⟨"unexpected signaling id", by simp [h1, h]⟩
  · exact ⟨"unexpected signaling response", by simp [h1]⟩

/-- The identifier is compared with the connection's counter, not with the one the request had. If any other signalling message was sent meanwhile (for instance the credit that is returned
for each received frame), the right response to the request is refused. -/
theorem concurrent_signal_loses_response (m : Msg) (id : UInt8) (tail : Bytes) :
    ∃ e, signalResult m.code (nextSigID id) (SigCommand.encode ⟨UInt8.ofNat m.code, id, m.marshal⟩ ++ tail) = .err e := by
  apply signal_wrong_response_refused
  right
  intro e
  have e' : id = nextSigID id := e
  unfold nextSigID at e'
  split at e'
  · rename_i h; rw [e'] at h; exact absurd h (by decide)
  · have := congrArg UInt8.toNat e'
    simp only [UInt8.toNat_add, UInt8.toNat_one] at this
    have := id.toNat_lt
    omega

/-! ## The hypotheses are met -/

/-- A PDU with a parameter update request, credits and an unknown command. -/
private def demoCmds : List SigCommand := [⟨0x12, 7, [6, 0, 12, 0, 0, 0, 100, 0]⟩, ⟨0x16, 8, [0x40, 0, 5, 0]⟩, ⟨0x08, 9, []⟩]

example : ∃ b p, IsFrame 5 b p ∧ IsCommands b demoCmds ∧ b.length ≤ 515 ∧
    (handleSignal true [] p) = ([.connUpdate 6 12 0 100, .send [6, 0, 5, 0, 0x13, 7, 2, 0, 0, 0], .credits 0x40 5, .send [4, 0, 5, 0, 1, 9, 0, 0]], [], false) :=
  ⟨demoCmds.flatMap SigCommand.encode, put16 24 ++ put16 5 ++ demoCmds.flatMap SigCommand.encode, ⟨by decide, by decide, by decide⟩, ⟨by decide, rfl⟩, by decide, by
    simp [handleSignal, demoCmds, SigCommand.encode, put16, le16, sigRxMTU, handleCmds, handleOne, handleParamUpdate, unmarshal, readFields, handleCredit, sigPdu, cidSignal,
      Msg.marshal, writeFields]⟩

example : MsgOk (.creditConnectionResponse 0x41 64 64 2 0) := by simp [MsgOk]

end Ble.Props
