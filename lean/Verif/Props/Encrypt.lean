import Verif.Hci.Encrypt
import Verif.Props.Bond
import Verif.Props.CmdEnc
import Verif.Props.SmpLegacy
import Verif.Props.SmpExamples
set_option autoImplicit false

/-! # C64: `StartEncryption` uses the stored bond of the peer -/

namespace Ble.Props

open Ble.Store Ble.Encrypt

/-! ## Specification: what the history of events says -/

/-- The bond of a peer: what was saved last under its address, unless it was deleted since or an encryption with this peer failed since. -/
def peerBond (peer : Nat → Bytes) (a : Bytes) : Option Bond → List Ev → Option Bond
  | acc, [] => acc
  | acc, .store (.save x (some b)) :: es => peerBond peer a (if x = hexEncode a then some b else acc) es
  | acc, .store (.delete x) :: es => peerBond peer a (if x = hexEncode a then none else acc) es
  | acc, .changed i s _ _ :: es => peerBond peer a (if s ≠ 0 ∧ peer i = a then none else acc) es
  | acc, _ :: es => peerBond peer a acc es

/-- The last Encryption Change event of the connection, and whether it said that encryption is on. -/
def lastChange (i : Nat) : Info → List Ev → Info
  | acc, [] => acc
  | acc, .changed j s en _ :: es => lastChange i (if j = i then ⟨s, en = 1⟩ else acc) es
  | acc, _ :: es => lastChange i acc es

/-- The short term key of a legacy pairing on the connection. -/
def shortKey (i : Nat) : Option Bytes → List Ev → Option Bytes
  | acc, [] => acc
  | acc, .paired j legacy stk :: es => shortKey i (if j = i then (if legacy && stk.length > 0 then some stk else none) else acc) es
  | acc, _ :: es => shortKey i acc es

/-- No bond with an empty key is saved. -/
def EvKeys (es : List Ev) : Prop := ∀ a b, Ev.store (.save a (some b)) ∈ es → b.ltk ≠ []

/-- The HCI packet of LE Start Encryption (OGF 8, OCF 0x19), octet by octet. -/
def encryptPacket (handle : UInt16) (rand : UInt64) (ediv : UInt16) (key : Bytes) : Bytes :=
  [0x01, 0x19, 0x20, 28] ++ HciCmd.leBytes 2 handle.toNat ++ HciCmd.leBytes 8 rand.toNat ++ HciCmd.leBytes 2 ediv.toNat ++ key

/-- These effects are one packet to the controller and nothing else, whatever the transmit buffer held before. -/
def SendsOnly (out : List Eff) (pkt : Bytes) : Prop := ∃ vs, out = [.cmd vs] ∧ ∀ buf : Bytes, buf.length = 64 → leStartEncryption.packet vs buf = .ok pkt

namespace EncryptAux

open BondAux

theorem hexDigit_size (n : Nat) (h : n < 16) : (hexDigit n).utf8Size = 1 := by
  have : ∀ m : Fin 16, (hexDigit m.1).utf8Size = 1 := by decide
  exact this ⟨n, h⟩

theorem strLen_hex : ∀ b : Bytes, strLen (hexEncode b) = 2 * b.length
  | [] => rfl
  | x :: b => by
    have ih := strLen_hex b
    have h1 := hexDigit_size (x.toNat / 16) (by have := x.toNat_lt; omega)
    have h2 := hexDigit_size (x.toNat % 16) (by omega)
    simp only [strLen, hexEncode, List.map_cons, List.sum_cons, List.length_cons] at *
    omega

theorem hex_inj {a b : Bytes} (h : hexEncode a = hexEncode b) : a = b := by
  have := congrArg hexDecode h
  rw [hexDecode_hexEncode, hexDecode_hexEncode] at this
  exact Option.some.inj this

/-- The state after a history. -/
structure Inv (J : Json BondData) (handle : Nat → UInt16) (peer : Nat → Bytes) (bond : Bytes → Option Bond) (ch : Nat → Info) (sk : Nat → Option Bytes) (w : World) : Prop where
  holds : ∃ g, Holds J w.file g ∧ ∀ a : Bytes, a.length = 6 → g (hexEncode a) = bond a
  smp : ∀ i, (w.conns i).smp = true
  handle : ∀ i, (w.conns i).handle = handle i
  addr : ∀ i, (w.conns i).addr = peer i
  info : ∀ i, (w.conns i).info = ch i
  enabled : ∀ i, (w.conns i).enabled = (ch i).enabled
  stk : ∀ i, (if (w.conns i).legacy && (w.conns i).stk.length > 0 then some (w.conns i).stk else none) = sk i

theorem init_inv (J : Json BondData) (handle : Nat → UInt16) (peer : Nat → Bytes) :
    Inv J handle peer (fun _ => none) (fun _ => ⟨0, false⟩) (fun _ => none) (Encrypt.init handle peer) :=
  ⟨⟨_, holds_none J, fun _ _ => rfl⟩, fun _ => rfl, fun _ => rfl, fun _ => rfl, fun _ => rfl, fun _ => rfl, fun _ => rfl⟩

/-- `start` leaves the connection as it was but for the channel. -/
theorem start_conn (J : Json BondData) (f : File) (c : Conn) (ch : Option Nat) (ok : Bool) : ∃ x, (start J f c ch ok).2.1 = { c with chan := x } := by
  unfold start
  split
  · split <;> exact ⟨c.chan, rfl⟩
  · split
    · exact ⟨_, rfl⟩
    · split
      · exact ⟨_, rfl⟩
      · exact ⟨_, rfl⟩
      · split
        · exact ⟨_, rfl⟩
        · exact ⟨_, rfl⟩
        · split <;> exact ⟨_, rfl⟩

theorem start_file {J : Json BondData} {f : File} {g : Text → Option Bond} (h : Holds J f g) (c : Conn) (ch : Option Nat) (ok : Bool) : Holds J (start J f c ch ok).1 g := by
  have hf := (call_find h (hexEncode c.addr)).1
  unfold start
  split
  · split <;> exact h
  · split
    · exact h
    · generalize findBond J Env.fine f (hexEncode c.addr) = r at hf ⊢
      obtain ⟨f', r⟩ := r
      cases r with
      | err _ => exact hf
      | panic => exact hf
      | ok b =>
        simp only
        split
        · exact hf
        · exact hf
        · split <;> exact hf

theorem step_inv {J : Json BondData} {handle : Nat → UInt16} {peer : Nat → Bytes} (hp : ∀ i, (peer i).length = 6) {bond : Bytes → Option Bond} {ch : Nat → Info} {sk : Nat → Option Bytes} {w w' : World}
    {e : Ev} {out : List Eff} (hi : Inv J handle peer bond ch sk w) (he : ∀ a b, e = .store (.save a (some b)) → b.ltk ≠ []) (hs : step J w e = some (w', out)) :
    Inv J handle peer (fun a => peerBond peer a (bond a) [e]) (fun i => lastChange i (ch i) [e]) (fun i => shortKey i (sk i) [e]) w' := by
  obtain ⟨⟨g, hg, hb⟩, h1, h2, h3, h4, h5, h6⟩ := hi
  cases e with
  | store o =>
    have hw : w' = ⟨(call J Env.fine w.file o).1, w.conns⟩ := by
      simp only [step] at hs
      split at hs
      · simp at hs
      · simp only [Option.some.injEq, Prod.mk.injEq] at hs
        exact hs.1.symm
    subst hw
    refine ⟨⟨_, call_holds hg o (fun a b hab => he a b (by rw [hab])), fun a ha => ?_⟩, h1, h2, h3, h4, h5, h6⟩
    cases o with
    | exists_ _ => simpa [after, peerBond] using hb a ha
    | find _ => simpa [after, peerBond] using hb a ha
    | save x b =>
      cases b with
      | none => simpa [after, peerBond] using hb a ha
      | some b =>
        simp only [after, peerBond]
        by_cases hx : x = hexEncode a
        · subst hx; simp [strLen_hex, ha]
        · rw [if_neg (fun hh => hx hh.1.symm), if_neg hx, hb a ha]
    | delete x =>
      simp only [after, peerBond]
      by_cases hx : x = hexEncode a
      · subst hx; simp
      · rw [if_neg (fun hh => hx hh.symm), if_neg hx, hb a ha]
  | start i c ok =>
    have hw : w' = setConn w (start J w.file (w.conns i) c ok).1 i (start J w.file (w.conns i) c ok).2.1 := by
      simp only [step] at hs
      split at hs
      · simp at hs
      · rename_i heq
        simp only [Option.some.injEq, Prod.mk.injEq] at hs
        rw [heq]
        exact hs.1.symm
    subst hw
    obtain ⟨x, hx⟩ := start_conn J w.file (w.conns i) c ok
    refine ⟨⟨g, start_file hg _ _ _, fun a ha => by simpa [peerBond] using hb a ha⟩, ?_, ?_, ?_, ?_, ?_, ?_⟩ <;>
    · intro j
      by_cases hj : j = i
      · subst hj; simp only [setConn, lastChange, shortKey, if_true, hx]; first | exact h1 j | exact h2 j | exact h3 j | exact h4 j | exact h5 j | exact h6 j | trivial
      · simp only [setConn, lastChange, shortKey, if_neg hj]; first | exact h1 j | exact h2 j | exact h3 j | exact h4 j | exact h5 j | exact h6 j | trivial
  | changed i s en r =>
    simp only [step, changed, h1, Bool.not_true, Bool.and_false, Bool.false_eq_true, if_false, Option.some.injEq, Prod.mk.injEq] at hs
    obtain ⟨hw, _⟩ := hs
    subst hw
    have hf : ∃ g', Holds J (if s ≠ 0 then (deleteBond J Env.fine w.file (hexEncode (w.conns i).addr)).1 else w.file) g' ∧ ∀ a : Bytes, a.length = 6 → g' (hexEncode a) = peerBond peer a (bond a) [.changed i s en r] := by
      by_cases h : s = 0
      · subst h
        exact ⟨g, by simpa using hg, fun a ha => by simpa [peerBond] using hb a ha⟩
      · rw [if_pos h]
        refine ⟨_, (call_delete hg _).1, fun a ha => ?_⟩
        simp only [after, peerBond, h3]
        by_cases hx : peer i = a
        · subst hx; simp [h]
        · rw [if_neg (fun hh => hx (hex_inj hh).symm), if_neg (fun hh => hx hh.2), hb a ha]
    refine ⟨hf, ?_, ?_, ?_, ?_, ?_, ?_⟩ <;>
    · intro j
      by_cases hj : j = i
      · subst hj; simp only [setConn, lastChange, shortKey, if_true] <;> first | exact h1 j | exact h2 j | exact h3 j | exact h4 j | exact h5 j | exact h6 j | trivial
      · simp only [setConn, lastChange, shortKey, if_neg hj, if_neg (Ne.symm hj)]; first | exact h1 j | exact h2 j | exact h3 j | exact h4 j | exact h5 j | exact h6 j | trivial
  | paired i legacy stk =>
    simp only [step, Option.some.injEq, Prod.mk.injEq] at hs
    obtain ⟨hw, _⟩ := hs
    subst hw
    refine ⟨⟨g, hg, fun a ha => by simpa [peerBond] using hb a ha⟩, ?_, ?_, ?_, ?_, ?_, ?_⟩ <;>
    · intro j
      by_cases hj : j = i
      · subst hj; simp only [setConn, lastChange, shortKey, if_true] <;> first | exact h1 j | exact h2 j | exact h3 j | exact h4 j | exact h5 j | exact h6 j | trivial
      · simp only [setConn, lastChange, shortKey, if_neg hj, if_neg (Ne.symm hj)]; first | exact h1 j | exact h2 j | exact h3 j | exact h4 j | exact h5 j | exact h6 j | trivial

theorem peerBond_cons (peer : Nat → Bytes) (a : Bytes) (acc : Option Bond) (e : Ev) (es : List Ev) : peerBond peer a acc (e :: es) = peerBond peer a (peerBond peer a acc [e]) es := by
  cases e with
  | store o =>
    cases o with
    | save x b => cases b <;> rfl
    | _ => rfl
  | _ => rfl

theorem lastChange_cons (i : Nat) (acc : Info) (e : Ev) (es : List Ev) : lastChange i acc (e :: es) = lastChange i (lastChange i acc [e]) es := by cases e <;> rfl

theorem shortKey_cons (i : Nat) (acc : Option Bytes) (e : Ev) (es : List Ev) : shortKey i acc (e :: es) = shortKey i (shortKey i acc [e]) es := by cases e <;> rfl

theorem run_inv {J : Json BondData} {handle : Nat → UInt16} {peer : Nat → Bytes} (hp : ∀ i, (peer i).length = 6) : ∀ (es : List Ev) {bond : Bytes → Option Bond} {ch : Nat → Info} {sk : Nat → Option Bytes} {w w' : World}
    {out : List Eff}, Inv J handle peer bond ch sk w → EvKeys es → run J w es = some (w', out) →
    Inv J handle peer (fun a => peerBond peer a (bond a) es) (fun i => lastChange i (ch i) es) (fun i => shortKey i (sk i) es) w' := by
  intro es
  induction es with
  | nil =>
    intro bond ch sk w w' out hi _ hr
    simp only [run, Option.some.injEq, Prod.mk.injEq] at hr
    rw [← hr.1]
    exact hi
  | cons e es ih =>
    intro bond ch sk w w' out hi hk hr
    simp only [run] at hr
    split at hr
    · simp at hr
    · rename_i w1 o1 hs
      split at hr
      · simp at hr
      · rename_i w2 o2 hr2
        simp only [Option.some.injEq, Prod.mk.injEq] at hr
        have h1 := step_inv hp hi (fun a b hab => hk a b (by simp [hab])) hs
        have h2 := ih h1 (fun a b hab => hk a b (by simp [hab])) hr2
        rw [hr.1] at h2
        simp only [← peerBond_cons, ← lastChange_cons, ← shortKey_cons] at h2
        exact h2

theorem key16_ok {k : Bytes} (h : k.length ≤ 16) : Smp.key16 k = .ok (k ++ List.replicate (16 - k.length) 0) := by rw [Smp.key16, if_pos h]

theorem packet_eq (handle : UInt16) (key : Bytes) (hk : key.length = 16) (ediv : UInt16) (rand : UInt64) (buf : Bytes) (hb : buf.length = 64) :
    leStartEncryption.packet (fields handle key ediv rand) buf = .ok (encryptPacket handle rand ediv key) := by
  have hmem : leStartEncryption ∈ HciCmd.commands := by set_option maxRecDepth 100000 in decide
  have hty : (fields handle key ediv rand).map HciCmd.Val.ty = leStartEncryption.tys := by
    simp [fields, HciCmd.Val.ty, leStartEncryption, HciCmd.Command.tys, hk]
  have hp := hci_cmd_packet leStartEncryption hmem _ hty buf hb
  rw [hp.1, hp.2]
  have hop : HciCmd.leBytes 2 leStartEncryption.opCode = [0x19, 0x20] := by decide
  have hl : HciCmd.leBytes 1 leStartEncryption.len = [28] := by decide
  rw [hop, hl]
  simp [fields, HciCmd.Val.octets, encryptPacket]

/-- What `start` does on a connection that is not encrypted. -/
theorem start_eq {J : Json BondData} {handle : Nat → UInt16} {peer : Nat → Bytes} {bond : Bytes → Option Bond} {ch : Nat → Info} {sk : Nat → Option Bytes} {w : World}
    (hi : Inv J handle peer bond ch sk w) (i : Nat) (hl : (peer i).length = 6) (hn : (ch i).enabled = false) (c : Option Nat) (ok : Bool) :
    (start J w.file (w.conns i) c ok).2.2 = match bond (peer i) with
      | none => ([], .err .other)
      | some b => match encryptFields (w.conns i) b with
        | .err e => ([], .err e)
        | .panic => ([], .panic)
        | .ok vs => ([.cmd vs], if ok then .ok () else .err .other) := by
  obtain ⟨g, hg, hb⟩ := hi.holds
  have hf := (call_find hg (hexEncode (peer i))).2
  rw [hb _ hl] at hf
  unfold start
  rw [hi.enabled i, hn, hi.smp i, hi.addr i]
  generalize findBond J Env.fine w.file (hexEncode (peer i)) = r at hf ⊢
  obtain ⟨f', r⟩ := r
  simp only at hf
  subst hf
  cases bond (peer i) with
  | none => rfl
  | some b =>
    simp only [Bool.false_eq_true, if_false, Bool.not_true]
    cases encryptFields (w.conns i) b with
    | err e => rfl
    | panic => rfl
    | ok vs => cases ok <;> rfl

end EncryptAux

open EncryptAux

variable (J : Json BondData) (handle : Nat → UInt16) (peer : Nat → Bytes)

/-- **C64** (part: a key of 16 octets; for a legacy bond also a diversifier and a random value that are not zero). After every history without a crash (pairings and deletions of any peers, encryptions started
and finished on any connections), on a connection that is not encrypted and has no short term key, with a peer that has a bond: `StartEncryption` sends exactly one command, LE Start Encryption with the connection's
handle and the bond's own random value, diversifier and key, and returns nil if the controller accepts it. -/
theorem start_encryption_uses_bond_partial (hp : ∀ i, (peer i).length = 6) (es : List Ev) (hk : EvKeys es) (w : World) (out : List Eff) (hr : run J (init handle peer) es = some (w, out))
    (i : Nat) (hn : (lastChange i ⟨0, false⟩ es).enabled = false) (hs : shortKey i none es = none) (b : Bond) (hb : peerBond peer (peer i) none es = some b) (hl : b.ltk.length = 16)
    (hleg : b.legacy = true → b.ediv ≠ 0 ∧ b.rand ≠ 0) (ch : Option Nat) (ok : Bool) :
    SendsOnly (start J w.file (w.conns i) ch ok).2.2.1 (encryptPacket (handle i) b.rand b.ediv b.ltk) ∧
    (start J w.file (w.conns i) ch ok).2.2.2 = if ok then .ok () else .err .other := by
  have hi := run_inv hp es (init_inv J handle peer) hk hr
  have h := start_eq hi i (hp i) hn ch ok
  rw [hb] at h
  have hst := hi.stk i
  rw [hs] at hst
  have hnot : ((w.conns i).legacy && decide ((w.conns i).stk.length > 0)) = false := by
    generalize hb : ((w.conns i).legacy && decide ((w.conns i).stk.length > 0)) = x at hst
    cases x <;> simp at hst ⊢
  have he : encryptFields (w.conns i) b = .ok (fields (handle i) b.ltk b.ediv b.rand) := by
    have hk16 : Smp.key16 b.ltk = .ok b.ltk := by rw [key16_ok (by omega), hl]; simp
    unfold encryptFields
    rw [hnot, hi.handle i, hk16]
    have hc : (b.legacy && (decide (b.ltk.length ≠ 16) || decide (b.ediv = 0) || decide (b.rand = 0))) = false := by
      cases hbl : b.legacy
      · rfl
      · obtain ⟨h1, h2⟩ := hleg hbl
        simp [hl, h1, h2]
    rw [hc]
    rfl
  simp only [he] at h
  rw [h]
  exact ⟨⟨_, rfl, fun buf hbuf => packet_eq _ _ hl _ _ buf hbuf⟩, rfl⟩

/-- **C64.** A peer without a bond: `StartEncryption` sends nothing and returns an error. This covers every peer whose encryption failed since it was paired: a failed Encryption Change event, whatever its status,
removes the bond. -/
theorem start_encryption_no_bond (hp : ∀ i, (peer i).length = 6) (es : List Ev) (hk : EvKeys es) (w : World) (out : List Eff) (hr : run J (init handle peer) es = some (w, out))
    (i : Nat) (hn : (lastChange i ⟨0, false⟩ es).enabled = false) (hb : peerBond peer (peer i) none es = none) (ch : Option Nat) (ok : Bool) :
    (start J w.file (w.conns i) ch ok).2.2 = ([], .err .other) := by
  have h := start_eq (run_inv hp es (init_inv J handle peer) hk hr) i (hp i) hn ch ok
  rw [hb] at h
  exact h

/-- **C64.** A connection that is encrypted is not encrypted again: nothing is sent; a channel is offered what the last Encryption Change event said, and without a channel the call says so with `ErrEncryptionAlreadyEnabled`. -/
theorem start_encryption_twice (hp : ∀ i, (peer i).length = 6) (es : List Ev) (hk : EvKeys es) (w : World) (out : List Eff) (hr : run J (init handle peer) es = some (w, out))
    (i : Nat) (hn : (lastChange i ⟨0, false⟩ es).enabled = true) (ch : Option Nat) (ok : Bool) :
    (start J w.file (w.conns i) ch ok).2.2 = match ch with
      | some x => ([.offer x (lastChange i ⟨0, false⟩ es)], .ok ())
      | none => ([], .err .already) := by
  have hi := run_inv hp es (init_inv J handle peer) hk hr
  unfold start
  rw [hi.enabled i, hn, hi.info i]
  cases ch <;> rfl

/-- **C64**, during a legacy pairing: if the peer has a bond, the short term key is used instead of it, with zero diversifier and random value. -/
theorem start_encryption_short_key (hp : ∀ i, (peer i).length = 6) (es : List Ev) (hk : EvKeys es) (w : World) (out : List Eff) (hr : run J (init handle peer) es = some (w, out))
    (i : Nat) (hn : (lastChange i ⟨0, false⟩ es).enabled = false) (stk : Bytes) (hs : shortKey i none es = some stk) (hl : stk.length = 16) (b : Bond) (hb : peerBond peer (peer i) none es = some b)
    (ch : Option Nat) (ok : Bool) :
    SendsOnly (start J w.file (w.conns i) ch ok).2.2.1 (encryptPacket (handle i) 0 0 stk) ∧ (start J w.file (w.conns i) ch ok).2.2.2 = if ok then .ok () else .err .other := by
  have hi := run_inv hp es (init_inv J handle peer) hk hr
  have h := start_eq hi i (hp i) hn ch ok
  rw [hb] at h
  have hst := hi.stk i
  rw [hs] at hst
  have hyes : ((w.conns i).legacy && decide ((w.conns i).stk.length > 0)) = true ∧ (w.conns i).stk = stk := by
    generalize hb : ((w.conns i).legacy && decide ((w.conns i).stk.length > 0)) = x at hst
    cases x <;> simp at hst ⊢
    exact hst
  have he : encryptFields (w.conns i) b = .ok (fields (handle i) stk 0 0) := by
    unfold encryptFields
    have hk16 : Smp.key16 stk = .ok stk := by rw [key16_ok (by omega), hl]; simp
    rw [hyes.1, hyes.2, hk16, hi.handle i]
    rfl
  simp only [he] at h
  rw [h]
  exact ⟨⟨_, rfl, fun buf hbuf => packet_eq _ _ hl _ _ buf hbuf⟩, rfl⟩

/-- **C64** fails for some bonds that a pairing stores: a legacy bond whose peer chose a zero diversifier or random value, which the specification allows, is refused, for ever. -/
theorem start_encryption_refuses_zero (hp : ∀ i, (peer i).length = 6) (es : List Ev) (hk : EvKeys es) (w : World) (out : List Eff) (hr : run J (init handle peer) es = some (w, out))
    (i : Nat) (hn : (lastChange i ⟨0, false⟩ es).enabled = false) (hs : shortKey i none es = none) (b : Bond) (hb : peerBond peer (peer i) none es = some b)
    (hleg : b.legacy = true) (hz : b.ediv = 0 ∨ b.rand = 0) (ch : Option Nat) (ok : Bool) :
    (start J w.file (w.conns i) ch ok).2.2 = ([], .err .other) := by
  have hi := run_inv hp es (init_inv J handle peer) hk hr
  have h := start_eq hi i (hp i) hn ch ok
  rw [hb] at h
  have hst := hi.stk i
  rw [hs] at hst
  have hnot : ((w.conns i).legacy && decide ((w.conns i).stk.length > 0)) = false := by
    generalize hb : ((w.conns i).legacy && decide ((w.conns i).stk.length > 0)) = x at hst
    cases x <;> simp at hst ⊢
  have he : encryptFields (w.conns i) b = .err .other := by
    unfold encryptFields
    rw [hnot]
    have hc : (b.legacy && (decide (b.ltk.length ≠ 16) || decide (b.ediv = 0) || decide (b.rand = 0))) = true := by
      rw [hleg]
      rcases hz with hz | hz <;> simp [hz]
    rw [hc]
    rfl
  simp only [he] at h
  exact h

/-- **C64**, the store checks no length: a stored key of more than 16 octets crashes the program. -/
theorem start_encryption_long_key (hp : ∀ i, (peer i).length = 6) (es : List Ev) (hk : EvKeys es) (w : World) (out : List Eff) (hr : run J (init handle peer) es = some (w, out))
    (i : Nat) (hn : (lastChange i ⟨0, false⟩ es).enabled = false) (hs : shortKey i none es = none) (b : Bond) (hb : peerBond peer (peer i) none es = some b)
    (hleg : b.legacy = false) (hz : 16 < b.ltk.length) (ch : Option Nat) (ok : Bool) :
    (start J w.file (w.conns i) ch ok).2.2 = ([], .panic) := by
  have hi := run_inv hp es (init_inv J handle peer) hk hr
  have h := start_eq hi i (hp i) hn ch ok
  rw [hb] at h
  have hst := hi.stk i
  rw [hs] at hst
  have hnot : ((w.conns i).legacy && decide ((w.conns i).stk.length > 0)) = false := by
    generalize hb : ((w.conns i).legacy && decide ((w.conns i).stk.length > 0)) = x at hst
    cases x <;> simp at hst ⊢
  have he : encryptFields (w.conns i) b = .panic := by
    have hk16 : Smp.key16 b.ltk = .panic := by rw [Smp.key16, if_neg (by omega)]
    unfold encryptFields
    rw [hnot, hleg, hk16]
    rfl
  simp only [he] at h
  exact h

/-- Without a security manager (`smpEnabled` off) the call crashes the program, and so does a failed Encryption Change event. -/
theorem start_encryption_without_smp (f : File) (c : Conn) (hs : c.smp = false) (hn : c.enabled = false) (ch : Option Nat) (ok : Bool) (status : UInt8) (h0 : status ≠ 0) (en : UInt8) (r : Bool) :
    (start J f c ch ok).2.2.2 = .panic ∧ changed J f c status en r = none := by
  simp [start, changed, hs, hn, h0]

/-- **C64**, the result. After a call of `StartEncryption` with a channel that returned nil on a connection that was not encrypted, the next Encryption Change event of the connection is put into that channel, with
its status and whether encryption is on, if the channel can take it at once; otherwise it is lost. If an earlier call is still waiting with another channel, that one is told nothing. -/
theorem encryption_result_told (f f' f'' : File) (c c' c'' : Conn) (x : Nat) (out out' : List Eff) (hn : c.enabled = false) (hs : start J f c (some x) true = (f', c', out, .ok ())) (status en : UInt8) (r : Bool)
    (hc : changed J f' c' status en r = some (f'', c'', out')) :
    out' = (if r then [.told x ⟨status, en = 1⟩] else []) ∧ c''.enabled = (en = 1 : Bool) ∧ c''.info = ⟨status, en = 1⟩ := by
  have hch : c'.chan = some x := by
    unfold start at hs
    rw [hn] at hs
    simp only [Bool.false_eq_true, if_false] at hs
    split at hs
    · simp at hs
    · split at hs
      · simp at hs
      · simp at hs
      · split at hs
        · simp at hs
        · simp at hs
        · simp only [if_true, Prod.mk.injEq] at hs
          rw [← hs.2.1]
  unfold changed at hc
  split at hc
  · simp at hc
  · simp only [hch, Option.some.injEq, Prod.mk.injEq] at hc
    obtain ⟨_, h1, h2⟩ := hc
    subst h1 h2
    exact ⟨rfl, rfl, rfl⟩

/-! ## From the pairing to the encryption -/

/-- What a pairing's effects do to the store: `saveBondInfo` (smp/transport.go:56-62). -/
def pairingStores (effs : List Smp.Eff) : List Ev := effs.filterMap fun e => match e with
  | .save a b => some (.store (.save (hexEncode a) (some ⟨b.ltk, UInt16.ofNat b.ediv, UInt64.ofNat b.rand, b.legacy⟩)))
  | _ => none

/-- Events that leave the bond of the peer at this address alone. -/
def LeavesAlone (peer : Nat → Bytes) (a : Bytes) (es : List Ev) : Prop := ∀ e ∈ es, match e with
  | .store (.save x _) => x ≠ hexEncode a
  | .store (.delete x) => x ≠ hexEncode a
  | .changed i s _ _ => s = 0 ∨ peer i ≠ a
  | _ => True

namespace EncryptAux

theorem peerBond_append (peer : Nat → Bytes) (a : Bytes) : ∀ (xs ys : List Ev) (acc : Option Bond), peerBond peer a acc (xs ++ ys) = peerBond peer a (peerBond peer a acc xs) ys
  | [], _, _ => rfl
  | x :: xs, ys, acc => by
    rw [List.cons_append, peerBond_cons, peerBond_append peer a xs ys, peerBond_cons peer a acc x xs]

theorem leaves (peer : Nat → Bytes) (a : Bytes) : ∀ (es : List Ev) (acc : Option Bond), LeavesAlone peer a es → peerBond peer a acc es = acc
  | [], _, _ => rfl
  | e :: es, acc, h => by
    have ih := leaves peer a es acc (fun x hx => h x (by simp [hx]))
    have he := h e (by simp)
    rw [peerBond_cons]
    have : peerBond peer a acc [e] = acc := by
      cases e with
      | store o =>
        cases o with
        | save x b =>
          cases b with
          | none => rfl
          | some b => exact if_neg he
        | delete x => exact if_neg he
        | _ => rfl
      | changed i s en r => exact if_neg (fun hh => by rcases he with he | he; exact hh.1 he; exact he hh.2)
      | _ => rfl
    rw [this, ih]

end EncryptAux

open Ble.Smp Ble.Smp.Aux

variable {P : Prims}

namespace EncryptAux

theorem split_save (n : Nat) (o : Op) (xs ys : List Ev) : ∀ (acc : Info) (acc' : Option Bytes), lastChange n acc (xs ++ .store o :: ys) = lastChange n acc (xs ++ ys) ∧
    shortKey n acc' (xs ++ .store o :: ys) = shortKey n acc' (xs ++ ys) := by
  induction xs with
  | nil => intro acc acc'; exact ⟨rfl, rfl⟩
  | cons x xs ih =>
    intro acc acc'
    rw [List.cons_append, List.cons_append, lastChange_cons, shortKey_cons, lastChange_cons n acc x (xs ++ ys), shortKey_cons n acc' x (xs ++ ys)]
    exact ih _ _

theorem saved_then_used {J : Json BondData} {handle : Nat → UInt16} {peer : Nat → Bytes} (hp : ∀ i, (peer i).length = 6) (before since : List Ev) (w : World) (out : List Encrypt.Eff) (n : Nat) (b : Store.Bond)
    (hl : b.ltk.length = 16) (hleg : b.legacy = true → b.ediv ≠ 0 ∧ b.rand ≠ 0) (hkeys : EvKeys (before ++ since)) (halone : LeavesAlone peer (peer n) since)
    (hr : Encrypt.run J (Encrypt.init handle peer) (before ++ [.store (.save (hexEncode (peer n)) (some b))] ++ since) = some (w, out))
    (hne : (lastChange n ⟨0, false⟩ (before ++ since)).enabled = false) (hst : shortKey n none (before ++ since) = none) (ch : Option Nat) (ok : Bool) :
    SendsOnly (start J w.file (w.conns n) ch ok).2.2.1 (encryptPacket (handle n) b.rand b.ediv b.ltk) ∧ (start J w.file (w.conns n) ch ok).2.2.2 = if ok then .ok () else .err .other := by
  rw [List.append_assoc, List.singleton_append] at hr
  refine start_encryption_uses_bond_partial J handle peer hp _ ?_ w out hr n ?_ ?_ b ?_ hl hleg ch ok
  · intro a b' hab
    simp only [List.mem_append, List.mem_cons] at hab
    rcases hab with hab | hab | hab
    · exact hkeys a b' (by simp [hab])
    · injection hab with hab
      injection hab with _ hab
      injection hab with hab
      subst hab
      intro h0
      rw [h0] at hl
      simp at hl
    · exact hkeys a b' (by simp [hab])
  · rw [(split_save n _ before since _ none).1]; exact hne
  · rw [(split_save n _ before since ⟨0, false⟩ _).2]; exact hst
  · rw [peerBond_append, peerBond_cons, leaves peer _ since _ halone]
    simp [peerBond]

end EncryptAux

/-- **C64**, from the pairing on. After any history, a just works pairing with bonding with a peer that follows the specification, and then anything that leaves this peer's bond alone (other pairings, other
connections, encryptions that succeed, restarts): `StartEncryption` on any connection with the same peer makes the controller encrypt with exactly the key LTK = f5(...) that the peer has computed in the
pairing. -/
theorem paired_key_is_used (S : Pairing P) (hS : S.Sound) {e0 e1 e2 e3 e4 e5 : Smp.Env P} (f0 : Fine e0) (f1 : Fine e1) (f2 : Fine e2) (f3 : Fine e3) (f4 : Fine e4) (f5 : Fine e5)
    (hk : e1.fresh = S.hostKeys) (hs : S.rsp.authReq &&& 0x08 = 0x08) (ho : S.auth.oobData = []) (hbo : bonding S.cfg.authReq = true)
    {i j : SmpSpec.IO} (hi : SmpSpec.IO.ofByte S.cfg.ioCap = some i) (hj : SmpSpec.IO.ofByte S.rsp.ioCap = some j)
    (hm : SmpSpec.pairingMethod true (oobSet S.cfg) (oobSet S.rsp) (mitmSet S.cfg) (mitmSet S.rsp) i j = .justWorks)
    {na nb : Bytes} (hna : e3.rnd = le na) (hnb : nb.length = 16)
    (hp : ∀ i, (peer i).length = 6) (before since : List Ev) (w : World) (out : List Encrypt.Eff) (n : Nat) (hn : peer n = le S.ra)
    (hkeys : EvKeys (before ++ since)) (halone : LeavesAlone peer (le S.ra) since)
    (hr : Encrypt.run J (Encrypt.init handle peer) (before ++ pairingStores (Smp.run S.start [.pair e0 S.auth, .msg e1 S.rspMsg, .msg e2 S.pubMsg, .msg e3 (confirmMsg (S.Cb nb 0)), .msg e4 (randomMsg nb),
      .msg e5 (checkMsg (S.Eb na nb zeros))]).2 ++ since) = some (w, out))
    (hne : (lastChange n ⟨0, false⟩ (before ++ since)).enabled = false) (hst : shortKey n none (before ++ since) = none) (ch : Option Nat) :
    SendsOnly (start J w.file (w.conns n) ch true).2.2.1 (encryptPacket (handle n) 0 0 (le (S.ltk na nb))) ∧ (start J w.file (w.conns n) ch true).2.2.2 = .ok () := by
  have hpair := just_works_completes S hS f0 f1 f2 f3 f4 f5 hk hs ho hi hj (Or.inl hm) hna hnb
  rw [if_pos hbo] at hpair
  have hst' : pairingStores (Smp.run S.start [.pair e0 S.auth, .msg e1 S.rspMsg, .msg e2 S.pubMsg, .msg e3 (confirmMsg (S.Cb nb 0)), .msg e4 (randomMsg nb),
      .msg e5 (checkMsg (S.Eb na nb zeros))]).2 = [.store (.save (hexEncode (peer n)) (some ⟨le (S.ltk na nb), 0, 0, false⟩))] := by
    rw [hpair, hn]; rfl
  rw [hst'] at hr
  exact saved_then_used hp before since w out n _ (by simp [le, Pairing.ltk, SmpSpec.ltk, SmpSpec.f5, P.cmac_length]) (by simp) hkeys (by rw [hn]; exact halone) hr hne hst ch true

/-- **C64**, the same for legacy pairing with bonding, on a later connection: the key, the diversifier and the random value are those the peer distributed, provided that neither number is zero
(`start_encryption_refuses_zero`). -/
theorem distributed_key_is_used_partial (S : Pairing P) (hla : S.la.length = 6) (hra : S.ra.length = 6) {e0 e1 e2 e3 e4 e5 : Smp.Env P} (f0 : Fine e0) (f1 : Fine e1) (f2 : Fine e2) (f3 : Fine e3) (f5 : Fine e5)
    (hs : S.rsp.authReq &&& 0x08 = 0) (ho : S.auth.oobData = []) {i j : SmpSpec.IO} (hi : SmpSpec.IO.ofByte S.cfg.ioCap = some i) (hj : SmpSpec.IO.ofByte S.rsp.ioCap = some j)
    (hoo : oobSet S.cfg = oobSet S.rsp) {m : Method} (hm : SmpSpec.pairingMethod false (oobSet S.cfg) (oobSet S.rsp) (mitmSet S.cfg) (mitmSet S.rsp) i j = m) (hmo : m ≠ .oob)
    (hpk : S.auth.passkey < 2 ^ 20) {tk : Bytes} (htk : specTK m S.auth.passkey tk) {mrand srand : Bytes} (hmr : e1.rnd = le mrand) (hsr : srand.length = 16)
    (hb : S.cfg.authReq &&& 0x03 = 0x01) (ltk : Bytes) (hltk : ltk.length = 16) (ediv : UInt16) (rand : UInt64) (hz : ediv ≠ 0 ∧ rand ≠ 0)
    (hp : ∀ i, (peer i).length = 6) (before since : List Ev) (w : World) (out : List Encrypt.Eff) (n : Nat) (hn : peer n = le S.ra)
    (hkeys : EvKeys (before ++ since)) (halone : LeavesAlone peer (le S.ra) since)
    (hr : Encrypt.run J (Encrypt.init handle peer) (before ++ pairingStores (Smp.run S.start [.pair e0 S.auth, .msg e1 S.rspMsg, .msg e2 (confirmMsg (S.c1 tk srand)), .msg e3 (randomMsg srand),
      .msg e4 (encInfoMsg ltk), .msg e5 (masterIdMsg (HciCmd.leBytes 2 ediv.toNat) (HciCmd.leBytes 8 rand.toNat))]).2 ++ since) = some (w, out))
    (hne : (lastChange n ⟨0, false⟩ (before ++ since)).enabled = false) (hst : shortKey n none (before ++ since) = none) (ch : Option Nat) :
    SendsOnly (start J w.file (w.conns n) ch true).2.2.1 (encryptPacket (handle n) rand ediv (le ltk)) ∧ (start J w.file (w.conns n) ch true).2.2.2 = .ok () := by
  have hpair := legacy_bonding_completes S hla hra f0 f1 f2 f3 f5 (e4 := e4) hs ho hi hj hoo hm hmo hpk htk hmr hsr hb ltk (UInt8.ofNat (ediv.toNat % 256)) (UInt8.ofNat (ediv.toNat / 256 % 256))
    (HciCmd.leBytes 8 rand.toNat) (by simp [HciCmd.leBytes])
  have h1 : UInt16.ofNat (SmpSpec.num [UInt8.ofNat (ediv.toNat / 256 % 256), UInt8.ofNat (ediv.toNat % 256)]) = ediv := by
    apply UInt16.toNat_inj.1
    have := ediv.toNat_lt
    simp only [SmpSpec.num, List.foldl_cons, List.foldl_nil, UInt16.toNat_ofNat', UInt8.toNat_ofNat']
    omega
  have h2 : UInt64.ofNat (SmpSpec.num (le (HciCmd.leBytes 8 rand.toNat))) = rand := by
    apply UInt64.toNat_inj.1
    have := rand.toNat_lt
    simp only [SmpSpec.num, le, HciCmd.leBytes, List.reverse_cons, List.reverse_nil, List.nil_append, List.cons_append, List.foldl_cons, List.foldl_nil, UInt64.toNat_ofNat', UInt8.toNat_ofNat']
    omega
  have hst' : pairingStores (Smp.run S.start [.pair e0 S.auth, .msg e1 S.rspMsg, .msg e2 (confirmMsg (S.c1 tk srand)), .msg e3 (randomMsg srand),
      .msg e4 (encInfoMsg ltk), .msg e5 (masterIdMsg (HciCmd.leBytes 2 ediv.toNat) (HciCmd.leBytes 8 rand.toNat))]).2 = [.store (.save (hexEncode (peer n)) (some ⟨le ltk, ediv, rand, true⟩))] := by
    have e : HciCmd.leBytes 2 ediv.toNat = [UInt8.ofNat (ediv.toNat % 256), UInt8.ofNat (ediv.toNat / 256 % 256)] := rfl
    rw [e, hpair, hn]
    simp [pairingStores, h1, h2]
  rw [hst'] at hr
  exact saved_then_used hp before since w out n _ (by simpa [le] using hltk) (fun _ => hz) hkeys (by rw [hn]; exact halone) hr hne hst ch true

/-! ## The histories are possible -/

/-- No crash: whatever happens, as long as stored keys have 1 to 16 octets, and short term keys have at most 16, every history runs to its end. -/
theorem encryption_never_crashes (hp : ∀ i, (peer i).length = 6) : ∀ (es : List Ev), (∀ a b, Ev.store (.save a (some b)) ∈ es → b.ltk ≠ [] ∧ b.ltk.length ≤ 16) →
    (∀ i l k, Ev.paired i l k ∈ es → k.length ≤ 16) → (Encrypt.run J (Encrypt.init handle peer) es).isSome = true := by
  intro es hk hs
  have key : ∀ (es : List Ev) (bond : Bytes → Option Store.Bond) (ch : Nat → Info) (sk : Nat → Option Bytes) (w : World), EncryptAux.Inv J handle peer bond ch sk w →
      (∀ a b, bond a = some b → b.ltk.length ≤ 16) → (∀ i k, sk i = some k → k.length ≤ 16) → (∀ a b, Ev.store (.save a (some b)) ∈ es → b.ltk ≠ [] ∧ b.ltk.length ≤ 16) →
      (∀ i l k, Ev.paired i l k ∈ es → k.length ≤ 16) → (Encrypt.run J w es).isSome = true := by
    intro es
    induction es with
    | nil => intros; rfl
    | cons e es ih =>
      intro bond ch sk w hi hb hsk hk hs
      have hstep : ∃ w' out, Encrypt.step J w e = some (w', out) := by
        cases e with
        | store o =>
          simp only [Encrypt.step]
          obtain ⟨g, hg, _⟩ := hi.holds
          split
          · rename_i hpan
            cases o with
            | find a =>
              simp only [call, Res.bond.injEq] at hpan
              have := (BondAux.call_find hg a).2
              rw [hpan] at this
              cases hga : g a <;> rw [hga] at this <;> simp at this
            | _ => simp [call] at hpan
          · exact ⟨_, _, rfl⟩
        | start i c ok =>
          simp only [Encrypt.step]
          split
          · rename_i hpan
            exfalso
            by_cases hen : (ch i).enabled = true
            · have : (start J w.file (w.conns i) c ok).2.2.2 ≠ .panic := by
                unfold start
                rw [hi.enabled i, hen]
                cases c <;> simp
              rw [hpan] at this
              exact this rfl
            · have h := start_eq hi i (hp i) (by simpa using hen) c ok
              rw [hpan] at h
              cases hbi : bond (peer i) with
              | none => rw [hbi] at h; simp at h
              | some b =>
                rw [hbi] at h
                have hnp : encryptFields (w.conns i) b ≠ .panic := by
                  unfold encryptFields
                  split
                  · rename_i hl
                    have h6 := hi.stk i
                    rw [if_pos hl] at h6
                    rw [key16_ok (hsk i _ h6.symm)]
                    simp
                  · split
                    · simp
                    · rw [key16_ok (hb _ b hbi)]
                      simp
                simp only at h
                cases hef : encryptFields (w.conns i) b with
                | ok vs => rw [hef] at h; cases ok <;> simp at h
                | err e => rw [hef] at h; simp at h
                | panic => exact hnp hef
          · exact ⟨_, _, rfl⟩
        | changed i s en r =>
          simp only [Encrypt.step, changed, hi.smp, Bool.not_true, Bool.and_false, Bool.false_eq_true, if_false]
          exact ⟨_, _, rfl⟩
        | paired i l k => exact ⟨_, _, rfl⟩
      obtain ⟨w', out, hst⟩ := hstep
      have hi' := step_inv hp hi (fun a b hab => (hk a b (by simp [hab])).1) hst
      have := ih _ _ _ w' hi' ?_ ?_ (fun a b hab => hk a b (by simp [hab])) (fun i l k h => hs i l k (by simp [h]))
      · simp only [Encrypt.run, hst]
        cases hr : Encrypt.run J w' es with
        | none => rw [hr] at this; simp at this
        | some x => rfl
      · intro a b hab
        cases e with
        | store o =>
          cases o with
          | save x c =>
            cases c with
            | none => exact hb a b hab
            | some c =>
              simp only [peerBond] at hab
              split at hab
              · injection hab with hab; subst hab; exact (hk x c (by simp)).2
              · exact hb a b hab
          | delete x =>
            simp only [peerBond] at hab
            split at hab
            · simp at hab
            · exact hb a b hab
          | _ => exact hb a b hab
        | changed i s en r =>
          simp only [peerBond] at hab
          split at hab
          · simp at hab
          · exact hb a b hab
        | _ => exact hb a b hab
      · intro i k hik
        cases e with
        | paired j l k' =>
          simp only [shortKey] at hik
          split at hik
          · split at hik
            · injection hik with hik; subst hik; exact hs j l k' (by simp)
            · simp at hik
          · exact hsk i k hik
        | _ => exact hsk i k hik
  exact key es _ _ _ _ (init_inv J handle peer) (by simp) (by simp) hk hs

/-- A concrete history: two peers are bonded, the encryption with the second fails, a third peer pairs; then the first peer's key is used and the second peer's bond is gone. -/
theorem example_start_encryption (J : Json BondData) : ∃ w out, Encrypt.run J (Encrypt.init (fun i => UInt16.ofNat (0x40 + i)) (fun i => [1, 2, 3, 4, 5, UInt8.ofNat i]))
      [.store (.save (hexEncode [1, 2, 3, 4, 5, 0]) (some ⟨List.replicate 16 9, 0, 0, false⟩)), .store (.save (hexEncode [1, 2, 3, 4, 5, 1]) (some ⟨List.replicate 16 8, 3, 4, true⟩)),
       .start 1 none true, .changed 1 0x06 0 true, .paired 2 true [1]] = some (w, out) ∧
    SendsOnly (start J w.file (w.conns 0) (some 5) true).2.2.1 (encryptPacket 0x40 0 0 (List.replicate 16 9)) ∧ (start J w.file (w.conns 1) (some 5) true).2.2 = ([], .err .other) := by
  have hp : ∀ i : Nat, ([1, 2, 3, 4, 5, UInt8.ofNat i] : Bytes).length = 6 := fun _ => rfl
  have h := encryption_never_crashes J (fun i => UInt16.ofNat (0x40 + i)) (fun i => [1, 2, 3, 4, 5, UInt8.ofNat i]) hp
    [.store (.save (hexEncode [1, 2, 3, 4, 5, 0]) (some ⟨List.replicate 16 9, 0, 0, false⟩)), .store (.save (hexEncode [1, 2, 3, 4, 5, 1]) (some ⟨List.replicate 16 8, 3, 4, true⟩)),
     .start 1 none true, .changed 1 0x06 0 true, .paired 2 true [1]]
    (by intro a b h; simp only [List.mem_cons, Ev.store.injEq, Op.save.injEq, Option.some.injEq, reduceCtorEq, List.not_mem_nil, or_false] at h; rcases h with ⟨_, h⟩ | ⟨_, h⟩ <;> subst h <;> simp)
    (by intro i l k h; simp at h; simp [h])
  obtain ⟨⟨w, out⟩, hw⟩ := Option.isSome_iff_exists.1 h
  have hk : EvKeys [.store (.save (hexEncode [1, 2, 3, 4, 5, 0]) (some ⟨List.replicate 16 9, 0, 0, false⟩)), .store (.save (hexEncode [1, 2, 3, 4, 5, 1]) (some ⟨List.replicate 16 8, 3, 4, true⟩)),
     .start 1 none true, .changed 1 0x06 0 true, .paired 2 true [1]] := by
    intro a b h; simp only [List.mem_cons, Ev.store.injEq, Op.save.injEq, Option.some.injEq, reduceCtorEq, List.not_mem_nil, or_false] at h; rcases h with ⟨_, h⟩ | ⟨_, h⟩ <;> subst h <;> simp
  refine ⟨w, out, hw, ?_, ?_⟩
  · exact (start_encryption_uses_bond_partial J _ _ hp _ hk w out hw 0 (by decide) (by decide) ⟨List.replicate 16 9, 0, 0, false⟩ (by decide) rfl (by simp) (some 5) true).1
  · exact start_encryption_no_bond J _ _ hp _ hk w out hw 1 (by decide) (by decide) (some 5) true

end Ble.Props
