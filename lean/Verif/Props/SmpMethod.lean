import Verif.Smp.Lemmas
set_option autoImplicit false

/-!
# C40: the pairing method
-/

namespace Ble.Props

open Ble.Smp

variable {P : Prims}

/-- The flags of a feature set, as the specification reads them. -/
def oobSet (c : Config) : Bool := c.oobFlag == 1
def mitmSet (c : Config) : Bool := c.authReq &&& 0x04 != 0

/-- The feature set a Pairing Response message carries. -/
def configOf (b0 b1 b2 b3 b4 b5 : UInt8) : Config := ⟨b0, b1, b2, b3, b4, b5⟩

/-- A Pairing Response on the security channel. -/
def pairingResponsePdu (r : Config) : Bytes := frame (buildRsp r)

namespace SmpMethodAux

theorem ofByte_cases {b : UInt8} {io : SmpSpec.IO} (h : SmpSpec.IO.ofByte b = some io) :
    (b = 0 ∧ io = .displayOnly) ∨ (b = 1 ∧ io = .displayYesNo) ∨ (b = 2 ∧ io = .keyboardOnly) ∨ (b = 3 ∧ io = .none) ∨ (b = 4 ∧ io = .keyboardDisplay) := by
  unfold SmpSpec.IO.ofByte at h
  split at h
  · simp_all
  · split at h
    · simp_all
    · split at h
      · simp_all
      · split at h
        · simp_all
        · split at h
          · simp_all
          · simp at h

theorem table_ok {q r : UInt8} {i j : SmpSpec.IO} (hi : SmpSpec.IO.ofByte q = some i) (hj : SmpSpec.IO.ofByte r = some j) (legacy : Bool) :
    (((if legacy then tableLegacy else tableSC).getD r.toNat []).getD q.toNat Method.justWorks) = SmpSpec.ioMethod (!legacy) i j ∧ ¬ (r ≥ 5) ∧ ¬ (q ≥ 5) := by
  rcases ofByte_cases hi with ⟨rfl, rfl⟩ | ⟨rfl, rfl⟩ | ⟨rfl, rfl⟩ | ⟨rfl, rfl⟩ | ⟨rfl, rfl⟩ <;>
  rcases ofByte_cases hj with ⟨rfl, rfl⟩ | ⟨rfl, rfl⟩ | ⟨rfl, rfl⟩ | ⟨rfl, rfl⟩ | ⟨rfl, rfl⟩ <;>
  cases legacy <;> decide

theorem pdu_drop (b : Bytes) : (frame b).drop 4 = b := by simp [frame, put16]

theorem sendMConfirm_fields (e : Env P) (c : Ctx P) :
    (sendMConfirm e c).1.method = c.method ∧ (sendMConfirm e c).1.legacy = c.legacy ∧ (sendMConfirm e c).1.response = c.response ∧ (sendMConfirm e c).1.request = c.request := by
  rw [Aux.sendMConfirm_app]
  split <;> simp [Aux.sendOut_ctx]

theorem sendPublicKey_fields (e : Env P) (c : Ctx P) :
    (sendPublicKey e c).1.method = c.method ∧ (sendPublicKey e c).1.legacy = c.legacy ∧ (sendPublicKey e c).1.response = c.response ∧ (sendPublicKey e c).1.request = c.request := by
  rw [Aux.sendPublicKey_app]
  simp [Aux.sendOut_ctx]

theorem onPairingResponse_fields (e : Env P) (c : Ctx P) (r : Config) :
    (onPairingResponse [r.ioCap, r.oobFlag, r.authReq, r.maxKeySize, r.initKeyDist, r.respKeyDist] e c).1.method = determineMethod c.request r (isLegacy r.authReq) ∧
    (onPairingResponse [r.ioCap, r.oobFlag, r.authReq, r.maxKeySize, r.initKeyDist, r.respKeyDist] e c).1.legacy = isLegacy r.authReq ∧
    (onPairingResponse [r.ioCap, r.oobFlag, r.authReq, r.maxKeySize, r.initKeyDist, r.respKeyDist] e c).1.response = r ∧
    (onPairingResponse [r.ioCap, r.oobFlag, r.authReq, r.maxKeySize, r.initKeyDist, r.respKeyDist] e c).1.request = c.request := by
  simp only [onPairingResponse, M.bind_app, M.env_app, M.modify_app, M.get_app, M.ite_app, M.fail_app]
  split
  · simp
  · split
    · have := sendMConfirm_fields e { c with response := r, iter := 0, legacy := isLegacy r.authReq, method := determineMethod c.request r (isLegacy r.authReq) }
      exact this
    · have := sendPublicKey_fields e { c with response := r, iter := 0, legacy := isLegacy r.authReq, method := determineMethod c.request r (isLegacy r.authReq) }
      exact this

theorem handle_response_ctx {m : Mgr P} (hm : m.life = .running) (e : Env P) (r : Config) :
    (handle e (pairingResponsePdu r) m).1.ctx.method = determineMethod m.ctx.request r (isLegacy r.authReq) ∧
    (handle e (pairingResponsePdu r) m).1.ctx.legacy = isLegacy r.authReq ∧
    (handle e (pairingResponsePdu r) m).1.ctx.response = r ∧
    (handle e (pairingResponsePdu r) m).1.ctx.request = m.ctx.request := by
  have hf := onPairingResponse_fields e m.ctx r
  unfold handle pairingResponsePdu
  rw [pdu_drop]
  simp only [hm, ne_eq, not_true, if_false, buildRsp]
  rw [show handlerOf (P := P) 0x02 = some onPairingResponse from rfl]
  dsimp only
  split
  · exact hf
  · split
    · exact hf
    · split
      · exact hf
      · exact hf
  · split
    · split
      · exact hf
      · split
        · exact hf
        · exact hf
    · exact hf

/-- The choice, apart from the exception, is the specification's. -/
theorem determine_eq {q r : Config} {i j : SmpSpec.IO} (hi : SmpSpec.IO.ofByte q.ioCap = some i) (hj : SmpSpec.IO.ofByte r.ioCap = some j) (l : Bool)
    (hoob : l = false ∨ oobSet q = oobSet r) :
    determineMethod q r l = SmpSpec.pairingMethod (!l) (oobSet q) (oobSet r) (mitmSet q) (mitmSet r) i j := by
  have ht := table_ok hi hj l
  unfold determineMethod SmpSpec.pairingMethod
  rw [ht.1]
  simp only [ht.2.1, ht.2.2]
  unfold oobSet mitmSet at *
  revert hoob
  generalize (q.oobFlag == 1) = a
  generalize (r.oobFlag == 1) = b
  have hne : ∀ x : UInt8, (x != 0) = !(x == 0) := fun x => rfl
  simp only [hne]
  generalize (q.authReq &&& 4 == 0) = x
  generalize (r.authReq &&& 4 == 0) = y
  intro hoob
  cases l <;> cases a <;> cases b <;> cases x <;> cases y <;> simp_all

end SmpMethodAux

open SmpMethodAux

/-- C40 (partial). For assigned IO capabilities, the method used after a Pairing Response is the specification's, for the feature set of the host's own request and the response, except when
the response lacks the secure connections bit and exactly one side has the OOB flag. "Secure" here is the response's bit; see `secure_connections_used`. -/
theorem pairing_method_partial {m : Mgr P} (hm : m.life = .running) (e : Env P) (r : Config) {i j : SmpSpec.IO}
    (hi : SmpSpec.IO.ofByte m.ctx.request.ioCap = some i) (hj : SmpSpec.IO.ofByte r.ioCap = some j)
    (hoob : r.authReq &&& 0x08 = 0x08 ∨ oobSet m.ctx.request = oobSet r) :
    (handle e (pairingResponsePdu r) m).1.ctx.method =
      SmpSpec.pairingMethod (r.authReq &&& 0x08 == 0x08) (oobSet m.ctx.request) (oobSet r) (mitmSet m.ctx.request) (mitmSet r) i j := by
  rw [(handle_response_ctx hm e r).1]
  have hl : (r.authReq &&& 0x08 == 0x08) = !isLegacy r.authReq := by unfold isLegacy; cases r.authReq &&& 0x08 == 0x08 <;> rfl
  have hl' : r.authReq &&& 0x08 = 0x08 ↔ isLegacy r.authReq = false := by
    unfold isLegacy; by_cases h : r.authReq &&& 0x08 = 0x08 <;> simp [h]
  rw [hl'] at hoob
  rw [hl]
  exact determine_eq hi hj _ hoob

/-- C40. The response is treated as secure connections exactly when both sides set the bit, as long as the host's own request has it. -/
theorem secure_connections_used {m : Mgr P} (hm : m.life = .running) (e : Env P) (r : Config) (hreq : m.ctx.request.authReq &&& 0x08 = 0x08) :
    (handle e (pairingResponsePdu r) m).1.ctx.legacy = !SmpSpec.usesSecure m.ctx.request.authReq r.authReq := by
  rw [(handle_response_ctx hm e r).2.1]
  simp only [SmpSpec.usesSecure, hreq, isLegacy]
  cases r.authReq &&& 0x08 == 0x08 <;> rfl

/-- C40, negative. In legacy pairing with exactly one OOB flag set the library uses OOB; the specification never does. -/
theorem legacy_one_sided_oob {m : Mgr P} (hm : m.life = .running) (e : Env P) (r : Config) (i j : SmpSpec.IO)
    (hl : ¬ r.authReq &&& 0x08 = 0x08) (hoob : oobSet m.ctx.request ≠ oobSet r) :
    (handle e (pairingResponsePdu r) m).1.ctx.method = .oob ∧
    SmpSpec.pairingMethod false (oobSet m.ctx.request) (oobSet r) (mitmSet m.ctx.request) (mitmSet r) i j ≠ .oob := by
  rw [(handle_response_ctx hm e r).1]
  unfold determineMethod SmpSpec.pairingMethod SmpSpec.ioMethod
  unfold oobSet at *
  constructor
  · cases h1 : m.ctx.request.oobFlag == 1 <;> cases h2 : r.oobFlag == 1 <;> simp_all
  · cases h1 : m.ctx.request.oobFlag == 1 <;> cases h2 : r.oobFlag == 1 <;> simp_all <;> (repeat' split) <;> simp

/-- C40, negative. Without the secure connections bit in the host's own request (see `security_request_downgrades`), a response with the bit is treated as secure connections,
while the specification uses legacy pairing. -/
theorem secure_despite_legacy_request {m : Mgr P} (hm : m.life = .running) (e : Env P) (r : Config) (hreq : ¬ m.ctx.request.authReq &&& 0x08 = 0x08)
    (hr : r.authReq &&& 0x08 = 0x08) :
    (handle e (pairingResponsePdu r) m).1.ctx.legacy = false ∧ SmpSpec.usesSecure m.ctx.request.authReq r.authReq = false := by
  rw [(handle_response_ctx hm e r).2.1]
  simp [SmpSpec.usesSecure, hreq, isLegacy, hr]

/-- C40. Unassigned IO capabilities on either side give just works. -/
theorem unassigned_io_just_works {m : Mgr P} (hm : m.life = .running) (e : Env P) (r : Config) (h1 : oobSet m.ctx.request = false) (h2 : oobSet r = false)
    (h : SmpSpec.IO.ofByte m.ctx.request.ioCap = none ∨ SmpSpec.IO.ofByte r.ioCap = none) :
    (handle e (pairingResponsePdu r) m).1.ctx.method = .justWorks := by
  rw [(handle_response_ctx hm e r).1]
  have hb : ∀ b : UInt8, SmpSpec.IO.ofByte b = none → b ≥ 5 := by
    intro b hb
    show (5 : UInt8) ≤ b
    rw [UInt8.le_iff_toNat_le]
    apply Classical.byContradiction
    intro hn
    have : b.toNat = 0 ∨ b.toNat = 1 ∨ b.toNat = 2 ∨ b.toNat = 3 ∨ b.toNat = 4 := by
      have : (5 : UInt8).toNat = 5 := rfl
      omega
    have key : b = 0 ∨ b = 1 ∨ b = 2 ∨ b = 3 ∨ b = 4 := by
      rcases this with h | h | h | h | h
      · exact Or.inl (UInt8.toNat_inj.1 h)
      · exact Or.inr (Or.inl (UInt8.toNat_inj.1 h))
      · exact Or.inr (Or.inr (Or.inl (UInt8.toNat_inj.1 h)))
      · exact Or.inr (Or.inr (Or.inr (Or.inl (UInt8.toNat_inj.1 h))))
      · exact Or.inr (Or.inr (Or.inr (Or.inr (UInt8.toNat_inj.1 h))))
    rcases key with rfl | rfl | rfl | rfl | rfl <;> simp [SmpSpec.IO.ofByte] at hb
  unfold oobSet at h1 h2
  unfold determineMethod
  rw [h1, h2]
  simp only [Bool.false_and, Bool.and_false, Bool.false_eq_true, if_false, Bool.or_self]
  split
  · rfl
  · rw [if_pos]
    rcases h with h | h
    · simp [hb _ h]
    · simp [hb _ h]

/-- The hypotheses are met: a new connection, a peer with a keyboard and a display that asks for MITM protection. Numeric comparison is chosen. -/
theorem pairing_method_example (P : Prims) (e : Env P) : ∃ m : Mgr P, m.life = .running ∧ (handle e (pairingResponsePdu ⟨4, 0, 0x0d, 16, 0, 1⟩) m).1.ctx.method = .numericComp :=
  ⟨newMgr defaultConfig [1, 2, 3, 4, 5, 6] [7, 8, 9, 10, 11, 12] 0 0, rfl,
    by rw [pairing_method_partial (i := .keyboardDisplay) (j := .keyboardDisplay) rfl e _ rfl rfl (Or.inl (by decide))]; show SmpSpec.pairingMethod _ (oobSet defaultConfig) _ (mitmSet defaultConfig) _ _ _ = _; decide⟩

end Ble.Props
