import Verif.Props.SmpExamples
set_option autoImplicit false

/-!
# C184: what a Security Request of the peer does
-/

namespace Ble.Props

open Ble.Smp SmpHonestAux SmpExampleAux Aux

variable {P : Prims}

/-- A stored key the controller is given as it is: 16 bytes, and for a key of legacy pairing an EDIV and a Rand that are not zero. -/
def Usable (b : Bond) : Prop := b.ltk.length = 16 ∧ (b.legacy = true → b.ediv ≠ 0 ∧ b.rand ≠ 0)

namespace SmpSecReqAux

/-- What `Handle` does but for results of `Pair`. -/
theorem handle_effects {e : Env P} {pdu data : Bytes} {code : UInt8} {m : Mgr P} {h : Bytes → M P Unit} (hl : m.life = .running) (hp : pdu.drop 4 = code :: data) (hh : handlerOf (P := P) code = some h) :
    (handle e pdu m).2.filter (fun x => !isResult x) = (h data e m.ctx).2.1 := by
  have quietf : ((h data e m.ctx).2.1).filter (fun x => !isResult x) = (h data e m.ctx).2.1 := by
    rw [List.filter_eq_self]
    intro x hx
    cases x with
    | pairResult b => exact absurd hx ((SmpPairAux.quiet_handler e hh data).app m.ctx b)
    | _ => rfl
  unfold handle
  rw [if_neg (by simp [hl]), hp]
  simp only [hh]
  split
  · exact quietf
  · split
    · exact quietf
    · split
      · rw [List.filter_append, quietf]; simp [isResult]
      · exact quietf
  · split
    · split
      · exact quietf
      · split
        · rw [List.filter_append, quietf]; simp [isResult]
        · exact quietf
    · exact quietf

end SmpSecReqAux

open SmpSecReqAux

/-- C184. **A bonded peer that asks for security gets encryption with the stored key**: at any time, if the request asks for bonding, the store has a usable bond for the peer and no short term key is in use, the host starts encryption with exactly that key, EDIV and Rand, and
does nothing else. -/
theorem security_request_bonded (m : Mgr P) (hl : m.life = .running) (e : Env P) (r : UInt8) (rest : Bytes) (hr : r &&& 0x03 = 0x01) (b : Bond) (hf : e.found = some b) (hu : Usable b) (hs : m.ctx.legacy = false ∨ m.ctx.stk = [])
    (hok : e.encOk = true) :
    (step m (.msg e (frame (0x0b :: r :: rest)))).2.filter (fun x => !isResult x) = [.startEnc b.ltk b.ediv b.rand] := by
  simp only [step]
  rw [handle_effects (code := 0x0b) (data := r :: rest) hl (pdu_drop _) rfl]
  have hb : bonding r = true := by simp [bonding, hr]
  unfold onSecurityRequest encrypt sendEnc key16
  obtain ⟨h1, h2⟩ := hu
  have h3 : ¬ (b.legacy && (decide (b.ltk.length ≠ 16) || decide (b.ediv = 0) || decide (b.rand = 0))) = true := by
    simp only [Bool.and_eq_true, Bool.or_eq_true, decide_eq_true_eq, not_and, not_or]
    intro hbl
    exact ⟨⟨by simp [h1], (h2 hbl).1⟩, (h2 hbl).2⟩
  have h4 : ¬ (m.ctx.legacy && decide (m.ctx.stk.length > 0)) = true := by
    rcases hs with hs | hs <;> simp [hs]
  simp only [M.bind_app, M.env_app, hb, if_true, hf, M.modify_app, M.get_app, M.ite_app, h4, Bool.false_eq_true, if_false, h3]
  simp only [M.bind_app, M.env_app, M.ite_app, M.lift_app, h1, Nat.le_refl, if_true, Nat.sub_self, List.replicate_zero, List.append_nil, hok, M.emit_app, List.nil_append]

/-- C184. While the link runs on a legacy pairing of this connection, the short term key of that pairing is used again, and not the stored bond. -/
theorem security_request_stk (m : Mgr P) (hl : m.life = .running) (e : Env P) (r : UInt8) (rest : Bytes) (hr : r &&& 0x03 = 0x01) (b : Bond) (hf : e.found = some b) (hleg : m.ctx.legacy = true) (hs : m.ctx.stk.length = 16) (hok : e.encOk = true) :
    (step m (.msg e (frame (0x0b :: r :: rest)))).2.filter (fun x => !isResult x) = [.startEnc m.ctx.stk 0 0] := by
  simp only [step]
  rw [handle_effects (code := 0x0b) (data := r :: rest) hl (pdu_drop _) rfl]
  have hb : bonding r = true := by simp [bonding, hr]
  unfold onSecurityRequest encrypt sendEnc key16
  have h4 : (m.ctx.legacy && decide (m.ctx.stk.length > 0)) = true := by simp [hleg, hs]
  simp only [M.bind_app, M.env_app, hb, if_true, hf, M.modify_app, M.get_app, M.ite_app, h4]
  simp only [if_true, M.bind_app, M.env_app, M.ite_app, M.lift_app, hs, Nat.le_refl, Nat.sub_self, List.replicate_zero, List.append_nil, hok, M.emit_app, List.nil_append]

/-- C184. A stored key of legacy pairing that is not usable: nothing is sent and nothing encrypted, also no new pairing is begun. -/
theorem security_request_unusable (m : Mgr P) (hl : m.life = .running) (e : Env P) (r : UInt8) (rest : Bytes) (hr : r &&& 0x03 = 0x01) (b : Bond) (hf : e.found = some b) (hleg : b.legacy = true) (hu : ¬ Usable b) (hs : m.ctx.legacy = false ∨ m.ctx.stk = []) :
    (step m (.msg e (frame (0x0b :: r :: rest)))).2.filter (fun x => !isResult x) = [] := by
  simp only [step]
  rw [handle_effects (code := 0x0b) (data := r :: rest) hl (pdu_drop _) rfl]
  have hb : bonding r = true := by simp [bonding, hr]
  unfold onSecurityRequest encrypt
  have h3 : (b.legacy && (decide (b.ltk.length ≠ 16) || decide (b.ediv = 0) || decide (b.rand = 0))) = true := by
    simp only [Usable, not_and, Classical.not_imp] at hu
    simp only [hleg, Bool.true_and, Bool.or_eq_true, decide_eq_true_eq]
    by_cases h1 : b.ltk.length = 16
    · obtain ⟨_, h2⟩ := hu h1
      by_cases h5 : b.ediv = 0
      · exact Or.inl (Or.inr h5)
      · exact Or.inr (Classical.byContradiction fun h6 => h2 h5 h6)
    · exact Or.inl (Or.inl h1)
  have h4 : ¬ (m.ctx.legacy && decide (m.ctx.stk.length > 0)) = true := by
    rcases hs with hs | hs <;> simp [hs]
  simp only [M.bind_app, M.env_app, hb, if_true, hf, M.modify_app, M.get_app, M.ite_app, h4, Bool.false_eq_true, if_false, h3, M.fail_app, List.append_nil]

/-- C184. **A peer that is not bonded, or does not ask for bonding, gets a Pairing Request** that asks for what the peer asked for, and nothing else. -/
theorem security_request_unbonded (m : Mgr P) (hl : m.life = .running) (e : Env P) (r : UInt8) (rest : Bytes) (hn : r &&& 0x03 ≠ 0x01 ∨ e.found = none) (hok : e.sendOk = true) :
    (step m (.msg e (frame (0x0b :: r :: rest)))).2.filter (fun x => !isResult x) =
      [.send (frame [0x01, m.ctx.request.ioCap, m.ctx.request.oobFlag, r, m.ctx.request.maxKeySize, m.ctx.request.initKeyDist, m.ctx.request.respKeyDist])] := by
  simp only [step]
  rw [handle_effects (code := 0x0b) (data := r :: rest) hl (pdu_drop _) rfl]
  have h1 : (if bonding r = true then e.found else none) = none := by
    rcases hn with h | h
    · rw [if_neg]; simp [bonding, h]
    · rw [h]; split <;> rfl
  unfold onSecurityRequest
  simp only [M.bind_app, M.env_app, h1, M.modify_app, sendPairingRequest_app, sendOut_ok _ _ _ hok, List.nil_append]
  rfl

/-- C184. After a history without legacy pairing responses the hypothesis about the short term key holds: a new connection. -/
theorem security_request_new (cfg : Config) (la ra : Bytes) (lt rt : UInt8) : (newMgr cfg la ra lt rt : Mgr P).life = .running ∧ (newMgr cfg la ra lt rt : Mgr P).ctx.legacy = false ∧ (newMgr cfg la ra lt rt : Mgr P).ctx.stk = [] := ⟨rfl, rfl, rfl⟩

/-- Bonds that are usable, and bonds that are not. -/
theorem usable_example : Usable ⟨List.replicate 16 7, 0, 0, false⟩ ∧ Usable ⟨List.replicate 16 7, 3, 4, true⟩ ∧ ¬ Usable ⟨List.replicate 16 7, 3, 0, true⟩ := by simp [Usable]

end Ble.Props
