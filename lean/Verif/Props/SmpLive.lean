import Verif.Props.SmpBond
set_option autoImplicit false

/-!
# C54: messages that crash the process or stop reception; C55: what `Pair` can return, and how often
-/

namespace Ble.Props

open Ble.Smp

variable {P : Prims}

namespace SmpLiveAux
open SmpHonestAux SmpBondAux Aux

/-- Sizes that every reachable context has. -/
structure WF (c : Ctx P) : Prop where
  la : c.localAddr.length = 6
  ra : c.remoteAddr.length = 6
  stk : c.stk.length ≤ 16
  bond : ∀ b, c.bond = some b → b.legacy = false → b.ltk.length ≤ 16

/-- Sizes of what the environment supplies: random numbers have 16 bytes, and stored keys at most 16. -/
structure EnvWF (e : Env P) : Prop where
  rnd : e.rnd.length = 16
  found : ∀ b, e.found = some b → b.legacy = false → b.ltk.length ≤ 16

theorem encrypt_np (e : Env P) {c : Ctx P} (hs : c.stk.length ≤ 16) (hb : ∀ b, c.bond = some b → b.legacy = false → b.ltk.length ≤ 16) : (encrypt e c).2.2 ≠ .panic := by
  have hk : ∀ k : Bytes, k.length ≤ 16 → ∃ v, key16 k = .ok v := fun k h => ⟨_, if_pos h⟩
  unfold encrypt
  simp only [M.bind_app, M.get_app, M.ite_app]
  split
  · obtain ⟨v, hv⟩ := hk _ hs
    cases he : e.encOk <;> simp [sendEnc, hv, he]
  · cases hbd : c.bond with
    | none => simp
    | some b =>
      simp only [M.ite_app]
      split
      · simp
      · rename_i hn
        have : b.ltk.length ≤ 16 := by
          cases hl : b.legacy with
          | false => exact hb b hbd hl
          | true =>
            simp [hl] at hn
            omega
        obtain ⟨v, hv⟩ := hk _ this
        cases he : e.encOk <;> simp [sendEnc, hv, he]

theorem sendOut_np (e : Env P) (c : Ctx P) (b : Bytes) : (sendOut e c b).2.2 ≠ .panic := by unfold sendOut; split <;> simp

theorem saveBondInfo_np (e : Env P) (c : Ctx P) : (saveBondInfo e c).2.2 ≠ .panic := by
  cases hb : bonding c.request.authReq <;> cases hbd : c.bond <;> cases ho : e.saveOk <;> simp [saveBondInfo, hb, hbd, ho]

theorem saveBondInfo_ctx (e : Env P) (c : Ctx P) : (saveBondInfo e c).1 = c := by
  cases hb : bonding c.request.authReq <;> cases hbd : c.bond <;> cases ho : e.saveOk <;> simp [saveBondInfo, hb, hbd, ho]

theorem cmac_np (k m : Bytes) : aesCMAC P k m ≠ .panic := by unfold aesCMAC; split <;> simp
theorem f4_np (u v x : Bytes) (z : UInt8) : smpF4 P u v x z ≠ .panic := by
  unfold smpF4
  repeat' split
  all_goals first | exact cmac_np _ _ | simp
theorem f6_np (w n1 n2 r io a1 a2 : Bytes) : smpF6 P w n1 n2 r io a1 a2 ≠ .panic := by
  unfold smpF6
  split
  · simp
  · exact cmac_np _ _
theorem f5_np (w n1 n2 a1 a2 : Bytes) : smpF5 P w n1 n2 a1 a2 ≠ .panic := by
  intro h
  unfold smpF5 at h
  repeat' split at h
  all_goals try (simp at h; done)
  rcases Go.bind_eq_panic.1 h with h | ⟨t, _, h⟩
  · exact cmac_np _ _ h
  rcases Go.bind_eq_panic.1 h with h | ⟨t, _, h⟩
  · exact cmac_np _ _ h
  rcases Go.bind_eq_panic.1 h with h | ⟨t, _, h⟩
  · exact cmac_np _ _ h
  simp at h

theorem response_np (e : Env P) (he : EnvWF e) {c : Ctx P} (hw : WF c) (b : Bytes) : (onPairingResponse b e c).2.2 ≠ .panic := by
  unfold onPairingResponse
  split
  · rename_i b0 b1 b2 b3 b4 b5 t
    simp only [M.bind_app, M.modify_app, M.get_app, M.ite_app]
    split
    · simp
    · split
      · rw [sendMConfirm_app, c1_ok P (legacyTK_length _) he.rnd rfl rfl hw.la hw.ra]
        exact sendOut_np _ _ _
      · rw [sendPublicKey_app]; exact sendOut_np _ _ _
  · simp

theorem confirm_np (e : Env P) (c : Ctx P) (b : Bytes) : (onPairingConfirm b e c).2.2 ≠ .panic := by
  rw [onPairingConfirm_app]
  split
  · simp
  · exact sendOut_np _ _ _

theorem legacy_np (e : Env P) {c : Ctx P} (hw : WF c) (hr : c.remoteRandom.length = 16) : (onLegacyRandom e c).2.2 ≠ .panic := by
  rw [SmpLegacyAux.onLegacyRandom_match, checkLegacyConfirm_iff hr hw.la hw.ra]
  split
  · split
    · rename_i stk hs
      have hst : stk.length = 16 := by
        unfold smpS1 at hs
        split at hs
        · simp at hs
        split at hs
        · simp at hs
        split at hs
        · simp at hs
        rename_i h1 h2 h3
        rw [e_ok P (by simpa using h1) (by simp_all)] at hs
        rw [← Go.ok.inj hs]; simp [P.aes_length]
      split
      · exact encrypt_np e (c := { c with stk := stk, state := .finished }) (by simp [hst]) hw.bond
      · exact encrypt_np e (c := { c with stk := stk }) (by simp [hst]) hw.bond
    · simp
    · rename_i hs
      exfalso
      unfold smpS1 at hs
      split at hs
      · simp at hs
      split at hs
      · simp at hs
      split at hs
      · simp at hs
      rename_i h1 h2 h3
      rw [e_ok P (by simpa using h1) (by simp_all)] at hs
      simp at hs
  · simp
  · rename_i h; split at h <;> simp at h

theorem stage2_np (e : Env P) (c : Ctx P) : (stage2 e c).2.2 ≠ .panic := by
  have hs : ∀ c : Ctx P, (sendDHKeyCheck e c).2.2 ≠ .panic := by
    intro c
    cases h : smpF6 P c.macKey (c.localRandom.getD []) c.remoteRandom (checkR c) (ioCapBytes c.request) (typed c.localAddr c.localAddrType) (typed c.remoteAddr c.remoteAddrType) with
    | ok v => cases h' : e.sendOk <;> simp [sendDHKeyCheck, h, send_app, sendOut, h']
    | err u => simp [sendDHKeyCheck, h]
    | panic => exact absurd h (f6_np _ _ _ _ _ _ _)
  cases hkeys : c.keys with
  | none => simp [stage2, calcMacLtk, generateDHKey, hkeys]
  | some k =>
    cases hpub : c.remotePub with
    | none => simp [stage2, calcMacLtk, generateDHKey, hkeys, hpub]
    | some b =>
      cases hf : smpF5 P (generateSecret P k.priv b) (c.localRandom.getD []) c.remoteRandom (typed c.localAddr c.localAddrType) (typed c.remoteAddr c.remoteAddrType) with
      | err u => simp [stage2, calcMacLtk, generateDHKey, hkeys, hpub, hf]
      | panic => exact absurd hf (f5_np _ _ _ _ _)
      | ok r =>
        have : stage2 e c = sendDHKeyCheck e { c with dhKey := generateSecret P k.priv b, bond := some ⟨r.2, 0, 0, false⟩, macKey := r.1 } := by
          simp [stage2, calcMacLtk, generateDHKey, hkeys, hpub, hf]
        rw [this]; exact hs _

theorem gen_np {c : Ctx P} (hk : c.keys.isSome) (hp : c.remotePub.isSome) (n : Bytes) : generatePassKeyConfirm c n ≠ .panic := by
  obtain ⟨k, hk⟩ := Option.isSome_iff_exists.1 hk
  obtain ⟨b, hp⟩ := Option.isSome_iff_exists.1 hp
  unfold generatePassKeyConfirm
  rw [bothX_ok hk hp]
  simp only [Go.bind_ok]
  split <;> simp

theorem continue_np (e : Env P) {c : Ctx P} (hk : c.keys.isSome) (hp : c.remotePub.isSome) : (continuePassKeyPairing e c).2.2 ≠ .panic := by
  cases h : generatePassKeyConfirm c e.rnd with
  | ok v => cases hs : e.sendOk <;> simp [continuePassKeyPairing, h, hs]
  | err u => simp [continuePassKeyPairing, h]
  | panic => exact absurd h (gen_np hk hp _)

/-- Exactly when a Pairing Random of the right length panics. -/
theorem random_panic (e : Env P) {c : Ctx P} (hw : WF c) (b : Bytes) :
    (onPairingRandom b e c).2.2 = .panic ↔ b.length = 16 ∧ c.legacy = false ∧ (c.keys = none ∨ c.remotePub = none) := by
  rw [onPairingRandom_app]
  split
  · rename_i h; simp [h]
  · rename_i hl
    have hl : b.length = 16 := by simpa using hl
    split
    · rename_i hleg
      constructor
      · intro h; exact absurd h (legacy_np e (c := { c with remoteRandom := b }) ⟨hw.la, hw.ra, hw.stk, hw.bond⟩ hl)
      · intro h; rw [h.2.1] at hleg; simp at hleg
    · rename_i hleg
      have hleg : c.legacy = false := by simpa using hleg
      by_cases hkp : c.keys = none ∨ c.remotePub = none
      · refine ⟨fun _ => ⟨hl, hleg, hkp⟩, fun _ => ?_⟩
        have hbx : bothX { c with remoteRandom := b } = .panic := by
          unfold bothX
          rcases hkp with h | h
          · cases h' : c.remotePub <;> simp [h, h']
          · simp [h]
        by_cases hm : c.method = .passkey
        · rw [onSecureRandom_pk e (c := { c with remoteRandom := b }) hm]
          have : checkPasskeyConfirm { c with remoteRandom := b } = .panic := by unfold checkPasskeyConfirm; rw [hbx]; rfl
          rw [this]
        · rw [onSecureRandom_np e (c := { c with remoteRandom := b }) hm]
          have : checkConfirm { c with remoteRandom := b } = .panic := by unfold checkConfirm; rw [hbx]; rfl
          rw [this]
      · refine ⟨fun h => absurd h ?_, fun h => absurd h.2.2 hkp⟩
        have hk : c.keys.isSome := by cases h : c.keys <;> simp_all
        have hp : c.remotePub.isSome := by cases h : c.remotePub <;> simp_all
        obtain ⟨k, hk'⟩ := Option.isSome_iff_exists.1 hk
        obtain ⟨q, hp'⟩ := Option.isSome_iff_exists.1 hp
        by_cases hm : c.method = .passkey
        · rw [onSecureRandom_pk e (c := { c with remoteRandom := b }) hm, checkPasskeyConfirm_iff (c := { c with remoteRandom := b }) hk' hp' hl]
          split
          · dsimp only; split
            · exact continue_np e (c := { c with remoteRandom := b, iter := c.iter + 1 }) hk hp
            · exact stage2_np _ _
          · simp
          · rename_i h; split at h <;> simp at h
        · rw [onSecureRandom_np e (c := { c with remoteRandom := b }) hm, checkConfirm_iff (c := { c with remoteRandom := b }) hk' hp' hl]
          split
          · exact stage2_np _ _
          · simp
          · rename_i h; split at h <;> simp at h

/-- Exactly when a public key panics. -/
theorem pk_panic (e : Env P) (c : Ctx P) (b : Bytes) : (onPublicKey b e c).2.2 = .panic ↔ b.length = 64 ∧ c.keys = none := by
  unfold onPublicKey
  rw [M.ite_app]
  split
  · rename_i h; simp [h]
  · rename_i hl
    have hl : b.length = 64 := by simpa using hl
    simp only [M.bind_app, M.get_app]
    cases hk : c.keys with
    | none => simp [hl]
    | some k =>
      simp only [M.ite_app]
      split
      · simp
      · cases hu : unmarshalPub P b with
        | none => simp
        | some p =>
          simp only [M.bind_app, M.modify_app, M.get_app, M.ite_app]
          split
          · have : startPassKeyPairing e { c with remotePub := some p } = continuePassKeyPairing e { c with remotePub := some p, iter := 0 } := by
              simp [startPassKeyPairing]
            rw [this]
            have := continue_np e (c := { c with remotePub := some p, iter := 0 }) (by simp [hk]) rfl
            simp [this]
          · simp

theorem dhcheck_np (e : Env P) {c : Ctx P} (hw : WF c) (b : Bytes) : (onDHKeyCheck b e c).2.2 ≠ .panic := by
  rw [onDHKeyCheck_match]
  split
  · unfold afterCheck
    rw [M.bind_app]
    have h1 := saveBondInfo_np e { c with remoteCheck := b }
    have h2 := saveBondInfo_ctx e { c with remoteCheck := b }
    rcases hs : saveBondInfo e { c with remoteCheck := b } with ⟨c1, w1, o⟩
    rw [hs] at h1 h2
    cases o with
    | panic => exact absurd rfl h1
    | err u => simp
    | ok u =>
      simp only [M.bind_app, M.modify_app]
      simp only at h2
      subst h2
      exact encrypt_np e (c := { c with remoteCheck := b, state := .finished }) hw.stk hw.bond
  · simp
  · rename_i h
    exfalso
    unfold checkDHKeyCheck at h
    rcases Go.bind_eq_panic.1 h with h | ⟨t, _, h⟩
    · exact f6_np _ _ _ _ _ _ _ h
    · split at h <;> simp at h

theorem security_np (e : Env P) (he : EnvWF e) {c : Ctx P} (hw : WF c) (b : Bytes) : (onSecurityRequest b e c).2.2 ≠ .panic := by
  unfold onSecurityRequest
  cases b with
  | nil => simp
  | cons r t =>
    simp only [M.bind_app, M.env_app]
    have h0 : (sendPairingRequest e { c with request := { c.request with authReq := r } }).2.2 ≠ .panic := by rw [sendPairingRequest_app]; exact sendOut_np _ _ _
    by_cases hb : bonding r
    · rw [if_pos hb]
      cases hf : e.found with
      | none => simp only [M.bind_app, M.modify_app]; exact h0
      | some bi =>
        simp only [M.bind_app, M.modify_app]
        exact encrypt_np e (c := { c with bond := some bi }) hw.stk (fun b h => by cases h; exact he.found _ hf)
    · rw [if_neg hb]
      simp only [M.bind_app, M.modify_app]; exact h0

/-- Exactly when a Master Identification panics. -/
theorem master_panic (e : Env P) (c : Ctx P) (b : Bytes) : (onMasterIdentification b e c).2.2 = .panic ↔ b.length < 10 ∨ c.bond = none := by
  unfold onMasterIdentification
  rw [M.ite_app]
  split
  · rename_i h; simp [h]
  · rename_i h
    simp only [M.bind_app, M.get_app, h, false_or]
    cases hb : c.bond with
    | none => simp
    | some bi =>
      simp only [M.bind_app, M.modify_app]
      have h1 := saveBondInfo_np e { c with bond := some ⟨bi.ltk, le16 (b.getD 0 0) (b.getD 1 0), le64 (b.drop 2), true⟩ }
      rcases hs : saveBondInfo e { c with bond := some ⟨bi.ltk, le16 (b.getD 0 0) (b.getD 1 0), le64 (b.drop 2), true⟩ } with ⟨c1, w1, o⟩
      rw [hs] at h1
      cases o with
      | panic => exact absurd rfl h1
      | err u => simp
      | ok u => simp

/-- The sizes are kept. -/
def wfRel : Rel P where
  rel c c' _ := WF c → WF c'
  refl _ := id
  trans h1 h2 := fun h => h2 (h1 h)

theorem wf_send (e : Env P) (b : Bytes) : Holds wfRel e (send b) := by
  unfold send; holds; exact fun _ => id
theorem wf_encrypt (e : Env P) : Holds wfRel e encrypt := by
  unfold encrypt sendEnc; holds <;> exact fun _ => id
theorem wf_save (e : Env P) : Holds wfRel e saveBondInfo := by
  unfold saveBondInfo; holds <;> exact fun _ => id

/-- A change that does not concern the sizes. -/
theorem wf_same {c c' : Ctx P} (h1 : c'.localAddr = c.localAddr) (h2 : c'.remoteAddr = c.remoteAddr) (h3 : c'.stk = c.stk) (h4 : c'.bond = c.bond) : WF c → WF c' :=
  fun h => ⟨by rw [h1]; exact h.la, by rw [h2]; exact h.ra, by rw [h3]; exact h.stk, by rw [h4]; exact h.bond⟩

theorem wf_continue (e : Env P) : Holds wfRel e continuePassKeyPairing := by
  unfold continuePassKeyPairing; holds <;> intro c <;> first | exact id | exact wf_same rfl rfl rfl rfl

theorem wf_check (e : Env P) : Holds wfRel e sendDHKeyCheck := by
  have := wf_send e
  unfold sendDHKeyCheck; holds; intro c; exact wf_same rfl rfl rfl rfl

theorem wf_calc (e : Env P) : Holds wfRel e calcMacLtk := by
  constructor; intro c hw
  cases hkeys : c.keys with
  | none => simpa [calcMacLtk, generateDHKey, hkeys] using hw
  | some k =>
    cases hpub : c.remotePub with
    | none => simpa [calcMacLtk, generateDHKey, hkeys, hpub] using hw
    | some b =>
      cases hf : smpF5 P (generateSecret P k.priv b) (c.localRandom.getD []) c.remoteRandom (typed c.localAddr c.localAddrType) (typed c.remoteAddr c.remoteAddrType) with
      | err u => simp only [calcMacLtk, generateDHKey, M.bind_app, M.get_app, hkeys, hpub, M.modify_app, M.lift_app, hf]; exact ⟨hw.la, hw.ra, hw.stk, hw.bond⟩
      | panic => simp only [calcMacLtk, generateDHKey, M.bind_app, M.get_app, hkeys, hpub, M.modify_app, M.lift_app, hf]; exact ⟨hw.la, hw.ra, hw.stk, hw.bond⟩
      | ok r =>
        obtain ⟨mk, ltk⟩ := r
        simp only [calcMacLtk, generateDHKey, M.bind_app, M.get_app, hkeys, hpub, M.modify_app, M.lift_app, hf]
        refine ⟨hw.la, hw.ra, hw.stk, ?_⟩
        intro bd hbd _
        cases hbd
        rw [(f5_inv hf).2]
        simp [SmpSpec.ltk, SmpSpec.f5, P.cmac_length]

theorem s1_length {k r1 r2 stk : Bytes} (hs : smpS1 P k r1 r2 = .ok stk) : stk.length = 16 := by
  unfold smpS1 at hs
  split at hs
  · simp at hs
  split at hs
  · simp at hs
  split at hs
  · simp at hs
  rename_i h1 h2 h3
  rw [e_ok P (by simpa using h1) (by simp_all)] at hs
  rw [← Go.ok.inj hs]; simp [P.aes_length]

theorem wf_legacy (e : Env P) : Holds wfRel e onLegacyRandom := by
  constructor; intro c hw
  rw [SmpLegacyAux.onLegacyRandom_match]
  split
  · split
    · rename_i stk hs
      split
      · exact (wf_encrypt e).app _ ⟨hw.la, hw.ra, by simp [s1_length hs], hw.bond⟩
      · exact (wf_encrypt e).app _ ⟨hw.la, hw.ra, by simp [s1_length hs], hw.bond⟩
    · exact hw
    · exact hw
  · exact hw
  · exact hw

theorem wf_confirm (e : Env P) (b : Bytes) : Holds wfRel e (onPairingConfirm b) := by
  constructor; intro c hw
  rw [onPairingConfirm_app]
  split
  · exact hw
  · rw [sendOut_ctx]; exact ⟨hw.la, hw.ra, hw.stk, hw.bond⟩

theorem wf_pubkey (e : Env P) : Holds wfRel e sendPublicKey := by
  constructor; intro c hw
  rw [sendPublicKey_app, sendOut_ctx]; exact ⟨hw.la, hw.ra, hw.stk, hw.bond⟩

theorem wf_mconfirm (e : Env P) : Holds wfRel e sendMConfirm := by
  constructor; intro c hw
  rw [sendMConfirm_app]
  split
  · rw [sendOut_ctx]; exact ⟨hw.la, hw.ra, hw.stk, hw.bond⟩
  · exact ⟨hw.la, hw.ra, hw.stk, hw.bond⟩
  · exact ⟨hw.la, hw.ra, hw.stk, hw.bond⟩

theorem wf_response (e : Env P) (b : Bytes) : Holds wfRel e (onPairingResponse b) := by
  have h1 := wf_pubkey e
  have h2 := wf_mconfirm e
  unfold onPairingResponse; holds <;> intro c hw <;> exact ⟨hw.la, hw.ra, hw.stk, hw.bond⟩

theorem wf_stage2 (e : Env P) : Holds wfRel e stage2 := by
  have h1 := wf_calc e
  have h2 := wf_check e
  unfold stage2; holds

theorem wf_random (e : Env P) (b : Bytes) : Holds wfRel e (onPairingRandom b) := by
  constructor; intro c hw
  rw [onPairingRandom_app]
  split
  · exact hw
  · have hw1 : WF { c with remoteRandom := b } := ⟨hw.la, hw.ra, hw.stk, hw.bond⟩
    split
    · exact (wf_legacy e).app _ hw1
    · by_cases hm : c.method = .passkey
      · rw [onSecureRandom_pk e (c := { c with remoteRandom := b }) hm]
        split
        · dsimp only
          split
          · exact (wf_continue e).app _ ⟨hw.la, hw.ra, hw.stk, hw.bond⟩
          · exact (wf_stage2 e).app _ ⟨hw.la, hw.ra, hw.stk, hw.bond⟩
        · exact hw1
        · exact hw1
      · rw [onSecureRandom_np e (c := { c with remoteRandom := b }) hm]
        split
        · exact (wf_stage2 e).app _ hw1
        · exact hw1
        · exact hw1

theorem wf_pk (e : Env P) (b : Bytes) : Holds wfRel e (onPublicKey b) := by
  have h1 := wf_continue e
  unfold onPublicKey startPassKeyPairing; holds <;> intro c hw <;> exact ⟨hw.la, hw.ra, hw.stk, hw.bond⟩

theorem wf_dhcheck (e : Env P) (b : Bytes) : Holds wfRel e (onDHKeyCheck b) := by
  have h1 := wf_save e
  have h2 := wf_encrypt e
  unfold onDHKeyCheck; holds <;> intro c hw <;> exact ⟨hw.la, hw.ra, hw.stk, hw.bond⟩

theorem wf_handler (e : Env P) (he : EnvWF e) {code : UInt8} {h : Bytes → M P Unit} (hh : handlerOf code = some h) (b : Bytes) : Holds wfRel e (h b) := by
  unfold handlerOf at hh
  split at hh
  · cases hh
    exact wf_response e b
  split at hh
  · cases hh
    exact wf_confirm e b
  split at hh
  · cases hh
    exact wf_random e b
  split at hh
  · cases hh; exact Holds.fail
  split at hh
  · cases hh
    constructor; intro c hw
    refine ⟨hw.la, hw.ra, hw.stk, ?_⟩
    intro bd hbd hl
    cases hbd
    simp at hl
  split at hh
  · cases hh
    constructor; intro c hw
    unfold onMasterIdentification
    rw [M.ite_app]
    split
    · exact hw
    · simp only [M.bind_app, M.get_app]
      cases hb : c.bond with
      | none => exact hw
      | some bi =>
        simp only [M.bind_app, M.modify_app]
        have hc := saveBondInfo_ctx e { c with bond := some ⟨bi.ltk, le16 (b.getD 0 0) (b.getD 1 0), le64 (b.drop 2), true⟩ }
        rcases hs : saveBondInfo e { c with bond := some ⟨bi.ltk, le16 (b.getD 0 0) (b.getD 1 0), le64 (b.drop 2), true⟩ } with ⟨c1, w1, o⟩
        rw [hs] at hc
        simp only at hc
        subst hc
        have : ∀ s, WF { c with bond := some ⟨bi.ltk, le16 (b.getD 0 0) (b.getD 1 0), le64 (b.drop 2), true⟩, state := s } := fun s =>
          ⟨hw.la, hw.ra, hw.stk, fun bd hbd hl => by cases hbd; simp at hl⟩
        cases o <;> exact this _
  split at hh
  · cases hh
    constructor; intro c hw
    unfold onSecurityRequest
    cases b with
    | nil => exact hw
    | cons r t =>
      simp only [M.bind_app, M.env_app]
      have h0 : WF (sendPairingRequest e { c with request := { c.request with authReq := r } }).1 := by rw [sendPairingRequest_app, sendOut_ctx]; exact ⟨hw.la, hw.ra, hw.stk, hw.bond⟩
      by_cases hb : bonding r
      · rw [if_pos hb]
        cases hf : e.found with
        | none => simp only [M.bind_app, M.modify_app]; exact h0
        | some bi =>
          simp only [M.bind_app, M.modify_app]
          exact (wf_encrypt e).app { c with bond := some bi } ⟨hw.la, hw.ra, hw.stk, fun b h => by cases h; exact he.found _ hf⟩
      · rw [if_neg hb]
        simp only [M.bind_app, M.modify_app]; exact h0
  split at hh
  · cases hh
    exact wf_pk e b
  split at hh
  · cases hh
    exact wf_dhcheck e b
  · simp at hh

/-- The environments of a history. -/
def EnvsWF (xs : List (Event P)) : Prop := ∀ e pdu, Event.msg e pdu ∈ xs → EnvWF e

theorem wf_run (cfg : Config) (la ra : Bytes) (lt rt : UInt8) (hla : la.length = 6) (hra : ra.length = 6) : ∀ xs : List (Event P), EnvsWF xs → WF (run (newMgr cfg la ra lt rt : Mgr P) xs).1.ctx := by
  intro xs
  refine snocInd (p := fun xs => EnvsWF xs → WF (run (newMgr cfg la ra lt rt : Mgr P) xs).1.ctx) ?_ ?_ xs
  · intro _
    refine ⟨?_, ?_, by simp [run, newMgr], by simp [run, newMgr]⟩
    · show (swapBuf la).length = 6; rw [swapBuf_eq]; simpa using hla
    · show (swapBuf ra).length = 6; rw [swapBuf_eq]; simpa using hra
  · intro xs x ih hx
    have hi := ih (fun e p h => hx e p (List.mem_append_left _ h))
    rw [run_append]
    generalize (run (newMgr cfg la ra lt rt : Mgr P) xs).1 = m at hi
    show WF (step m x).1.ctx
    cases x with
    | timeout => simp only [step, pairTimeout]; split <;> exact hi
    | pair e a =>
      simp only [step, pair]
      split
      · exact hi
      · have hctx : ∀ c : Ctx P, (sendPairingRequest e c).1 = c := fun c => by rw [sendPairingRequest_app, sendOut_ctx]
        split
        · split <;> simp only [hctx] <;> split <;> exact ⟨hi.la, hi.ra, hi.stk, hi.bond⟩
        · simp only [hctx]; split <;> exact ⟨hi.la, hi.ra, hi.stk, hi.bond⟩
    | msg e pdu =>
      rcases handle_ctx e pdu m with h | ⟨code, data, f, hp, hh, hc⟩
      · simp only [step]; rw [h]; exact hi
      · have := (wf_handler e (hx e pdu (by simp)) hh data).app m.ctx hi
        simp only [step]
        rcases hc with hc | hc
        · rw [hc]; exact this
        · rw [hc]; exact ⟨this.la, this.ra, this.stk, this.bond⟩

/-- `Handle`, as cases. -/
theorem handle_life {e : Env P} {pdu : Bytes} {m : Mgr P} (hl : m.life = .running) :
    ((handle e pdu m).1.life = .crashed ↔ pdu.length ≤ 4 ∨ ∃ code data f, pdu.drop 4 = code :: data ∧ handlerOf (P := P) code = some f ∧
      ((f data e m.ctx).2.2 = .panic ∨ m.closed = true ∧ (f data e m.ctx).2.2 = .err ())) ∧
    ((handle e pdu m).1.life = .blocked ↔ ∃ code data f, pdu.drop 4 = code :: data ∧ handlerOf (P := P) code = some f ∧ m.closed = false ∧ m.waiting = false ∧ (f data e m.ctx).2.2 = .err ()) := by
  unfold handle
  rw [if_neg (by simp [hl])]
  cases hp : pdu.drop 4 with
  | nil =>
    have : pdu.length ≤ 4 := by simpa [List.drop_eq_nil_iff] using hp
    simp [this]
  | cons code data =>
    have hlen : ¬ pdu.length ≤ 4 := by
      intro h; rw [List.drop_eq_nil_iff.2 h] at hp; simp at hp
    simp only [hlen, false_or]
    cases hh : handlerOf (P := P) code with
    | none => simp [hl, hh]
    | some f =>
      have key : ∀ Q : (Bytes → M P Unit) → Bytes → Prop, (∃ code' data' f', code :: data = code' :: data' ∧ handlerOf (P := P) code' = some f' ∧ Q f' data') ↔ Q f data := by
        intro Q
        constructor
        · rintro ⟨c', d', f', h1, h2, h3⟩
          cases h1
          rw [hh] at h2; cases h2; exact h3
        · intro h; exact ⟨code, data, f, rfl, hh, h⟩
      rw [key (fun f data => (f data e m.ctx).2.2 = .panic ∨ m.closed = true ∧ (f data e m.ctx).2.2 = .err ()),
        key (fun f data => m.closed = false ∧ m.waiting = false ∧ (f data e m.ctx).2.2 = .err ())]
      dsimp only
      cases hr : (f data e m.ctx).2.2 with
      | panic => simp
      | err u => cases hc : m.closed <;> cases hw : m.waiting <;> simp [hl]
      | ok u =>
        simp only [reduceCtorEq, and_false, or_self, false_or]
        split
        · cases hc : m.closed <;> cases hw : m.waiting <;> simp [hl]
        · simp [hl]

end SmpLiveAux

open SmpLiveAux SmpBondAux SmpHonestAux SmpRejectAux Aux

/-- The three messages that are fatal by themselves, in terms of what has happened on the connection: a Pairing Random in secure connections before both public keys are known, a public key before the
host has one, and a Master Identification that is short or comes before there is any key. -/
def Fatal (c : Ctx P) (code : UInt8) (data : Bytes) : Prop :=
  (code = 0x04 ∧ data.length = 16 ∧ c.legacy = false ∧ (c.keys = none ∨ c.remotePub = none)) ∨
  (code = 0x0c ∧ data.length = 64 ∧ c.keys = none) ∨
  (code = 0x07 ∧ (data.length < 10 ∨ c.bond = none))

/-- C54, exactly: after any history on a connection, the next message crashes the process if and only if it is empty, or one of the fatal messages, or its handler fails after a pairing was completed. -/
theorem message_crashes_iff (cfg : Config) {la ra : Bytes} (lt rt : UInt8) (hla : la.length = 6) (hra : ra.length = 6) {xs : List (Event P)} (hx : EnvsWF xs)
    {e : Env P} (he : EnvWF e) {m : Mgr P} (hm : (run (newMgr cfg la ra lt rt : Mgr P) xs).1 = m) (hl : m.life = .running) (pdu : Bytes) :
    (step m (.msg e pdu)).1.life = .crashed ↔
      pdu.length ≤ 4 ∨ ∃ code data f, pdu.drop 4 = code :: data ∧ handlerOf (P := P) code = some f ∧ (Fatal m.ctx code data ∨ m.closed = true ∧ (f data e m.ctx).2.2 = .err ()) := by
  have hw : WF m.ctx := hm ▸ wf_run cfg la ra lt rt hla hra xs hx
  simp only [step]
  rw [(handle_life hl).1]
  refine or_congr Iff.rfl ?_
  have key : ∀ code data f, handlerOf (P := P) code = some f → ((f data e m.ctx).2.2 = .panic ↔ Fatal m.ctx code data) := by
    intro code data f hh
    unfold Fatal
    unfold handlerOf at hh
    split at hh
    · rename_i hc; subst hc; cases hh
      simp [response_np e he hw data]
    split at hh
    · rename_i hc; subst hc; cases hh
      simp [confirm_np e m.ctx data]
    split at hh
    · rename_i hc; subst hc; cases hh
      simp [random_panic e hw data]
    split at hh
    · rename_i hc; subst hc; cases hh
      simp
    split at hh
    · rename_i hc; subst hc; cases hh
      simp [onEncryptionInformation]
    split at hh
    · rename_i hc; subst hc; cases hh
      simp [master_panic e m.ctx data]
    split at hh
    · rename_i hc; subst hc; cases hh
      simp [security_np e he hw data]
    split at hh
    · rename_i hc; subst hc; cases hh
      simp [pk_panic e m.ctx data]
    split at hh
    · rename_i hc; subst hc; cases hh
      simp [dhcheck_np e hw data]
    · simp at hh
  constructor
  · rintro ⟨code, data, f, h1, h2, h3⟩
    exact ⟨code, data, f, h1, h2, h3.imp (key code data f h2).1 id⟩
  · rintro ⟨code, data, f, h1, h2, h3⟩
    exact ⟨code, data, f, h1, h2, h3.imp (key code data f h2).2 id⟩

/-- **C54, the part that holds.** Missing: that no message crashes, which is false: this is the exact set of messages that do. -/
theorem message_crashes_iff_partial (cfg : Config) {la ra : Bytes} (lt rt : UInt8) (hla : la.length = 6) (hra : ra.length = 6) {xs : List (Event P)} (hx : EnvsWF xs)
    {e : Env P} (he : EnvWF e) {m : Mgr P} (hm : (run (newMgr cfg la ra lt rt : Mgr P) xs).1 = m) (hl : m.life = .running) (pdu : Bytes) :
    (step m (.msg e pdu)).1.life = .crashed ↔
      pdu.length ≤ 4 ∨ ∃ code data f, pdu.drop 4 = code :: data ∧ handlerOf (P := P) code = some f ∧ (Fatal m.ctx code data ∨ m.closed = true ∧ (f data e m.ctx).2.2 = .err ()) :=
  message_crashes_iff cfg lt rt hla hra hx he hm hl pdu

/-- C54, negative: one message on a new connection crashes the process, whatever the configuration and before `Pair` was called. -/
theorem one_message_crashes (cfg : Config) (la ra : Bytes) (lt rt : UInt8) (e : Env P) (data : Bytes) :
    (data.length = 16 → (step (newMgr cfg la ra lt rt : Mgr P) (.msg e (frame (0x04 :: data)))).1.life = .crashed) ∧
    (data.length = 64 → (step (newMgr cfg la ra lt rt : Mgr P) (.msg e (frame (0x0c :: data)))).1.life = .crashed) ∧
    (step (newMgr cfg la ra lt rt : Mgr P) (.msg e (frame (0x07 :: data)))).1.life = .crashed ∧
    (step (newMgr cfg la ra lt rt : Mgr P) (.msg e (frame []))).1.life = .crashed := by
  refine ⟨?_, ?_, ?_, ?_⟩
  · intro h
    refine (handle_life rfl).1.2 (Or.inr ⟨0x04, data, onPairingRandom, pdu_drop _, rfl, Or.inl ?_⟩)
    rw [onPairingRandom_app, if_neg (by simp [h]), if_neg (by simp [newMgr]), onSecureRandom_np e (c := { (newMgr cfg la ra lt rt : Mgr P).ctx with remoteRandom := data }) (by simp [newMgr])]
    rfl
  · intro h
    exact (handle_life rfl).1.2 (Or.inr ⟨0x0c, data, onPublicKey, pdu_drop _, rfl, Or.inl ((pk_panic _ _ _).2 ⟨h, rfl⟩)⟩)
  · exact (handle_life rfl).1.2 (Or.inr ⟨0x07, data, onMasterIdentification, pdu_drop _, rfl, Or.inl ((master_panic _ _ _).2 (Or.inr rfl))⟩)
  · exact (handle_life rfl).1.2 (Or.inl (by simp [frame, put16]))

/-- C54, negative: when no `Pair` is waiting and no pairing was completed, one Pairing Failed message stops the reception of the connection; so does a confirm value of a wrong length. -/
theorem one_message_blocks {m : Mgr P} (hl : m.life = .running) (hc : m.closed = false) (hw : m.waiting = false) (e : Env P) (data : Bytes) :
    (step m (.msg e (frame (0x05 :: data)))).1.life = .blocked ∧ (data.length ≠ 16 → (step m (.msg e (frame (0x03 :: data)))).1.life = .blocked) := by
  refine ⟨(handle_life hl).2.2 ⟨0x05, data, fun _ => M.fail, pdu_drop _, rfl, hc, hw, rfl⟩, fun h => (handle_life hl).2.2 ⟨0x03, data, onPairingConfirm, pdu_drop _, rfl, hc, hw, ?_⟩⟩
  rw [onPairingConfirm_app, if_pos h]

/-- C54, negative: after a completed pairing the same message crashes the process. -/
theorem crashes_after_pairing {m : Mgr P} (hl : m.life = .running) (hc : m.closed = true) (e : Env P) (data : Bytes) : (step m (.msg e (frame (0x05 :: data)))).1.life = .crashed :=
  (handle_life hl).1.2 (Or.inr ⟨0x05, data, fun _ => M.fail, pdu_drop _, rfl, Or.inr ⟨hc, rfl⟩⟩)

namespace SmpLiveAux

/-- What holds of every reachable manager: the state is not `Init` once anything was decided. -/
structure MInv (m : Mgr P) : Prop where
  blocked : m.life = .blocked → m.ctx.state = .error ∧ m.waiting = false
  closed : m.closed = true → m.ctx.state ≠ .init
  waiting : m.waiting = true → m.ctx.state ≠ .init ∧ m.closed = false
  finished : m.ctx.state = .finished → m.closed = true ∨ m.life = .crashed

theorem minv_new (cfg : Config) (la ra : Bytes) (lt rt : UInt8) : MInv (newMgr cfg la ra lt rt : Mgr P) :=
  ⟨by simp [newMgr], by simp [newMgr], by simp [newMgr], by simp [newMgr]⟩

theorem minv_step {m : Mgr P} (h : MInv m) (x : Event P) : MInv (step m x).1 := by
  cases x with
  | timeout =>
    simp only [step, pairTimeout]
    split
    · rename_i hw
      exact ⟨fun hb => ⟨(h.blocked hb).1, rfl⟩, h.closed, by simp, h.finished⟩
    · exact h
  | pair e a =>
    simp only [step, pair]
    split
    · exact h
    · rename_i hs
      have hs : m.ctx.state = .init := by simpa using hs
      have hctx : ∀ c : Ctx P, (sendPairingRequest e c).1 = c := fun c => by rw [sendPairingRequest_app, sendOut_ctx]
      have hnc : m.closed = false := by
        cases hc : m.closed with
        | false => rfl
        | true => exact absurd hs (h.closed hc)
      have hnb : m.life ≠ .blocked := fun hb => by have := (h.blocked hb).1; rw [hs] at this; simp at this
      split
      · rw [if_neg (by simp [hnc])]
        simp only [hctx]
        exact ⟨fun hb => absurd hb hnb, fun _ => by split <;> simp, fun _ => ⟨by split <;> simp, hnc⟩, by split <;> simp⟩
      · simp only [hctx]
        exact ⟨fun hb => absurd hb hnb, fun _ => by split <;> simp, fun hw => absurd hs (h.waiting hw).1, by split <;> simp⟩
  | msg e pdu =>
    simp only [step]
    unfold handle
    split
    · exact h
    · rename_i hl
      have hl : m.life = .running := by cases hh : m.life <;> simp_all
      split
      · exact ⟨by simp, h.closed, h.waiting, fun hf => Or.inr rfl⟩
      · rename_i code data hp
        split
        · exact h
        · rename_i f hh
          have hst := ((own_handler e hh data).app m.ctx).2.2.2.2.2.2
          dsimp only
          split
          · exact ⟨by simp, fun hc => hst (h.closed hc), fun hw => ⟨hst (h.waiting hw).1, (h.waiting hw).2⟩, fun _ => Or.inr rfl⟩
          · split
            · exact ⟨by simp, by simp, fun hw => ⟨by simp, (h.waiting hw).2⟩, by simp⟩
            · split
              · exact ⟨fun hb => ⟨rfl, rfl⟩, by simp, by simp, by simp⟩
              · rename_i hw
                exact ⟨fun _ => ⟨rfl, by simpa using hw⟩, by simp, fun hw' => absurd hw' hw, by simp⟩
          · split
            · rename_i hf
              split
              · rename_i hc
                exact ⟨by simp [hl], fun _ => by rw [hf]; simp, fun hw => ⟨by rw [hf]; simp, (h.waiting hw).2⟩, fun _ => Or.inl hc⟩
              · split
                · exact ⟨by simp [hl], fun _ => by rw [hf]; simp, by simp, fun _ => Or.inl rfl⟩
                · rename_i hw
                  exact ⟨by simp [hl], fun _ => by rw [hf]; simp, fun hw' => absurd hw' hw, fun _ => Or.inl rfl⟩
            · rename_i hf
              exact ⟨by simp [hl], fun hc => hst (h.closed hc), fun hw => ⟨hst (h.waiting hw).1, (h.waiting hw).2⟩, fun hf' => absurd hf' hf⟩

theorem minv_run {m : Mgr P} (h : MInv m) : ∀ xs : List (Event P), MInv (run m xs).1 := by
  intro xs
  induction xs generalizing m with
  | nil => exact h
  | cons x xs ih => exact ih (minv_step h x)

/-- `Init` is left for good. -/
theorem state_step {m : Mgr P} (h : m.ctx.state ≠ .init) (x : Event P) : (step m x).1.ctx.state ≠ .init := by
  cases x with
  | timeout => simp only [step, pairTimeout]; split <;> exact h
  | pair e a => simp only [step, pair]; rw [if_pos h]; exact h
  | msg e pdu =>
    rcases handle_ctx e pdu m with hc | ⟨code, data, f, hp, hh, hc⟩
    · simp only [step]; rw [hc]; exact h
    · have hst := ((own_handler e hh data).app m.ctx).2.2.2.2.2.2 h
      simp only [step]
      rcases hc with hc | hc
      · rw [hc]; exact hst
      · rw [hc]; simp

theorem state_run {m : Mgr P} (h : m.ctx.state ≠ .init) : ∀ xs : List (Event P), (run m xs).1.ctx.state ≠ .init := by
  intro xs
  induction xs generalizing m with
  | nil => exact h
  | cons x xs ih => exact ih (state_step h x)

end SmpLiveAux

/-- C54: reception that has stopped never resumes: whatever comes later, nothing is sent, stored or encrypted, and calls of `Pair` fail. -/
theorem blocked_for_ever (cfg : Config) (la ra : Bytes) (lt rt : UInt8) (xs : List (Event P)) (hb : (run (newMgr cfg la ra lt rt : Mgr P) xs).1.life = .blocked) (ys : List (Event P)) :
    (run (newMgr cfg la ra lt rt : Mgr P) (xs ++ ys)).1.life = .blocked ∧ ∀ x ∈ (run (run (newMgr cfg la ra lt rt : Mgr P) xs).1 ys).2, x = .pairResult false := by
  have hi := minv_run (minv_new (P := P) cfg la ra lt rt) xs
  rw [run_append]
  generalize (run (newMgr cfg la ra lt rt : Mgr P) xs).1 = m at hb hi
  show (run m ys).1.life = .blocked ∧ _
  obtain ⟨hs, hw⟩ := hi.blocked hb
  have hst : m.ctx.state ≠ .init := by rw [hs]; simp
  clear hi
  induction ys with
  | nil => simp [run, hb]
  | cons y ys ih =>
    have h1 : (step m y).1 = m ∧ ∀ x ∈ (step m y).2, x = .pairResult false := by
      cases y with
      | timeout => simp [step, pairTimeout, hw]
      | pair e a => simp [step, pair, hst]
      | msg e pdu => simp [step, handle, hb]
    refine ⟨by simp only [run]; rw [h1.1]; exact ih.1, ?_⟩
    intro x hx
    simp only [run, List.mem_append] at hx
    rcases hx with hx | hx
    · exact h1.2 x hx
    · rw [h1.1] at hx; exact ih.2 x hx

/-- C55: `Pair` can be called once per connection: after a first call, however it ended, every other call returns an error at once and does nothing. -/
theorem pair_only_once {m : Mgr P} (e : Env P) (a : AuthData) (xs : List (Event P)) (e' : Env P) (a' : AuthData) :
    step (run m (.pair e a :: xs)).1 (.pair e' a') = ((run m (.pair e a :: xs)).1, [.pairResult false]) := by
  have h : (step m (.pair e a)).1.ctx.state ≠ .init := by
    simp only [step, pair]
    split
    · assumption
    · have hctx : ∀ c : Ctx P, (sendPairingRequest e c).1 = c := fun c => by rw [sendPairingRequest_app, sendOut_ctx]
      split
      · split <;> simp only [hctx] <;> simp
      · simp [hctx]
  have := state_run h xs
  simp only [step, pair]
  rw [if_pos (by simpa [run] using this)]

/-- C55: so does a first call after the peer has started the pairing by itself. -/
theorem pair_refused_after_messages {m : Mgr P} (h : m.ctx.state ≠ .init) (xs : List (Event P)) (e : Env P) (a : AuthData) :
    step (run m xs).1 (.pair e a) = ((run m xs).1, [.pairResult false]) := by
  simp only [step, pair]
  rw [if_pos (state_run h xs)]

end Ble.Props
