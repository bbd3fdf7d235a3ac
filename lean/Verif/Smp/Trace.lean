import Verif.Smp.Hoare
import Verif.Props.SmpCrypto
set_option autoImplicit false

/-! # What each message can change: facts for arbitrary histories -/

namespace Ble.Smp

namespace Aux

variable {P : Prims}

/-- The addresses stay; keys and nonces are the host's own; the state does not return to `Init`. -/
def own (e : Env P) : Rel P where
  rel c c' _ := c'.localAddr = c.localAddr ∧ c'.localAddrType = c.localAddrType ∧ c'.remoteAddr = c.remoteAddr ∧ c'.remoteAddrType = c.remoteAddrType ∧
    (c'.keys = c.keys ∨ c'.keys = some e.fresh) ∧ (c'.localRandom = c.localRandom ∨ c'.localRandom = some e.rnd) ∧ (c.state ≠ .init → c'.state ≠ .init)
  refl _ := ⟨rfl, rfl, rfl, rfl, Or.inl rfl, Or.inl rfl, id⟩
  trans := by
    rintro a b c v w ⟨h1, h2, h3, h4, h5, h6, h7⟩ ⟨g1, g2, g3, g4, g5, g6, g7⟩
    refine ⟨g1.trans h1, g2.trans h2, g3.trans h3, g4.trans h4, ?_, ?_, fun h => g7 (h7 h)⟩
    · rcases g5 with g | g
      · rw [g]; exact h5
      · exact Or.inr g
    · rcases g6 with g | g
      · rw [g]; exact h6
      · exact Or.inr g

/-- The bond and the MAC key stay, and nothing is stored. -/
def keep : Rel P where
  rel c c' w := c'.bond = c.bond ∧ c'.macKey = c.macKey ∧ ∀ a b, Eff.save a b ∉ w
  refl _ := by simp
  trans := by
    rintro a b c v w ⟨h1, h2, h3⟩ ⟨g1, g2, g3⟩
    refine ⟨g1.trans h1, g2.trans h2, ?_⟩
    intro x y h
    rcases List.mem_append.1 h with h | h
    · exact h3 x y h
    · exact g3 x y h

/-- What was received from the peer stays. -/
def peer : Rel P where
  rel c c' _ := c'.remotePub = c.remotePub ∧ c'.remoteRandom = c.remoteRandom ∧ c'.remoteConfirm = c.remoteConfirm
  refl _ := ⟨rfl, rfl, rfl⟩
  trans := by rintro a b c v w ⟨h1, h2, h3⟩ ⟨g1, g2, g3⟩; exact ⟨g1.trans h1, g2.trans h2, g3.trans h3⟩

theorem own_send (e : Env P) (b : Bytes) : Holds (own e) e (send b) := by
  unfold send; holds; simp [own]
theorem own_encrypt (e : Env P) : Holds (own e) e encrypt := by
  unfold encrypt sendEnc; holds <;> simp [own]
theorem own_save (e : Env P) : Holds (own e) e saveBondInfo := by
  unfold saveBondInfo; holds <;> simp [own]
theorem own_dh (e : Env P) : Holds (own e) e generateDHKey := by
  unfold generateDHKey; holds <;> simp [own]
theorem own_calc (e : Env P) : Holds (own e) e calcMacLtk := by
  have := own_dh e
  unfold calcMacLtk; holds <;> simp [own]
theorem own_check (e : Env P) : Holds (own e) e sendDHKeyCheck := by
  have := own_send e
  unfold sendDHKeyCheck; holds <;> simp [own]

theorem own_confirm (e : Env P) (b : Bytes) : Holds (own e) e (onPairingConfirm b) := by
  constructor; intro c
  rw [onPairingConfirm_app]
  split
  · exact (own e).refl c
  · rw [sendOut_ctx]
    refine ⟨rfl, rfl, rfl, rfl, Or.inl rfl, ?_, by simp⟩
    show some (c.localRandom.getD e.rnd) = c.localRandom ∨ _
    cases c.localRandom <;> simp

theorem own_pubkey (e : Env P) : Holds (own e) e sendPublicKey := by
  constructor; intro c
  rw [sendPublicKey_app, sendOut_ctx]
  refine ⟨rfl, rfl, rfl, rfl, ?_, Or.inl rfl, by simp⟩
  show some (theKeys e c) = c.keys ∨ _
  unfold theKeys
  cases c.keys <;> simp

theorem own_mconfirm (e : Env P) : Holds (own e) e sendMConfirm := by
  constructor; intro c
  rw [sendMConfirm_app]
  split
  · rw [sendOut_ctx]; simp [own]
  · simp [own]
  · simp [own]

theorem own_response (e : Env P) (b : Bytes) : Holds (own e) e (onPairingResponse b) := by
  have h1 := own_pubkey e
  have h2 := own_mconfirm e
  unfold onPairingResponse; holds <;> simp [own]

theorem own_continue (e : Env P) : Holds (own e) e continuePassKeyPairing := by
  constructor; intro c
  cases hg : generatePassKeyConfirm c e.rnd <;> cases hs : e.sendOk <;> simp [continuePassKeyPairing, hg, hs, own]

theorem own_pk (e : Env P) (b : Bytes) : Holds (own e) e (onPublicKey b) := by
  have h1 := own_continue e
  unfold onPublicKey startPassKeyPairing; holds <;> simp [own]

theorem own_random (e : Env P) (b : Bytes) : Holds (own e) e (onPairingRandom b) := by
  have h1 := own_continue e
  have h2 := own_calc e
  have h3 := own_check e
  have h4 := own_encrypt e
  unfold onPairingRandom onSecureRandom onLegacyRandom handlePassKeyRandom; holds <;> simp [own]
  intro c; split <;> simp

theorem own_dhcheck (e : Env P) (b : Bytes) : Holds (own e) e (onDHKeyCheck b) := by
  have h1 := own_save e
  have h2 := own_encrypt e
  unfold onDHKeyCheck; holds <;> simp [own]

theorem own_security (e : Env P) (b : Bytes) : Holds (own e) e (onSecurityRequest b) := by
  have h1 := own_send e
  have h2 := own_encrypt e
  unfold onSecurityRequest sendPairingRequest; holds <;> simp [own]

theorem own_encinfo (e : Env P) (b : Bytes) : Holds (own e) e (onEncryptionInformation b) := by
  unfold onEncryptionInformation; holds; simp [own]

theorem own_master (e : Env P) (b : Bytes) : Holds (own e) e (onMasterIdentification b) := by
  have h1 := own_save e
  unfold onMasterIdentification; holds <;> simp [own]

/-- Every handler. -/
theorem own_handler (e : Env P) {code : UInt8} {h : Bytes → M P Unit} (hh : handlerOf code = some h) (b : Bytes) : Holds (own e) e (h b) := by
  unfold handlerOf at hh
  repeat' split at hh
  all_goals first
    | (cases hh; first
        | exact own_response e b | exact own_confirm e b | exact own_random e b | exact Holds.fail | exact own_encinfo e b | exact own_master e b
        | exact own_security e b | exact own_pk e b | exact own_dhcheck e b)
    | exact absurd hh (by simp)

theorem keep_send (e : Env P) (b : Bytes) : Holds keep e (send b) := by
  unfold send; holds; simp [keep]
theorem keep_encrypt (e : Env P) : Holds keep e encrypt := by
  unfold encrypt sendEnc; holds <;> simp [keep]
theorem keep_continue (e : Env P) : Holds keep e continuePassKeyPairing := by
  unfold continuePassKeyPairing; holds <;> simp [keep]
theorem keep_dh (e : Env P) : Holds keep e generateDHKey := by
  unfold generateDHKey; holds <;> simp [keep]
theorem keep_check (e : Env P) : Holds keep e sendDHKeyCheck := by
  have := keep_send e
  unfold sendDHKeyCheck; holds <;> simp [keep]
theorem keep_confirm (e : Env P) (b : Bytes) : Holds keep e (onPairingConfirm b) := by
  have := keep_send e
  unfold onPairingConfirm sendPairingRandom; holds <;> simp [keep]
  intro c; split <;> simp
theorem keep_response (e : Env P) (b : Bytes) : Holds keep e (onPairingResponse b) := by
  have := keep_send e
  unfold onPairingResponse sendPublicKey sendMConfirm; holds <;> simp [keep]
  intro c; split <;> simp
theorem keep_pk (e : Env P) (b : Bytes) : Holds keep e (onPublicKey b) := by
  have h1 := keep_continue e
  unfold onPublicKey startPassKeyPairing; holds <;> simp [keep]
theorem keep_legacy (e : Env P) : Holds keep e onLegacyRandom := by
  have h1 := keep_encrypt e
  unfold onLegacyRandom; holds <;> simp [keep]
  intro c; split <;> simp

theorem peer_send (e : Env P) (b : Bytes) : Holds peer e (send b) := by
  unfold send; holds; simp [peer]
theorem peer_encrypt (e : Env P) : Holds peer e encrypt := by
  unfold encrypt sendEnc; holds <;> simp [peer]
theorem peer_save (e : Env P) : Holds peer e saveBondInfo := by
  unfold saveBondInfo; holds <;> simp [peer]
theorem peer_continue (e : Env P) : Holds peer e continuePassKeyPairing := by
  unfold continuePassKeyPairing; holds <;> simp [peer]
theorem peer_dh (e : Env P) : Holds peer e generateDHKey := by
  unfold generateDHKey; holds <;> simp [peer]
theorem peer_calc (e : Env P) : Holds peer e calcMacLtk := by
  have := peer_dh e
  unfold calcMacLtk; holds <;> simp [peer]
theorem peer_check (e : Env P) : Holds peer e sendDHKeyCheck := by
  have := peer_send e
  unfold sendDHKeyCheck; holds <;> simp [peer]
theorem peer_response (e : Env P) (b : Bytes) : Holds peer e (onPairingResponse b) := by
  have := peer_send e
  unfold onPairingResponse sendPublicKey sendMConfirm; holds <;> simp [peer]
  intro c; split <;> simp
theorem peer_legacy (e : Env P) : Holds peer e onLegacyRandom := by
  have h1 := peer_encrypt e
  unfold onLegacyRandom; holds <;> simp [peer]
  intro c; split <;> simp
theorem peer_secure (e : Env P) : Holds peer e onSecureRandom := by
  have h1 := peer_continue e
  have h2 := peer_calc e
  have h3 := peer_check e
  unfold onSecureRandom handlePassKeyRandom; holds <;> simp [peer]
theorem peer_dhcheck (e : Env P) (b : Bytes) : Holds peer e (onDHKeyCheck b) := by
  have h1 := peer_save e
  have h2 := peer_encrypt e
  unfold onDHKeyCheck; holds <;> simp [peer]
theorem peer_security (e : Env P) (b : Bytes) : Holds peer e (onSecurityRequest b) := by
  have h1 := peer_send e
  have h2 := peer_encrypt e
  unfold onSecurityRequest sendPairingRequest; holds <;> simp [peer]

/-- The keys stage 2 computes, if it computes any. -/
theorem stage2_keys (e : Env P) (c : Ctx P) :
    ((stage2 e c).1.bond = c.bond ∧ (stage2 e c).1.macKey = c.macKey ∨
      ∃ k b n mk ltk, c.keys = some k ∧ c.remotePub = some b ∧ c.localRandom = some n ∧
        smpF5 P (generateSecret P k.priv b) n c.remoteRandom (typed c.localAddr c.localAddrType) (typed c.remoteAddr c.remoteAddrType) = .ok (mk, ltk) ∧
        (stage2 e c).1.macKey = mk ∧ (stage2 e c).1.bond = some ⟨ltk, 0, 0, false⟩) ∧ ∀ a b, Eff.save a b ∉ (stage2 e c).2.1 := by
  have hk := keep_check e
  cases hkeys : c.keys with
  | none =>
    have : stage2 e c = (c, [], .err ()) := by simp [stage2, calcMacLtk, generateDHKey, hkeys]
    rw [this]; simp
  | some k =>
    cases hpub : c.remotePub with
    | none =>
      have : stage2 e c = (c, [], .err ()) := by simp [stage2, calcMacLtk, generateDHKey, hkeys, hpub]
      rw [this]; simp
    | some b =>
      cases hf : smpF5 P (generateSecret P k.priv b) (c.localRandom.getD []) c.remoteRandom (typed c.localAddr c.localAddrType) (typed c.remoteAddr c.remoteAddrType) with
      | err u =>
        have : stage2 e c = ({ c with dhKey := generateSecret P k.priv b }, [], .err u) := by simp [stage2, calcMacLtk, generateDHKey, hkeys, hpub, hf]
        rw [this]; simp
      | panic =>
        have : stage2 e c = ({ c with dhKey := generateSecret P k.priv b }, [], .panic) := by simp [stage2, calcMacLtk, generateDHKey, hkeys, hpub, hf]
        rw [this]; simp
      | ok r =>
        obtain ⟨mk, ltk⟩ := r
        have : stage2 e c = sendDHKeyCheck e { c with dhKey := generateSecret P k.priv b, bond := some ⟨ltk, 0, 0, false⟩, macKey := mk } := by
          simp [stage2, calcMacLtk, generateDHKey, hkeys, hpub, hf]
        rw [this]
        have h := hk.app { c with dhKey := generateSecret P k.priv b, bond := some ⟨ltk, 0, 0, false⟩, macKey := mk }
        refine ⟨Or.inr ?_, h.2.2⟩
        obtain ⟨n, hl⟩ : ∃ n, c.localRandom = some n := by
          cases hl : c.localRandom with
          | none => rw [hl] at hf; simp [smpF5] at hf
          | some n => exact ⟨n, rfl⟩
        have hf' := hf
        rw [hl] at hf'
        exact ⟨k, b, n, mk, ltk, rfl, rfl, hl, hf', h.2.1, h.1⟩

/-- A Pairing Random, in secure connections or not: the keys it leads to, if it leads to any. -/
theorem random_keys (e : Env P) (c : Ctx P) (x : Bytes) :
    ((onPairingRandom x e c).1.bond = c.bond ∧ (onPairingRandom x e c).1.macKey = c.macKey ∨
      ∃ k b n z mk ltk, c.keys = some k ∧ c.remotePub = some b ∧ c.localRandom = some n ∧ x.length = 16 ∧ (z = 0 ∨ z = 0x80 ∨ z = 0x81) ∧
        smpF4 P (marshalX P b) (marshalX P k.pub) x z = .ok c.remoteConfirm ∧
        smpF5 P (generateSecret P k.priv b) n x (typed c.localAddr c.localAddrType) (typed c.remoteAddr c.remoteAddrType) = .ok (mk, ltk) ∧
        (onPairingRandom x e c).1.macKey = mk ∧ (onPairingRandom x e c).1.bond = some ⟨ltk, 0, 0, false⟩) ∧ ∀ a b, Eff.save a b ∉ (onPairingRandom x e c).2.1 := by
  rw [onPairingRandom_app]
  split
  · simp
  · rename_i hx
    split
    · have := (keep_legacy e).app { c with remoteRandom := x }
      exact ⟨Or.inl ⟨this.1, this.2.1⟩, this.2.2⟩
    · by_cases hm : c.method = .passkey
      · rw [onSecureRandom_pk e (c := { c with remoteRandom := x }) hm]
        cases hch : checkPasskeyConfirm { c with remoteRandom := x } with
        | err u => simp
        | panic => simp
        | ok u =>
          dsimp only
          split
          · have := (keep_continue e).app { c with remoteRandom := x, iter := c.iter + 1 }
            exact ⟨Or.inl ⟨this.1, this.2.1⟩, this.2.2⟩
          · have h := stage2_keys e { c with remoteRandom := x, iter := c.iter + 1 }
            refine ⟨?_, h.2⟩
            rcases h.1 with h | ⟨k, b, n, mk, ltk, hk, hb, hn, h5, h6, h7⟩
            · exact Or.inl h
            · refine Or.inr ⟨k, b, n, passkeyBit c.auth.passkey c.iter, mk, ltk, hk, hb, hn, by simpa using hx, ?_, ?_, h5, h6, h7⟩
              · right
                rw [Ble.Props.passkey_bit_spec]
                split
                · exact Or.inr rfl
                · exact Or.inl rfl
              · have hk' : ({ c with remoteRandom := x } : Ctx P).keys = some k := hk
                have hb' : ({ c with remoteRandom := x } : Ctx P).remotePub = some b := hb
                unfold checkPasskeyConfirm at hch
                rw [bothX_ok hk' hb'] at hch
                simp only [Go.bind_ok] at hch
                rw [f4_keys _ _ _ _ (by simpa using hx)] at hch ⊢
                simp only [Go.bind_ok] at hch
                split at hch
                · rename_i heq; rw [← heq]
                · simp at hch
      · rw [onSecureRandom_np e (c := { c with remoteRandom := x }) hm]
        cases hch : checkConfirm { c with remoteRandom := x } with
        | err u => simp
        | panic => simp
        | ok u =>
          dsimp only
          have h := stage2_keys e { c with remoteRandom := x }
          refine ⟨?_, h.2⟩
          rcases h.1 with h | ⟨k, b, n, mk, ltk, hk, hb, hn, h5, h6, h7⟩
          · exact Or.inl h
          · refine Or.inr ⟨k, b, n, 0, mk, ltk, hk, hb, hn, by simpa using hx, Or.inl rfl, ?_, h5, h6, h7⟩
            have hk' : ({ c with remoteRandom := x } : Ctx P).keys = some k := hk
            have hb' : ({ c with remoteRandom := x } : Ctx P).remotePub = some b := hb
            unfold checkConfirm at hch
            rw [bothX_ok hk' hb'] at hch
            simp only [Go.bind_ok] at hch
            rw [f4_keys _ _ _ _ (by simpa using hx)] at hch ⊢
            simp only [Go.bind_ok] at hch
            split at hch
            · rename_i heq; rw [heq]
            · simp at hch

/-- What a Pairing Random leaves of the peer's values. -/
theorem random_peer (e : Env P) (c : Ctx P) (x : Bytes) :
    (onPairingRandom x e c).1.remotePub = c.remotePub ∧ (onPairingRandom x e c).1.remoteConfirm = c.remoteConfirm := by
  rw [onPairingRandom_app]
  split
  · simp
  · split
    · have := (peer_legacy e).app { c with remoteRandom := x }
      exact ⟨this.1, this.2.2⟩
    · have := (peer_secure e).app { c with remoteRandom := x }
      exact ⟨this.1, this.2.2⟩

theorem confirm_peer (e : Env P) (c : Ctx P) (x : Bytes) :
    (onPairingConfirm x e c).1.remotePub = c.remotePub ∧
      ((onPairingConfirm x e c).1.remoteConfirm = c.remoteConfirm ∨ x.length = 16 ∧ (onPairingConfirm x e c).1.remoteConfirm = x) := by
  rw [onPairingConfirm_app]
  split
  · simp
  · rename_i h; rw [sendOut_ctx]; exact ⟨rfl, Or.inr ⟨by simpa using h, rfl⟩⟩

theorem pk_peer (e : Env P) (c : Ctx P) (x : Bytes) :
    (onPublicKey x e c).1.remoteConfirm = c.remoteConfirm ∧
      ((onPublicKey x e c).1.remotePub = c.remotePub ∨ x.length = 64 ∧ ∃ p, unmarshalPub P x = some p ∧ (onPublicKey x e c).1.remotePub = some p) := by
  unfold onPublicKey
  rw [M.ite_app]
  split
  · simp
  · rename_i hl
    simp only [M.bind_app, M.get_app]
    cases hk : c.keys with
    | none => simp
    | some k =>
      simp only [M.ite_app]
      split
      · simp
      · cases hu : unmarshalPub P x with
        | none => simp
        | some p =>
          simp only [M.bind_app, M.modify_app, M.get_app, M.ite_app]
          split
          · have h1 := (peer_continue e).app { c with remotePub := some p, iter := 0 }
            have : startPassKeyPairing e { c with remotePub := some p } = continuePassKeyPairing e { c with remotePub := some p, iter := 0 } := by
              simp [startPassKeyPairing]
            rw [this]
            exact ⟨h1.2.2, Or.inr ⟨by simpa using hl, p, rfl, h1.1⟩⟩
          · exact ⟨rfl, Or.inr ⟨by simpa using hl, p, rfl, rfl⟩⟩

/-- A Security Request changes the bond only to one from the store, and not the MAC key. -/
theorem security_keys (e : Env P) (c : Ctx P) (x : Bytes) :
    ((onSecurityRequest x e c).1.bond = c.bond ∨ ∃ b, e.found = some b ∧ (onSecurityRequest x e c).1.bond = some b) ∧ (onSecurityRequest x e c).1.macKey = c.macKey ∧
      ∀ a b, Eff.save a b ∉ (onSecurityRequest x e c).2.1 := by
  unfold onSecurityRequest
  cases x with
  | nil => simp
  | cons r t =>
    simp only [M.bind_app, M.env_app]
    by_cases hb : bonding r
    · rw [if_pos hb]
      cases hf : e.found with
      | none =>
        have h := (keep_send e (buildReq { c.request with authReq := r })).app { c with request := { c.request with authReq := r } }
        simp only [M.bind_app, M.modify_app, sendPairingRequest, M.get_app]
        exact ⟨Or.inl h.1, h.2.1, by simpa using h.2.2⟩
      | some bi =>
        have h := (keep_encrypt e).app { c with bond := some bi }
        simp only [M.bind_app, M.modify_app]
        exact ⟨Or.inr ⟨bi, rfl, h.1⟩, h.2.1, by simpa using h.2.2⟩
    · rw [if_neg hb]
      have h := (keep_send e (buildReq { c.request with authReq := r })).app { c with request := { c.request with authReq := r } }
      simp only [M.bind_app, M.modify_app, sendPairingRequest, M.get_app]
      exact ⟨Or.inl h.1, h.2.1, by simpa using h.2.2⟩

/-- A DHKey check leaves the keys; it stores the present bond, and only if the value is right. -/
theorem dhcheck_keys (e : Env P) (c : Ctx P) (x : Bytes) :
    (onDHKeyCheck x e c).1.bond = c.bond ∧ (onDHKeyCheck x e c).1.macKey = c.macKey ∧
      ∀ a b, Eff.save a b ∈ (onDHKeyCheck x e c).2.1 → a = c.remoteAddr ∧ c.bond = some b ∧ bonding c.request.authReq = true ∧ checkDHKeyCheck { c with remoteCheck := x } = .ok () := by
  rw [onDHKeyCheck_match]
  cases hch : checkDHKeyCheck { c with remoteCheck := x } with
  | err u => simp
  | panic => simp
  | ok u =>
    dsimp only
    have hs : saveBondInfo e { c with remoteCheck := x } = ({ c with remoteCheck := x }, (if bonding c.request.authReq then (match c.bond with | none => [] | some b => if e.saveOk then [.save c.remoteAddr b] else []) else []),
        (saveBondInfo e { c with remoteCheck := x }).2.2) := by
      cases hb : bonding c.request.authReq <;> cases hbd : c.bond <;> cases ho : e.saveOk <;> simp [saveBondInfo, hb, hbd, ho]
    have he := (keep_encrypt e).app { c with remoteCheck := x, state := .finished }
    unfold afterCheck
    rw [M.bind_app, hs]
    have hmem : ∀ a b, Eff.save a b ∈ (if bonding c.request.authReq then (match c.bond with | none => [] | some b => if e.saveOk then [.save c.remoteAddr b] else []) else []) →
        a = c.remoteAddr ∧ c.bond = some b ∧ bonding c.request.authReq = true := by
      intro a b h
      cases hb : bonding c.request.authReq <;> cases hbd : c.bond <;> cases ho : e.saveOk <;> simp_all
    cases (saveBondInfo e { c with remoteCheck := x }).2.2 with
    | err u => exact ⟨rfl, rfl, fun a b h => let ⟨p, q, r⟩ := hmem a b h; ⟨p, q, r, rfl⟩⟩
    | panic => exact ⟨rfl, rfl, fun a b h => let ⟨p, q, r⟩ := hmem a b h; ⟨p, q, r, rfl⟩⟩
    | ok u =>
      simp only [M.bind_app, M.modify_app]
      refine ⟨he.1, he.2.1, ?_⟩
      intro a b h
      rcases List.mem_append.1 h with h | h
      · obtain ⟨p, q, r⟩ := hmem a b h; exact ⟨p, q, r, trivial⟩
      · exact absurd (by simpa using h) (he.2.2 a b)

end Aux

end Ble.Smp
