import Verif.Props.SmpLive
set_option autoImplicit false

/-!
# C55: what a nil result of `Pair` means; pairing that the host did not ask for
-/

namespace Ble.Props

open Ble.Smp

variable {P : Prims}

namespace SmpPairAux
open SmpHonestAux SmpBondAux SmpLiveAux Aux

/-- The user's data stay. -/
def auth : Rel P where
  rel c c' _ := c'.auth = c.auth
  refl _ := rfl
  trans h1 h2 := h2.trans h1

/-- And the pairing does not become finished. -/
def calm : Rel P where
  rel c c' _ := c'.auth = c.auth ∧ (c.state ≠ .finished → c'.state ≠ .finished)
  refl _ := ⟨rfl, id⟩
  trans h1 h2 := ⟨h2.1.trans h1.1, fun h => h2.2 (h1.2 h)⟩

theorem calm_auth {e : Env P} {α : Type} {x : M P α} (h : Holds calm e x) : Holds auth e x := ⟨fun c => (h.app c).1⟩

theorem calm_send (e : Env P) (b : Bytes) : Holds calm e (send b) := by
  unfold send; holds; simp [calm]
theorem calm_encrypt (e : Env P) : Holds calm e encrypt := by
  unfold encrypt sendEnc; holds <;> simp [calm]
theorem calm_save (e : Env P) : Holds calm e saveBondInfo := by
  unfold saveBondInfo; holds <;> simp [calm]
theorem calm_dh (e : Env P) : Holds calm e generateDHKey := by
  unfold generateDHKey; holds <;> simp [calm]
theorem calm_calc (e : Env P) : Holds calm e calcMacLtk := by
  have := calm_dh e
  unfold calcMacLtk; holds <;> simp [calm]
theorem calm_check (e : Env P) : Holds calm e sendDHKeyCheck := by
  have := calm_send e
  unfold sendDHKeyCheck; holds <;> simp [calm]
theorem calm_confirm (e : Env P) (b : Bytes) : Holds calm e (onPairingConfirm b) := by
  have := calm_send e
  unfold onPairingConfirm sendPairingRandom; holds <;> simp [calm]
  intro c; split <;> simp
theorem calm_response (e : Env P) (b : Bytes) : Holds calm e (onPairingResponse b) := by
  have := calm_send e
  unfold onPairingResponse sendPublicKey sendMConfirm; holds <;> simp [calm]
  intro c; split <;> simp
theorem calm_continue (e : Env P) : Holds calm e continuePassKeyPairing := by
  unfold continuePassKeyPairing; holds <;> simp [calm]
theorem calm_pk (e : Env P) (b : Bytes) : Holds calm e (onPublicKey b) := by
  have h1 := calm_continue e
  unfold onPublicKey startPassKeyPairing; holds <;> simp [calm]
theorem calm_secure (e : Env P) : Holds calm e onSecureRandom := by
  have h1 := calm_continue e
  have h2 := calm_calc e
  have h3 := calm_check e
  unfold onSecureRandom handlePassKeyRandom; holds <;> simp [calm]
theorem calm_security (e : Env P) (b : Bytes) : Holds calm e (onSecurityRequest b) := by
  have h1 := calm_send e
  have h2 := calm_encrypt e
  unfold onSecurityRequest sendPairingRequest; holds <;> simp [calm]
theorem calm_encinfo (e : Env P) (b : Bytes) : Holds calm e (onEncryptionInformation b) := by
  unfold onEncryptionInformation; holds; simp [calm]

theorem auth_legacy (e : Env P) : Holds auth e onLegacyRandom := by
  have h1 := calm_auth (calm_encrypt e)
  unfold onLegacyRandom; holds <;> simp [auth]
  intro c; split <;> simp
theorem auth_random (e : Env P) (b : Bytes) : Holds auth e (onPairingRandom b) := by
  have h1 := auth_legacy e
  have h2 := calm_auth (calm_secure e)
  unfold onPairingRandom; holds <;> simp [auth]
theorem auth_dhcheck (e : Env P) (b : Bytes) : Holds auth e (onDHKeyCheck b) := by
  have h1 := calm_auth (calm_save e)
  have h2 := calm_auth (calm_encrypt e)
  unfold onDHKeyCheck; holds <;> simp [auth]
theorem auth_master (e : Env P) (b : Bytes) : Holds auth e (onMasterIdentification b) := by
  have h1 := calm_auth (calm_save e)
  unfold onMasterIdentification; holds <;> simp [auth]

theorem auth_handler (e : Env P) {code : UInt8} {h : Bytes → M P Unit} (hh : handlerOf code = some h) (b : Bytes) : Holds auth e (h b) := by
  unfold handlerOf at hh
  repeat' split at hh
  all_goals first
    | (cases hh; first
        | exact calm_auth (calm_response e b) | exact calm_auth (calm_confirm e b) | exact auth_random e b | exact Holds.fail | exact calm_auth (calm_encinfo e b) | exact auth_master e b
        | exact calm_auth (calm_security e b) | exact calm_auth (calm_pk e b) | exact auth_dhcheck e b)
    | exact absurd hh (by simp)

/-- The three ways to finish. -/
theorem finish_handler {e : Env P} {c : Ctx P} {code : UInt8} {data : Bytes} {f : Bytes → M P Unit} (hh : handlerOf (P := P) code = some f) (hc : c.state ≠ .finished)
    (hf : (f data e c).1.state = .finished) :
    code = 0x0d ∧ checkDHKeyCheck { c with remoteCheck := data } = .ok () ∨
    code = 0x04 ∧ c.legacy = true ∧ data.length = 16 ∧ checkLegacyConfirm { c with remoteRandom := data } = .ok () ∨
    code = 0x07 := by
  unfold handlerOf at hh
  split at hh
  · cases hh; exact absurd hf (((calm_response e data).app c).2 hc)
  split at hh
  · cases hh; exact absurd hf (((calm_confirm e data).app c).2 hc)
  split at hh
  · rename_i hcode
    cases hh
    right; left
    rw [onPairingRandom_app] at hf
    split at hf
    · exact absurd hf hc
    · rename_i hl
      split at hf
      · rename_i hleg
        refine ⟨hcode, hleg, by simpa using hl, ?_⟩
        rw [SmpLegacyAux.onLegacyRandom_match] at hf
        cases hch : checkLegacyConfirm { c with remoteRandom := data } with
        | ok u => rfl
        | err u => rw [hch] at hf; exact absurd hf hc
        | panic => rw [hch] at hf; exact absurd hf hc
      · exact absurd hf (((calm_secure e).app { c with remoteRandom := data }).2 hc)
  split at hh
  · cases hh; exact absurd hf hc
  split at hh
  · cases hh; exact absurd hf hc
  split at hh
  · rename_i hcode; exact Or.inr (Or.inr hcode)
  split at hh
  · cases hh; exact absurd hf (((calm_security e data).app c).2 hc)
  split at hh
  · cases hh; exact absurd hf (((calm_pk e data).app c).2 hc)
  split at hh
  · rename_i hcode
    cases hh
    left
    refine ⟨hcode, ?_⟩
    rw [onDHKeyCheck_match] at hf
    cases hch : checkDHKeyCheck { c with remoteCheck := data } with
    | ok u => rfl
    | err u => rw [hch] at hf; exact absurd hf hc
    | panic => rw [hch] at hf; exact absurd hf hc
  · simp at hh

/-- A waiting `Pair` was called, and the data in use are its data. -/
theorem waiting_auth (cfg : Config) (la ra : Bytes) (lt rt : UInt8) : ∀ xs : List (Event P), (run (newMgr cfg la ra lt rt : Mgr P) xs).1.waiting = true →
    ∃ e, Event.pair e (run (newMgr cfg la ra lt rt : Mgr P) xs).1.ctx.auth ∈ xs := by
  intro xs
  refine snocInd (p := fun xs => (run (newMgr cfg la ra lt rt : Mgr P) xs).1.waiting = true → ∃ e, Event.pair e (run (newMgr cfg la ra lt rt : Mgr P) xs).1.ctx.auth ∈ xs) ?_ ?_ xs
  · intro h; simp [run, newMgr] at h
  · intro xs x ih
    rw [run_append]
    generalize (run (newMgr cfg la ra lt rt : Mgr P) xs).1 = m at ih
    show (step m x).1.waiting = true → ∃ e, Event.pair e (step m x).1.ctx.auth ∈ xs ++ [x]
    intro hw
    have old : m.waiting = true → (step m x).1.ctx.auth = m.ctx.auth → ∃ e, Event.pair e (step m x).1.ctx.auth ∈ xs ++ [x] := by
      intro h1 h2
      obtain ⟨e, he⟩ := ih h1
      exact ⟨e, by rw [h2]; exact List.mem_append_left _ he⟩
    cases x with
    | timeout =>
      simp only [step, pairTimeout] at hw
      split at hw
      · simp at hw
      · rename_i h; exact absurd hw h
    | pair e a =>
      simp only [step, pair] at hw old ⊢
      split at hw
      · rename_i h
        rw [if_pos h] at old
        rw [if_pos h]
        exact old hw rfl
      · rename_i h
        rw [if_neg h]
        have hctx : ∀ c : Ctx P, (sendPairingRequest e c).1 = c := fun c => by rw [sendPairingRequest_app, sendOut_ctx]
        refine ⟨e, ?_⟩
        have : ∀ b : AuthData, b = a → Event.pair e b ∈ xs ++ [Event.pair e a] := by intro b hb; subst hb; simp
        apply this
        split
        · split <;> simp only [hctx] <;> split <;> rfl
        · simp only [hctx]; split <;> rfl
    | msg e pdu =>
      have hwm : m.waiting = true := by
        simp only [step] at hw
        unfold handle at hw
        split at hw
        · exact hw
        · split at hw
          · exact hw
          · split at hw
            · exact hw
            · dsimp only at hw
              split at hw
              · exact hw
              · split at hw
                · exact hw
                · split at hw
                  · simp at hw
                  · exact hw
              · split at hw
                · split at hw
                  · exact hw
                  · split at hw
                    · simp at hw
                    · exact hw
                · exact hw
      refine old hwm ?_
      rcases handle_ctx e pdu m with h | ⟨code, data, f, hp, hh, hc⟩
      · simp only [step]; rw [h]
      · have := (auth_handler e hh data).app m.ctx
        simp only [step]
        rcases hc with hc | hc
        · rw [hc]; exact this
        · rw [hc]; exact this

/-- No handler reports a result. -/
def quiet : Rel P where
  rel _ _ w := ∀ b, Eff.pairResult b ∉ w
  refl _ := by simp
  trans h1 h2 := by
    intro b h
    rcases List.mem_append.1 h with h | h
    · exact h1 b h
    · exact h2 b h

theorem quiet_send (e : Env P) (b : Bytes) : Holds quiet e (send b) := by
  unfold send; holds; simp [quiet]
theorem quiet_encrypt (e : Env P) : Holds quiet e encrypt := by
  unfold encrypt sendEnc; holds <;> simp [quiet]
theorem quiet_save (e : Env P) : Holds quiet e saveBondInfo := by
  unfold saveBondInfo; holds <;> simp [quiet]
theorem quiet_dh (e : Env P) : Holds quiet e generateDHKey := by
  unfold generateDHKey; holds <;> simp [quiet]
theorem quiet_calc (e : Env P) : Holds quiet e calcMacLtk := by
  have := quiet_dh e
  unfold calcMacLtk; holds <;> simp [quiet]
theorem quiet_check (e : Env P) : Holds quiet e sendDHKeyCheck := by
  have := quiet_send e
  unfold sendDHKeyCheck; holds <;> simp [quiet]
theorem quiet_confirm (e : Env P) (b : Bytes) : Holds quiet e (onPairingConfirm b) := by
  have := quiet_send e
  unfold onPairingConfirm sendPairingRandom; holds <;> simp [quiet]
theorem quiet_response (e : Env P) (b : Bytes) : Holds quiet e (onPairingResponse b) := by
  have := quiet_send e
  unfold onPairingResponse sendPublicKey sendMConfirm; holds <;> simp [quiet]
theorem quiet_continue (e : Env P) : Holds quiet e continuePassKeyPairing := by
  unfold continuePassKeyPairing; holds <;> simp [quiet]
theorem quiet_pk (e : Env P) (b : Bytes) : Holds quiet e (onPublicKey b) := by
  have h1 := quiet_continue e
  unfold onPublicKey startPassKeyPairing; holds <;> simp [quiet]
theorem quiet_random (e : Env P) (b : Bytes) : Holds quiet e (onPairingRandom b) := by
  have h1 := quiet_continue e
  have h2 := quiet_calc e
  have h3 := quiet_check e
  have h4 := quiet_encrypt e
  unfold onPairingRandom onSecureRandom onLegacyRandom handlePassKeyRandom; holds <;> simp [quiet]
theorem quiet_security (e : Env P) (b : Bytes) : Holds quiet e (onSecurityRequest b) := by
  have h1 := quiet_send e
  have h2 := quiet_encrypt e
  unfold onSecurityRequest sendPairingRequest; holds <;> simp [quiet]
theorem quiet_encinfo (e : Env P) (b : Bytes) : Holds quiet e (onEncryptionInformation b) := by
  unfold onEncryptionInformation; holds; simp [quiet]
theorem quiet_dhcheck (e : Env P) (b : Bytes) : Holds quiet e (onDHKeyCheck b) := by
  have h1 := quiet_save e
  have h2 := quiet_encrypt e
  unfold onDHKeyCheck; holds <;> simp [quiet]
theorem quiet_master (e : Env P) (b : Bytes) : Holds quiet e (onMasterIdentification b) := by
  have h1 := quiet_save e
  unfold onMasterIdentification; holds <;> simp [quiet]

theorem quiet_handler (e : Env P) {code : UInt8} {h : Bytes → M P Unit} (hh : handlerOf code = some h) (b : Bytes) : Holds quiet e (h b) := by
  unfold handlerOf at hh
  repeat' split at hh
  all_goals first
    | (cases hh; first
        | exact quiet_response e b | exact quiet_confirm e b | exact quiet_random e b | exact Holds.fail | exact quiet_encinfo e b | exact quiet_master e b
        | exact quiet_security e b | exact quiet_pk e b | exact quiet_dhcheck e b)
    | exact absurd hh (by simp)

/-- Where a nil result comes from. -/
theorem result_step {m : Mgr P} {x : Event P} (hi : MInv m) (h : Eff.pairResult true ∈ (step m x).2) :
    ∃ e pdu code data f, x = .msg e pdu ∧ pdu.drop 4 = code :: data ∧ handlerOf (P := P) code = some f ∧ m.waiting = true ∧ m.ctx.state ≠ .finished ∧
      (f data e m.ctx).2.2 = .ok () ∧ (f data e m.ctx).1.state = .finished := by
  cases x with
  | timeout => simp only [step, pairTimeout] at h; split at h <;> simp at h
  | pair e a =>
    simp only [step, pair] at h
    split at h
    · simp at h
    · rename_i hs
      have hs : m.ctx.state = .init := by simpa using hs
      have hw : ∀ c : Ctx P, Eff.pairResult true ∉ (sendPairingRequest e c).2.1 := by
        intro c; rw [sendPairingRequest_app]; unfold sendOut; split <;> simp
      split at h
      · split at h
        · rename_i hc; exact absurd hs (hi.closed hc)
        · exact absurd h (hw _)
      · rw [List.mem_append] at h; exact absurd h (by simp [hw])
  | msg e pdu =>
    simp only [step] at h
    unfold handle at h
    split at h
    · simp at h
    · rename_i hl
      have hl : m.life = .running := by cases hh : m.life <;> simp_all
      split at h
      · simp at h
      · rename_i code data hp
        split at h
        · exact absurd h ((quiet_send e _).app m.ctx _)
        · rename_i f hh
          have hq := (quiet_handler e hh data).app m.ctx
          dsimp only at h
          split at h
          · exact absurd h (hq _)
          · split at h
            · exact absurd h (hq _)
            · split at h
              · rw [List.mem_append] at h; exact absurd h (by simp; exact hq _)
              · exact absurd h (hq _)
          · rename_i u hok
            split at h
            · rename_i hf
              split at h
              · exact absurd h (hq _)
              · rename_i hc
                split at h
                · rename_i hw
                  refine ⟨e, pdu, code, data, f, rfl, hp, hh, hw, ?_, hok, hf⟩
                  intro hfin
                  rcases hi.finished hfin with h' | h'
                  · exact hc h'
                  · rw [hl] at h'; simp at h'
                · exact absurd h (hq _)
            · exact absurd h (hq _)

end SmpPairAux

open SmpPairAux SmpLiveAux SmpBondAux SmpHonestAux SmpRejectAux Aux

/-- A temporary key of legacy pairing: the number is zero, or the user's passkey. -/
def TemporaryKey (a : AuthData) (tk : Bytes) : Prop := tk.length = 16 ∧ (SmpSpec.num tk = 0 ∨ SmpSpec.num tk = a.passkey)

/-- C55. For every history from a new connection on: when a call of `Pair` returns nil, it does so on a message which arrived after the call, and which is
a DHKey check whose value is f6 under the MacKey of an exchange that was run before; or, in legacy pairing, a nonce that an earlier confirm value commits to under a temporary key; or else a Master
Identification, which needs no knowledge of any secret (see `forged_pair_success`). -/
theorem pair_nil_only_after_check_partial (cfg : Config) {la ra : Bytes} (lt rt : UInt8) (hla : la.length = 6) (hra : ra.length = 6) (xs : List (Event P))
    (hpk : ∀ e a, Event.pair e a ∈ xs → a.passkey < 2 ^ 32) (hs : Eff.pairResult true ∈ (run (newMgr cfg la ra lt rt : Mgr P) xs).2) :
    ∃ (pre post : List (Event P)) (e e' : Env P) (pdu : Bytes) (a : AuthData), xs = pre ++ .msg e pdu :: post ∧ Event.pair e' a ∈ pre ∧
      ((∃ mk ltk n1 n2 r io, Exchanged ([lt] ++ la) ([rt] ++ ra) pre mk ltk ∧ pdu.drop 4 = 0x0d :: le (SmpSpec.f6 P mk n1 n2 r io ([rt] ++ ra) ([lt] ++ la))) ∨
       (∃ tk sr preq pres, TemporaryKey a tk ∧ sr.length = 16 ∧ pdu.drop 4 = 0x04 :: le sr ∧ Received pre 0x03 (le (SmpSpec.c1 P tk sr preq pres lt rt la ra))) ∨
       ∃ data, pdu.drop 4 = 0x07 :: data) := by
  obtain ⟨pre, ev, post, hx, he⟩ := eff_split xs _ _ hs
  obtain ⟨e, pdu, code, data, f, rfl, hp, hh, hw, hnf, _, hf⟩ := result_step (minv_run (minv_new cfg la ra lt rt) pre) he
  have hi := inv_run (P := P) cfg la ra lt rt pre
  obtain ⟨e', hpair⟩ := waiting_auth cfg la ra lt rt pre hw
  have hpk := hpk e' _ (by rw [hx]; exact List.mem_append_left _ hpair)
  refine ⟨pre, post, e, e', pdu, _, hx, hpair, ?_⟩
  generalize (run (newMgr cfg la ra lt rt : Mgr P) pre).1.ctx = c at *
  have hta : (typed c.localAddr c.localAddrType).reverse = [lt] ++ la := by rw [typed_reverse, hi.hla, hi.hlt, addr56_swap]
  have htb : (typed c.remoteAddr c.remoteAddrType).reverse = [rt] ++ ra := by rw [typed_reverse, hi.hra, hi.hrt, addr56_swap]
  rcases finish_handler hh hnf hf with ⟨rfl, hch⟩ | ⟨rfl, hleg, hl, hch⟩ | rfl
  · left
    unfold checkDHKeyCheck at hch
    simp only [Go.bind_eq_ok] at hch
    obtain ⟨chk, hchk, heq⟩ := hch
    have hd : data = chk := by
      split at heq
      · assumption
      · simp at heq
    obtain ⟨hl, hv⟩ := f6_inv hchk
    rcases hi.mac with h | ⟨mk, ltk, hm, hex⟩
    · rw [h] at hl; simp at hl
    · refine ⟨mk, ltk, ?_⟩
      rw [hp, hd, hv, hta, htb, hm]
      exact ⟨_, _, _, _, hex, by simp only [le, List.reverse_reverse]; rfl⟩
  · right; left
    have h6 : c.localAddr.length = 6 := by rw [hi.hla, swapBuf_eq]; simpa using hla
    have h6' : c.remoteAddr.length = 6 := by rw [hi.hra, swapBuf_eq]; simpa using hra
    rw [checkLegacyConfirm_iff (c := { c with remoteRandom := data }) hl h6 h6'] at hch
    split at hch
    · rename_i heq
      have hcf : c.remoteConfirm ≠ [] := by
        intro h
        have heq' : c.remoteConfirm = _ := heq
        rw [h] at heq'
        have := congrArg List.length heq'
        simp [SmpSpec.c1, P.aes_length] at this
      have hrec := hi.conf.resolve_left hcf
      refine ⟨(legacyTK c).reverse, le data, (buildReq c.request).reverse, (buildRsp c.response).reverse, ⟨by simp [legacyTK_length], ?_⟩, by simpa [le] using hl, by rw [hp]; simp [le], ?_⟩
      · rw [← legacyTK_eq]
        split
        · exact Or.inr (passkey_spec _ hpk).2
        · exact Or.inl (passkey_spec 0 (by omega)).2
      · have heq' : c.remoteConfirm = (SmpSpec.c1 P (legacyTK c).reverse data.reverse (buildReq c.request).reverse (buildRsp c.response).reverse c.localAddrType c.remoteAddrType c.localAddr.reverse c.remoteAddr.reverse).reverse := heq
        rw [hi.hlt, hi.hrt, hi.hla, hi.hra, swapBuf_eq, swapBuf_eq, List.reverse_reverse, List.reverse_reverse] at heq'
        rw [heq'] at hrec
        exact hrec
    · simp at hch
  · exact Or.inr (Or.inr ⟨data, hp⟩)

/-- C55, negative: a peer that answers `Pair` with nothing but an Encryption Information and a Master Identification makes it return nil, and its key is stored. -/
theorem forged_pair_success (cfg : Config) (la ra : Bytes) (lt rt : UInt8) (hb : bonding cfg.authReq = true) (a : AuthData) {e0 e1 e2 : Env P} (h0 : e0.sendOk = true) (h2 : e2.saveOk = true) (ho : a.oobData = [])
    (ltk : Bytes) (d0 d1 : UInt8) (rand : Bytes) (hr : rand.length = 8) :
    (run (newMgr cfg la ra lt rt : Mgr P) [.pair e0 a, .msg e1 (encInfoMsg ltk), .msg e2 (masterIdMsg [d0, d1] rand)]).2 =
      [.send (frame (buildReq cfg)), .save (le ra) ⟨le ltk, SmpSpec.num [d1, d0], SmpSpec.num (le rand), true⟩, .pairResult true] := by
  have hreq : (newMgr cfg la ra lt rt : Mgr P).ctx.request = cfg := rfl
  have hra : (newMgr cfg la ra lt rt : Mgr P).ctx.remoteAddr = le ra := by show swapBuf ra = _; rw [swapBuf_eq]; rfl
  rw [run_cons _ _ _ (pair_app rfl rfl h0 ho)]
  rw [hreq]
  generalize hm : ({ (newMgr cfg la ra lt rt : Mgr P) with ctx := { (newMgr cfg la ra lt rt : Mgr P).ctx with auth := a, state := .waitPairingResponse }, waiting := true } : Mgr P) = m
  have m1 : m.life = .running := by subst hm; rfl
  have m2 : m.ctx.state = .waitPairingResponse := by subst hm; rfl
  have m3 : m.waiting = true := by subst hm; rfl
  have m4 : m.closed = false := by subst hm; rfl
  have m5 : m.ctx.request = cfg := by subst hm; rfl
  have m6 : m.ctx.remoteAddr = le ra := by subst hm; exact hra
  clear hm
  have h1 : step m (.msg e1 (encInfoMsg ltk)) = ({ m with ctx := { m.ctx with bond := some ⟨le ltk, 0, 0, true⟩ } }, []) :=
    handle_ok (h := onEncryptionInformation) (data := le ltk) (code := 0x06) m1 rfl rfl (by show m.ctx.state ≠ .finished; rw [m2]; simp)
  rw [run_cons _ _ _ h1]
  have hn2 : le16 d0 d1 = SmpSpec.num [d1, d0] := by simp [SmpSpec.num, le16]; omega
  have hn8 : le64 rand = SmpSpec.num (le rand) := by
    unfold le64 SmpSpec.num
    rw [List.take_of_length_le (by omega), le, List.foldl_reverse]
    congr 1; funext x acc; omega
  have h5 : onMasterIdentification (d0 :: d1 :: rand) e2 { m.ctx with bond := some ⟨le ltk, 0, 0, true⟩ } =
      ({ m.ctx with bond := some ⟨le ltk, SmpSpec.num [d1, d0], SmpSpec.num (le rand), true⟩, state := .finished },
       [.save m.ctx.remoteAddr ⟨le ltk, SmpSpec.num [d1, d0], SmpSpec.num (le rand), true⟩], .ok ()) := by
    unfold onMasterIdentification
    rw [M.ite_app, if_neg (by simp [hr])]
    simp only [M.bind_app, M.get_app, M.modify_app, List.getD_cons_zero, List.getD_cons_succ, List.drop_succ_cons, List.drop_zero, hn2, hn8]
    rw [saveBondInfo_app e2 (c := { m.ctx with bond := some ⟨le ltk, SmpSpec.num [d1, d0], SmpSpec.num (le rand), true⟩ }) rfl h2]
    simp [hb, m5]
  have hpd : (masterIdMsg [d0, d1] rand).drop 4 = 0x07 :: d0 :: d1 :: rand := by rw [masterIdMsg, pdu_drop]; rfl
  have hk : handlerOf (P := P) 0x07 = some onMasterIdentification := rfl
  rw [← m6]
  simp [run, step, handle, hpd, m1, hk, h5, m3, m4]

/-- The default configuration meets the hypothesis. -/
example : bonding defaultConfig.authReq = true := by decide

/-- C40, negative: an unauthenticated Security Request replaces the host's authentication requirements: unless a bond is used, the host repeats its Pairing Request with the requirement byte the peer
asked for, whatever the application configured. -/
theorem security_request_downgrades {m : Mgr P} (hl : m.life = .running) (hf : m.ctx.state ≠ .finished) {e : Env P} (he : e.sendOk = true) (r : UInt8) (rest : Bytes) (hn : bonding r = false ∨ e.found = none) :
    step m (.msg e (frame (0x0b :: r :: rest))) = ({ m with ctx := { m.ctx with request := { m.ctx.request with authReq := r } } }, [.send (frame (buildReq { m.ctx.request with authReq := r }))]) := by
  have h : onSecurityRequest (r :: rest) e m.ctx = ({ m.ctx with request := { m.ctx.request with authReq := r } }, [.send (frame (buildReq { m.ctx.request with authReq := r }))], .ok ()) := by
    unfold onSecurityRequest
    simp only [M.bind_app, M.env_app]
    have hnone : (if bonding r then e.found else none) = none := by
      rcases hn with h | h
      · simp [h]
      · simp [h]
    rw [hnone]
    simp [sendPairingRequest_app, sendOut, he]
  have := handle_ok (h := onSecurityRequest) (data := r :: rest) (code := 0x0b) (e := e) hl rfl h hf
  simpa [step, frame] using this

end Ble.Props
