import Verif.Props.SmpExamples
set_option autoImplicit false

/-!
# The nonces of pairing, and numeric comparison (C180, C181)
-/

namespace Ble.Props

open Ble.Smp

variable {P : Prims}

namespace SmpNonceAux
open SmpHonestAux SmpBondAux Aux

theorem frame_drop (p : Bytes) : (frame p).drop 4 = p := by simp [frame, put16]

/-- No frame with this code is sent. -/
def silent (k : UInt8) : Rel P where
  rel _ _ w := ∀ f body, Eff.send f ∈ w → f.drop 4 ≠ k :: body
  refl _ := by simp
  trans := by
    intro a b c v w h1 h2 f body hf
    rcases List.mem_append.1 hf with h | h
    · exact h1 f body h
    · exact h2 f body h

theorem silent_send (e : Env P) {k code : UInt8} {body : Bytes} (h : code ≠ k) : Holds (silent k) e (send ([code] ++ body)) := by
  constructor
  intro c
  rw [send_app]
  unfold sendOut
  split
  · intro f b hf
    simp only [List.mem_singleton, Eff.send.injEq] at hf
    subst hf
    rw [frame_drop]
    simp [h]
  · simp [silent]

theorem silent_emit (e : Env P) {k code : UInt8} {body : Bytes} (h : code ≠ k) : Holds (silent k) e (M.emit (.send (frame ([code] ++ body))) : M P Unit) := by
  constructor
  intro c f b hf
  simp only [M.emit, List.mem_singleton, Eff.send.injEq] at hf
  subst hf
  rw [frame_drop]
  simp [h]

theorem silent_encrypt (e : Env P) (k : UInt8) : Holds (silent k) e encrypt := by
  unfold encrypt sendEnc; holds <;> simp [silent]
theorem silent_save (e : Env P) (k : UInt8) : Holds (silent k) e saveBondInfo := by
  unfold saveBondInfo; holds <;> simp [silent]
theorem silent_request (e : Env P) {k : UInt8} (h : 0x01 ≠ k) : Holds (silent k) e sendPairingRequest := by
  unfold sendPairingRequest
  exact Holds.bind Holds.get fun c => silent_send e (code := 0x01) h
theorem silent_pubkey (e : Env P) {k : UInt8} (h : 0x0c ≠ k) : Holds (silent k) e sendPublicKey := by
  have hs : ∀ b, Holds (silent k) e (send ([0x0c] ++ b)) := fun b => silent_send e h
  unfold sendPublicKey; holds <;> first | simp [silent] | exact hs _
theorem silent_dh (e : Env P) (k : UInt8) : Holds (silent k) e generateDHKey := by
  unfold generateDHKey; holds <;> simp [silent]
theorem silent_calc (e : Env P) (k : UInt8) : Holds (silent k) e calcMacLtk := by
  have := silent_dh e k
  unfold calcMacLtk; holds <;> simp [silent]
theorem silent_check (e : Env P) {k : UInt8} (h : 0x0d ≠ k) : Holds (silent k) e sendDHKeyCheck := by
  have hs : ∀ b, Holds (silent k) e (send ([0x0d] ++ b)) := fun b => silent_send e h
  unfold sendDHKeyCheck; holds <;> first | simp [silent] | exact hs _
theorem silent_mconfirm (e : Env P) {k : UInt8} (h : 0x03 ≠ k) : Holds (silent k) e sendMConfirm := by
  have hs : ∀ b, Holds (silent k) e (send ([0x03] ++ b)) := fun b => silent_send e h
  unfold sendMConfirm; holds <;> first | simp [silent] | exact hs _
theorem silent_continue (e : Env P) {k : UInt8} (h : 0x03 ≠ k) : Holds (silent k) e continuePassKeyPairing := by
  have hs : ∀ b, Holds (silent k) e (M.emit (.send (frame ([0x03] ++ b))) : M P Unit) := fun b => silent_emit e h
  unfold continuePassKeyPairing; holds <;> first | simp [silent] | exact hs _

/-- Only a Pairing Confirm makes the host send a Pairing Random. -/
theorem silent_handler (e : Env P) {code : UInt8} {h : Bytes → M P Unit} (hh : handlerOf code = some h) (hc : code ≠ 0x03) (b : Bytes) : Holds (silent 0x04) e (h b) := by
  have h1 := silent_encrypt e 0x04
  have h2 := silent_save e 0x04
  have h3 := silent_request e (k := 0x04) (by decide)
  have h4 := silent_pubkey e (k := 0x04) (by decide)
  have h5 := silent_calc e 0x04
  have h6 := silent_check e (k := 0x04) (by decide)
  have h7 := silent_mconfirm e (k := 0x04) (by decide)
  have h8 := silent_continue e (k := 0x04) (by decide)
  unfold handlerOf at hh
  repeat' split at hh
  all_goals first
    | (cases hh; first
        | (unfold onPairingResponse; holds <;> simp [silent]; done)
        | (unfold onPairingRandom onSecureRandom onLegacyRandom handlePassKeyRandom; holds <;> simp [silent]; done)
        | (exact Holds.fail)
        | (unfold onEncryptionInformation; holds <;> simp [silent]; done)
        | (unfold onMasterIdentification; holds <;> simp [silent]; done)
        | (unfold onSecurityRequest; holds <;> simp [silent]; done)
        | (unfold onPublicKey startPassKeyPairing; holds <;> simp [silent]; done)
        | (unfold onDHKeyCheck; holds <;> simp [silent]; done)
        | (exact absurd (by assumption) hc))
    | exact absurd hh (by simp)

/-- The frames `Handle` sends are the handler's, or the answer to an unknown code. -/
theorem handle_send {e : Env P} {pdu f : Bytes} {m : Mgr P} (h : Eff.send f ∈ (handle e pdu m).2) :
    m.life = .running ∧ ∃ code data, pdu.drop 4 = code :: data ∧ ((handlerOf (P := P) code = none ∧ f = frame [0x05, 0x05]) ∨ ∃ g, handlerOf (P := P) code = some g ∧ Eff.send f ∈ (g data e m.ctx).2.1) := by
  unfold handle at h
  split at h
  · simp at h
  · rename_i hl
    refine ⟨by cases hh : m.life <;> simp_all, ?_⟩
    split at h
    · simp at h
    · rename_i code data hp
      refine ⟨code, data, hp, ?_⟩
      split at h
      · rename_i hh
        left
        rw [send_app] at h; unfold sendOut at h; split at h <;> simp at h
        exact ⟨hh, h⟩
      · rename_i g hh
        right
        refine ⟨g, hh, ?_⟩
        dsimp only at h
        split at h
        · exact h
        · split at h
          · exact h
          · split at h
            · simpa using h
            · exact h
        · split at h
          · split at h
            · exact h
            · split at h
              · simpa using h
              · exact h
          · exact h

/-- What `Pair` sends. -/
theorem pair_send {e : Env P} {a : AuthData} {f : Bytes} {m : Mgr P} (h : Eff.send f ∈ (pair e a m).2) : ∃ c : Config, f = frame (buildReq c) := by
  simp only [pair] at h
  split at h
  · simp at h
  · rw [sendPairingRequest_app] at h
    unfold sendOut at h
    repeat' split at h
    all_goals simp at h
    all_goals exact ⟨_, h⟩

end SmpNonceAux

open SmpHonestAux SmpBondAux SmpNonceAux Aux

/-- **The host reveals its nonce only in answer to a confirm value**, and what it reveals is a nonce it drew itself: in every history of a connection, a Pairing Random is sent only while a Pairing Confirm of 16 bytes is being handled, and carries random
bytes drawn while this message or an earlier one was handled. -/
theorem nonce_only_after_confirm (cfg : Config) (la ra : Bytes) (lt rt : UInt8) (pre : List (Event P)) (ev : Event P) {f body : Bytes}
    (h : Eff.send f ∈ (step (run (newMgr cfg la ra lt rt : Mgr P) pre).1 ev).2) (hf : f.drop 4 = 0x04 :: body) :
    ∃ e pdu conf, ev = .msg e pdu ∧ pdu.drop 4 = 0x03 :: conf ∧ conf.length = 16 ∧ OwnNonce (pre ++ [ev]) body := by
  have hi := inv_run cfg la ra lt rt pre
  generalize (run (newMgr cfg la ra lt rt : Mgr P) pre).1 = m at h hi
  cases ev with
  | timeout => simp only [step, pairTimeout] at h; split at h <;> simp at h
  | pair e a =>
    obtain ⟨c, rfl⟩ := pair_send h
    rw [frame_drop] at hf
    simp [buildReq] at hf
  | msg e pdu =>
    obtain ⟨_, code, data, hp, hc⟩ := handle_send h
    rcases hc with ⟨_, rfl⟩ | ⟨g, hg, hs⟩
    · rw [frame_drop] at hf; simp at hf
    · by_cases h3 : code = 0x03
      · subst h3
        cases (show some onPairingConfirm = some g from hg)
        rw [onPairingConfirm_app] at hs
        split at hs
        · simp at hs
        · rename_i hl
          refine ⟨e, pdu, data, rfl, hp, by simpa using hl, ?_⟩
          unfold sendOut at hs
          split at hs
          · simp only [List.mem_singleton, Eff.send.injEq] at hs
            subst hs
            rw [frame_drop] at hf
            simp only [List.cons_append, List.nil_append, List.cons.injEq, true_and] at hf
            subst hf
            cases hr : m.ctx.localRandom with
            | none => exact ⟨e, pdu, by simp, rfl⟩
            | some n => exact (hi.nonce n hr).mono
          · simp at hs
      · exact absurd hf ((silent_handler e hg h3 data).app m.ctx f body hs)

/-! ## The nonce revealed is the one committed to -/

/-- `conf` (in the byte order of the air) commits to the nonce `n`: it is the confirm value f4 of two public keys, the nonce and a round's bit (secure connections, passkey entry), or the confirm value c1 of a temporary key and the nonce (legacy pairing). -/
def CommitsTo (P : Prims) (conf n : Bytes) : Prop :=
  (∃ (a b : P.Pub) (z : UInt8), conf = le (SmpSpec.f4 P (P.coordX a) (P.coordX b) n z)) ∨
  ∃ (tk preq pres : Bytes) (iat rat : UInt8) (ia ra : Bytes), conf = le (SmpSpec.c1 P tk n preq pres iat rat ia ra)

/-- The last confirm value in a list of effects, if there is one. -/
def lastConfirm : List Eff → Option Bytes
  | [] => none
  | .send f :: w => match f.drop 4, lastConfirm w with
    | _, some x => some x
    | 0x03 :: x, none => some x
    | _, none => none
  | _ :: w => lastConfirm w

/-- Nothing goes wrong outside: sends work, and random numbers have 16 bytes. -/
def Event.Works : Event P → Prop
  | .msg e _ => e.rnd.length = 16 ∧ e.sendOk = true
  | .pair e _ => e.rnd.length = 16 ∧ e.sendOk = true
  | .timeout => True

namespace SmpNonceAux

theorem last_append (v w : List Eff) : lastConfirm (v ++ w) = (lastConfirm w).or (lastConfirm v) := by
  induction v with
  | nil => simp [lastConfirm]
  | cons x v ih =>
    cases x with
    | send f =>
      simp only [List.cons_append, lastConfirm, ih]
      cases lastConfirm w <;> simp
    | save _ _ => simpa [lastConfirm] using ih
    | startEnc _ _ _ => simpa [lastConfirm] using ih
    | pairResult _ => simpa [lastConfirm] using ih

theorem last_none {w : List Eff} (h : ∀ f body, Eff.send f ∈ w → f.drop 4 ≠ 0x03 :: body) : lastConfirm w = none := by
  induction w with
  | nil => rfl
  | cons x w ih =>
    have hi := ih fun f b hm => h f b (List.mem_cons_of_mem _ hm)
    cases x with
    | send f =>
      simp only [lastConfirm, hi]
      split
      · simp_all
      · rename_i x hx _
        exact absurd hx (h f x (List.mem_cons_self ..))
      · rfl
    | save _ _ => simpa [lastConfirm] using hi
    | startEnc _ _ _ => simpa [lastConfirm] using hi
    | pairResult _ => simpa [lastConfirm] using hi

/-- The nonce in use opens the confirm value sent last. -/
def J (c : Ctx P) (last : Option Bytes) : Prop := ∀ conf, last = some conf → ∃ r, c.localRandom = some r ∧ CommitsTo P conf (le r)

/-- The addresses have six bytes, and the invariant is kept. -/
def opening : Rel P where
  rel c c' w := (c.localAddr.length = 6 ∧ c.remoteAddr.length = 6) → (c'.localAddr.length = 6 ∧ c'.remoteAddr.length = 6) ∧ ∀ last, J c last → J c' ((lastConfirm w).or last)
  refl c h := ⟨h, by simp [lastConfirm]⟩
  trans := by
    intro a b c v w h1 h2 ha
    obtain ⟨hb, hv⟩ := h1 ha
    obtain ⟨hc, hw⟩ := h2 hb
    refine ⟨hc, fun last hl => ?_⟩
    rw [last_append]
    have := hw _ (hv last hl)
    rwa [Option.or_assoc]

theorem opening_of_silent {e : Env P} {α : Type} {x : M P α} (h : Holds (silent 0x03) e x) (hr : ∀ c : Ctx P, (x e c).1.localRandom = c.localRandom ∧ (x e c).1.localAddr = c.localAddr ∧ (x e c).1.remoteAddr = c.remoteAddr) :
    Holds opening e x := by
  constructor
  intro c ha
  rw [last_none (h.app c)]
  refine ⟨by rw [(hr c).2.1, (hr c).2.2]; exact ha, ?_⟩
  intro last hl
  simp only [Option.none_or]
  intro conf hc
  rw [(hr c).1]
  exact hl conf hc

/-- Nonce and addresses stay as they are. -/
def same : Rel P where
  rel c c' _ := c'.localRandom = c.localRandom ∧ c'.localAddr = c.localAddr ∧ c'.remoteAddr = c.remoteAddr
  refl _ := ⟨rfl, rfl, rfl⟩
  trans h1 h2 := ⟨h2.1.trans h1.1, h2.2.1.trans h1.2.1, h2.2.2.trans h1.2.2⟩

theorem last_frame (code : UInt8) (body : Bytes) : lastConfirm [.send (frame ([code] ++ body))] = if code = 0x03 then some body else none := by
  simp only [lastConfirm, frame_drop, List.cons_append, List.nil_append]
  split
  · simp_all
  · rename_i x hx _; simp at hx; simp [hx]
  · rename_i hx
    split
    · rename_i h; exact (hx body (by rw [h])).elim
    · rfl

theorem opening_mod (e : Env P) {f : Ctx P → Ctx P} (h : ∀ c, (f c).localRandom = c.localRandom ∧ (f c).localAddr = c.localAddr ∧ (f c).remoteAddr = c.remoteAddr) : Holds opening e (M.modify f) := by
  refine opening_of_silent ?_ h
  exact ⟨fun c => by simp [silent, M.modify]⟩

theorem opening_send (e : Env P) {code : UInt8} {body : Bytes} (h : code ≠ 0x03) : Holds opening e (send ([code] ++ body)) :=
  opening_of_silent (silent_send e h) fun c => by rw [send_app, sendOut_ctx]; exact ⟨rfl, rfl, rfl⟩

theorem same_send (e : Env P) (b : Bytes) : Holds same e (send b) := ⟨fun c => by rw [send_app, sendOut_ctx]; exact ⟨rfl, rfl, rfl⟩⟩

theorem opening_encrypt (e : Env P) : Holds opening e encrypt :=
  opening_of_silent (silent_encrypt e _) (fun c => (show Holds same e encrypt by unfold encrypt sendEnc; holds <;> simp [same]).app c)
theorem opening_save (e : Env P) : Holds opening e saveBondInfo :=
  opening_of_silent (silent_save e _) (fun c => (show Holds same e saveBondInfo by unfold saveBondInfo; holds <;> simp [same]).app c)
theorem opening_request (e : Env P) : Holds opening e sendPairingRequest :=
  opening_of_silent (silent_request e (by decide)) (fun c => (show Holds same e sendPairingRequest by (have := same_send e); unfold sendPairingRequest; holds)|>.app c)
theorem opening_pubkey (e : Env P) : Holds opening e sendPublicKey :=
  opening_of_silent (silent_pubkey e (by decide)) (fun c => (show Holds same e sendPublicKey by (have := same_send e); unfold sendPublicKey; holds <;> (intro c; simp only [same]; first | trivial | (split <;> simp)))|>.app c)
theorem opening_calc (e : Env P) : Holds opening e calcMacLtk :=
  opening_of_silent (silent_calc e _) (fun c => (show Holds same e calcMacLtk by unfold calcMacLtk generateDHKey; holds <;> simp [same]).app c)
theorem opening_check (e : Env P) : Holds opening e sendDHKeyCheck :=
  opening_of_silent (silent_check e (by decide)) (fun c => (show Holds same e sendDHKeyCheck by (have := same_send e); unfold sendDHKeyCheck; holds <;> simp [same])|>.app c)

theorem opening_confirm (e : Env P) (hs : e.sendOk = true) (b : Bytes) : Holds opening e (onPairingConfirm b) := by
  constructor; intro c hc
  rw [onPairingConfirm_app]
  split
  · exact ⟨hc, by simp [lastConfirm]⟩
  · rw [sendOut_ok _ _ _ hs]
    refine ⟨hc, fun last hl => ?_⟩
    rw [last_frame, if_neg (by decide), Option.none_or]
    intro conf h
    obtain ⟨r, h1, h2⟩ := hl conf h
    exact ⟨r, by simp [h1], h2⟩

theorem opening_mconfirm (e : Env P) (hr : e.rnd.length = 16) (hs : e.sendOk = true) : Holds opening e sendMConfirm := by
  unfold sendMConfirm
  constructor; intro c hc
  simp only [M.bind_app, M.env_app, M.modify_app, M.get_app, M.lift_app]
  rw [c1_ok P (legacyTK_length _) hr (buildReq_length _) (buildRsp_length _) hc.1 hc.2]
  simp only [List.nil_append, send_app, sendOut_ok _ _ _ hs]
  refine ⟨hc, fun last hl => ?_⟩
  rw [last_frame, if_pos rfl]
  intro conf h
  simp only [Option.some_or, Option.some.injEq] at h
  subst h
  exact ⟨e.rnd, rfl, Or.inr ⟨_, _, _, _, _, _, _, rfl⟩⟩

theorem opening_continue (e : Env P) (hr : e.rnd.length = 16) (hs : e.sendOk = true) : Holds opening e continuePassKeyPairing := by
  constructor; intro c hc
  cases hk : c.keys with
  | none =>
    have : generatePassKeyConfirm c e.rnd = .panic := by unfold generatePassKeyConfirm bothX; rw [hk]; cases c.remotePub <;> rfl
    unfold continuePassKeyPairing
    simp only [M.bind_app, M.env_app, M.get_app, M.lift_app, this]
    exact ⟨hc, by simp [lastConfirm]⟩
  | some k =>
    cases hb : c.remotePub with
    | none =>
      have : generatePassKeyConfirm c e.rnd = .panic := by unfold generatePassKeyConfirm bothX; rw [hb]; rfl
      unfold continuePassKeyPairing
      simp only [M.bind_app, M.env_app, M.get_app, M.lift_app, this]
      exact ⟨hc, by simp [lastConfirm]⟩
    | some b =>
      rw [continuePassKeyPairing_app e hk hb hr hs]
      refine ⟨hc, fun last hl => ?_⟩
      rw [last_frame, if_pos rfl]
      intro conf h
      simp only [Option.some_or, Option.some.injEq] at h
      subst h
      exact ⟨e.rnd, rfl, Or.inl ⟨_, _, _, rfl⟩⟩

theorem opening_handler (e : Env P) (hr : e.rnd.length = 16) (hs : e.sendOk = true) {code : UInt8} {h : Bytes → M P Unit} (hh : handlerOf code = some h) (b : Bytes) : Holds opening e (h b) := by
  have h1 := opening_encrypt e
  have h2 := opening_save e
  have h3 := opening_request e
  have h4 := opening_pubkey e
  have h5 := opening_calc e
  have h6 := opening_check e
  have h7 := opening_mconfirm e hr hs
  have h8 := opening_continue e hr hs
  unfold handlerOf at hh
  repeat' split at hh
  all_goals first
    | (cases hh; first
        | (unfold onPairingResponse; holds <;> (intro c hc; exact ⟨hc, fun l hl => by simp only [lastConfirm, Option.none_or]; exact hl⟩); done)
        | exact opening_confirm e hs b
        | (unfold onPairingRandom onSecureRandom onLegacyRandom handlePassKeyRandom; holds <;> (intro c hc; first | exact ⟨hc, fun l hl => by simp only [lastConfirm, Option.none_or]; exact hl⟩ | (split <;> exact ⟨hc, fun l hl => by simp only [lastConfirm, Option.none_or]; exact hl⟩)); done)
        | (exact Holds.fail)
        | (unfold onEncryptionInformation; holds <;> (intro c hc; exact ⟨hc, fun l hl => by simp only [lastConfirm, Option.none_or]; exact hl⟩); done)
        | (unfold onMasterIdentification; holds <;> (intro c hc; exact ⟨hc, fun l hl => by simp only [lastConfirm, Option.none_or]; exact hl⟩); done)
        | (unfold onSecurityRequest; holds <;> (intro c hc; exact ⟨hc, fun l hl => by simp only [lastConfirm, Option.none_or]; exact hl⟩); done)
        | (unfold onPublicKey startPassKeyPairing; holds <;> (intro c hc; exact ⟨hc, fun l hl => by simp only [lastConfirm, Option.none_or]; exact hl⟩); done)
        | (unfold onDHKeyCheck; holds <;> (intro c hc; exact ⟨hc, fun l hl => by simp only [lastConfirm, Option.none_or]; exact hl⟩); done))
    | exact absurd hh (by simp)

theorem last_result (w : List Eff) (b : Bool) : lastConfirm (w ++ [.pairResult b]) = lastConfirm w := by
  rw [last_append]; simp [lastConfirm]

/-- One event keeps the invariant. -/
theorem opening_step {m : Mgr P} {x : Event P} (hx : Event.Works x) (ha : m.ctx.localAddr.length = 6 ∧ m.ctx.remoteAddr.length = 6) :
    ((step m x).1.ctx.localAddr.length = 6 ∧ (step m x).1.ctx.remoteAddr.length = 6) ∧ ∀ last, J m.ctx last → J (step m x).1.ctx ((lastConfirm (step m x).2).or last) := by
  cases x with
  | timeout =>
    simp only [step, pairTimeout]
    split <;> exact ⟨ha, fun l hl => by simpa [lastConfirm] using hl⟩
  | pair e a =>
    simp only [step, pair]
    split
    · exact ⟨ha, fun l hl => by simpa [lastConfirm] using hl⟩
    · have h1 : ∀ c : Ctx P, (sendPairingRequest e c).1 = c := fun c => by rw [sendPairingRequest_app, sendOut_ctx]
      have h2 : ∀ c : Ctx P, lastConfirm (sendPairingRequest e c).2.1 = none := fun c => last_none ((silent_request e (by decide)).app c)
      split <;> (repeat' split)
      all_goals
        simp only [last_result, h1, h2, Option.none_or]
        exact ⟨ha, fun l hl => hl⟩
  | msg e pdu =>
    simp only [step, handle]
    split
    · exact ⟨ha, fun l hl => by simpa [lastConfirm] using hl⟩
    · split
      · exact ⟨ha, fun l hl => by simpa [lastConfirm] using hl⟩
      · rename_i code data _
        cases hh : handlerOf (P := P) code with
        | none =>
          have := (opening_send e (code := 0x05) (body := [0x05]) (by decide)).app m.ctx ha
          refine ⟨ha, fun l hl => ?_⟩
          have h2 := this.2 l hl
          rw [send_app, sendOut_ctx] at h2
          rw [send_app]
          exact h2
        | some h =>
          have key := (opening_handler e hx.1 hx.2 hh data).app m.ctx ha
          simp only
          repeat' split
          all_goals
            refine ⟨key.1, fun l hl => ?_⟩
            first
              | (rw [last_result]; exact key.2 l hl)
              | exact key.2 l hl

theorem opening_run : ∀ (xs : List (Event P)) (m : Mgr P), (∀ x ∈ xs, Event.Works x) → (m.ctx.localAddr.length = 6 ∧ m.ctx.remoteAddr.length = 6) → ∀ last, J m.ctx last →
    J (run m xs).1.ctx ((lastConfirm (run m xs).2).or last) := by
  intro xs
  induction xs with
  | nil => intro m _ _ last hl; simpa [run, lastConfirm] using hl
  | cons x xs ih =>
    intro m hx ha last hl
    have hs := opening_step (hx x (List.mem_cons_self ..)) ha
    have := ih (step m x).1 (fun y hy => hx y (List.mem_cons_of_mem _ hy)) hs.1 _ (hs.2 last hl)
    simp only [run, last_append]
    rwa [Option.or_assoc]

end SmpNonceAux

/-- **The nonce revealed is the one committed to**: as long as sends work, in every history of a connection, when the host sends a Pairing Random after it has sent a confirm value, the confirm value it sent last commits to exactly that nonce. -/
theorem nonce_as_committed (cfg : Config) (la ra : Bytes) (lt rt : UInt8) (hla : la.length = 6) (hra : ra.length = 6) (pre : List (Event P)) (ev : Event P) (hw : ∀ x ∈ pre ++ [ev], Event.Works x) {f body conf : Bytes}
    (hc : lastConfirm (run (newMgr cfg la ra lt rt : Mgr P) pre).2 = some conf)
    (h : Eff.send f ∈ (step (run (newMgr cfg la ra lt rt : Mgr P) pre).1 ev).2) (hf : f.drop 4 = 0x04 :: body) : CommitsTo P conf (le body) := by
  have hj := opening_run pre (newMgr cfg la ra lt rt : Mgr P) (fun x hx => hw x (List.mem_append_left _ hx)) (by simp [newMgr, swapBuf_eq, hla, hra]) none (by simp [J])
  rw [hc] at hj
  obtain ⟨r, hr, hcm⟩ := hj conf (by simp)
  generalize (run (newMgr cfg la ra lt rt : Mgr P) pre).1 = m at h hr
  cases ev with
  | timeout => simp only [step, pairTimeout] at h; split at h <;> simp at h
  | pair e a =>
    obtain ⟨c, rfl⟩ := pair_send h
    rw [frame_drop] at hf
    simp [buildReq] at hf
  | msg e pdu =>
    obtain ⟨_, code, data, hp, hcd⟩ := handle_send h
    rcases hcd with ⟨_, rfl⟩ | ⟨g, hg, hs⟩
    · rw [frame_drop] at hf; simp at hf
    · by_cases h3 : code = 0x03
      · subst h3
        cases (show some onPairingConfirm = some g from hg)
        rw [onPairingConfirm_app] at hs
        split at hs
        · simp at hs
        · unfold sendOut at hs
          split at hs
          · simp only [List.mem_singleton, Eff.send.injEq] at hs
            subst hs
            rw [frame_drop, hr] at hf
            simp only [Option.getD_some, List.cons_append, List.nil_append, List.cons.injEq, true_and] at hf
            subst hf
            exact hcm
          · simp at hs
      · exact absurd hf ((silent_handler e hg h3 data).app m.ctx f body hs)

/-- The hypotheses are met: in a legacy pairing the host sends its confirm value in answer to the Pairing Response, and its nonce in answer to the peer's confirm value. -/
theorem example_committed (S : Pairing P) (hla : S.la.length = 6) (hra : S.ra.length = 6) {e0 e1 e2 : Env P} (f0 : Fine e0) (f1 : Fine e1) (f2 : Fine e2) (hs : S.rsp.authReq &&& 0x08 = 0) (ho : S.auth.oobData = [])
    {m : Method} (hdm : determineMethod S.cfg S.rsp true = m) (hm : m ≠ .oob) {mrand tk cb : Bytes} (hmr : e1.rnd = le mrand) (hcb : cb.length = 16) (hp : S.auth.passkey < 2 ^ 32) (htk : specTK m S.auth.passkey tk) :
    (∀ x ∈ [Event.pair e0 S.auth, .msg e1 S.rspMsg] ++ [.msg e2 (confirmMsg cb)], Event.Works x) ∧
    lastConfirm (run S.start [.pair e0 S.auth, .msg e1 S.rspMsg]).2 = some (le (S.c1 tk mrand)) ∧
    Eff.send (randomMsg mrand) ∈ (step (run S.start [.pair e0 S.auth, .msg e1 S.rspMsg]).1 (.msg e2 (confirmMsg cb))).2 ∧ (randomMsg mrand).drop 4 = 0x04 :: le mrand := by
  have h := SmpLegacyAux.legacy_start S hla hra f0 f1 hs ho hdm hm hmr hp htk []
  have h2 := onPairingConfirm_app e2 (SmpLegacyAux.lctx1 S m mrand) (le cb)
  rw [if_neg (by simp [le, hcb]), sendOut_ok _ _ _ f2.send] at h2
  refine ⟨?_, ?_, ?_, frame_drop _⟩
  · intro x hx
    simp only [List.cons_append, List.nil_append, List.mem_cons, List.not_mem_nil, or_false] at hx
    rcases hx with rfl | rfl | rfl
    · exact ⟨f0.rnd, f0.send⟩
    · exact ⟨f1.rnd, f1.send⟩
    · exact ⟨f2.rnd, f2.send⟩
  · rw [h]
    simp only [run, List.append_nil]
    rw [show ([.send (frame (buildReq S.cfg)), .send (confirmMsg (S.c1 tk mrand))] : List Eff) = [.send (frame (buildReq S.cfg))] ++ [.send (frame ([0x03] ++ le (S.c1 tk mrand)))] from rfl, last_append, last_frame, if_pos rfl]
    rfl
  · rw [h]
    simp only [run, step, confirmMsg]
    rw [show frame ([0x03] ++ le cb) = frame (0x03 :: le cb) from rfl, handle_ok (m := mgr (SmpLegacyAux.lctx1 S m mrand)) rfl rfl h2 (by simp)]
    simp [randomMsg, SmpLegacyAux.lctx1]

/-! ## C181: a nonce chosen late, and numeric comparison -/

open SmpRejectAux in
/-- What holds: a nonce is accepted only if the confirm value received last commits to it. **Missing, and false of the code**: that the confirm value cannot be replaced once the host has revealed its nonce (`nonce_chosen_late`), and that with numeric
comparison a user confirms the numbers (`numeric_comparison_unconfirmed`). -/
theorem nonce_fits_confirm_partial (S : Pairing P) (hS : S.Sound) {e0 e1 e2 e3 e4 : Env P} (f0 : Fine e0) (f1 : Fine e1) (f3 : Fine e3)
    (hk : e1.fresh = S.hostKeys) (hs : S.rsp.authReq &&& 0x08 = 0x08) (ho : S.auth.oobData = [])
    {i j : SmpSpec.IO} (hi : SmpSpec.IO.ofByte S.cfg.ioCap = some i) (hj : SmpSpec.IO.ofByte S.rsp.ioCap = some j)
    (hm : SmpSpec.pairingMethod true (oobSet S.cfg) (oobSet S.rsp) (mitmSet S.cfg) (mitmSet S.rsp) i j = .justWorks ∨
      SmpSpec.pairingMethod true (oobSet S.cfg) (oobSet S.rsp) (mitmSet S.cfg) (mitmSet S.rsp) i j = .numericComp)
    {na nb cb : Bytes} (hna : e3.rnd = le na) (hnb : nb.length = 16) (hcb : cb.length = 16)
    (hacc : Eff.pairResult false ∉ (run S.start [.pair e0 S.auth, .msg e1 S.rspMsg, .msg e2 S.pubMsg, .msg e3 (confirmMsg cb), .msg e4 (randomMsg nb)]).2) : cb = S.Cb nb 0 := by
  apply Classical.byContradiction
  intro hne
  rw [wrong_confirm_rejected S hS f0 f1 f3 hk hs ho hi hj hm hna hnb hcb hne] at hacc
  simp at hacc

open SmpRejectAux in
/-- **A nonce can be chosen late**: the peer first sends any 16 bytes as its confirm value; the host answers with its nonce `na`; now the peer chooses its own nonce as any function `g` of `na`, sends a second confirm value that commits to it, and goes on as
usual. The pairing is completed, with the nonce the peer wanted. So the peer can choose the six digits that numeric comparison would show, since it knows everything else they depend on. -/
theorem nonce_chosen_late (S : Pairing P) (hS : S.Sound) {e0 e1 e2 e3 e3' e4 e5 : Env P} (f0 : Fine e0) (f1 : Fine e1) (f3 : Fine e3) (f3' : Fine e3') (f4 : Fine e4) (f5 : Fine e5)
    (hk : e1.fresh = S.hostKeys) (hs : S.rsp.authReq &&& 0x08 = 0x08) (ho : S.auth.oobData = [])
    {i j : SmpSpec.IO} (hi : SmpSpec.IO.ofByte S.cfg.ioCap = some i) (hj : SmpSpec.IO.ofByte S.rsp.ioCap = some j)
    (hm : SmpSpec.pairingMethod true (oobSet S.cfg) (oobSet S.rsp) (mitmSet S.cfg) (mitmSet S.rsp) i j = .justWorks ∨
      SmpSpec.pairingMethod true (oobSet S.cfg) (oobSet S.rsp) (mitmSet S.cfg) (mitmSet S.rsp) i j = .numericComp)
    {na cb : Bytes} (g : Bytes → Bytes) (hna : e3.rnd = le na) (hg : (g na).length = 16) (hcb : cb.length = 16) :
    (run S.start [.pair e0 S.auth, .msg e1 S.rspMsg, .msg e2 S.pubMsg, .msg e3 (confirmMsg cb), .msg e3' (confirmMsg (S.Cb (g na) 0)), .msg e4 (randomMsg (g na)), .msg e5 (checkMsg (S.Eb na (g na) zeros))]).2 =
      [.send (frame (buildReq S.cfg)), .send S.hostPub, .send (randomMsg na), .send (randomMsg na), .send (checkMsg (S.Ea na (g na) zeros))] ++
      (if bonding S.cfg.authReq then [.save (le S.ra) ⟨le (S.ltk na (g na)), 0, 0, false⟩] else []) ++
      [.startEnc (le (S.ltk na (g na))) 0 0, .pairResult true] := by
  generalize g na = nb at *
  have hdm : determineMethod S.cfg S.rsp false = .justWorks ∨ determineMethod S.cfg S.rsp false = .numericComp := by
    rw [SmpMethodAux.determine_eq hi hj false (Or.inl rfl)]; exact hm
  generalize hmm : determineMethod S.cfg S.rsp false = mm at hdm
  have hmp : mm ≠ .passkey := by rcases hdm with rfl | rfl <;> decide
  have hr : ∀ c : Ctx P, c.method = mm → checkR c = zeros := by
    intro c hc; unfold checkR; rcases hdm with rfl | rfl <;> rw [hc] <;> rfl
  have hnal : (le na).length = 16 := hna ▸ f3.rnd
  obtain ⟨c3, hof, hm3, hcf, hl3, _, hrun⟩ := jw_start S hS f0 f1 f3 (e2 := e2) hk hs ho hmm (by rcases hdm with rfl | rfl <;> decide) hmp hna hcb
    [.msg e3' (confirmMsg (S.Cb nb 0)), .msg e4 (randomMsg nb), .msg e5 (checkMsg (S.Eb na nb zeros))]
  rw [hrun]
  have h3 := onPairingConfirm_app e3' c3 (le (S.Cb nb 0))
  rw [if_neg (by simp [le, Pairing.Cb, SmpSpec.f4, P.cmac_length]), sendOut_ok _ _ _ f3'.send, hl3, Option.getD_some] at h3
  rw [run_msg _ (confirmMsg (S.Cb nb 0)) (code := 0x03) rfl rfl h3 (by simp)]
  generalize hc4 : ({ c3 with remoteConfirm := le (S.Cb nb 0), localRandom := some (le na), state := .waitRandom } : Ctx P) = c4
  have hof4 : Of S { c4 with remoteRandom := le nb } := by
    subst hc4; exact ⟨hof.1, hof.2, hof.3, hof.4, hof.5, hof.6, hof.7, hof.8, hof.9⟩
  have hm4 : c4.method = mm := by subst hc4; exact hm3
  have h4 : onPairingRandom (le nb) e4 c4 = stage2 e4 { c4 with remoteRandom := le nb } := by
    have hcc := checkConfirm_iff (c := { c4 with remoteRandom := le nb }) hof4.keys hof4.pub (by simpa [le] using hg)
    have hcc := hcc.trans (if_pos (by subst hc4; simp [le, Pairing.Cb]))
    rw [onPairingRandom_app, if_neg (by simp [le, hg]), if_neg (by simp [show c4.legacy = false from hof4.legacy]), onSecureRandom_np e4 (c := { c4 with remoteRandom := le nb }) (by simp [hm4, hmp]), hcc]
  have := stage2_run S hS f4 f5 hof4 (na := na) (nb := nb) (r := zeros) (by simpa [le] using hnal) hg (by subst hc4; rfl) rfl (hr _ hm4) rfl h4
  rw [show randomMsg nb = frame (0x04 :: le nb) from rfl]
  simp only [this, ending]
  simp [randomMsg, le]

/-- **Numeric comparison is completed without anyone comparing numbers**: when both sides ask for protection against a man in the middle and can show and confirm numbers, so that the method is numeric comparison, whoever answers, with a key pair of its own choice, completes
the pairing; the application is not asked, and nothing it supplied (the passkey is arbitrary) matters. -/
theorem numeric_comparison_unconfirmed (S : Pairing P) (hS : S.Sound) {e0 e1 e2 e3 e4 e5 : Env P} (f0 : Fine e0) (f1 : Fine e1) (f2 : Fine e2) (f3 : Fine e3) (f4 : Fine e4) (f5 : Fine e5)
    (hk : e1.fresh = S.hostKeys) (hs : S.rsp.authReq &&& 0x08 = 0x08) (ho : S.auth.oobData = []) (hoA : S.cfg.oobFlag = 0) (hoB : S.rsp.oobFlag = 0) (hmA : S.cfg.authReq &&& 0x04 = 0x04)
    (hioA : S.cfg.ioCap = 4 ∨ S.cfg.ioCap = 1) (hioB : S.rsp.ioCap = 4 ∨ S.rsp.ioCap = 1) {na nb : Bytes} (hna : e3.rnd = le na) (hnb : nb.length = 16) :
    determineMethod S.cfg S.rsp false = .numericComp ∧
    Eff.pairResult true ∈ (run S.start [.pair e0 S.auth, .msg e1 S.rspMsg, .msg e2 S.pubMsg, .msg e3 (confirmMsg (S.Cb nb 0)), .msg e4 (randomMsg nb), .msg e5 (checkMsg (S.Eb na nb zeros))]).2 := by
  have key : ∀ i j, SmpSpec.IO.ofByte S.cfg.ioCap = some i → SmpSpec.IO.ofByte S.rsp.ioCap = some j → determineMethod S.cfg S.rsp false = .numericComp →
      Eff.pairResult true ∈ (run S.start [.pair e0 S.auth, .msg e1 S.rspMsg, .msg e2 S.pubMsg, .msg e3 (confirmMsg (S.Cb nb 0)), .msg e4 (randomMsg nb), .msg e5 (checkMsg (S.Eb na nb zeros))]).2 := by
    intro i j hi hj hd
    rw [just_works_completes S hS f0 f1 f2 f3 f4 f5 hk hs ho hi hj (Or.inr ((SmpMethodAux.determine_eq hi hj false (Or.inl rfl)).symm.trans hd)) hna hnb]
    simp
  have hd : determineMethod S.cfg S.rsp false = .numericComp := by
    unfold determineMethod
    rw [hoA, hoB, hmA]
    rcases hioA with h1 | h1 <;> rcases hioB with h2 | h2 <;> rw [h1, h2] <;> rfl
  refine ⟨hd, ?_⟩
  rcases hioA with h1 | h1 <;> rcases hioB with h2 | h2
  all_goals exact key _ _ (by rw [h1]; rfl) (by rw [h2]; rfl) hd

/-- The hypotheses are met. -/
theorem example_numeric : determineMethod (toyPairing 4 0x0d 1 0x0d 0).cfg (toyPairing 4 0x0d 1 0x0d 0).rsp false = .numericComp := by decide

end Ble.Props
