import Verif.Smp.Hoare
set_option autoImplicit false

/-!
# Everything pairing sends is a message of the security manager protocol

Specification: an SMP message is a code and the parameters of that code, whose length the standard fixes (Vol 3, Part H, 3.5 and 3.6); it is sent in an L2CAP basic frame on channel 6 (Vol 3, Part A, 2.1): length of the message and channel, two bytes each, least significant first.
-/

namespace Ble.Smp

open M Aux

/-- The length of an SMP message with its code, by code. -/
def smpLength (code : UInt8) : Option Nat :=
  if code = 0x01 then some 7        -- Pairing Request
  else if code = 0x02 then some 7   -- Pairing Response
  else if code = 0x03 then some 17  -- Pairing Confirm
  else if code = 0x04 then some 17  -- Pairing Random
  else if code = 0x05 then some 2   -- Pairing Failed
  else if code = 0x06 then some 17  -- Encryption Information
  else if code = 0x07 then some 11  -- Central Identification
  else if code = 0x08 then some 17  -- Identity Information
  else if code = 0x09 then some 8   -- Identity Address Information
  else if code = 0x0a then some 17  -- Signing Information
  else if code = 0x0b then some 2   -- Security Request
  else if code = 0x0c then some 65  -- Pairing Public Key
  else if code = 0x0d then some 17  -- Pairing DHKey Check
  else if code = 0x0e then some 2   -- Pairing Keypress Notification
  else none

/-- A well-formed frame on the security channel. -/
def SmpFrame (f : Bytes) : Prop :=
  ∃ lo hi code body, f = lo :: hi :: 0x06 :: 0x00 :: code :: body ∧ lo.toNat + 256 * hi.toNat = body.length + 1 ∧ smpLength code = some (body.length + 1)

variable {P : Prims}

theorem frame_ok {code : UInt8} {body : Bytes} (h : smpLength code = some (body.length + 1)) : SmpFrame (frame ([code] ++ body)) := by
  have hb : body.length + 1 < 65536 := by
    unfold smpLength at h
    grind (splits := 20)
  refine ⟨UInt8.ofNat (body.length + 1), UInt8.ofNat ((body.length + 1) / 256), code, body, ?_, ?_, h⟩
  · simp [frame, put16]
  · have h1 : (UInt8.ofNat (body.length + 1)).toNat = (body.length + 1) % 256 := rfl
    have h2 : (UInt8.ofNat ((body.length + 1) / 256)).toNat = (body.length + 1) / 256 % 256 := rfl
    omega

/-- The random number of the pairing, if there is one, has 16 bytes. -/
def Rand16 (c : Ctx P) : Prop := ∀ r, c.localRandom = some r → r.length = 16

/-- Every frame sent is well-formed. -/
def framed : Rel P where
  rel c c' w := Rand16 c → Rand16 c' ∧ ∀ f, Eff.send f ∈ w → SmpFrame f
  refl c h := ⟨h, by simp⟩
  trans := by
    intro a b c v w h1 h2 ha
    obtain ⟨hb, hv⟩ := h1 ha
    obtain ⟨hc, hw⟩ := h2 hb
    refine ⟨hc, ?_⟩
    intro f hf
    rcases List.mem_append.1 hf with h | h
    · exact hv f h
    · exact hw f h

theorem Holds.liftBind {α β : Type} {R : Rel P} {e : Env P} {g : Go Unit α} {f : α → M P β} (hf : ∀ a, g = .ok a → Holds R e (f a)) : Holds R e (M.lift g >>= f) := by
  constructor
  intro c
  rw [M.bind_app]
  simp only [lift_app]
  cases g with
  | ok a => exact R.trans (R.refl c) ((hf a rfl).app c)
  | err u => exact R.refl c
  | panic => exact R.refl c

theorem framed_send (e : Env P) {code : UInt8} {body : Bytes} (h : smpLength code = some (body.length + 1)) : Holds framed e (send ([code] ++ body)) := by
  constructor
  intro c hc
  rw [send_app]
  unfold sendOut
  split
  · refine ⟨hc, ?_⟩
    intro f hf
    simp only [List.mem_singleton, Eff.send.injEq] at hf
    subst hf
    exact frame_ok h
  · exact ⟨hc, by simp⟩

theorem framed_encrypt (e : Env P) : Holds framed e encrypt := by
  unfold encrypt sendEnc; holds <;> simp [framed]

theorem framed_save (e : Env P) : Holds framed e saveBondInfo := by
  unfold saveBondInfo; holds <;> simp [framed]

theorem framed_request (e : Env P) : Holds framed e sendPairingRequest := by
  unfold sendPairingRequest
  refine Holds.bind Holds.get fun c => ?_
  exact framed_send e (code := 0x01) (body := [c.request.ioCap, c.request.oobFlag, c.request.authReq, c.request.maxKeySize, c.request.initKeyDist, c.request.respKeyDist]) rfl

theorem marshalXY_length (b : P.Pub) : (marshalXY P b).length = 64 := by
  simp [marshalXY, swapBuf_eq, P.coordX_length, P.coordY_length]

theorem framed_pubkey (e : Env P) : Holds framed e sendPublicKey := by
  constructor; intro c hc
  rw [sendPublicKey_app]
  rw [← send_app]
  refine (framed_send e (code := 0x0c) ?_).app _ ?_
  · rw [marshalXY_length]; rfl
  · exact hc

theorem framed_confirm (e : Env P) (hr : e.rnd.length = 16) (b : Bytes) : Holds framed e (onPairingConfirm b) := by
  constructor; intro c hc
  rw [onPairingConfirm_app]
  split
  · exact ⟨hc, by simp⟩
  · have hl : (c.localRandom.getD e.rnd).length = 16 := by
      cases h : c.localRandom with
      | none => simpa using hr
      | some r => simpa using hc r h
    rw [← send_app]
    refine (framed_send e (code := 0x04) ?_).app _ ?_
    · rw [hl]; rfl
    · intro r h
      simp only [Option.some.injEq] at h
      subst h; exact hl

theorem smpE_length {k m out : Bytes} (h : smpE P k m = .ok out) : out.length = 16 := by
  unfold smpE aes128 at h
  split at h
  · split at h
    · simp only [Go.bind_ok, Go.ok.injEq] at h; subst h; simp [swapBuf_eq, P.aes_length]
    · cases h
  · simp only [Go.bind_ok] at h; exact absurd h (by simp)

theorem c1_length {k r preq pres la ra out : Bytes} {iat rat : UInt8} (h : smpC1 P k r preq pres iat rat la ra = .ok out) : out.length = 16 := by
  unfold smpC1 at h
  simp only [Go.bind_eq_ok] at h
  obtain ⟨_, _, _, _, _, _, h4⟩ := h
  exact smpE_length h4

theorem cmac_length' {k m out : Bytes} (h : aesCMAC P k m = .ok out) : out.length = 16 := by
  unfold aesCMAC at h
  split at h
  · simp only [Go.ok.injEq] at h; subst h; simp [swapBuf_eq, P.cmac_length]
  · simp at h

theorem f6_length {w n1 n2 r io a1 a2 out : Bytes} (h : smpF6 P w n1 n2 r io a1 a2 = .ok out) : out.length = 16 := by
  unfold smpF6 at h
  split at h
  · simp at h
  · exact cmac_length' h

theorem framed_mconfirm (e : Env P) (hr : e.rnd.length = 16) : Holds framed e sendMConfirm := by
  unfold sendMConfirm
  constructor; intro c hc
  simp only [M.bind_app, env_app, modify_app, get_app]
  simp only [lift_app]
  cases h : smpC1 P (legacyTK { c with localRandom := some e.rnd }) e.rnd (buildReq c.request) (buildRsp c.response) c.localAddrType c.remoteAddrType c.localAddr c.remoteAddr with
  | err u => simp only [List.nil_append]; exact ⟨by intro r h; simp only [Option.some.injEq] at h; subst h; exact hr, by simp⟩
  | panic => simp only [List.nil_append]; exact ⟨by intro r h; simp only [Option.some.injEq] at h; subst h; exact hr, by simp⟩
  | ok c1 =>
    simp only [List.nil_append]
    refine (framed_send e (code := 0x03) ?_).app _ ?_
    · rw [c1_length h]; rfl
    · intro r h; simp only [Option.some.injEq] at h; subst h; exact hr

theorem framed_response (e : Env P) (hr : e.rnd.length = 16) (b : Bytes) : Holds framed e (onPairingResponse b) := by
  have h1 := framed_mconfirm e hr
  have h2 := framed_pubkey e
  unfold onPairingResponse; holds <;> simp [framed, Rand16]

theorem passkeyConfirm_length {c : Ctx P} {r out : Bytes} (hr : r.length = 16) (h : generatePassKeyConfirm c r = .ok out) : out.length = 16 := by
  unfold generatePassKeyConfirm at h
  rw [Go.bind_eq_ok] at h
  obtain ⟨⟨kbx, kax⟩, hb, h⟩ := h
  have hl : kbx.length = 32 ∧ kax.length = 32 := by
    unfold bothX at hb
    split at hb
    · simp only [Go.ok.injEq, Prod.mk.injEq] at hb
      rw [← hb.1, ← hb.2]
      simp [marshalX, swapBuf_eq, P.coordX_length]
    · simp at hb
  simp only [f4_ok P hl.2 hl.1 hr, Go.ok.injEq] at h
  subst h
  simp [SmpSpec.f4, P.cmac_length]

theorem framed_continue (e : Env P) (hr : e.rnd.length = 16) : Holds framed e continuePassKeyPairing := by
  constructor; intro c hc
  have hc' : Rand16 { c with localRandom := some e.rnd } := by intro r h; simp only [Option.some.injEq] at h; subst h; exact hr
  unfold continuePassKeyPairing
  simp only [M.bind_app, env_app, get_app, lift_app]
  cases h : generatePassKeyConfirm c e.rnd with
  | err u => exact ⟨hc, by simp⟩
  | panic => exact ⟨hc, by simp⟩
  | ok conf =>
    simp only [modify_app, ite_app, emit_app, pure_app, List.nil_append]
    split
    · refine ⟨hc', ?_⟩
      intro f hf
      simp only [List.mem_singleton, Eff.send.injEq] at hf
      subst hf
      exact frame_ok (by rw [passkeyConfirm_length hr h]; rfl)
    · exact ⟨hc', by simp⟩

theorem framed_pk (e : Env P) (hr : e.rnd.length = 16) (b : Bytes) : Holds framed e (onPublicKey b) := by
  have h1 := framed_continue e hr
  unfold onPublicKey startPassKeyPairing; holds <;> simp [framed, Rand16]

theorem framed_calc (e : Env P) : Holds framed e calcMacLtk := by
  unfold calcMacLtk generateDHKey; holds <;> simp [framed, Rand16]

theorem framed_check (e : Env P) : Holds framed e sendDHKeyCheck := by
  unfold sendDHKeyCheck
  refine Holds.bind Holds.get fun c => Holds.liftBind fun ea hea => Holds.bind (Holds.modify ?_) fun _ => ?_
  · intro c h; exact ⟨h, by simp⟩
  · exact framed_send e (code := 0x0d) (by rw [f6_length hea]; rfl)

theorem framed_secure (e : Env P) (hr : e.rnd.length = 16) : Holds framed e onSecureRandom := by
  have h1 := framed_continue e hr
  have h2 := framed_calc e
  have h3 := framed_check e
  unfold onSecureRandom handlePassKeyRandom; holds <;> simp [framed, Rand16]

theorem framed_legacy (e : Env P) : Holds framed e onLegacyRandom := by
  have h1 := framed_encrypt e
  unfold onLegacyRandom; holds <;> simp [framed, Rand16]
  intro c; split <;> simp

theorem framed_random (e : Env P) (hr : e.rnd.length = 16) (b : Bytes) : Holds framed e (onPairingRandom b) := by
  have h1 := framed_legacy e
  have h2 := framed_secure e hr
  unfold onPairingRandom; holds <;> simp [framed, Rand16]

theorem framed_dhcheck (e : Env P) (b : Bytes) : Holds framed e (onDHKeyCheck b) := by
  have h1 := framed_save e
  have h2 := framed_encrypt e
  unfold onDHKeyCheck; holds <;> simp [framed, Rand16]

theorem framed_security (e : Env P) (b : Bytes) : Holds framed e (onSecurityRequest b) := by
  have h1 := framed_request e
  have h2 := framed_encrypt e
  unfold onSecurityRequest; holds <;> simp [framed, Rand16]

theorem framed_encinfo (e : Env P) (b : Bytes) : Holds framed e (onEncryptionInformation b) := by
  unfold onEncryptionInformation; holds; simp [framed, Rand16]

theorem framed_master (e : Env P) (b : Bytes) : Holds framed e (onMasterIdentification b) := by
  have h1 := framed_save e
  unfold onMasterIdentification; holds <;> simp [framed, Rand16]

theorem framed_handler (e : Env P) (hr : e.rnd.length = 16) {code : UInt8} {h : Bytes → M P Unit} (hh : handlerOf code = some h) (b : Bytes) : Holds framed e (h b) := by
  unfold handlerOf at hh
  repeat' split at hh
  all_goals first
    | (cases hh; first
        | exact framed_response e hr b | exact framed_confirm e hr b | exact framed_random e hr b | exact Holds.fail | exact framed_encinfo e b | exact framed_master e b
        | exact framed_security e b | exact framed_pk e hr b | exact framed_dhcheck e b)
    | exact absurd hh (by simp)

/-- The random numbers an event draws have 16 bytes. -/
def Event.Rand16 : Event P → Prop
  | .msg e _ => e.rnd.length = 16
  | .pair e _ => e.rnd.length = 16
  | .timeout => True

theorem framed_step (m : Mgr P) (x : Event P) (hx : x.Rand16) (hm : Ble.Smp.Rand16 m.ctx) :
    Ble.Smp.Rand16 (step m x).1.ctx ∧ ∀ f, Eff.send f ∈ (step m x).2 → SmpFrame f := by
  cases x with
  | timeout =>
    simp only [step, pairTimeout]
    split <;> exact ⟨hm, by simp⟩
  | pair e a =>
    simp only [step, pair]
    split
    · exact ⟨hm, by simp⟩
    · have key := (framed_request e).app
      split <;> (repeat' split)
      all_goals
        first
          | (refine ⟨((key _) ?_).1, ?_⟩ <;> first | exact hm | (intro f hf; simp only [List.mem_append, List.mem_singleton, reduceCtorEq, or_false] at hf; refine ((key _) ?_).2 f hf; exact hm))
  | msg e pdu =>
    simp only [step, handle]
    split
    · exact ⟨hm, by simp⟩
    · split
      · exact ⟨hm, by simp⟩
      · rename_i code data _
        cases hh : handlerOf (P := P) code with
        | none =>
          refine ⟨hm, ?_⟩
          exact ((framed_send e (code := 0x05) (body := [0x05]) rfl).app m.ctx hm).2
        | some h =>
          have key := (framed_handler e hx hh data).app m.ctx hm
          simp only
          repeat' split
          all_goals
            refine ⟨key.1, ?_⟩
            intro f hf
            simp only [List.mem_append, List.mem_singleton, reduceCtorEq, or_false] at hf
            exact key.2 f hf

/-! ## C115 -/

/-- **Well-formed**: whatever the peer sends and the application does, in every history of a connection every frame the security manager sends is a message of the security manager protocol, of the length its code demands, with the right length and channel in front. -/
theorem sends_wellformed (m : Mgr P) (xs : List (Event P)) (hm : m.ctx.localRandom = none) (hx : ∀ x ∈ xs, x.Rand16) :
    ∀ f, Eff.send f ∈ (run m xs).2 → SmpFrame f := by
  have key : ∀ (xs : List (Event P)) (m : Mgr P), Ble.Smp.Rand16 m.ctx → (∀ x ∈ xs, x.Rand16) → ∀ f, Eff.send f ∈ (run m xs).2 → SmpFrame f := by
    intro xs
    induction xs with
    | nil => intro m _ _ f hf; simp [run] at hf
    | cons x xs ih =>
      intro m hm hx f hf
      have hs := framed_step m x (hx x (List.mem_cons_self ..)) hm
      simp only [run, List.mem_append] at hf
      rcases hf with h | h
      · exact hs.2 f h
      · exact ih _ hs.1 (fun y hy => hx y (List.mem_cons_of_mem _ hy)) f h
  exact key xs m (by intro r h; rw [hm] at h; simp at h) hx

/-- A new connection meets the hypothesis. -/
theorem sends_wellformed_new (cfg : Config) (la ra : Bytes) (lt rt : UInt8) (xs : List (Event P)) (hx : ∀ x ∈ xs, x.Rand16) :
    ∀ f, Eff.send f ∈ (run (newMgr (P := P) cfg la ra lt rt) xs).2 → SmpFrame f :=
  sends_wellformed _ xs rfl hx

/-- A code the library does not know is answered with Pairing Failed, reason "pairing not supported" (0x05), and nothing else changes. -/
theorem unknown_answered (e : Env P) (m : Mgr P) (a b c d code : UInt8) (data : Bytes) (hl : m.life = .running) (hs : e.sendOk = true)
    (hc : code ∉ [0x02, 0x03, 0x04, 0x05, 0x06, 0x07, 0x0b, 0x0c, 0x0d]) :
    step m (.msg e (a :: b :: c :: d :: code :: data)) = (m, [.send [2, 0, 6, 0, 5, 5]]) := by
  have hh : handlerOf (P := P) code = none := by
    unfold handlerOf
    simp only [List.mem_cons, List.not_mem_nil, or_false, not_or] at hc
    obtain ⟨h1, h2, h3, h4, h5, h6, h7, h8, h9⟩ := hc
    simp [h1, h2, h3, h4, h5, h6, h7, h8, h9]
  simp [step, handle, hl, hh, send_app, sendOut, hs, frame, put16]

end Ble.Smp
