import Verif.Smp.Lemmas
set_option autoImplicit false

/-! # Closed forms of the message handlers -/

namespace Ble.Smp.Aux

variable {P : Prims}

theorem pdu_drop (b : Bytes) : (frame b).drop 4 = b := by simp [frame, put16]

/-- `Handle` of a message whose handler returns without error, the pairing not being finished. -/
theorem handle_ok {e : Env P} {m : Mgr P} {code : UInt8} {data : Bytes} {h : Bytes → M P Unit} {c' : Ctx P} {w : List Eff}
    (hl : m.life = .running) (hh : handlerOf (P := P) code = some h) (hr : h data e m.ctx = (c', w, .ok ())) (hs : c'.state ≠ .finished) :
    handle e (frame (code :: data)) m = ({ m with ctx := c' }, w) := by
  unfold handle
  rw [pdu_drop]
  simp [hl, hh, hr, hs]

/-- The same when it is finished and a `Pair` is waiting. -/
theorem handle_fin {e : Env P} {m : Mgr P} {code : UInt8} {data : Bytes} {h : Bytes → M P Unit} {c' : Ctx P} {w : List Eff}
    (hl : m.life = .running) (hh : handlerOf (P := P) code = some h) (hr : h data e m.ctx = (c', w, .ok ())) (hs : c'.state = .finished)
    (hc : m.closed = false) (hw : m.waiting = true) :
    handle e (frame (code :: data)) m = ({ m with ctx := c', closed := true, waiting := false }, w ++ [.pairResult true]) := by
  unfold handle
  rw [pdu_drop]
  simp [hl, hh, hr, hs, hc, hw]

theorem onPairingConfirm_app (e : Env P) (c : Ctx P) (b : Bytes) :
    onPairingConfirm b e c = if b.length ≠ 16 then (c, [], .err ()) else
      sendOut e { c with remoteConfirm := b, localRandom := some (c.localRandom.getD e.rnd), state := .waitRandom } ([0x04] ++ c.localRandom.getD e.rnd) := by
  unfold onPairingConfirm
  rw [M.ite_app]
  split
  · simp
  · simp [sendPairingRandom_app]

theorem bothX_ok {c : Ctx P} {k : Keys P} {b : P.Pub} (hk : c.keys = some k) (hb : c.remotePub = some b) : bothX c = .ok (marshalX P b, marshalX P k.pub) := by
  simp [bothX, hk, hb]

theorem marshalX_length (p : P.Pub) : (marshalX P p).length = 32 := by simp [marshalX, swapBuf_eq, P.coordX_length]
theorem marshalX_reverse (p : P.Pub) : (marshalX P p).reverse = P.coordX p := by simp [marshalX, swapBuf_eq]

theorem marshalXY_length (p : P.Pub) : (marshalXY P p).length = 64 := by simp [marshalXY, swapBuf_eq, P.coordX_length, P.coordY_length]

theorem unmarshal_marshal (p : P.Pub) : unmarshalPub P (marshalXY P p) = some p := by
  unfold unmarshalPub marshalXY
  rw [List.take_left' (by simp [swapBuf_eq, P.coordX_length]), List.drop_left' (by simp [swapBuf_eq, P.coordX_length])]
  simp [swapBuf_eq, P.point_coord]

theorem marshalXY_inj {p q : P.Pub} (h : marshalXY P p = marshalXY P q) : p = q := by
  have := unmarshal_marshal p
  rw [h, unmarshal_marshal] at this
  exact (Option.some.inj this).symm

/-- The specification's confirm value, on the air. -/
theorem f4_keys (p q : P.Pub) (n : Bytes) (z : UInt8) (hn : n.length = 16) :
    smpF4 P (marshalX P p) (marshalX P q) n z = .ok (SmpSpec.f4 P (P.coordX p) (P.coordX q) n.reverse z).reverse := by
  rw [f4_ok P (marshalX_length p) (marshalX_length q) hn, marshalX_reverse, marshalX_reverse]

theorem checkConfirm_iff {c : Ctx P} {k : Keys P} {b : P.Pub} (hk : c.keys = some k) (hb : c.remotePub = some b) (hn : c.remoteRandom.length = 16) :
    checkConfirm c = if c.remoteConfirm = (SmpSpec.f4 P (P.coordX b) (P.coordX k.pub) c.remoteRandom.reverse 0).reverse then .ok () else .err () := by
  unfold checkConfirm
  rw [bothX_ok hk hb]
  simp only [Go.bind_ok]
  rw [f4_keys _ _ _ _ hn]
  simp only [Go.bind_ok, eq_comm]

theorem checkPasskeyConfirm_iff {c : Ctx P} {k : Keys P} {b : P.Pub} (hk : c.keys = some k) (hb : c.remotePub = some b) (hn : c.remoteRandom.length = 16) :
    checkPasskeyConfirm c = if c.remoteConfirm = (SmpSpec.f4 P (P.coordX b) (P.coordX k.pub) c.remoteRandom.reverse (passkeyBit c.auth.passkey c.iter)).reverse then .ok () else .err () := by
  unfold checkPasskeyConfirm
  rw [bothX_ok hk hb]
  simp only [Go.bind_ok]
  rw [f4_keys _ _ _ _ hn]
  simp only [Go.bind_ok]

theorem generatePassKeyConfirm_eq {c : Ctx P} {k : Keys P} {b : P.Pub} (hk : c.keys = some k) (hb : c.remotePub = some b) {n : Bytes} (hn : n.length = 16) :
    generatePassKeyConfirm c n = .ok (SmpSpec.f4 P (P.coordX k.pub) (P.coordX b) n.reverse (passkeyBit c.auth.passkey c.iter)).reverse := by
  unfold generatePassKeyConfirm
  rw [bothX_ok hk hb]
  simp only [Go.bind_ok]
  rw [f4_keys _ _ _ _ hn]

/-- The 16 zero bytes. -/
def zeros : Bytes := List.replicate 16 0

theorem tk_zero : getLegacyTK 0 = zeros := by
  unfold getLegacyTK; rw [swapBuf_eq]; decide

theorem getLegacyTK_length (n : Nat) : (getLegacyTK n).length = 16 := by
  unfold getLegacyTK; rw [swapBuf_eq]; simp [passkeyBE]

theorem legacyTK_length (c : Ctx P) : (legacyTK c).length = 16 := by
  unfold legacyTK; split
  · exact getLegacyTK_length _
  · simp

theorem legacyTK_eq (c : Ctx P) : (if c.method = .passkey then getLegacyTK c.auth.passkey else getLegacyTK 0) = legacyTK c := by
  unfold legacyTK; split
  · rfl
  · rw [tk_zero]; rfl

theorem buildReq_length (c : Config) : (buildReq c).length = 7 := rfl
theorem buildRsp_length (c : Config) : (buildRsp c).length = 7 := rfl

theorem ioCapBytes_eq (c : Config) : ioCapBytes c = [c.ioCap, c.oobFlag, c.authReq] := by
  unfold ioCapBytes; rw [swapBuf_eq]; rfl

theorem ioCapBytes_reverse (c : Config) : (ioCapBytes c).reverse = [c.authReq, c.oobFlag, c.ioCap] := by rw [ioCapBytes_eq]; rfl

/-- What the specification computes, seen from the host: addresses and types as 56-bit values. -/
def addr56 (a : Bytes) (t : UInt8) : Bytes := [t] ++ a.reverse

theorem typed_reverse (a : Bytes) (t : UInt8) : (typed a t).reverse = addr56 a t := by simp [typed, addr56]

theorem calcMacLtk_app (e : Env P) {c : Ctx P} {k : Keys P} {b : P.Pub} {w : Bytes} {n : Bytes} (hk : c.keys = some k) (hb : c.remotePub = some b)
    (hw : P.dh k.priv b = w) (hwl : w.length = 32) (hln : c.localRandom = some n) (hn : n.length = 16) (hrn : c.remoteRandom.length = 16)
    (hla : c.localAddr.length = 6) (hra : c.remoteAddr.length = 6) :
    calcMacLtk e c = ({ c with
      dhKey := w.reverse
      bond := some ⟨(SmpSpec.ltk P w n.reverse c.remoteRandom.reverse (addr56 c.localAddr c.localAddrType) (addr56 c.remoteAddr c.remoteAddrType)).reverse, 0, 0, false⟩
      macKey := (SmpSpec.macKey P w n.reverse c.remoteRandom.reverse (addr56 c.localAddr c.localAddrType) (addr56 c.remoteAddr c.remoteAddrType)).reverse }, [], .ok ()) := by
  have hs : generateSecret P k.priv b = w.reverse := by simp [generateSecret, swapBuf_eq, hw]
  have h5 := f5_ok P (w := w.reverse) (n1 := n) (n2 := c.remoteRandom) (a1 := typed c.localAddr c.localAddrType) (a2 := typed c.remoteAddr c.remoteAddrType)
    (by simpa using hwl) hn hrn (by simp [typed, hla]) (by simp [typed, hra])
  rw [List.reverse_reverse, typed_reverse, typed_reverse] at h5
  simp [calcMacLtk, generateDHKey, hk, hb, hs, hln, h5]

theorem sendDHKeyCheck_app (e : Env P) {c : Ctx P} {n : Bytes} (hln : c.localRandom = some n) (hn : n.length = 16) (hrn : c.remoteRandom.length = 16)
    (hla : c.localAddr.length = 6) (hra : c.remoteAddr.length = 6) (hmk : c.macKey.length = 16) (hr : (checkR c).length = 16) :
    sendDHKeyCheck e c = sendOut e { c with state := .waitDhKeyCheck } ([0x0d] ++
      (SmpSpec.f6 P c.macKey.reverse n.reverse c.remoteRandom.reverse (checkR c).reverse [c.request.authReq, c.request.oobFlag, c.request.ioCap]
        (addr56 c.localAddr c.localAddrType) (addr56 c.remoteAddr c.remoteAddrType)).reverse) := by
  have h6 := f6_ok P (w := c.macKey) (n1 := n) (n2 := c.remoteRandom) (r := checkR c) (io := ioCapBytes c.request) (a1 := typed c.localAddr c.localAddrType)
    (a2 := typed c.remoteAddr c.remoteAddrType) hmk hn hrn hr (by rw [ioCapBytes_eq]; rfl) (by simp [typed, hla]) (by simp [typed, hra])
  rw [typed_reverse, typed_reverse, ioCapBytes_reverse] at h6
  cases h : e.sendOk <;> simp [sendDHKeyCheck, hln, h6, send_app, sendOut, h]

theorem checkDHKeyCheck_iff {c : Ctx P} {n : Bytes} (hln : c.localRandom = some n) (hn : n.length = 16) (hrn : c.remoteRandom.length = 16)
    (hla : c.localAddr.length = 6) (hra : c.remoteAddr.length = 6) (hmk : c.macKey.length = 16) (hr : (checkR c).length = 16) :
    checkDHKeyCheck c = if c.remoteCheck = (SmpSpec.f6 P c.macKey.reverse c.remoteRandom.reverse n.reverse (checkR c).reverse [c.response.authReq, c.response.oobFlag, c.response.ioCap]
        (addr56 c.remoteAddr c.remoteAddrType) (addr56 c.localAddr c.localAddrType)).reverse then .ok () else .err () := by
  have h6 := f6_ok P (w := c.macKey) (n1 := c.remoteRandom) (n2 := n) (r := checkR c) (io := ioCapBytes c.response) (a1 := typed c.remoteAddr c.remoteAddrType)
    (a2 := typed c.localAddr c.localAddrType) hmk hrn hn hr (by rw [ioCapBytes_eq]; rfl) (by simp [typed, hra]) (by simp [typed, hla])
  rw [typed_reverse, typed_reverse, ioCapBytes_reverse] at h6
  simp [checkDHKeyCheck, hln, h6]

theorem checkLegacyConfirm_iff {c : Ctx P} (hrn : c.remoteRandom.length = 16) (hla : c.localAddr.length = 6) (hra : c.remoteAddr.length = 6) :
    checkLegacyConfirm c = if c.remoteConfirm = (SmpSpec.c1 P (legacyTK c).reverse c.remoteRandom.reverse (buildReq c.request).reverse (buildRsp c.response).reverse
        c.localAddrType c.remoteAddrType c.localAddr.reverse c.remoteAddr.reverse).reverse then .ok () else .err () := by
  unfold checkLegacyConfirm
  rw [c1_ok P (legacyTK_length c) hrn rfl rfl hla hra]
  rfl

end Ble.Smp.Aux

namespace Ble.Smp.Aux

variable {P : Prims}

/-- A Pairing Response for secure connections. -/
theorem onPairingResponse_sc (e : Env P) (c : Ctx P) (r : Config) (hl : isLegacy r.authReq = false)
    (ho : ¬ (determineMethod c.request r false = .oob ∧ c.auth.oobData.length = 0)) :
    onPairingResponse [r.ioCap, r.oobFlag, r.authReq, r.maxKeySize, r.initKeyDist, r.respKeyDist] e c =
      sendOut e { c with response := r, iter := 0, legacy := false, method := determineMethod c.request r false, keys := some (theKeys e c), state := .waitPublicKey }
        ([0x0c] ++ marshalXY P (theKeys e c).pub) := by
  simp only [onPairingResponse, M.bind_app, M.modify_app, M.get_app, M.ite_app, hl]
  rw [if_neg (by simpa using ho)]
  simp [sendPublicKey_app, theKeys]

/-- A Pairing Response for legacy pairing. -/
theorem onPairingResponse_legacy (e : Env P) (c : Ctx P) (r : Config) (hl : isLegacy r.authReq = true)
    (ho : ¬ (determineMethod c.request r true = .oob ∧ c.auth.oobData.length = 0)) (hr : e.rnd.length = 16) (hla : c.localAddr.length = 6) (hra : c.remoteAddr.length = 6) :
    onPairingResponse [r.ioCap, r.oobFlag, r.authReq, r.maxKeySize, r.initKeyDist, r.respKeyDist] e c =
      sendOut e { c with response := r, iter := 0, legacy := true, method := determineMethod c.request r true, localRandom := some e.rnd, state := .waitConfirm }
        ([0x03] ++ (SmpSpec.c1 P (if determineMethod c.request r true = .passkey then getLegacyTK c.auth.passkey else zeros).reverse e.rnd.reverse (buildReq c.request).reverse (buildRsp r).reverse
          c.localAddrType c.remoteAddrType c.localAddr.reverse c.remoteAddr.reverse).reverse) := by
  simp only [onPairingResponse, M.bind_app, M.modify_app, M.get_app, M.ite_app, hl]
  rw [if_neg (by simpa using ho)]
  simp only [if_true, sendMConfirm_app]
  have hk : (legacyTK { c with response := (⟨r.ioCap, r.oobFlag, r.authReq, r.maxKeySize, r.initKeyDist, r.respKeyDist⟩ : Config), iter := 0, legacy := true, method := determineMethod c.request r true }) =
      (if determineMethod c.request r true = .passkey then getLegacyTK c.auth.passkey else zeros) := rfl
  rw [c1_ok P (legacyTK_length _) hr rfl rfl hla hra, hk]
  rfl

theorem onPublicKey_app (e : Env P) {c : Ctx P} {k : Keys P} {b : P.Pub} (hk : c.keys = some k) (hne : k.pub ≠ b) :
    onPublicKey (marshalXY P b) e c = if c.method = .passkey then startPassKeyPairing e { c with remotePub := some b } else ({ c with remotePub := some b }, [], .ok ()) := by
  have h1 : marshalXY P k.pub ≠ marshalXY P b := fun h => hne (marshalXY_inj h)
  unfold onPublicKey
  rw [M.ite_app, if_neg (by simp [marshalXY_length])]
  simp only [M.bind_app, M.get_app, hk, M.ite_app, if_neg h1, unmarshal_marshal, M.modify_app]
  split <;> simp

theorem startPassKeyPairing_app (e : Env P) {c : Ctx P} {k : Keys P} {b : P.Pub} (hk : c.keys = some k) (hb : c.remotePub = some b) (hn : e.rnd.length = 16) (hs : e.sendOk = true) :
    startPassKeyPairing e c = ({ c with iter := 0, localRandom := some e.rnd },
      [.send (frame ([0x03] ++ (SmpSpec.f4 P (P.coordX k.pub) (P.coordX b) e.rnd.reverse (passkeyBit c.auth.passkey 0)).reverse))], .ok ()) := by
  have hg : generatePassKeyConfirm { c with iter := 0 } e.rnd = .ok (SmpSpec.f4 P (P.coordX k.pub) (P.coordX b) e.rnd.reverse (passkeyBit c.auth.passkey 0)).reverse :=
    generatePassKeyConfirm_eq (c := { c with iter := 0 }) hk hb hn
  simp [startPassKeyPairing, continuePassKeyPairing, hg, hs]

theorem continuePassKeyPairing_app (e : Env P) {c : Ctx P} {k : Keys P} {b : P.Pub} (hk : c.keys = some k) (hb : c.remotePub = some b) (hn : e.rnd.length = 16) (hs : e.sendOk = true) :
    continuePassKeyPairing e c = ({ c with localRandom := some e.rnd },
      [.send (frame ([0x03] ++ (SmpSpec.f4 P (P.coordX k.pub) (P.coordX b) e.rnd.reverse (passkeyBit c.auth.passkey c.iter)).reverse))], .ok ()) := by
  simp [continuePassKeyPairing, generatePassKeyConfirm_eq hk hb hn, hs]

/-- The MAC key and the DHKey check the host computes. -/
def hostMacKey (c : Ctx P) (w n : Bytes) : Bytes :=
  SmpSpec.macKey P w n.reverse c.remoteRandom.reverse (addr56 c.localAddr c.localAddrType) (addr56 c.remoteAddr c.remoteAddrType)
def hostLtk (c : Ctx P) (w n : Bytes) : Bytes :=
  SmpSpec.ltk P w n.reverse c.remoteRandom.reverse (addr56 c.localAddr c.localAddrType) (addr56 c.remoteAddr c.remoteAddrType)

/-- Stage 2: the end of `onSecureRandom`. -/
def stage2 : M P Unit := do
  calcMacLtk
  sendDHKeyCheck

theorem onSecureRandom_np (e : Env P) {c : Ctx P} (hm : c.method ≠ .passkey) :
    onSecureRandom e c = match checkConfirm c with
      | .ok _ => stage2 e c
      | .err u => (c, [], .err u)
      | .panic => (c, [], .panic) := by
  cases h : checkConfirm c <;> simp [onSecureRandom, stage2, hm, h]

theorem onSecureRandom_pk (e : Env P) {c : Ctx P} (hm : c.method = .passkey) :
    onSecureRandom e c = match checkPasskeyConfirm c with
      | .ok _ => if c.iter + 1 < 20 then continuePassKeyPairing e { c with iter := c.iter + 1 } else stage2 e { c with iter := c.iter + 1 }
      | .err u => (c, [], .err u)
      | .panic => (c, [], .panic) := by
  cases h : checkPasskeyConfirm c
  · by_cases hi : c.iter + 1 < 20
    · generalize hr : continuePassKeyPairing e { c with iter := c.iter + 1 } = r
      obtain ⟨c', w, o⟩ := r
      simp only [hm] at hr
      cases o <;> simp [onSecureRandom, handlePassKeyRandom, hm, h, hi, hr]
    · simp [onSecureRandom, handlePassKeyRandom, stage2, hm, h, hi]
  · simp [onSecureRandom, handlePassKeyRandom, hm, h]
  · simp [onSecureRandom, handlePassKeyRandom, hm, h]

theorem onPairingRandom_app (e : Env P) (c : Ctx P) (x : Bytes) : onPairingRandom x e c =
    if x.length ≠ 16 then (c, [], .err ()) else if c.legacy then onLegacyRandom e { c with remoteRandom := x } else onSecureRandom e { c with remoteRandom := x } := by
  unfold onPairingRandom
  rw [M.ite_app]
  split
  · rfl
  · simp only [M.bind_app, M.modify_app, M.get_app, M.ite_app, List.nil_append]

/-- Stage 2, once stage 1 has been passed. -/
theorem stage2_app (e : Env P) {c : Ctx P} {k : Keys P} {b : P.Pub} {w : Bytes} {n : Bytes} (hk : c.keys = some k) (hb : c.remotePub = some b)
    (hw : P.dh k.priv b = w) (hwl : w.length = 32) (hln : c.localRandom = some n) (hn : n.length = 16) (hrn : c.remoteRandom.length = 16)
    (hla : c.localAddr.length = 6) (hra : c.remoteAddr.length = 6) (hr : (checkR c).length = 16) :
    stage2 e c = sendOut e { c with
        dhKey := w.reverse, bond := some ⟨(hostLtk c w n).reverse, 0, 0, false⟩, macKey := (hostMacKey c w n).reverse, state := .waitDhKeyCheck }
      ([0x0d] ++ (SmpSpec.f6 P (hostMacKey c w n) n.reverse c.remoteRandom.reverse (checkR c).reverse [c.request.authReq, c.request.oobFlag, c.request.ioCap]
        (addr56 c.localAddr c.localAddrType) (addr56 c.remoteAddr c.remoteAddrType)).reverse) := by
  unfold stage2
  rw [M.bind_app, calcMacLtk_app e hk hb hw hwl hln hn hrn hla hra]
  have h6 := sendDHKeyCheck_app (c := { c with dhKey := w.reverse, bond := some ⟨(hostLtk c w n).reverse, 0, 0, false⟩, macKey := (hostMacKey c w n).reverse })
    e (n := n) hln hn hrn hla hra (by simp [hostMacKey, SmpSpec.macKey, SmpSpec.f5, P.cmac_length]) hr
  simp only [List.reverse_reverse] at h6
  exact h6

/-- A Pairing Random in just works or numeric comparison, with the right confirm value. -/
theorem onPairingRandom_np (e : Env P) {c : Ctx P} {k : Keys P} {b : P.Pub} {w : Bytes} {n x : Bytes} (hleg : c.legacy = false) (hm : c.method ≠ .passkey) (hk : c.keys = some k) (hb : c.remotePub = some b)
    (hw : P.dh k.priv b = w) (hwl : w.length = 32) (hln : c.localRandom = some n) (hn : n.length = 16) (hx : x.length = 16)
    (hla : c.localAddr.length = 6) (hra : c.remoteAddr.length = 6) (hr : (checkR c).length = 16)
    (hc : c.remoteConfirm = (SmpSpec.f4 P (P.coordX b) (P.coordX k.pub) x.reverse 0).reverse) :
    onPairingRandom x e c = sendOut e { c with
        remoteRandom := x
        dhKey := w.reverse, bond := some ⟨(hostLtk { c with remoteRandom := x } w n).reverse, 0, 0, false⟩, macKey := (hostMacKey { c with remoteRandom := x } w n).reverse, state := .waitDhKeyCheck }
      ([0x0d] ++ (SmpSpec.f6 P (hostMacKey { c with remoteRandom := x } w n) n.reverse x.reverse (checkR c).reverse [c.request.authReq, c.request.oobFlag, c.request.ioCap]
        (addr56 c.localAddr c.localAddrType) (addr56 c.remoteAddr c.remoteAddrType)).reverse) := by
  have h2 := stage2_app (c := { c with remoteRandom := x }) e hk hb hw hwl hln hn hx hla hra hr
  have hcc := checkConfirm_iff (c := { c with remoteRandom := x }) hk hb hx
  rw [if_pos hc] at hcc
  rw [onPairingRandom_app, if_neg (by simp [hx]), if_neg (by simp [hleg]), onSecureRandom_np e (c := { c with remoteRandom := x }) hm, hcc]
  exact h2

/-- The end of `smpOnDHKeyCheck`. -/
def afterCheck : M P Unit := do
  saveBondInfo
  M.modify (fun (c : Ctx P) => { c with state := .finished })
  encrypt

theorem onDHKeyCheck_match (e : Env P) (c : Ctx P) (x : Bytes) : onDHKeyCheck x e c =
    match checkDHKeyCheck { c with remoteCheck := x } with
    | .ok _ => afterCheck e { c with remoteCheck := x }
    | .err u => ({ c with remoteCheck := x }, [], .err u)
    | .panic => ({ c with remoteCheck := x }, [], .panic) := by
  cases h : checkDHKeyCheck { c with remoteCheck := x } <;> simp [onDHKeyCheck, afterCheck, h]

theorem saveBondInfo_app (e : Env P) {c : Ctx P} {bd : Bond} (hbd : c.bond = some bd) (he : e.saveOk = true) :
    saveBondInfo e c = (c, if bonding c.request.authReq then [.save c.remoteAddr bd] else [], .ok ()) := by
  cases hb : bonding c.request.authReq <;> simp [saveBondInfo, hb, hbd, he]

theorem encrypt_sc (e : Env P) {c : Ctx P} {bd : Bond} (hbd : c.bond = some bd) (hbl : bd.legacy = false) (hltk : bd.ltk.length = 16) (hleg : c.legacy = false) (he : e.encOk = true) :
    encrypt e c = (c, [.startEnc bd.ltk bd.ediv bd.rand], .ok ()) := by
  have hk : key16 bd.ltk = .ok bd.ltk := by simp [key16, hltk]
  simp [encrypt, hleg, hbd, hbl, sendEnc, hk, he]

theorem afterCheck_app (e : Env P) {c : Ctx P} {bd : Bond} (hbd : c.bond = some bd) (hbl : bd.legacy = false) (hltk : bd.ltk.length = 16) (hleg : c.legacy = false)
    (he : e.saveOk = true) (he' : e.encOk = true) :
    afterCheck e c = ({ c with state := .finished }, (if bonding c.request.authReq then [.save c.remoteAddr bd] else []) ++ [.startEnc bd.ltk bd.ediv bd.rand], .ok ()) := by
  unfold afterCheck
  rw [M.bind_app, saveBondInfo_app e hbd he]
  simp only [M.bind_app, M.modify_app]
  rw [encrypt_sc (c := { c with state := .finished }) e hbd hbl hltk hleg he']
  simp

/-- The right DHKey check. -/
theorem onDHKeyCheck_app (e : Env P) {c : Ctx P} {n x : Bytes} {bd : Bond} (hln : c.localRandom = some n) (hn : n.length = 16) (hrn : c.remoteRandom.length = 16)
    (hla : c.localAddr.length = 6) (hra : c.remoteAddr.length = 6) (hmk : c.macKey.length = 16) (hr : (checkR c).length = 16)
    (hx : x = (SmpSpec.f6 P c.macKey.reverse c.remoteRandom.reverse n.reverse (checkR c).reverse [c.response.authReq, c.response.oobFlag, c.response.ioCap]
        (addr56 c.remoteAddr c.remoteAddrType) (addr56 c.localAddr c.localAddrType)).reverse)
    (hbd : c.bond = some bd) (hbl : bd.legacy = false) (hltk : bd.ltk.length = 16) (hleg : c.legacy = false) (he : e.saveOk = true) (he' : e.encOk = true) :
    onDHKeyCheck x e c = ({ c with remoteCheck := x, state := .finished },
      (if bonding c.request.authReq then [.save c.remoteAddr bd] else []) ++ [.startEnc bd.ltk bd.ediv bd.rand], .ok ()) := by
  have hcc := checkDHKeyCheck_iff (c := { c with remoteCheck := x }) hln hn hrn hla hra hmk hr
  have hcc := hcc.trans (if_pos hx)
  rw [onDHKeyCheck_match, hcc]
  exact afterCheck_app (c := { c with remoteCheck := x }) e hbd hbl hltk hleg he he'

end Ble.Smp.Aux
