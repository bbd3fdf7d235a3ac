import Verif.Props.SmpLegacy
set_option autoImplicit false

/-!
# C41, fourth part: values that do not match are rejected, and where honest sides still fail
-/

namespace Ble.Props

open Ble.Smp

namespace SmpRejectAux
open SmpHonestAux Aux

variable {P : Prims}

theorem run_msg_err {e : Env P} {code : UInt8} {data : Bytes} {h : Bytes → M P Unit} {c c' : Ctx P} {w : List Eff} (msg : Bytes)
    (hmsg : msg = frame (code :: data)) (hh : handlerOf (P := P) code = some h) (hr : h data e c = (c', w, .err ())) :
    run (mgr c) [.msg e msg] = ({ ctx := { c' with state := .error } }, w ++ [.pairResult false]) := by
  subst hmsg
  rw [run_cons (m' := { ctx := { c' with state := .error } }) (w := w ++ [.pairResult false])]
  · simp [run]
  · simp only [step, handle]
    rw [pdu_drop]
    simp [mgr, hh, hr]

/-- After `Pair`, the Pairing Response, the public key and some confirm value. -/
theorem jw_start (S : Pairing P) (hS : S.Sound) {e0 e1 e2 e3 : Env P} (f0 : Fine e0) (f1 : Fine e1) (f3 : Fine e3)
    (hk : e1.fresh = S.hostKeys) (hs : S.rsp.authReq &&& 0x08 = 0x08) (ho : S.auth.oobData = []) {mm : Method} (hdm : determineMethod S.cfg S.rsp false = mm)
    (hmo : mm ≠ .oob) (hmp : mm ≠ .passkey) {na cb : Bytes} (hna : e3.rnd = le na) (hcb : cb.length = 16) (rest : List (Event P)) :
    ∃ c3 : Ctx P, Of S c3 ∧ c3.method = mm ∧ c3.remoteConfirm = le cb ∧ c3.localRandom = some (le na) ∧ c3.state = .waitRandom ∧
      run S.start (.pair e0 S.auth :: .msg e1 S.rspMsg :: .msg e2 S.pubMsg :: .msg e3 (confirmMsg cb) :: rest) =
        ((run (mgr c3) rest).1, [.send (frame (buildReq S.cfg)), .send S.hostPub, .send (randomMsg na)] ++ (run (mgr c3) rest).2) := by
  have h2 := onPublicKey_app e2 (c := ctx1 S mm) (k := S.hostKeys) (b := S.peerKeys.pub) rfl hS.keys
  rw [if_neg (show ¬ (ctx1 S mm).method = .passkey from hmp)] at h2
  have h3 := onPairingConfirm_app e3 { ctx1 S mm with remotePub := some S.peerKeys.pub } (le cb)
  rw [if_neg (by simp [le, hcb]), sendOut_ok _ _ _ f3.send] at h3
  have hln : (ctx1 S mm).localRandom.getD e3.rnd = le na := hna
  rw [hln] at h3
  refine ⟨{ ctx1 S mm with remotePub := some S.peerKeys.pub, remoteConfirm := le cb, localRandom := some (le na), state := .waitRandom }, ⟨rfl, rfl, rfl, rfl, rfl, rfl, rfl, rfl, rfl⟩, rfl, rfl, rfl, rfl, ?_⟩
  rw [sc_start S f0 f1 hk hs ho (by rw [hdm]; exact hmo), hdm, run_msg _ S.pubMsg (code := 0x0c) (pubMsg_eq S) rfl h2 (by simp [ctx1]),
    run_msg _ (confirmMsg cb) (code := 0x03) rfl rfl h3 (by simp)]
  simp [randomMsg]

end SmpRejectAux

open SmpHonestAux SmpLegacyAux SmpRejectAux Aux

variable {P : Prims}

/-- C41. Just works and numeric comparison: if the peer's nonce does not fit the confirm value it sent before, the pairing fails: no check value, no bond, no encryption, and `Pair` returns an error. -/
theorem wrong_confirm_rejected (S : Pairing P) (hS : S.Sound) {e0 e1 e2 e3 e4 : Env P} (f0 : Fine e0) (f1 : Fine e1) (f3 : Fine e3)
    (hk : e1.fresh = S.hostKeys) (hs : S.rsp.authReq &&& 0x08 = 0x08) (ho : S.auth.oobData = [])
    {i j : SmpSpec.IO} (hi : SmpSpec.IO.ofByte S.cfg.ioCap = some i) (hj : SmpSpec.IO.ofByte S.rsp.ioCap = some j)
    (hm : SmpSpec.pairingMethod true (oobSet S.cfg) (oobSet S.rsp) (mitmSet S.cfg) (mitmSet S.rsp) i j = .justWorks ∨
      SmpSpec.pairingMethod true (oobSet S.cfg) (oobSet S.rsp) (mitmSet S.cfg) (mitmSet S.rsp) i j = .numericComp)
    {na nb cb : Bytes} (hna : e3.rnd = le na) (hnb : nb.length = 16) (hcb : cb.length = 16) (hne : cb ≠ S.Cb nb 0) :
    (run S.start [.pair e0 S.auth, .msg e1 S.rspMsg, .msg e2 S.pubMsg, .msg e3 (confirmMsg cb), .msg e4 (randomMsg nb)]).2 =
      [.send (frame (buildReq S.cfg)), .send S.hostPub, .send (randomMsg na), .pairResult false] := by
  have hdm : determineMethod S.cfg S.rsp false = .justWorks ∨ determineMethod S.cfg S.rsp false = .numericComp := by
    rw [SmpMethodAux.determine_eq hi hj false (Or.inl rfl)]; exact hm
  generalize hmm : determineMethod S.cfg S.rsp false = mm at hdm
  have hmp : mm ≠ .passkey := by rcases hdm with rfl | rfl <;> decide
  obtain ⟨c3, hof, hm3, hcf, _, _, hrun⟩ := jw_start S hS f0 f1 f3 (e2 := e2) hk hs ho hmm (by rcases hdm with rfl | rfl <;> decide) hmp hna hcb [.msg e4 (randomMsg nb)]
  rw [hrun]
  have h4 : onPairingRandom (le nb) e4 c3 = ({ c3 with remoteRandom := le nb }, [], .err ()) := by
    have hcc := checkConfirm_iff (c := { c3 with remoteRandom := le nb }) hof.keys hof.pub (by simpa [le] using hnb)
    have hcc := hcc.trans (if_neg (by
      show ¬ c3.remoteConfirm = _
      rw [hcf]; simp only [le, List.reverse_reverse, List.reverse_inj]; exact hne))
    rw [onPairingRandom_app, if_neg (by simp [le, hnb]), if_neg (by simp [hof.legacy]), onSecureRandom_np e4 (c := { c3 with remoteRandom := le nb }) (by simp [hm3, hmp]), hcc]
  rw [run_msg_err (randomMsg nb) (code := 0x04) rfl rfl h4]
  rfl

/-- C41. In passkey entry, whatever the round: a nonce that does not fit the peer's confirm value under the host's own passkey bit ends the pairing with an error. -/
theorem wrong_passkey_bit_rejected {c : Ctx P} {k : Keys P} {b : P.Pub} (e : Env P) (hleg : c.legacy = false) (hm : c.method = .passkey) (hk : c.keys = some k) (hb : c.remotePub = some b)
    {nb : Bytes} (hnb : nb.length = 16)
    (hne : c.remoteConfirm ≠ le (SmpSpec.f4 P (P.coordX b) (P.coordX k.pub) nb (roundBit c.auth.passkey c.iter))) :
    (run ({ ctx := c, waiting := true } : Mgr P) [.msg e (randomMsg nb)]).2 = [.pairResult false] := by
  have h4 : onPairingRandom (le nb) e c = ({ c with remoteRandom := le nb }, [], .err ()) := by
    have hcc := checkPasskeyConfirm_iff (c := { c with remoteRandom := le nb }) hk hb (by simpa [le] using hnb)
    have hcc := hcc.trans (if_neg (by
      show ¬ c.remoteConfirm = _
      rw [passkey_bit_spec]; simp only [le, List.reverse_reverse]
      intro h; exact hne (by rw [h]; rfl)))
    rw [onPairingRandom_app, if_neg (by simp [le, hnb]), if_neg (by simp [hleg]), onSecureRandom_pk e (c := { c with remoteRandom := le nb }) hm, hcc]
  have := run_msg_err (c := c) (randomMsg nb) (code := 0x04) rfl rfl h4
  rw [mgr] at this
  rw [this]; rfl

/-- **C56, the part that holds.** Missing: that the peer is held to its first confirm value of a round: the host takes a second one after it has shown its nonce, and so the property is false (`passkey_stolen`). -/
theorem wrong_passkey_bit_rejected_partial {c : Ctx P} {k : Keys P} {b : P.Pub} (e : Env P) (hleg : c.legacy = false) (hm : c.method = .passkey) (hk : c.keys = some k) (hb : c.remotePub = some b)
    {nb : Bytes} (hnb : nb.length = 16)
    (hne : c.remoteConfirm ≠ le (SmpSpec.f4 P (P.coordX b) (P.coordX k.pub) nb (roundBit c.auth.passkey c.iter))) :
    (run ({ ctx := c, waiting := true } : Mgr P) [.msg e (randomMsg nb)]).2 = [.pairResult false] :=
  wrong_passkey_bit_rejected e hleg hm hk hb hnb hne

/-- C41. The DHKey check: a peer whose stage 1 was right but whose check value is not Eb is rejected: no bond is stored, no encryption is started, and `Pair` returns an error. -/
theorem wrong_check_rejected (S : Pairing P) (hS : S.Sound) {e0 e1 e2 e3 e4 e5 : Env P} (f0 : Fine e0) (f1 : Fine e1) (f3 : Fine e3) (f4 : Fine e4)
    (hk : e1.fresh = S.hostKeys) (hs : S.rsp.authReq &&& 0x08 = 0x08) (ho : S.auth.oobData = [])
    {i j : SmpSpec.IO} (hi : SmpSpec.IO.ofByte S.cfg.ioCap = some i) (hj : SmpSpec.IO.ofByte S.rsp.ioCap = some j)
    (hm : SmpSpec.pairingMethod true (oobSet S.cfg) (oobSet S.rsp) (mitmSet S.cfg) (mitmSet S.rsp) i j = .justWorks ∨
      SmpSpec.pairingMethod true (oobSet S.cfg) (oobSet S.rsp) (mitmSet S.cfg) (mitmSet S.rsp) i j = .numericComp)
    {na nb eb : Bytes} (hna : e3.rnd = le na) (hnb : nb.length = 16) (hne : eb ≠ S.Eb na nb zeros) :
    (run S.start [.pair e0 S.auth, .msg e1 S.rspMsg, .msg e2 S.pubMsg, .msg e3 (confirmMsg (S.Cb nb 0)), .msg e4 (randomMsg nb), .msg e5 (checkMsg eb)]).2 =
      [.send (frame (buildReq S.cfg)), .send S.hostPub, .send (randomMsg na), .send (checkMsg (S.Ea na nb zeros)), .pairResult false] := by
  have hdm : determineMethod S.cfg S.rsp false = .justWorks ∨ determineMethod S.cfg S.rsp false = .numericComp := by
    rw [SmpMethodAux.determine_eq hi hj false (Or.inl rfl)]; exact hm
  generalize hmm : determineMethod S.cfg S.rsp false = mm at hdm
  have hmp : mm ≠ .passkey := by rcases hdm with rfl | rfl <;> decide
  have hr : ∀ c : Ctx P, c.method = mm → checkR c = zeros := by
    intro c hc; unfold checkR; rcases hdm with rfl | rfl <;> rw [hc] <;> rfl
  have hnal : (le na).length = 16 := hna ▸ f3.rnd
  obtain ⟨c3, hof, hm3, hcf, hln, _, hrun⟩ := jw_start S hS f0 f1 f3 (e2 := e2) hk hs ho hmm (by rcases hdm with rfl | rfl <;> decide) hmp hna (cb := S.Cb nb 0)
    (by simp [Pairing.Cb, SmpSpec.f4, P.cmac_length]) [.msg e4 (randomMsg nb), .msg e5 (checkMsg eb)]
  rw [hrun]
  have hla : c3.localAddr.length = 6 := by rw [hof.la, swapBuf_eq]; simp [hS.la]
  have hra : c3.remoteAddr.length = 6 := by rw [hof.ra, swapBuf_eq]; simp [hS.ra]
  have hA : addr56 c3.localAddr c3.localAddrType = S.A := by rw [hof.la, hof.lt, addr56_swap]; rfl
  have hB : addr56 c3.remoteAddr c3.remoteAddrType = S.B := by rw [hof.ra, hof.rt, addr56_swap]; rfl
  have h4 := onPairingRandom_np e4 (c := c3) (x := le nb) hof.legacy (by rw [hm3]; exact hmp) hof.keys hof.pub hS.agree hS.secret hln hnal (by simpa [le] using hnb) hla hra
    (by rw [hr _ hm3]; rfl) (by rw [hcf]; simp [le, Pairing.Cb])
  have hmk : hostMacKey { c3 with remoteRandom := le nb } S.secret (le na) = S.macKey na nb := by
    unfold hostMacKey
    show SmpSpec.macKey P S.secret (le na).reverse (le nb).reverse (addr56 c3.localAddr c3.localAddrType) (addr56 c3.remoteAddr c3.remoteAddrType) = _
    rw [hA, hB]; simp [Pairing.macKey, le]
  have hsend : ([0x0d] : Bytes) ++ (SmpSpec.f6 P (S.macKey na nb) (le na).reverse (le nb).reverse (checkR c3).reverse [c3.request.authReq, c3.request.oobFlag, c3.request.ioCap]
      (addr56 c3.localAddr c3.localAddrType) (addr56 c3.remoteAddr c3.remoteAddrType)).reverse = [0x0d] ++ le (S.Ea na nb zeros) := by
    rw [hA, hB, hr _ hm3, hof.request]
    simp [le, Pairing.Ea, Pairing.ioA, zeros]
  rw [hmk, sendOut_ok _ _ _ f4.send, hsend] at h4
  rw [run_msg _ (randomMsg nb) (code := 0x04) rfl rfl h4 (by simp)]
  generalize hc4 : ({ c3 with
        remoteRandom := le nb
        dhKey := S.secret.reverse, bond := some ⟨(hostLtk { c3 with remoteRandom := le nb } S.secret (le na)).reverse, 0, 0, false⟩, macKey := (S.macKey na nb).reverse, state := .waitDhKeyCheck } : Ctx P) = c4
  have e1 : checkR c4 = zeros := by subst hc4; exact hr _ hm3
  have e2 : addr56 c4.localAddr c4.localAddrType = S.A := by subst hc4; exact hA
  have e3 : addr56 c4.remoteAddr c4.remoteAddrType = S.B := by subst hc4; exact hB
  have e4 : c4.remoteRandom = le nb := by subst hc4; rfl
  have e5' : c4.response = S.rsp := by subst hc4; exact hof.response
  have e6 : c4.macKey = (S.macKey na nb).reverse := by subst hc4; rfl
  have h5 : onDHKeyCheck (le eb) e5 c4 = ({ c4 with remoteCheck := le eb }, [], .err ()) := by
    have hcc := checkDHKeyCheck_iff (c := { c4 with remoteCheck := le eb }) (n := le na) (by subst hc4; exact hln) hnal (by rw [e4]; simpa [le] using hnb)
      (by subst hc4; exact hla) (by subst hc4; exact hra) (by rw [e6]; simp [Pairing.macKey, SmpSpec.macKey, SmpSpec.f5, P.cmac_length]) (by show (checkR c4).length = 16; rw [e1]; rfl)
    have hcc := hcc.trans (if_neg (by
      show ¬ le eb = (SmpSpec.f6 P c4.macKey.reverse c4.remoteRandom.reverse (le na).reverse (checkR c4).reverse [c4.response.authReq, c4.response.oobFlag, c4.response.ioCap]
        (addr56 c4.remoteAddr c4.remoteAddrType) (addr56 c4.localAddr c4.localAddrType)).reverse
      rw [e1, e2, e3, e4, e5', e6]
      simp only [le, List.reverse_reverse, List.reverse_inj]
      simpa [Pairing.Eb, Pairing.ioB, zeros] using hne))
    rw [onDHKeyCheck_match, hcc]
  rw [run_msg_err (checkMsg eb) (code := 0x0d) rfl rfl h5]
  rfl

/-- C41. Legacy pairing: a random number that does not fit the peer's confirm value under the host's temporary key is rejected before any encryption. -/
theorem wrong_legacy_confirm_rejected (S : Pairing P) (hla : S.la.length = 6) (hra : S.ra.length = 6) {e0 e1 e2 e3 : Env P} (f0 : Fine e0) (f1 : Fine e1) (f2 : Fine e2)
    (hs : S.rsp.authReq &&& 0x08 = 0) (ho : S.auth.oobData = []) {i j : SmpSpec.IO} (hi : SmpSpec.IO.ofByte S.cfg.ioCap = some i) (hj : SmpSpec.IO.ofByte S.rsp.ioCap = some j)
    (hoo : oobSet S.cfg = oobSet S.rsp) {m : Method} (hm : SmpSpec.pairingMethod false (oobSet S.cfg) (oobSet S.rsp) (mitmSet S.cfg) (mitmSet S.rsp) i j = m) (hmo : m ≠ .oob)
    (hp : S.auth.passkey < 2 ^ 20) {tk : Bytes} (htk : specTK m S.auth.passkey tk) {mrand srand cb : Bytes} (hmr : e1.rnd = le mrand) (hsr : srand.length = 16) (hcb : cb.length = 16)
    (hne : cb ≠ S.c1 tk srand) :
    (run S.start [.pair e0 S.auth, .msg e1 S.rspMsg, .msg e2 (confirmMsg cb), .msg e3 (randomMsg srand)]).2 =
      [.send (frame (buildReq S.cfg)), .send (confirmMsg (S.c1 tk mrand)), .send (randomMsg mrand), .pairResult false] := by
  have hdm : determineMethod S.cfg S.rsp true = m := by rw [SmpMethodAux.determine_eq hi hj true (Or.inr hoo)]; exact hm
  rw [legacy_start S hla hra f0 f1 hs ho hdm hmo hmr (by omega) htk]
  have h2 := onPairingConfirm_app e2 (lctx1 S m mrand) (le cb)
  rw [if_neg (by simp [le, hcb]), sendOut_ok _ _ _ f2.send] at h2
  rw [run_msg _ (confirmMsg cb) (code := 0x03) rfl rfl h2 (by simp)]
  generalize hc2 : ({ lctx1 S m mrand with remoteConfirm := le cb, localRandom := some ((lctx1 S m mrand).localRandom.getD e2.rnd), state := .waitRandom } : Ctx P) = c2
  have ht : legacyTK c2 = le tk := by
    rw [← tk_eq (by omega) htk]; subst hc2; rfl
  have h3 : onPairingRandom (le srand) e3 c2 = ({ c2 with remoteRandom := le srand }, [], .err ()) := by
    have hcc := checkLegacyConfirm_iff (c := { c2 with remoteRandom := le srand }) (by simpa [le] using hsr)
      (by subst hc2; show (swapBuf S.la).length = 6; rw [swapBuf_eq]; simpa using hla) (by subst hc2; show (swapBuf S.ra).length = 6; rw [swapBuf_eq]; simpa using hra)
    have hcc := hcc.trans (if_neg (by
      have ht' : legacyTK { c2 with remoteRandom := le srand } = le tk := ht
      rw [ht']
      show ¬ c2.remoteConfirm = (SmpSpec.c1 P _ _ (buildReq c2.request).reverse (buildRsp c2.response).reverse c2.localAddrType c2.remoteAddrType c2.localAddr.reverse c2.remoteAddr.reverse).reverse
      subst hc2
      show ¬ le cb = (SmpSpec.c1 P _ _ (buildReq S.cfg).reverse (buildRsp S.rsp).reverse S.lt S.rt (swapBuf S.la).reverse (swapBuf S.ra).reverse).reverse
      rw [swapBuf_eq, swapBuf_eq]
      simp only [le, List.reverse_reverse, List.reverse_inj]
      exact hne))
    rw [onPairingRandom_app, if_neg (by simp [le, hsr]), if_pos (show c2.legacy = true by subst hc2; rfl), onLegacyRandom_match, hcc]
  rw [run_msg_err (randomMsg srand) (code := 0x04) rfl rfl h3]
  rfl

/-- C41, where it fails. The Diffie-Hellman package returns the shared secret without leading zero bytes. Whenever the secret begins with a zero byte, f5 refuses it: with an honest peer, after a correct
confirm value and nonce, the pairing fails. -/
theorem short_secret_fails (S : Pairing P) (hkeys : S.hostKeys.pub ≠ S.peerKeys.pub) {e0 e1 e2 e3 e4 : Env P} (f0 : Fine e0) (f1 : Fine e1) (f3 : Fine e3)
    (hk : e1.fresh = S.hostKeys) (hs : S.rsp.authReq &&& 0x08 = 0x08) (ho : S.auth.oobData = [])
    {i j : SmpSpec.IO} (hi : SmpSpec.IO.ofByte S.cfg.ioCap = some i) (hj : SmpSpec.IO.ofByte S.rsp.ioCap = some j)
    (hm : SmpSpec.pairingMethod true (oobSet S.cfg) (oobSet S.rsp) (mitmSet S.cfg) (mitmSet S.rsp) i j = .justWorks ∨
      SmpSpec.pairingMethod true (oobSet S.cfg) (oobSet S.rsp) (mitmSet S.cfg) (mitmSet S.rsp) i j = .numericComp)
    {na nb : Bytes} (hna : e3.rnd = le na) (hnb : nb.length = 16) (hshort : (P.dh S.hostKeys.priv S.peerKeys.pub).length ≠ 32) :
    (run S.start [.pair e0 S.auth, .msg e1 S.rspMsg, .msg e2 S.pubMsg, .msg e3 (confirmMsg (S.Cb nb 0)), .msg e4 (randomMsg nb)]).2 =
      [.send (frame (buildReq S.cfg)), .send S.hostPub, .send (randomMsg na), .pairResult false] := by
  have hdm : determineMethod S.cfg S.rsp false = .justWorks ∨ determineMethod S.cfg S.rsp false = .numericComp := by
    rw [SmpMethodAux.determine_eq hi hj false (Or.inl rfl)]; exact hm
  generalize hmm : determineMethod S.cfg S.rsp false = mm at hdm
  have hmp : mm ≠ .passkey := by rcases hdm with rfl | rfl <;> decide
  -- the start does not depend on the secret
  have h2 := onPublicKey_app e2 (c := ctx1 S mm) (k := S.hostKeys) (b := S.peerKeys.pub) rfl hkeys
  rw [if_neg (show ¬ (ctx1 S mm).method = .passkey from hmp)] at h2
  have h3 := onPairingConfirm_app e3 { ctx1 S mm with remotePub := some S.peerKeys.pub } (le (S.Cb nb 0))
  rw [if_neg (by simp [le, Pairing.Cb, SmpSpec.f4, P.cmac_length]), sendOut_ok _ _ _ f3.send] at h3
  have hln : (ctx1 S mm).localRandom.getD e3.rnd = le na := hna
  rw [hln] at h3
  rw [sc_start S f0 f1 hk hs ho (by rw [hmm]; rcases hdm with rfl | rfl <;> decide), hmm, run_msg _ S.pubMsg (code := 0x0c) (pubMsg_eq S) rfl h2 (by simp [ctx1]),
    run_msg _ (confirmMsg (S.Cb nb 0)) (code := 0x03) rfl rfl h3 (by simp)]
  generalize hc3 : ({ ctx1 S mm with remotePub := some S.peerKeys.pub, remoteConfirm := le (S.Cb nb 0), localRandom := some (le na), state := .waitRandom } : Ctx P) = c3
  have hk3 : c3.keys = some S.hostKeys := by subst hc3; rfl
  have hp3 : c3.remotePub = some S.peerKeys.pub := by subst hc3; rfl
  have h4 : onPairingRandom (le nb) e4 c3 = ({ c3 with remoteRandom := le nb, dhKey := generateSecret P S.hostKeys.priv S.peerKeys.pub }, [], .err ()) := by
    have hcc := checkConfirm_iff (c := { c3 with remoteRandom := le nb }) hk3 hp3 (by simpa [le] using hnb)
    have hcc := hcc.trans (if_pos (by subst hc3; simp [le, Pairing.Cb]))
    rw [onPairingRandom_app, if_neg (by simp [le, hnb]), if_neg (by subst hc3; simp [ctx1]), onSecureRandom_np e4 (c := { c3 with remoteRandom := le nb }) (by subst hc3; exact hmp), hcc]
    have h5 : ∀ n1 n2 a1 a2, smpF5 P (generateSecret P S.hostKeys.priv S.peerKeys.pub) n1 n2 a1 a2 = .err () := by
      intro n1 n2 a1 a2
      unfold smpF5
      rw [if_pos (by simp [generateSecret, swapBuf_eq, hshort])]
    simp [stage2, calcMacLtk, generateDHKey, hk3, hp3, h5]
  rw [run_msg_err (randomMsg nb) (code := 0x04) rfl rfl h4]
  simp [randomMsg]

end Ble.Props
