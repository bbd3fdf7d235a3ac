import Verif.Props.SmpHonest
set_option autoImplicit false

/-!
# C41, third part: LE legacy pairing with a peer that follows the specification

Core specification, Vol 3, Part H, 2.3.5.5. `tk` is the temporary key, most significant byte first: zero for just works, the passkey as a number for passkey entry.
-/

namespace Ble.Props

open Ble.Smp

namespace Pairing
variable {P : Prims} (S : Pairing P)

/-- Mconfirm and Sconfirm: c1(TK, rand, Pairing Request, Pairing Response, iat, rat, ia, ra). -/
def c1 (tk rand : Bytes) : Bytes := SmpSpec.c1 P tk rand (le (buildReq S.cfg)) (le (buildRsp S.rsp)) S.lt S.rt S.la S.ra

end Pairing

/-- The temporary key of the specification: 2.3.5.2 and 2.3.5.3. -/
def specTK (m : Method) (passkey : Nat) (tk : Bytes) : Prop := tk.length = 16 ∧ SmpSpec.num tk = if m = .passkey then passkey else 0

/-- The peer's key distribution: Encryption Information and Master Identification. -/
def encInfoMsg (ltk : Bytes) : Bytes := frame ([0x06] ++ le ltk)
def masterIdMsg (ediv rand : Bytes) : Bytes := frame ([0x07] ++ ediv ++ rand)

namespace SmpLegacyAux
open SmpHonestAux Aux

variable {P : Prims}

theorem tk_eq {m : Method} {passkey : Nat} {tk : Bytes} (hp : passkey < 2 ^ 32) (h : specTK m passkey tk) :
    (if m = .passkey then getLegacyTK passkey else zeros) = le tk := by
  have key : ∀ n, n < 2 ^ 32 → SmpSpec.num tk = n → getLegacyTK n = le tk := by
    intro n hn ht
    have h1 := passkey_spec n hn
    have := num_inj (le (getLegacyTK n)) tk (by simp [le, h1.1, h.1]) (by rw [h1.2, ht])
    rw [← this]; simp [le]
  have h2 := h.2
  split at h2
  · rw [if_pos (by assumption)]; exact key _ hp h2
  · rw [if_neg (by assumption), ← tk_zero]; exact key _ (by omega) h2

/-- The context after the Pairing Response, in legacy pairing. -/
def lctx1 (S : Pairing P) (m : Method) (mrand : Bytes) : Ctx P :=
  { S.start.ctx with auth := S.auth, response := S.rsp, iter := 0, legacy := true, method := m, localRandom := some (le mrand), state := .waitConfirm }

theorem legacy_start (S : Pairing P) (hla : S.la.length = 6) (hra : S.ra.length = 6) {e0 e1 : Env P} (f0 : Fine e0) (f1 : Fine e1) (hs : S.rsp.authReq &&& 0x08 = 0)
    (ho : S.auth.oobData = []) {m : Method} (hdm : determineMethod S.cfg S.rsp true = m) (hm : m ≠ .oob) {mrand tk : Bytes} (hmr : e1.rnd = le mrand)
    (hp : S.auth.passkey < 2 ^ 32) (htk : specTK m S.auth.passkey tk) (rest : List (Event P)) :
    run S.start (.pair e0 S.auth :: .msg e1 S.rspMsg :: rest) =
      ((run (mgr (lctx1 S m mrand)) rest).1,
       [.send (frame (buildReq S.cfg)), .send (confirmMsg (S.c1 tk mrand))] ++ (run (mgr (lctx1 S m mrand)) rest).2) := by
  have hl : isLegacy S.rsp.authReq = true := by simp [isLegacy, hs]
  rw [run_cons (m' := mgr { S.start.ctx with auth := S.auth, state := .waitPairingResponse }) (w := [.send (frame (buildReq S.cfg))]) _ _ _ (pair_app rfl rfl f0.send ho)]
  have hloc : S.start.ctx.localAddr = swapBuf S.la := rfl
  have hrem : S.start.ctx.remoteAddr = swapBuf S.ra := rfl
  have hreq : S.start.ctx.request = S.cfg := rfl
  have h1 : onPairingResponse [S.rsp.ioCap, S.rsp.oobFlag, S.rsp.authReq, S.rsp.maxKeySize, S.rsp.initKeyDist, S.rsp.respKeyDist] e1
      { S.start.ctx with auth := S.auth, state := .waitPairingResponse } = (lctx1 S m mrand, [.send (confirmMsg (S.c1 tk mrand))], .ok ()) := by
    have := onPairingResponse_legacy e1 { S.start.ctx with auth := S.auth, state := .waitPairingResponse } S.rsp hl (fun h => hm (hdm ▸ h.1)) f1.rnd
      (by show (swapBuf S.la).length = 6; rw [swapBuf_eq]; simpa using hla) (by show (swapBuf S.ra).length = 6; rw [swapBuf_eq]; simpa using hra)
    rw [sendOut_ok _ _ _ f1.send] at this
    simp only [hreq, hdm, hmr] at this
    rw [tk_eq hp htk] at this
    have hc : (SmpSpec.c1 P (le tk).reverse (le mrand).reverse (buildReq S.cfg).reverse (buildRsp S.rsp).reverse S.start.ctx.localAddrType S.start.ctx.remoteAddrType S.start.ctx.localAddr.reverse
        S.start.ctx.remoteAddr.reverse) = S.c1 tk mrand := by
      rw [hloc, hrem]; simp [le, swapBuf_eq, Pairing.c1, Pairing.start, newMgr]
    rw [hc] at this
    exact this
  rw [run_msg rest S.rspMsg (code := 0x02) rfl rfl h1 (by simp [lctx1])]
  rfl

theorem onLegacyRandom_match (e : Env P) (c : Ctx P) : onLegacyRandom e c =
    match checkLegacyConfirm c with
    | .ok _ => (match smpS1 P (legacyTK c) c.remoteRandom (c.localRandom.getD []) with
      | .ok stk => encrypt e (if c.request.authReq &&& 0x03 == 0 then { c with stk := stk, state := .finished } else { c with stk := stk })
      | .err u => (c, [], .err u)
      | .panic => (c, [], .panic))
    | .err u => (c, [], .err u)
    | .panic => (c, [], .panic) := by
  cases h : checkLegacyConfirm c
  · cases h' : smpS1 P (legacyTK c) c.remoteRandom (c.localRandom.getD [])
    · simp only [onLegacyRandom, M.bind_app, M.get_app, M.lift_app, h, legacyTK_eq, h', M.modify_app]
      simp
    all_goals simp [onLegacyRandom, h, legacyTK_eq, h']
  all_goals simp [onLegacyRandom, h]

theorem encrypt_legacy (e : Env P) {c : Ctx P} (hl : c.legacy = true) (hs : c.stk.length = 16) (he : e.encOk = true) :
    encrypt e c = (c, [.startEnc c.stk 0 0], .ok ()) := by
  have hk : key16 c.stk = .ok c.stk := by simp [key16, hs]
  simp [encrypt, hl, hs, sendEnc, hk, he]

/-- The right random value in legacy pairing. -/
theorem onPairingRandom_legacy (e : Env P) {c : Ctx P} {n x : Bytes} (hleg : c.legacy = true) (hln : c.localRandom = some n) (hn : n.length = 16) (hx : x.length = 16)
    (hla : c.localAddr.length = 6) (hra : c.remoteAddr.length = 6) (he : e.encOk = true)
    (hc : c.remoteConfirm = (SmpSpec.c1 P (legacyTK c).reverse x.reverse (buildReq c.request).reverse (buildRsp c.response).reverse
        c.localAddrType c.remoteAddrType c.localAddr.reverse c.remoteAddr.reverse).reverse) :
    onPairingRandom x e c = ((if c.request.authReq &&& 0x03 == 0 then
        { c with remoteRandom := x, stk := (SmpSpec.s1 P (legacyTK c).reverse x.reverse n.reverse).reverse, state := .finished }
      else { c with remoteRandom := x, stk := (SmpSpec.s1 P (legacyTK c).reverse x.reverse n.reverse).reverse }),
      [.startEnc (SmpSpec.s1 P (legacyTK c).reverse x.reverse n.reverse).reverse 0 0], .ok ()) := by
  have hcc := checkLegacyConfirm_iff (c := { c with remoteRandom := x }) hx hla hra
  have hcc := hcc.trans (if_pos hc)
  have h1 : smpS1 P (legacyTK { c with remoteRandom := x }) x (({ c with remoteRandom := x } : Ctx P).localRandom.getD []) = .ok (SmpSpec.s1 P (legacyTK c).reverse x.reverse n.reverse).reverse := by
    show smpS1 P (legacyTK c) x (c.localRandom.getD []) = _
    rw [hln]; exact s1_ok P (legacyTK_length c) hx hn
  rw [onPairingRandom_app, if_neg (by simp [hx]), if_pos hleg, onLegacyRandom_match, hcc]
  simp only [h1]
  by_cases hb : c.request.authReq &&& 0x03 == 0
  · simp only [hb, if_true]
    exact encrypt_legacy e (c := { c with remoteRandom := x, stk := (SmpSpec.s1 P (legacyTK c).reverse x.reverse n.reverse).reverse, state := .finished }) hleg
      (by simp [SmpSpec.s1, P.aes_length]) he
  · simp only [hb]
    exact encrypt_legacy e (c := { c with remoteRandom := x, stk := (SmpSpec.s1 P (legacyTK c).reverse x.reverse n.reverse).reverse }) hleg
      (by simp [SmpSpec.s1, P.aes_length]) he

/-- The state after the peer's confirm value and random value. -/
theorem legacy_middle (S : Pairing P) (hla : S.la.length = 6) (hra : S.ra.length = 6) {e2 e3 : Env P} (f2 : Fine e2) (f3 : Fine e3) {m : Method} {mrand srand tk : Bytes}
    (hmr : mrand.length = 16) (hsr : srand.length = 16) (hp : S.auth.passkey < 2 ^ 32) (htk : specTK m S.auth.passkey tk) (rest : List (Event P)) :
    ∃ c2 : Ctx P, c2.request = S.cfg ∧ c2.remoteAddr = le S.ra ∧ c2.legacy = true ∧ c2.state = .waitRandom ∧
      onPairingRandom (le srand) e3 c2 = ((if c2.request.authReq &&& 0x03 == 0 then
        { c2 with remoteRandom := le srand, stk := le (SmpSpec.s1 P tk srand mrand), state := .finished }
      else { c2 with remoteRandom := le srand, stk := le (SmpSpec.s1 P tk srand mrand) }),
      [.startEnc (le (SmpSpec.s1 P tk srand mrand)) 0 0], .ok ()) ∧
      run (mgr (lctx1 S m mrand)) (.msg e2 (confirmMsg (S.c1 tk srand)) :: rest) = ((run (mgr c2) rest).1, [.send (randomMsg mrand)] ++ (run (mgr c2) rest).2) := by
  have h2 := onPairingConfirm_app e2 (lctx1 S m mrand) (le (S.c1 tk srand))
  rw [if_neg (by simp [le, Pairing.c1, SmpSpec.c1, P.aes_length]), sendOut_ok _ _ _ f2.send] at h2
  refine ⟨{ lctx1 S m mrand with remoteConfirm := le (S.c1 tk srand), localRandom := some (le mrand), state := .waitRandom }, rfl, ?_, rfl, rfl, ?_, ?_⟩
  · exact swapBuf_eq' S.ra
  · generalize hc2 : ({ lctx1 S m mrand with remoteConfirm := le (S.c1 tk srand), localRandom := some (le mrand), state := .waitRandom } : Ctx P) = c2
    have ht : legacyTK c2 = le tk := by
      rw [← tk_eq hp htk]; subst hc2; rfl
    have h3 := onPairingRandom_legacy e3 (c := c2) (n := le mrand) (x := le srand) (by subst hc2; rfl) (by subst hc2; rfl) (by simpa [le] using hmr) (by simpa [le] using hsr)
      (by subst hc2; show (swapBuf S.la).length = 6; rw [swapBuf_eq]; simpa using hla) (by subst hc2; show (swapBuf S.ra).length = 6; rw [swapBuf_eq]; simpa using hra) f3.enc
      (by
        rw [ht]; subst hc2
        show le (S.c1 tk srand) = (SmpSpec.c1 P _ _ (buildReq S.cfg).reverse (buildRsp S.rsp).reverse S.lt S.rt (swapBuf S.la).reverse (swapBuf S.ra).reverse).reverse
        simp [le, swapBuf_eq, Pairing.c1])
    rw [ht] at h3
    simpa [le] using h3
  · rw [run_msg rest (confirmMsg (S.c1 tk srand)) (code := 0x03) rfl rfl h2 (by simp)]
    rfl

end SmpLegacyAux

open SmpHonestAux SmpLegacyAux Aux

variable {P : Prims}

/-- C41. Legacy pairing without bonding, just works or passkey entry: with a peer that follows the specification and uses the same temporary key, for all nonces, addresses and feature sets, the host sends
the Mconfirm the peer expects and its random number, accepts the peer's, starts encryption with STK = s1(TK, Srand, Mrand), and `Pair` returns nil. -/
theorem legacy_completes (S : Pairing P) (hla : S.la.length = 6) (hra : S.ra.length = 6) {e0 e1 e2 e3 : Env P} (f0 : Fine e0) (f1 : Fine e1) (f2 : Fine e2) (f3 : Fine e3)
    (hs : S.rsp.authReq &&& 0x08 = 0) (ho : S.auth.oobData = []) {i j : SmpSpec.IO} (hi : SmpSpec.IO.ofByte S.cfg.ioCap = some i) (hj : SmpSpec.IO.ofByte S.rsp.ioCap = some j)
    (hoo : oobSet S.cfg = oobSet S.rsp) {m : Method} (hm : SmpSpec.pairingMethod false (oobSet S.cfg) (oobSet S.rsp) (mitmSet S.cfg) (mitmSet S.rsp) i j = m) (hmo : m ≠ .oob)
    (hp : S.auth.passkey < 2 ^ 20) {tk : Bytes} (htk : specTK m S.auth.passkey tk) {mrand srand : Bytes} (hmr : e1.rnd = le mrand) (hsr : srand.length = 16)
    (hnb : S.cfg.authReq &&& 0x03 = 0) :
    (run S.start [.pair e0 S.auth, .msg e1 S.rspMsg, .msg e2 (confirmMsg (S.c1 tk srand)), .msg e3 (randomMsg srand)]).2 =
      [.send (frame (buildReq S.cfg)), .send (confirmMsg (S.c1 tk mrand)), .send (randomMsg mrand), .startEnc (le (SmpSpec.s1 P tk srand mrand)) 0 0, .pairResult true] := by
  have hdm : determineMethod S.cfg S.rsp true = m := by rw [SmpMethodAux.determine_eq hi hj true (Or.inr hoo)]; exact hm
  have hmrl : mrand.length = 16 := by have := f1.rnd; rw [hmr] at this; simpa [le] using this
  rw [legacy_start S hla hra f0 f1 hs ho hdm hmo hmr (by omega) htk]
  obtain ⟨c2, hreq, _, _, _, h3, hrun⟩ := legacy_middle S hla hra f2 f3 (m := m) (mrand := mrand) (srand := srand) (tk := tk) hmrl hsr (by omega) htk [.msg e3 (randomMsg srand)]
  rw [hrun]
  rw [if_pos (by rw [hreq, hnb]; rfl)] at h3
  rw [run_msg_fin (randomMsg srand) (code := 0x04) rfl rfl h3 rfl]
  rfl

/-- C41. Legacy pairing with bonding: encryption is started with the STK; when the peer then distributes its LTK, EDIV and Rand, exactly these are stored as the bond for the peer's address and `Pair` returns nil. -/
theorem legacy_bonding_completes (S : Pairing P) (hla : S.la.length = 6) (hra : S.ra.length = 6) {e0 e1 e2 e3 e4 e5 : Env P} (f0 : Fine e0) (f1 : Fine e1) (f2 : Fine e2) (f3 : Fine e3) (f5 : Fine e5)
    (hs : S.rsp.authReq &&& 0x08 = 0) (ho : S.auth.oobData = []) {i j : SmpSpec.IO} (hi : SmpSpec.IO.ofByte S.cfg.ioCap = some i) (hj : SmpSpec.IO.ofByte S.rsp.ioCap = some j)
    (hoo : oobSet S.cfg = oobSet S.rsp) {m : Method} (hm : SmpSpec.pairingMethod false (oobSet S.cfg) (oobSet S.rsp) (mitmSet S.cfg) (mitmSet S.rsp) i j = m) (hmo : m ≠ .oob)
    (hp : S.auth.passkey < 2 ^ 20) {tk : Bytes} (htk : specTK m S.auth.passkey tk) {mrand srand : Bytes} (hmr : e1.rnd = le mrand) (hsr : srand.length = 16)
    (hb : S.cfg.authReq &&& 0x03 = 0x01) (ltk : Bytes) (d0 d1 : UInt8) (rand : Bytes) (hr : rand.length = 8) :
    (run S.start [.pair e0 S.auth, .msg e1 S.rspMsg, .msg e2 (confirmMsg (S.c1 tk srand)), .msg e3 (randomMsg srand), .msg e4 (encInfoMsg ltk), .msg e5 (masterIdMsg [d0, d1] rand)]).2 =
      [.send (frame (buildReq S.cfg)), .send (confirmMsg (S.c1 tk mrand)), .send (randomMsg mrand), .startEnc (le (SmpSpec.s1 P tk srand mrand)) 0 0,
       .save (le S.ra) ⟨le ltk, SmpSpec.num [d1, d0], SmpSpec.num (le rand), true⟩, .pairResult true] := by
  have hdm : determineMethod S.cfg S.rsp true = m := by rw [SmpMethodAux.determine_eq hi hj true (Or.inr hoo)]; exact hm
  have hmrl : mrand.length = 16 := by have := f1.rnd; rw [hmr] at this; simpa [le] using this
  rw [legacy_start S hla hra f0 f1 hs ho hdm hmo hmr (by omega) htk]
  obtain ⟨c2, hreq, hadr, hleg, hst, h3, hrun⟩ := legacy_middle S hla hra f2 f3 (m := m) (mrand := mrand) (srand := srand) (tk := tk) hmrl hsr (by omega) htk
    [.msg e3 (randomMsg srand), .msg e4 (encInfoMsg ltk), .msg e5 (masterIdMsg [d0, d1] rand)]
  rw [hrun]
  rw [if_neg (by rw [hreq, hb]; decide)] at h3
  rw [run_msg _ (randomMsg srand) (code := 0x04) rfl rfl h3 (by simp [hst])]
  generalize hc3 : ({ c2 with remoteRandom := le srand, stk := le (SmpSpec.s1 P tk srand mrand) } : Ctx P) = c3
  have h4 : onEncryptionInformation (le ltk) e4 c3 = ({ c3 with bond := some ⟨le ltk, 0, 0, true⟩ }, [], .ok ()) := rfl
  rw [run_msg _ (encInfoMsg ltk) (code := 0x06) rfl rfl h4 (by subst hc3; simp [hst])]
  have hn2 : le16 d0 d1 = SmpSpec.num [d1, d0] := by simp [SmpSpec.num, le16]; omega
  have hn8 : le64 rand = SmpSpec.num (le rand) := by
    unfold le64 SmpSpec.num
    rw [List.take_of_length_le (by omega), le, List.foldl_reverse]
    congr 1; funext x acc; omega
  have hreq3 : c3.request = S.cfg := by subst hc3; exact hreq
  have hadr3 : c3.remoteAddr = le S.ra := by subst hc3; exact hadr
  have h5 : onMasterIdentification (d0 :: d1 :: rand) e5 { c3 with bond := some ⟨le ltk, 0, 0, true⟩ } =
      ({ c3 with bond := some ⟨le ltk, SmpSpec.num [d1, d0], SmpSpec.num (le rand), true⟩, state := .finished },
       [.save (le S.ra) ⟨le ltk, SmpSpec.num [d1, d0], SmpSpec.num (le rand), true⟩], .ok ()) := by
    unfold onMasterIdentification
    rw [M.ite_app, if_neg (by simp [hr])]
    simp only [M.bind_app, M.get_app, M.modify_app, List.getD_cons_zero, List.getD_cons_succ, List.drop_succ_cons, List.drop_zero, hn2, hn8]
    rw [saveBondInfo_app e5 (c := { c3 with bond := some ⟨le ltk, SmpSpec.num [d1, d0], SmpSpec.num (le rand), true⟩ }) rfl f5.save]
    have hbb : bonding c3.request.authReq = true := by rw [hreq3]; simp [bonding, hb]
    simp [hbb, hadr3]
  rw [run_msg_fin (masterIdMsg [d0, d1] rand) (code := 0x07) rfl rfl h5 rfl]
  rfl

end Ble.Props
