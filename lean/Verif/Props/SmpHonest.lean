import Verif.Smp.Handlers
import Verif.Props.SmpCrypto
import Verif.Props.SmpMethod
set_option autoImplicit false

/-!
# C41, second part: pairing with a peer that follows the specification

The peer is the responder of the Core specification, Vol 3, Part H, 2.3.5.6: its values are written with the specification's functions, most significant byte first. The host is the
library, from a new connection on.
-/

namespace Ble.Props

open Ble.Smp

/-- A host and a peer. Addresses are written most significant byte first. -/
structure Pairing (P : Prims) where
  cfg : Config
  rsp : Config
  la : Bytes
  lt : UInt8
  ra : Bytes
  rt : UInt8
  hostKeys : Keys P
  peerKeys : Keys P
  auth : AuthData

namespace Pairing
variable {P : Prims} (S : Pairing P)

/-- The shared secret as the peer computes it. -/
def secret : Bytes := P.dh S.peerKeys.priv S.hostKeys.pub
/-- A and B: type and address, 56 bits. -/
def A : Bytes := [S.lt] ++ S.la
def B : Bytes := [S.rt] ++ S.ra
def ioA : Bytes := [S.cfg.authReq, S.cfg.oobFlag, S.cfg.ioCap]
def ioB : Bytes := [S.rsp.authReq, S.rsp.oobFlag, S.rsp.ioCap]
/-- MacKey, LTK = f5(DHKey, Na, Nb, A, B). -/
def macKey (na nb : Bytes) : Bytes := SmpSpec.macKey P S.secret na nb S.A S.B
def ltk (na nb : Bytes) : Bytes := SmpSpec.ltk P S.secret na nb S.A S.B
/-- Cb = f4(PKbx, PKax, Nb, z) and Ca = f4(PKax, PKbx, Na, z). -/
def Cb (nb : Bytes) (z : UInt8) : Bytes := SmpSpec.f4 P (P.coordX S.peerKeys.pub) (P.coordX S.hostKeys.pub) nb z
def Ca (na : Bytes) (z : UInt8) : Bytes := SmpSpec.f4 P (P.coordX S.hostKeys.pub) (P.coordX S.peerKeys.pub) na z
/-- Ea = f6(MacKey, Na, Nb, r, IOcapA, A, B) and Eb = f6(MacKey, Nb, Na, r, IOcapB, B, A). -/
def Ea (na nb r : Bytes) : Bytes := SmpSpec.f6 P (S.macKey na nb) na nb r S.ioA S.A S.B
def Eb (na nb r : Bytes) : Bytes := SmpSpec.f6 P (S.macKey na nb) nb na r S.ioB S.B S.A

/-- What makes the two sides a pair: addresses of six bytes, the Diffie-Hellman property for their keys, keys that differ, and a secret of full length (see `short_secret_fails`). -/
structure Sound : Prop where
  la : S.la.length = 6
  ra : S.ra.length = 6
  agree : P.dh S.hostKeys.priv S.peerKeys.pub = S.secret
  keys : S.hostKeys.pub ≠ S.peerKeys.pub
  secret : S.secret.length = 32

/-- A new connection. -/
def start : Mgr P := newMgr S.cfg S.la S.ra S.lt S.rt

/-- The peer's messages: code and value, least significant byte first. -/
def rspMsg : Bytes := frame (buildRsp S.rsp)
def pubMsg : Bytes := frame ([0x0c] ++ le (P.coordX S.peerKeys.pub) ++ le (P.coordY S.peerKeys.pub))

end Pairing

def confirmMsg (x : Bytes) : Bytes := frame ([0x03] ++ le x)
def randomMsg (x : Bytes) : Bytes := frame ([0x04] ++ le x)
def checkMsg (x : Bytes) : Bytes := frame ([0x0d] ++ le x)
/-- The host's public key message. -/
def Pairing.hostPub {P : Prims} (S : Pairing P) : Bytes := frame ([0x0c] ++ le (P.coordX S.hostKeys.pub) ++ le (P.coordY S.hostKeys.pub))

/-- Nothing fails on the host's side: sending, saving and the encryption command succeed, random numbers have 16 bytes. -/
structure Fine {P : Prims} (e : Env P) : Prop where
  send : e.sendOk = true
  save : e.saveOk = true
  enc : e.encOk = true
  rnd : e.rnd.length = 16

namespace SmpHonestAux
open Ble.Smp.Aux

variable {P : Prims}

theorem run_cons (m : Mgr P) (x : Event P) (xs : List (Event P)) {m' : Mgr P} {w : List Eff} (h : step m x = (m', w)) :
    run m (x :: xs) = ((run m' xs).1, w ++ (run m' xs).2) := by simp [run, h]

theorem run_append (m : Mgr P) (xs ys : List (Event P)) : run m (xs ++ ys) = ((run (run m xs).1 ys).1, (run m xs).2 ++ (run (run m xs).1 ys).2) := by
  induction xs generalizing m with
  | nil => simp [run]
  | cons x xs ih => simp only [List.cons_append, run, ih]; simp

theorem pair_app {e : Env P} {a : AuthData} {m : Mgr P} (hs : m.ctx.state = .init) (hc : m.closed = false) (he : e.sendOk = true) (ho : a.oobData = []) :
    step m (.pair e a) = ({ m with ctx := { m.ctx with auth := a, state := .waitPairingResponse }, waiting := true }, [.send (frame (buildReq m.ctx.request))]) := by
  simp [step, pair, hs, hc, ho, sendPairingRequest_app, sendOut, he]

theorem pubMsg_eq (S : Pairing P) : S.pubMsg = frame (0x0c :: marshalXY P S.peerKeys.pub) := by
  simp [Pairing.pubMsg, marshalXY, swapBuf_eq, le]

theorem hostPub_eq (S : Pairing P) : S.hostPub = frame (0x0c :: marshalXY P S.hostKeys.pub) := by
  simp [Pairing.hostPub, marshalXY, swapBuf_eq, le]

theorem addr56_swap (a : Bytes) (t : UInt8) : addr56 (swapBuf a) t = [t] ++ a := by simp [addr56, swapBuf_eq]

/-- A running pairing. -/
def mgr (c : Ctx P) : Mgr P := { ctx := c, waiting := true }

theorem run_msg {e : Env P} {code : UInt8} {data : Bytes} {h : Bytes → M P Unit} {c c' : Ctx P} {w : List Eff} (rest : List (Event P)) (msg : Bytes)
    (hmsg : msg = frame (code :: data)) (hh : handlerOf (P := P) code = some h) (hr : h data e c = (c', w, .ok ())) (hs : c'.state ≠ .finished) :
    run (mgr c) (.msg e msg :: rest) = ((run (mgr c') rest).1, w ++ (run (mgr c') rest).2) := by
  subst hmsg
  apply run_cons
  simp only [step]
  rw [handle_ok (m := mgr c) rfl hh hr hs]
  rfl

theorem run_msg_fin {e : Env P} {code : UInt8} {data : Bytes} {h : Bytes → M P Unit} {c c' : Ctx P} {w : List Eff} (msg : Bytes)
    (hmsg : msg = frame (code :: data)) (hh : handlerOf (P := P) code = some h) (hr : h data e c = (c', w, .ok ())) (hs : c'.state = .finished) :
    run (mgr c) [.msg e msg] = ({ ctx := c', closed := true }, w ++ [.pairResult true]) := by
  subst hmsg
  rw [run_cons (m' := { ctx := c', closed := true }) (w := w ++ [.pairResult true])]
  · simp [run]
  · simp only [step]
    rw [handle_fin (m := mgr c) rfl hh hr hs rfl rfl]
    rfl

/-- The context after the host has received the Pairing Response, in secure connections. -/
def ctx1 (S : Pairing P) (m : Method) : Ctx P :=
  { S.start.ctx with auth := S.auth, response := S.rsp, iter := 0, legacy := false, method := m, keys := some S.hostKeys, state := .waitPublicKey }

/-- `Pair`, the Pairing Response and the public key. -/
theorem sc_start (S : Pairing P) {e0 e1 : Env P} (f0 : Fine e0) (f1 : Fine e1) (hk : e1.fresh = S.hostKeys) (hs : S.rsp.authReq &&& 0x08 = 0x08)
    (ho : S.auth.oobData = []) (hm : determineMethod S.cfg S.rsp false ≠ .oob) (rest : List (Event P)) :
    run S.start (.pair e0 S.auth :: .msg e1 S.rspMsg :: rest) =
      ((run (mgr (ctx1 S (determineMethod S.cfg S.rsp false))) rest).1,
       [.send (frame (buildReq S.cfg)), .send S.hostPub] ++ (run (mgr (ctx1 S (determineMethod S.cfg S.rsp false))) rest).2) := by
  have hl : isLegacy S.rsp.authReq = false := by simp [isLegacy, hs]
  rw [run_cons (m' := mgr { S.start.ctx with auth := S.auth, state := .waitPairingResponse }) (w := [.send (frame (buildReq S.cfg))]) _ _ _ (pair_app rfl rfl f0.send ho)]
  have := onPairingResponse_sc e1 { S.start.ctx with auth := S.auth, state := .waitPairingResponse } S.rsp hl (fun h => hm h.1)
  rw [sendOut_ok _ _ _ f1.send] at this
  rw [run_msg rest S.rspMsg (code := 0x02) rfl rfl this (by simp)]
  simp only [theKeys, Pairing.start, newMgr, Option.getD_none, hk, hostPub_eq]
  rfl

theorem swapBuf_eq' (b : Bytes) : swapBuf b = le b := swapBuf_eq b

/-- The fields of a context that the rest of the exchange depends on. -/
structure Of (S : Pairing P) (c : Ctx P) : Prop where
  request : c.request = S.cfg
  response : c.response = S.rsp
  la : c.localAddr = swapBuf S.la
  lt : c.localAddrType = S.lt
  ra : c.remoteAddr = swapBuf S.ra
  rt : c.remoteAddrType = S.rt
  keys : c.keys = some S.hostKeys
  pub : c.remotePub = some S.peerKeys.pub
  legacy : c.legacy = false

/-- What a completed exchange does at its end. -/
def ending (S : Pairing P) (na nb r : Bytes) : List Eff :=
  [.send (checkMsg (S.Ea na nb r))] ++ (if bonding S.cfg.authReq then [.save (le S.ra) ⟨le (S.ltk na nb), 0, 0, false⟩] else []) ++
    [.startEnc (le (S.ltk na nb)) 0 0, .pairResult true]

/-- A Pairing Random that ends stage 1, and the check. -/
theorem stage2_run (S : Pairing P) (hS : S.Sound) {e4 e5 : Env P} (f4 : Fine e4) (f5 : Fine e5) {cin c : Ctx P} (hc : Of S c) {na nb r x : Bytes}
    (hna : na.length = 16) (hnb : nb.length = 16) (hln : c.localRandom = some (le na)) (hrn : c.remoteRandom = le nb) (hr : checkR c = le r) (hrl : r.length = 16)
    (h4 : onPairingRandom x e4 cin = stage2 e4 c) :
    (run (mgr cin) [.msg e4 (frame (0x04 :: x)), .msg e5 (checkMsg (S.Eb na nb r))]).2 = ending S na nb r := by
  have hla : c.localAddr.length = 6 := by rw [hc.la, swapBuf_eq]; simp [hS.la]
  have hra : c.remoteAddr.length = 6 := by rw [hc.ra, swapBuf_eq]; simp [hS.ra]
  have hrn' : c.remoteRandom.length = 16 := by rw [hrn]; simpa [le] using hnb
  have hna' : (le na).length = 16 := by simpa [le] using hna
  have hr' : (checkR c).length = 16 := by rw [hr]; simpa [le] using hrl
  have hA : addr56 c.localAddr c.localAddrType = S.A := by rw [hc.la, hc.lt, addr56_swap]; rfl
  have hB : addr56 c.remoteAddr c.remoteAddrType = S.B := by rw [hc.ra, hc.rt, addr56_swap]; rfl
  have hmk : hostMacKey c S.secret (le na) = S.macKey na nb := by
    unfold hostMacKey; rw [hA, hB, hrn]; simp [Pairing.macKey, le]
  have hlt : hostLtk c S.secret (le na) = S.ltk na nb := by
    unfold hostLtk; rw [hA, hB, hrn]; simp [Pairing.ltk, le]
  rw [stage2_app e4 hc.keys hc.pub hS.agree hS.secret hln hna' hrn' hla hra hr', sendOut_ok _ _ _ f4.send, hmk, hlt] at h4
  rw [run_msg _ (frame (0x04 :: x)) rfl rfl h4 (by simp)]
  generalize hc5 : ({ c with dhKey := S.secret.reverse, bond := some ⟨(S.ltk na nb).reverse, 0, 0, false⟩, macKey := (S.macKey na nb).reverse, state := .waitDhKeyCheck } : Ctx P) = c5
  have h5 := onDHKeyCheck_app e5 (c := c5) (n := le na) (x := le (S.Eb na nb r)) (bd := ⟨le (S.ltk na nb), 0, 0, false⟩)
    (by subst hc5; exact hln) hna' (by subst hc5; exact hrn') (by subst hc5; exact hla) (by subst hc5; exact hra)
    (by subst hc5; simp [Pairing.macKey, SmpSpec.macKey, SmpSpec.f5, P.cmac_length]) (by subst hc5; exact hr')
    (by
      have e1 : checkR c5 = le r := by subst hc5; exact hr
      have e2 : addr56 c5.localAddr c5.localAddrType = S.A := by subst hc5; exact hA
      have e3 : addr56 c5.remoteAddr c5.remoteAddrType = S.B := by subst hc5; exact hB
      have e4 : c5.remoteRandom = le nb := by subst hc5; exact hrn
      have e5 : c5.response = S.rsp := by subst hc5; exact hc.response
      have e6 : c5.macKey = (S.macKey na nb).reverse := by subst hc5; rfl
      rw [e1, e2, e3, e4, e5, e6]
      simp [le, Pairing.Eb, Pairing.ioB])
    (by subst hc5; rfl) rfl (by simp [le, Pairing.ltk, SmpSpec.ltk, SmpSpec.f5, P.cmac_length]) (by subst hc5; exact hc.legacy) f5.save f5.enc
  rw [run_msg_fin (checkMsg (S.Eb na nb r)) (code := 0x0d) rfl rfl h5 rfl]
  have g1 : c5.request = S.cfg := by subst hc5; exact hc.request
  have g2 : c5.remoteAddr = le S.ra := by subst hc5; rw [← swapBuf_eq' S.ra]; exact hc.ra
  rw [g1, g2, hA, hB, hr, hrn, hc.request]
  simp [ending, checkMsg, Pairing.Ea, Pairing.ioA, le]

end SmpHonestAux

open SmpHonestAux Aux

variable {P : Prims}

/-- C41. Just works and numeric comparison (the method is called so, but the library shows and compares no numbers: nothing the application supplies appears in the statement): with a peer that follows the specification, for all keys, nonces, addresses and feature sets,
the pairing is completed. The host sends its request, its public key, its nonce and exactly the check value Ea the peer expects; it accepts the peer's Cb and Eb; it stores (if bonding was asked
for) and uses the LTK that the peer computes; and `Pair` returns nil. -/
theorem just_works_completes (S : Pairing P) (hS : S.Sound) {e0 e1 e2 e3 e4 e5 : Env P} (f0 : Fine e0) (f1 : Fine e1) (f2 : Fine e2) (f3 : Fine e3) (f4 : Fine e4) (f5 : Fine e5)
    (hk : e1.fresh = S.hostKeys) (hs : S.rsp.authReq &&& 0x08 = 0x08) (ho : S.auth.oobData = [])
    {i j : SmpSpec.IO} (hi : SmpSpec.IO.ofByte S.cfg.ioCap = some i) (hj : SmpSpec.IO.ofByte S.rsp.ioCap = some j)
    (hm : SmpSpec.pairingMethod true (oobSet S.cfg) (oobSet S.rsp) (mitmSet S.cfg) (mitmSet S.rsp) i j = .justWorks ∨
      SmpSpec.pairingMethod true (oobSet S.cfg) (oobSet S.rsp) (mitmSet S.cfg) (mitmSet S.rsp) i j = .numericComp)
    {na nb : Bytes} (hna : e3.rnd = le na) (hnb : nb.length = 16) :
    (run S.start [.pair e0 S.auth, .msg e1 S.rspMsg, .msg e2 S.pubMsg, .msg e3 (confirmMsg (S.Cb nb 0)), .msg e4 (randomMsg nb), .msg e5 (checkMsg (S.Eb na nb zeros))]).2 =
      [.send (frame (buildReq S.cfg)), .send S.hostPub, .send (randomMsg na), .send (checkMsg (S.Ea na nb zeros))] ++
      (if bonding S.cfg.authReq then [.save (le S.ra) ⟨le (S.ltk na nb), 0, 0, false⟩] else []) ++
      [.startEnc (le (S.ltk na nb)) 0 0, .pairResult true] := by
  have hdm : determineMethod S.cfg S.rsp false = .justWorks ∨ determineMethod S.cfg S.rsp false = .numericComp := by
    rw [SmpMethodAux.determine_eq hi hj false (Or.inl rfl)]; exact hm
  rw [sc_start S f0 f1 hk hs ho (by rcases hdm with h | h <;> rw [h] <;> decide)]
  generalize hmm : determineMethod S.cfg S.rsp false = mm at hdm
  have hmp : mm ≠ .passkey := by rcases hdm with rfl | rfl <;> decide
  have hr : ∀ c : Ctx P, c.method = mm → checkR c = zeros := by
    intro c hc; unfold checkR; rcases hdm with rfl | rfl <;> rw [hc] <;> rfl
  have hnal : (le na).length = 16 := hna ▸ f3.rnd
  -- the public key
  have h2 := onPublicKey_app e2 (c := ctx1 S mm) (k := S.hostKeys) (b := S.peerKeys.pub) rfl hS.keys
  rw [if_neg (show ¬ (ctx1 S mm).method = .passkey from hmp)] at h2
  rw [run_msg _ S.pubMsg (code := 0x0c) (pubMsg_eq S) rfl h2 (by simp [ctx1])]
  -- the confirm value
  have h3 := onPairingConfirm_app e3 { ctx1 S mm with remotePub := some S.peerKeys.pub } (le (S.Cb nb 0))
  rw [if_neg (by simp [le, Pairing.Cb, SmpSpec.f4, P.cmac_length]), sendOut_ok _ _ _ f3.send] at h3
  rw [run_msg _ (confirmMsg (S.Cb nb 0)) (code := 0x03) rfl rfl h3 (by simp)]
  have hln : (ctx1 S mm).localRandom.getD e3.rnd = le na := hna
  rw [hln]
  -- the nonce and the check
  generalize hc3 : ({ ctx1 S mm with remotePub := some S.peerKeys.pub, remoteConfirm := le (S.Cb nb 0), localRandom := some (le na), state := .waitRandom } : Ctx P) = c3
  have hof : Of S { c3 with remoteRandom := le nb } := by
    subst hc3; exact ⟨rfl, rfl, rfl, rfl, rfl, rfl, rfl, rfl, rfl⟩
  have hm3 : c3.method = mm := by subst hc3; rfl
  have h4 : onPairingRandom (le nb) e4 c3 = stage2 e4 { c3 with remoteRandom := le nb } := by
    have hcc := checkConfirm_iff (c := { c3 with remoteRandom := le nb }) hof.keys hof.pub (by simpa [le] using hnb)
    have hcc := hcc.trans (if_pos (by subst hc3; simp [le, Pairing.Cb]))
    rw [onPairingRandom_app, if_neg (by simp [le, hnb]), if_neg (by simp [show c3.legacy = false from hof.legacy]), onSecureRandom_np e4 (c := { c3 with remoteRandom := le nb }) (by simp [hm3, hmp]), hcc]
  have := stage2_run S hS f4 f5 hof (na := na) (nb := nb) (r := zeros) (by simpa [le] using hnal) hnb (by subst hc3; rfl) rfl (hr _ hm3) rfl h4
  rw [show randomMsg nb = frame (0x04 :: le nb) from rfl]
  simp only [this, ending]
  simp [randomMsg, le]

/-- The bit of the passkey that is used in round `j`, as the specification has it: 0x80 or 0x81. -/
def roundBit (passkey j : Nat) : UInt8 := if passkey.testBit j then 0x81 else 0x80

/-- The peer's two messages of round `j`. -/
def peerRound (S : Pairing P) (nb : Nat → Bytes) (ec er : Nat → Env P) (j : Nat) : List (Event P) :=
  [.msg (ec j) (confirmMsg (S.Cb (nb j) (roundBit S.auth.passkey j))), .msg (er j) (randomMsg (nb j))]

/-- The host's two messages of round `j`. -/
def hostRound (S : Pairing P) (na : Nat → Bytes) (j : Nat) : List Eff :=
  [.send (confirmMsg (S.Ca (na j) (roundBit S.auth.passkey j))), .send (randomMsg (na j))]

namespace SmpHonestAux

theorem num_inj : ∀ (a b : Bytes), a.length = b.length → SmpSpec.num a = SmpSpec.num b → a = b := by
  intro a
  induction a with
  | nil => intro b hl _; cases b with | nil => rfl | cons => simp at hl
  | cons x xs ih =>
    intro b hl hn
    cases b with
    | nil => simp at hl
    | cons y ys =>
      have hl' : xs.length = ys.length := by simpa using hl
      have e : ∀ (z : UInt8) (l : Bytes), SmpSpec.num (z :: l) = z.toNat * 256 ^ l.length + SmpSpec.num l := by
        intro z l
        rw [show z :: l = [z] ++ l from rfl, SmpCryptoAux.num_append]
        simp [SmpSpec.num]
      have bound : ∀ l : Bytes, SmpSpec.num l < 256 ^ l.length := by
        intro l
        induction l with
        | nil => simp [SmpSpec.num]
        | cons z l ihl =>
          rw [e, List.length_cons, Nat.pow_succ]
          have := z.toNat_lt
          have : z.toNat * 256 ^ l.length ≤ 255 * 256 ^ l.length := Nat.mul_le_mul_right _ (by omega)
          omega
      rw [e, e, hl'] at hn
      have h1 := bound xs
      have h2 := bound ys
      rw [hl'] at h1
      have hx : x.toNat = y.toNat := by
        have q1 : (x.toNat * 256 ^ ys.length + SmpSpec.num xs) / 256 ^ ys.length = x.toNat := by
          rw [Nat.mul_comm, Nat.mul_add_div (Nat.pow_pos (by omega)), Nat.div_eq_of_lt h1]; rfl
        have q2 : (y.toNat * 256 ^ ys.length + SmpSpec.num ys) / 256 ^ ys.length = y.toNat := by
          rw [Nat.mul_comm, Nat.mul_add_div (Nat.pow_pos (by omega)), Nat.div_eq_of_lt h2]; rfl
        rw [← q1, ← q2, hn]
      rw [hx] at hn
      rw [UInt8.toNat_inj.1 hx, ih ys hl' (by omega)]

/-- The context in a passkey round, before the peer's confirm value. -/
structure Round (S : Pairing P) (na : Nat → Bytes) (i : Nat) (c : Ctx P) : Prop where
  of : Of S c
  method : c.method = .passkey
  auth : c.auth = S.auth
  iter : c.iter = i
  rnd : c.localRandom = some (le (na i))
  state : c.state ≠ .finished

theorem rounds_run (S : Pairing P) (hS : S.Sound) {e5 : Env P} {ec er : Nat → Env P} {na nb : Nat → Bytes} {r : Bytes} (f5 : Fine e5) (fc : ∀ j, Fine (ec j)) (fr : ∀ j, Fine (er j))
    (hna : ∀ j, j < 20 → (na j).length = 16) (hnb : ∀ j, j < 20 → (nb j).length = 16) (hrnd : ∀ j, j < 19 → (er j).rnd = le (na (j + 1))) (hrl : r.length = 16)
    (hr : getLegacyTK S.auth.passkey = le r) :
    ∀ n i c, Round S na i c → i + n = 19 →
      (run (mgr c) ((List.range' i (n + 1)).flatMap (peerRound S nb ec er) ++ [.msg e5 (checkMsg (S.Eb (na 19) (nb 19) r))])).2 =
        [.send (randomMsg (na i))] ++ (List.range' (i + 1) n).flatMap (hostRound S na) ++ ending S (na 19) (nb 19) r := by
  intro n
  induction n with
  | zero =>
    intro i c hc hi
    have hi : i = 19 := by omega
    subst hi
    simp only [List.range'_one, List.flatMap_cons, List.flatMap_nil, List.append_nil, peerRound, List.cons_append, List.nil_append, Nat.zero_add, List.range'_zero]
    have h3 := onPairingConfirm_app (ec 19) c (le (S.Cb (nb 19) (roundBit S.auth.passkey 19)))
    rw [if_neg (by simp [le, Pairing.Cb, SmpSpec.f4, P.cmac_length]), sendOut_ok _ _ _ (fc 19).send, hc.rnd] at h3
    simp only [Option.getD_some] at h3
    rw [run_msg _ (confirmMsg _) (code := 0x03) rfl rfl h3 (by simp)]
    generalize hc3 : ({ c with remoteConfirm := le (S.Cb (nb 19) (roundBit S.auth.passkey 19)), localRandom := some (le (na 19)), state := .waitRandom } : Ctx P) = c3
    have hof : Of S { c3 with remoteRandom := le (nb 19) } := by
      subst hc3; exact ⟨hc.of.request, hc.of.response, hc.of.la, hc.of.lt, hc.of.ra, hc.of.rt, hc.of.keys, hc.of.pub, hc.of.legacy⟩
    have hm3 : c3.method = .passkey := by subst hc3; exact hc.method
    have hi3 : c3.iter = 19 := by subst hc3; exact hc.iter
    have ha3 : c3.auth = S.auth := by subst hc3; exact hc.auth
    have hcf : c3.remoteConfirm = le (S.Cb (nb 19) (roundBit S.auth.passkey 19)) := by subst hc3; rfl
    have h4 : onPairingRandom (le (nb 19)) (er 19) c3 = stage2 (er 19) { c3 with remoteRandom := le (nb 19), iter := c3.iter + 1 } := by
      have hcc := checkPasskeyConfirm_iff (c := { c3 with remoteRandom := le (nb 19) }) hof.keys hof.pub (by simpa [le] using hnb 19 (by omega))
      have hcc := hcc.trans (if_pos (by show c3.remoteConfirm = _; rw [hcf, passkey_bit_spec, ha3, hi3]; simp [le, Pairing.Cb, roundBit]))
      rw [onPairingRandom_app, if_neg (by simp [le, hnb 19 (by omega)]), if_neg (by simp [show c3.legacy = false from hof.legacy]),
        onSecureRandom_pk (er 19) (c := { c3 with remoteRandom := le (nb 19) }) hm3, hcc]
      dsimp only
      rw [if_neg (by rw [hi3]; omega)]
    have := stage2_run S hS (fr 19) f5 (c := { c3 with remoteRandom := le (nb 19), iter := c3.iter + 1 })
      ⟨hof.request, hof.response, hof.la, hof.lt, hof.ra, hof.rt, hof.keys, hof.pub, hof.legacy⟩ (na := na 19) (nb := nb 19) (r := r) (hna 19 (by omega)) (hnb 19 (by omega))
      (by subst hc3; rfl) rfl (by unfold checkR; simp only [hm3, ha3]; exact hr) hrl h4
    rw [show randomMsg (nb 19) = frame (0x04 :: le (nb 19)) from rfl]
    simp only [this]
    rfl
  | succ n ih =>
    intro i c hc hi
    rw [List.range'_succ, List.flatMap_cons, List.append_assoc]
    have h3 := onPairingConfirm_app (ec i) c (le (S.Cb (nb i) (roundBit S.auth.passkey i)))
    rw [if_neg (by simp [le, Pairing.Cb, SmpSpec.f4, P.cmac_length]), sendOut_ok _ _ _ (fc i).send, hc.rnd] at h3
    simp only [Option.getD_some] at h3
    simp only [peerRound, List.cons_append, List.nil_append]
    rw [run_msg _ (confirmMsg _) (code := 0x03) rfl rfl h3 (by simp)]
    generalize hc3 : ({ c with remoteConfirm := le (S.Cb (nb i) (roundBit S.auth.passkey i)), localRandom := some (le (na i)), state := .waitRandom } : Ctx P) = c3
    have hof : Of S { c3 with remoteRandom := le (nb i) } := by
      subst hc3; exact ⟨hc.of.request, hc.of.response, hc.of.la, hc.of.lt, hc.of.ra, hc.of.rt, hc.of.keys, hc.of.pub, hc.of.legacy⟩
    have hm3 : c3.method = .passkey := by subst hc3; exact hc.method
    have hi3 : c3.iter = i := by subst hc3; exact hc.iter
    have ha3 : c3.auth = S.auth := by subst hc3; exact hc.auth
    have hs3 : c3.state ≠ .finished := by subst hc3; simp
    have hcf : c3.remoteConfirm = le (S.Cb (nb i) (roundBit S.auth.passkey i)) := by subst hc3; rfl
    have hrnd' := hrnd i (by omega)
    have h4 : onPairingRandom (le (nb i)) (er i) c3 = ({ c3 with remoteRandom := le (nb i), iter := c3.iter + 1, localRandom := some (le (na (i + 1))) },
        [.send (confirmMsg (S.Ca (na (i + 1)) (roundBit S.auth.passkey (i + 1))))], .ok ()) := by
      have hcc := checkPasskeyConfirm_iff (c := { c3 with remoteRandom := le (nb i) }) hof.keys hof.pub (by simpa [le] using hnb i (by omega))
      have hcc := hcc.trans (if_pos (by show c3.remoteConfirm = _; rw [hcf, passkey_bit_spec, ha3, hi3]; simp [le, Pairing.Cb, roundBit]))
      rw [onPairingRandom_app, if_neg (by simp [le, hnb i (by omega)]), if_neg (by simp [show c3.legacy = false from hof.legacy]),
        onSecureRandom_pk (er i) (c := { c3 with remoteRandom := le (nb i) }) hm3, hcc]
      dsimp only
      rw [if_pos (by rw [hi3]; omega),
        continuePassKeyPairing_app (er i) (c := { c3 with remoteRandom := le (nb i), iter := c3.iter + 1 }) hof.keys hof.pub (fr i).rnd (fr i).send, hrnd']
      simp [hi3, ha3, passkey_bit_spec, confirmMsg, Pairing.Ca, le, roundBit]
    rw [run_msg _ (randomMsg (nb i)) (code := 0x04) rfl rfl h4 hs3]
    have hround : Round S na (i + 1) { c3 with remoteRandom := le (nb i), iter := c3.iter + 1, localRandom := some (le (na (i + 1))) } :=
      ⟨⟨hof.request, hof.response, hof.la, hof.lt, hof.ra, hof.rt, hof.keys, hof.pub, hof.legacy⟩, hm3, ha3, by rw [hi3], rfl, hs3⟩
    have := ih (i + 1) _ hround (by omega)
    simp only [List.append_assoc] at this ⊢
    simp only [this]
    rw [List.range'_succ (s := i + 1) (n := n)]
    simp [hostRound, randomMsg]

end SmpHonestAux

/-- C41. Passkey entry in secure connections: with a peer that follows the specification and has the same passkey, all twenty rounds are passed in both directions, the host's values are the ones the peer
expects, and both end with the same LTK. `r` is the passkey as a 128-bit number. -/
theorem passkey_completes (S : Pairing P) (hS : S.Sound) {e0 e1 e2 e5 : Env P} {ec er : Nat → Env P} (f0 : Fine e0) (f1 : Fine e1) (f2 : Fine e2) (f5 : Fine e5)
    (fc : ∀ j, Fine (ec j)) (fr : ∀ j, Fine (er j)) (hk : e1.fresh = S.hostKeys) (hs : S.rsp.authReq &&& 0x08 = 0x08) (ho : S.auth.oobData = [])
    {i j : SmpSpec.IO} (hi : SmpSpec.IO.ofByte S.cfg.ioCap = some i) (hj : SmpSpec.IO.ofByte S.rsp.ioCap = some j)
    (hm : SmpSpec.pairingMethod true (oobSet S.cfg) (oobSet S.rsp) (mitmSet S.cfg) (mitmSet S.rsp) i j = .passkey)
    {r : Bytes} (hrl : r.length = 16) (hr : SmpSpec.num r = S.auth.passkey) (hp : S.auth.passkey < 2 ^ 20)
    {na nb : Nat → Bytes} (hna0 : e2.rnd = le (na 0)) (hrnd : ∀ j, j < 19 → (er j).rnd = le (na (j + 1))) (hnb : ∀ j, j < 20 → (nb j).length = 16) :
    (run S.start ([.pair e0 S.auth, .msg e1 S.rspMsg, .msg e2 S.pubMsg] ++ (List.range 20).flatMap (peerRound S nb ec er) ++ [.msg e5 (checkMsg (S.Eb (na 19) (nb 19) r))])).2 =
      [.send (frame (buildReq S.cfg)), .send S.hostPub] ++ (List.range 20).flatMap (hostRound S na) ++ [.send (checkMsg (S.Ea (na 19) (nb 19) r))] ++
      (if bonding S.cfg.authReq then [.save (le S.ra) ⟨le (S.ltk (na 19) (nb 19)), 0, 0, false⟩] else []) ++
      [.startEnc (le (S.ltk (na 19) (nb 19))) 0 0, .pairResult true] := by
  have hdm : determineMethod S.cfg S.rsp false = .passkey := by
    rw [SmpMethodAux.determine_eq hi hj false (Or.inl rfl)]; exact hm
  have hna : ∀ j, j < 20 → (na j).length = 16 := by
    intro j hj
    cases j with
    | zero => have := f2.rnd; rw [hna0] at this; simpa [le] using this
    | succ j => have := (fr j).rnd; rw [hrnd j (by omega)] at this; simpa [le] using this
  have htk : getLegacyTK S.auth.passkey = le r := by
    have h := passkey_spec S.auth.passkey (by omega)
    have := num_inj (le (getLegacyTK S.auth.passkey)) r (by simp [le, h.1, hrl]) (by rw [h.2, hr])
    rw [← this]; simp [le]
  simp only [List.cons_append, List.nil_append]
  rw [sc_start S f0 f1 hk hs ho (by rw [hdm]; decide), hdm]
  have h2 := onPublicKey_app e2 (c := ctx1 S .passkey) (k := S.hostKeys) (b := S.peerKeys.pub) rfl hS.keys
  rw [if_pos (show (ctx1 S .passkey).method = .passkey from rfl), startPassKeyPairing_app e2 (c := { ctx1 S .passkey with remotePub := some S.peerKeys.pub }) (k := S.hostKeys) (b := S.peerKeys.pub) rfl rfl f2.rnd f2.send, hna0] at h2
  rw [run_msg _ S.pubMsg (code := 0x0c) (pubMsg_eq S) rfl h2 (by simp [ctx1])]
  generalize hc2 : ({ ctx1 S .passkey with remotePub := some S.peerKeys.pub, iter := 0, localRandom := some (le (na 0)) } : Ctx P) = c2
  have hround : Round S na 0 c2 := by
    subst hc2
    exact ⟨⟨rfl, rfl, rfl, rfl, rfl, rfl, rfl, rfl, rfl⟩, rfl, rfl, rfl, rfl, by simp [ctx1]⟩
  have := rounds_run S hS f5 fc fr hna hnb hrnd hrl htk 19 0 c2 hround rfl
  rw [List.range_eq_range']
  simp only [this]
  rw [List.range'_succ (n := 19)]
  simp only [ending, List.flatMap_cons, hostRound, passkey_bit_spec]
  simp [confirmMsg, Pairing.Ca, le, roundBit, ctx1]

end Ble.Props
