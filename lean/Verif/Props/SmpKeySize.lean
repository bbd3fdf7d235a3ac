import Verif.Props.SmpExamples
import Verif.Props.SmpLegacy
set_option autoImplicit false

/-!
# C186: the size of the encryption key
-/

namespace Ble.Props

open Ble.Smp SmpHonestAux SmpExampleAux Aux

variable {P : Prims}

/-- The negotiated size: the smaller of the two maximum sizes (Core 5.0 Vol 3 Part H, 2.3.4). -/
def negotiatedSize (a b : Config) : Nat := min a.maxKeySize.toNat b.maxKeySize.toNat

/-- A key of 16 octets, least significant first, reduced to `n` octets: the most significant octets are zero (2.3.4). -/
def reduced (n : Nat) (key : Bytes) : Bytes := key.take n ++ List.replicate (16 - n) 0

/-- The feature octets of `S` but with other maximum key sizes. -/
def withSizes (S : Pairing P) (a b : UInt8) : Pairing P := { S with cfg := { S.cfg with maxKeySize := a }, rsp := { S.rsp with maxKeySize := b } }

theorem reduced_full (key : Bytes) (h : key.length = 16) : reduced 16 key = key := by
  simp [reduced, List.take_of_length_le (Nat.le_of_eq h)]

theorem ltk_length (S : Pairing P) (na nb : Bytes) : (le (S.ltk na nb)).length = 16 := by
  simp [le, Pairing.ltk, SmpSpec.ltk, SmpSpec.f5, P.cmac_length]

/-- C186, the full statement: encryption is started with the key of the pairing reduced to the negotiated size, and pairing with a peer that offers less than 7 octets fails. Proved: with secure connections (just works) it is, if both sides
offer 16 octets. **Missing, and false of the code**: other sizes, see `key_size_ignored` and `short_key_accepted`. -/
theorem key_size_partial (S : Pairing P) (hS : S.Sound) {e0 e1 e2 e3 e4 e5 : Env P} (f0 : Fine e0) (f1 : Fine e1) (f2 : Fine e2) (f3 : Fine e3) (f4 : Fine e4) (f5 : Fine e5)
    (hk : e1.fresh = S.hostKeys) (hs : S.rsp.authReq &&& 0x08 = 0x08) (ho : S.auth.oobData = [])
    {i j : SmpSpec.IO} (hi : SmpSpec.IO.ofByte S.cfg.ioCap = some i) (hj : SmpSpec.IO.ofByte S.rsp.ioCap = some j)
    (hm : SmpSpec.pairingMethod true (oobSet S.cfg) (oobSet S.rsp) (mitmSet S.cfg) (mitmSet S.rsp) i j = .justWorks ∨
      SmpSpec.pairingMethod true (oobSet S.cfg) (oobSet S.rsp) (mitmSet S.cfg) (mitmSet S.rsp) i j = .numericComp)
    {na nb : Bytes} (hna : e3.rnd = le na) (hnb : nb.length = 16) (h16 : negotiatedSize S.cfg S.rsp = 16) :
    (run S.start [.pair e0 S.auth, .msg e1 S.rspMsg, .msg e2 S.pubMsg, .msg e3 (confirmMsg (S.Cb nb 0)), .msg e4 (randomMsg nb), .msg e5 (checkMsg (S.Eb na nb zeros))]).2.filter (fun x => match x with | .startEnc .. => true | _ => false) =
      [.startEnc (reduced (negotiatedSize S.cfg S.rsp) (le (S.ltk na nb))) 0 0] := by
  rw [just_works_completes S hS f0 f1 f2 f3 f4 f5 hk hs ho hi hj hm hna hnb, h16, reduced_full _ (ltk_length S na nb)]
  split <;> simp

/-- C186. **The sizes are ignored**: whatever maximum sizes the two sides put in their messages, the host stores and uses all 16 octets of the key, and `Pair` returns nil; everything but the octets of the sizes in the Pairing Request is as if
both were 16. (So a man in the middle who changes these octets, which no check value of secure connections covers, does not weaken the key.) -/
theorem key_size_ignored (S : Pairing P) (hS : S.Sound) (a b : UInt8) {e0 e1 e2 e3 e4 e5 : Env P} (f0 : Fine e0) (f1 : Fine e1) (f2 : Fine e2) (f3 : Fine e3) (f4 : Fine e4) (f5 : Fine e5)
    (hk : e1.fresh = S.hostKeys) (hs : S.rsp.authReq &&& 0x08 = 0x08) (ho : S.auth.oobData = [])
    {i j : SmpSpec.IO} (hi : SmpSpec.IO.ofByte S.cfg.ioCap = some i) (hj : SmpSpec.IO.ofByte S.rsp.ioCap = some j)
    (hm : SmpSpec.pairingMethod true (oobSet S.cfg) (oobSet S.rsp) (mitmSet S.cfg) (mitmSet S.rsp) i j = .justWorks ∨
      SmpSpec.pairingMethod true (oobSet S.cfg) (oobSet S.rsp) (mitmSet S.cfg) (mitmSet S.rsp) i j = .numericComp)
    {na nb : Bytes} (hna : e3.rnd = le na) (hnb : nb.length = 16) :
    let T := withSizes S a b
    (run T.start [.pair e0 S.auth, .msg e1 T.rspMsg, .msg e2 S.pubMsg, .msg e3 (confirmMsg (S.Cb nb 0)), .msg e4 (randomMsg nb), .msg e5 (checkMsg (S.Eb na nb zeros))]).2 =
      [.send (frame [0x01, S.cfg.ioCap, S.cfg.oobFlag, S.cfg.authReq, a, S.cfg.initKeyDist, S.cfg.respKeyDist]), .send S.hostPub, .send (randomMsg na), .send (checkMsg (S.Ea na nb zeros))] ++
      (if bonding S.cfg.authReq then [.save (le S.ra) ⟨le (S.ltk na nb), 0, 0, false⟩] else []) ++
      [.startEnc (le (S.ltk na nb)) 0 0, .pairResult true] := by
  have hT : (withSizes S a b).Sound := ⟨hS.la, hS.ra, hS.agree, hS.keys, hS.secret⟩
  exact just_works_completes (withSizes S a b) hT f0 f1 f2 f3 f4 f5 hk hs ho hi hj hm hna hnb

/-- C186. **A size the specification forbids is accepted, in legacy pairing too**: with whatever size the peer offers, 0 for instance, `Pair` returns nil and encryption is started with all 16 octets of the short term key. -/
theorem short_key_accepted (S : Pairing P) (hla : S.la.length = 6) (hra : S.ra.length = 6) {e0 e1 e2 e3 : Env P} (f0 : Fine e0) (f1 : Fine e1) (f2 : Fine e2) (f3 : Fine e3)
    (hs : S.rsp.authReq &&& 0x08 = 0) (ho : S.auth.oobData = []) {i j : SmpSpec.IO} (hi : SmpSpec.IO.ofByte S.cfg.ioCap = some i) (hj : SmpSpec.IO.ofByte S.rsp.ioCap = some j)
    (hoo : oobSet S.cfg = oobSet S.rsp) {m : Method} (hm : SmpSpec.pairingMethod false (oobSet S.cfg) (oobSet S.rsp) (mitmSet S.cfg) (mitmSet S.rsp) i j = m) (hmo : m ≠ .oob)
    (hp : S.auth.passkey < 2 ^ 20) {tk : Bytes} (htk : specTK m S.auth.passkey tk) {mrand srand : Bytes} (hmr : e1.rnd = le mrand) (hsr : srand.length = 16)
    (hnb : S.cfg.authReq &&& 0x03 = 0) (b : UInt8) :
    let T := withSizes S S.cfg.maxKeySize b
    ∃ pre, (run T.start [.pair e0 S.auth, .msg e1 T.rspMsg, .msg e2 (confirmMsg (T.c1 tk srand)), .msg e3 (randomMsg srand)]).2 = pre ++ [.startEnc (le (SmpSpec.s1 P tk srand mrand)) 0 0, .pairResult true] ∧
      (le (SmpSpec.s1 P tk srand mrand)).length = 16 := by
  have := legacy_completes (withSizes S S.cfg.maxKeySize b) hla hra f0 f1 f2 f3 hs ho hi hj hoo hm hmo hp htk hmr hsr hnb
  refine ⟨[.send (frame (buildReq (withSizes S S.cfg.maxKeySize b).cfg)), .send (confirmMsg ((withSizes S S.cfg.maxKeySize b).c1 tk mrand)), .send (randomMsg mrand)], this, ?_⟩
  simp [le, SmpSpec.s1, P.aes_length]

/-- The hypotheses are met with a peer that offers one octet, and reducing a key changes it. -/
theorem key_size_example : negotiatedSize (withSizes (toyPairing 4 0x09 3 0x09 0) 16 1).cfg (withSizes (toyPairing 4 0x09 3 0x09 0) 16 1).rsp = 1 ∧
    negotiatedSize (toyPairing 4 0x09 3 0x09 0).cfg (toyPairing 4 0x09 3 0x09 0).rsp = 16 ∧
    reduced 1 (List.replicate 16 7) ≠ List.replicate 16 7 := by
  refine ⟨rfl, rfl, ?_⟩
  decide

end Ble.Props
