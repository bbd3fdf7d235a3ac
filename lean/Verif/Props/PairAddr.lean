import Verif.Hci.Init
import Verif.Props.SmpReject
import Verif.Props.SmpExamples
set_option autoImplicit false

/-! # C63: pairing covers the addresses of the connection

A `Pairing` says what the connection is in truth: which addresses of which types the two devices use on it (`la`, `lt` for the host). The host's side starts from what `initPairingContext` passes on. -/

namespace Ble.Props

open Ble.Smp Ble.Smp.Aux Ble.HciInit

variable {P : Prims}

/-- The pairing as the host sees it: its own address is always the adapter's, of the type guessed from the address. -/
def asHostSees (S : Pairing P) (a : Adapter) : Pairing P := { S with la := a.addr, lt := if a.addr.getD 0 0 &&& 0xC0 = 0xC0 then 1 else 0 }

namespace PairAddrAux

theorem start_eq (S : Pairing P) (a : Adapter) : pairingStart S.cfg a (le S.ra) S.rt = (asHostSees S a).start := by
  simp only [pairingStart, Pairing.start, asHostSees, localType, le, List.reverse_reverse, beq_iff_eq]

theorem asHostSees_eq (S : Pairing P) (a : Adapter) (ha : a.addr = S.la) (ht : S.lt = if S.la.getD 0 0 &&& 0xC0 = 0xC0 then 1 else 0) : asHostSees S a = S := by
  cases S
  simp only [asHostSees] at *
  subst ha
  rw [ht]

theorem xor_len (a b : Bytes) (h : a.length = b.length) : (SmpSpec.xor a b).length = a.length := by simp [SmpSpec.xor, h]

theorem xor_cancel : ∀ (r a b : Bytes), r.length = a.length → a.length = b.length → SmpSpec.xor r a = SmpSpec.xor r b → a = b
  | [], [], [], _, _, _ => rfl
  | x :: r, y :: a, z :: b, h1, h2, h => by
    simp only [SmpSpec.xor, List.zipWith_cons_cons, List.cons.injEq] at h
    have hyz : y = z := by
      have := congrArg (fun t => x ^^^ t) h.1
      simpa [← UInt8.xor_assoc] using this
    rw [hyz, xor_cancel r a b (by simpa using h1) (by simpa using h2) h.2]
  | [], [], _ :: _, _, h2, _ => by simp at h2
  | [], _ :: _, _, h1, _, _ => by simp at h1
  | _ :: _, [], _, h1, _, _ => by simp at h1
  | _ :: _, _ :: _, [], _, h2, _ => by simp at h2

end PairAddrAux

open PairAddrAux

/-- **C63** (part: the host's address on the connection is the adapter's, and its type is the one its two top bits suggest). The pairing starts from the connection's own addresses and types, so that
everything proved of pairing (C41, C42) holds of it: for example, with a peer that follows the specification, just works completes. In particular this is so for a public address that does not begin with 11. -/
theorem pairing_addresses_partial (S : Pairing P) (hS : S.Sound) (a : Adapter) (ha : a.addr = S.la) (ht : S.lt = if S.la.getD 0 0 &&& 0xC0 = 0xC0 then 1 else 0) :
    pairingStart S.cfg a (le S.ra) S.rt = S.start ∧
    ∀ (e0 e1 e2 e3 e4 e5 : Env P) (_ : Fine e0) (_ : Fine e1) (_ : Fine e2) (_ : Fine e3) (_ : Fine e4) (_ : Fine e5) (_ : e1.fresh = S.hostKeys) (_ : S.rsp.authReq &&& 0x08 = 0x08)
      (_ : S.auth.oobData = []) (i j : SmpSpec.IO) (_ : SmpSpec.IO.ofByte S.cfg.ioCap = some i) (_ : SmpSpec.IO.ofByte S.rsp.ioCap = some j)
      (_ : SmpSpec.pairingMethod true (oobSet S.cfg) (oobSet S.rsp) (mitmSet S.cfg) (mitmSet S.rsp) i j = .justWorks) (na nb : Bytes) (_ : e3.rnd = le na) (_ : nb.length = 16),
      Eff.pairResult true ∈ (run (pairingStart S.cfg a (le S.ra) S.rt) [.pair e0 S.auth, .msg e1 S.rspMsg, .msg e2 S.pubMsg, .msg e3 (confirmMsg (S.Cb nb 0)), .msg e4 (randomMsg nb),
        .msg e5 (checkMsg (S.Eb na nb zeros))]).2 := by
  have e : pairingStart S.cfg a (le S.ra) S.rt = S.start := by rw [start_eq, asHostSees_eq S a ha ht]
  refine ⟨e, ?_⟩
  intro e0 e1 e2 e3 e4 e5 f0 f1 f2 f3 f4 f5 hk hs ho i j hi hj hm na nb hna hnb
  rw [e, just_works_completes S hS f0 f1 f2 f3 f4 f5 hk hs ho hi hj (Or.inl hm) hna hnb]
  simp

/-- **C63** fails, legacy pairing. If AES with the pairing's key is injective on blocks (a permutation is), and the connection's address of the host is public and begins with 11 (such as that of a
Raspberry Pi, DC:A6:32:...), or is not the adapter's address but of the type the host guesses, then no legacy pairing succeeds: the confirm value the host sends is not the one of the specification, and the peer's
right one is rejected. -/
theorem pairing_address_wrong_legacy (S : Pairing P) (a : Adapter) (hla : S.la.length = 6) (hra : S.ra.length = 6) (haa : a.addr.length = 6)
    (hw : (a.addr = S.la ∧ S.lt = 0 ∧ S.la.getD 0 0 &&& 0xC0 = 0xC0) ∨ (a.addr ≠ S.la ∧ S.lt = if a.addr.getD 0 0 &&& 0xC0 = 0xC0 then 1 else 0))
    {e0 e1 e2 e3 : Env P} (f0 : Fine e0) (f1 : Fine e1) (f2 : Fine e2)
    (hs : S.rsp.authReq &&& 0x08 = 0) (ho : S.auth.oobData = []) {i j : SmpSpec.IO} (hi : SmpSpec.IO.ofByte S.cfg.ioCap = some i) (hj : SmpSpec.IO.ofByte S.rsp.ioCap = some j)
    (hoo : oobSet S.cfg = oobSet S.rsp) {m : Method} (hm : SmpSpec.pairingMethod false (oobSet S.cfg) (oobSet S.rsp) (mitmSet S.cfg) (mitmSet S.rsp) i j = m) (hmo : m ≠ .oob)
    (hp : S.auth.passkey < 2 ^ 20) {tk : Bytes} (htk : specTK m S.auth.passkey tk) {mrand srand : Bytes} (hmr : e1.rnd = le mrand) (hsr : srand.length = 16)
    (hinj : ∀ x y : Bytes, x.length = 16 → y.length = 16 → P.aes tk x = P.aes tk y → x = y) :
    ∃ c, c ≠ S.c1 tk mrand ∧
      (run (pairingStart S.cfg a (le S.ra) S.rt) [.pair e0 S.auth, .msg e1 S.rspMsg, .msg e2 (confirmMsg (S.c1 tk srand)), .msg e3 (randomMsg srand)]).2 =
        [.send (frame (buildReq S.cfg)), .send (confirmMsg c), .send (randomMsg mrand), .pairResult false] := by
  have key : ∀ r : Bytes, r.length = 16 → (asHostSees S a).c1 tk r ≠ S.c1 tk r := by
    intro r hr he
    simp only [Pairing.c1, SmpSpec.c1, asHostSees] at he
    have hq : (le (buildReq S.cfg)).length = 7 := by simp [le, buildReq]
    have hq' : (le (buildRsp S.rsp)).length = 7 := by simp [le, buildRsp]
    have l1 : ∀ t : UInt8, (le (buildRsp S.rsp) ++ le (buildReq S.cfg) ++ [S.rt] ++ [t]).length = 16 := by intro t; simp [hq, hq']
    have l2 : ∀ ia : Bytes, ia.length = 6 → ([0, 0, 0, 0] ++ ia ++ S.ra).length = 16 := by intro ia h; simp [h, hra]
    have l3 : ∀ t : UInt8, (SmpSpec.xor r (le (buildRsp S.rsp) ++ le (buildReq S.cfg) ++ [S.rt] ++ [t])).length = 16 := fun t => by rw [xor_len _ _ (by rw [hr, l1]), hr]
    have l4 : ∀ (x ia : Bytes), ia.length = 6 → (SmpSpec.xor (P.aes tk x) ([0, 0, 0, 0] ++ ia ++ S.ra)).length = 16 := fun x ia h => by
      rw [xor_len _ _ (by rw [P.aes_length, l2 ia h]), P.aes_length]
    have he := hinj _ _ (l4 _ _ haa) (l4 _ _ hla) he
    rcases hw with ⟨h1, h2, h3⟩ | ⟨h1, h2⟩
    · rw [h1, h2, if_pos h3] at he
      have comm : ∀ (x y : Bytes), SmpSpec.xor x y = SmpSpec.xor y x := by
        intro x y
        simp only [SmpSpec.xor]
        rw [List.zipWith_comm]
        congr 1
        funext u v
        exact UInt8.xor_comm _ _
      rw [comm (P.aes tk _), comm (P.aes tk (SmpSpec.xor r (_ ++ [0])))] at he
      have he := xor_cancel _ _ _ (by rw [l2 _ hla, P.aes_length]) (by rw [P.aes_length, P.aes_length]) he
      have he := hinj _ _ (l3 _) (l3 _) he
      have he := xor_cancel _ _ _ (by rw [hr, l1]) (by rw [l1, l1]) he
      simp at he
    · rw [← h2] at he
      have he := xor_cancel _ _ _ (by rw [l2 _ haa, P.aes_length]) (by rw [l2 _ haa, l2 _ hla]) he
      simp only [List.append_cancel_left_eq, List.append_cancel_right_eq] at he
      exact h1 he
  have hmrl : mrand.length = 16 := by have := f1.rnd; rw [hmr] at this; simpa [le] using this
  refine ⟨(asHostSees S a).c1 tk mrand, key mrand hmrl, ?_⟩
  rw [start_eq]
  exact wrong_legacy_confirm_rejected (asHostSees S a) haa hra f0 f1 f2 hs ho hi hj hoo hm hmo hp htk hmr hsr (by simp [Pairing.c1, SmpSpec.c1, P.aes_length]) (Ne.symm (key srand hsr))

/-- **C63** fails, secure connections. Whenever the check values of the specification differ for the connection's address and the one the host uses (they are MACs over them), the check of a peer that follows
the specification is rejected, and the host's check is not the specification's. -/
theorem pairing_address_wrong_secure (S : Pairing P) (hS : S.Sound) (a : Adapter) (haa : a.addr.length = 6) {e0 e1 e2 e3 e4 e5 : Env P} (f0 : Fine e0) (f1 : Fine e1) (f3 : Fine e3) (f4 : Fine e4)
    (hk : e1.fresh = S.hostKeys) (hs : S.rsp.authReq &&& 0x08 = 0x08) (ho : S.auth.oobData = [])
    {i j : SmpSpec.IO} (hi : SmpSpec.IO.ofByte S.cfg.ioCap = some i) (hj : SmpSpec.IO.ofByte S.rsp.ioCap = some j)
    (hm : SmpSpec.pairingMethod true (oobSet S.cfg) (oobSet S.rsp) (mitmSet S.cfg) (mitmSet S.rsp) i j = .justWorks ∨
      SmpSpec.pairingMethod true (oobSet S.cfg) (oobSet S.rsp) (mitmSet S.cfg) (mitmSet S.rsp) i j = .numericComp)
    {na nb : Bytes} (hna : e3.rnd = le na) (hnb : nb.length = 16)
    (hne : S.Eb na nb zeros ≠ (asHostSees S a).Eb na nb zeros) (hne' : S.Ea na nb zeros ≠ (asHostSees S a).Ea na nb zeros) :
    ∃ x, x ≠ S.Ea na nb zeros ∧
      (run (pairingStart S.cfg a (le S.ra) S.rt) [.pair e0 S.auth, .msg e1 S.rspMsg, .msg e2 S.pubMsg, .msg e3 (confirmMsg (S.Cb nb 0)), .msg e4 (randomMsg nb),
        .msg e5 (checkMsg (S.Eb na nb zeros))]).2 =
        [.send (frame (buildReq S.cfg)), .send S.hostPub, .send (randomMsg na), .send (checkMsg x), .pairResult false] := by
  refine ⟨_, Ne.symm hne', ?_⟩
  rw [start_eq]
  exact wrong_check_rejected (asHostSees S a) ⟨haa, hS.ra, hS.agree, hS.keys, hS.secret⟩ f0 f1 f3 f4 hk hs ho hi hj hm hna hnb hne

/-! ### Concrete pairings -/

/-- A Raspberry Pi, whose address is public. -/
def piAdapter : Adapter := ⟨[0xDC, 0xA6, 0x32, 4, 5, 6], 27, 15, 0⟩

/-- Toy primitives whose AES is a permutation: it adds the key's last byte to the last byte and cuts or pads to a block. -/
def toyPerm : Prims := { toy with
  aes := fun k m => if m.length = 16 then List.zipWith (· ^^^ ·) (List.replicate 16 (k.getLastD 0)) m else List.replicate 16 0
  aes_length := by intro k m; split <;> simp [*]
  cmac := fun _ m => (m.drop (m.length - 14) ++ List.replicate 16 0).take 16
  cmac_length := by intro k m; simp }

def piPairing (peerAuth : UInt8) : Pairing toyPerm where
  cfg := ⟨3, 0, 0x09, 16, 0, 1⟩
  rsp := ⟨3, 0, peerAuth, 16, 0, 1⟩
  la := piAdapter.addr
  lt := 0
  ra := [7, 8, 9, 10, 11, 12]
  rt := 1
  hostKeys := ⟨(3 : UInt8), (3 : UInt8)⟩
  peerKeys := ⟨(5 : UInt8), (5 : UInt8)⟩
  auth := ⟨0, []⟩

def permEnv : Env toyPerm := ⟨List.replicate 16 7, ⟨(3 : UInt8), (3 : UInt8)⟩, none, true, true, true⟩

/-- A public address beginning with 11: legacy pairing fails (the hypotheses are met, injectivity too). -/
example : Eff.pairResult false ∈ (run (pairingStart (piPairing 1).cfg piAdapter (le (piPairing 1).ra) 1) [.pair permEnv ⟨0, []⟩, .msg permEnv (piPairing 1).rspMsg,
    .msg permEnv (confirmMsg ((piPairing 1).c1 (List.replicate 16 0) (List.replicate 16 9))), .msg permEnv (randomMsg (List.replicate 16 9))]).2 := by
  obtain ⟨c, -, h⟩ := pairing_address_wrong_legacy (piPairing 1) piAdapter rfl rfl rfl (Or.inl ⟨rfl, rfl, by decide⟩) (e0 := permEnv) (e1 := permEnv) (e2 := permEnv) (e3 := permEnv)
    ⟨rfl, rfl, rfl, rfl⟩ ⟨rfl, rfl, rfl, rfl⟩ ⟨rfl, rfl, rfl, rfl⟩ (by decide) rfl (i := .none) (j := .none) (by decide) (by decide) rfl (m := .justWorks) (by decide) (by decide) (by decide)
    (tk := List.replicate 16 0) ⟨rfl, by decide⟩ (mrand := List.replicate 16 7) (srand := List.replicate 16 9) rfl rfl
    (by
      intro x y hx hy h
      simp only [toyPerm, hx, hy, if_true] at h
      exact xor_cancel (List.replicate 16 0) x y (by simp [hx]) (by omega) h)
  have h' : (run (pairingStart (piPairing 1).cfg piAdapter (le (piPairing 1).ra) 1) [.pair permEnv ⟨0, []⟩, .msg permEnv (piPairing 1).rspMsg,
    .msg permEnv (confirmMsg ((piPairing 1).c1 (List.replicate 16 0) (List.replicate 16 9))), .msg permEnv (randomMsg (List.replicate 16 9))]).2 = _ := h
  rw [h']
  simp

/-- The hypotheses of the theorem on secure connections are met. -/
example : (piPairing 9).Sound ∧ (piPairing 9).Eb (List.replicate 16 7) (List.replicate 16 9) zeros ≠ (asHostSees (piPairing 9) piAdapter).Eb (List.replicate 16 7) (List.replicate 16 9) zeros ∧
    (piPairing 9).Ea (List.replicate 16 7) (List.replicate 16 9) zeros ≠ (asHostSees (piPairing 9) piAdapter).Ea (List.replicate 16 7) (List.replicate 16 9) zeros := by
  refine ⟨⟨rfl, rfl, rfl, ?_, rfl⟩, by decide, by decide⟩
  intro h; exact absurd (show (3 : UInt8) = 5 from h) (by decide)

/-- An address the theorem on success covers. -/
example : (toyPairing 4 0x09 3 0x09 0).lt = if (toyPairing 4 0x09 3 0x09 0).la.getD 0 0 &&& 0xC0 = 0xC0 then 1 else 0 := by decide

end Ble.Props
