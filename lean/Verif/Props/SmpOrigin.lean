import Verif.Props.SmpBond
set_option autoImplicit false

/-! # Where stored bonds come from, in all histories (C166) -/

namespace Ble.Props

open Ble.Smp

variable {P : Prims}

/-- Where a key can come from: the bond store had it, it is the LTK of an exchange that was run, or the peer sent it in an Encryption Information. -/
inductive KeyOrigin (A B : Bytes) (xs : List (Event P)) (key : Bytes) : Prop where
  | store (b : Bond) (h : FromStore xs b) (hk : b.ltk = key)
  | exchange (mk ltk : Bytes) (h : Exchanged A B xs mk ltk) (hk : key = le ltk)
  | told (h : Received xs 0x06 key)

theorem KeyOrigin.mono {A B : Bytes} {xs ys : List (Event P)} {key : Bytes} (h : KeyOrigin A B xs key) : KeyOrigin A B (xs ++ ys) key := by
  cases h with
  | store b h hk => exact .store b h.mono hk
  | exchange mk ltk h hk => exact .exchange mk ltk h.mono hk
  | told h => exact .told h.mono

namespace SmpOriginAux
open SmpHonestAux Aux SmpBondAux

theorem master_bond (e : Env P) (c : Ctx P) (data : Bytes) (bd : Bond) (h : (onMasterIdentification data e c).1.bond = some bd) : ∃ b0, c.bond = some b0 ∧ b0.ltk = bd.ltk := by
  unfold onMasterIdentification at h
  rw [M.ite_app] at h
  split at h
  · exact ⟨bd, h, rfl⟩
  · cases hbd : c.bond with
    | none => simp [hbd] at h
    | some b =>
      refine ⟨b, rfl, ?_⟩
      cases hb : bonding c.request.authReq <;> cases ho : e.saveOk <;> simp [saveBondInfo, hb, hbd, ho] at h <;> rw [← h]

theorem master_save (e : Env P) (c : Ctx P) (data : Bytes) {a : Bytes} {b : Bond} (h : Eff.save a b ∈ (onMasterIdentification data e c).2.1) :
    a = c.remoteAddr ∧ 10 ≤ data.length ∧ ∃ b0, c.bond = some b0 ∧ b = ⟨b0.ltk, le16 (data.getD 0 0) (data.getD 1 0), le64 (data.drop 2), true⟩ := by
  unfold onMasterIdentification at h
  rw [M.ite_app] at h
  split at h
  · simp at h
  · rename_i hl
    cases hbd : c.bond with
    | none => simp [hbd] at h
    | some b0 =>
      cases hb : bonding c.request.authReq <;> cases ho : e.saveOk <;> simp [saveBondInfo, hb, hbd, ho] at h
      exact ⟨h.1, by omega, b0, rfl, h.2⟩

theorem origin_handler {la ra : Bytes} {lt rt : UInt8} {xs : List (Event P)} {c : Ctx P} {e : Env P} {pdu data : Bytes} {code : UInt8} {h : Bytes → M P Unit}
    (hi : Inv la ra lt rt xs c) (hg : ∀ bd, c.bond = some bd → KeyOrigin ([lt] ++ la) ([rt] ++ ra) xs bd.ltk) (hp : pdu.drop 4 = code :: data) (hh : handlerOf (P := P) code = some h) :
    ∀ bd, (h data e c).1.bond = some bd → KeyOrigin ([lt] ++ la) ([rt] ++ ra) (xs ++ [.msg e pdu]) bd.ltk := by
  have hlast : (Event.msg e pdu) ∈ xs ++ [.msg e pdu] := by simp
  have hrec : Received (xs ++ [.msg e pdu]) code data := ⟨e, pdu, hlast, hp⟩
  have keep : (h data e c).1.bond = c.bond → ∀ bd, (h data e c).1.bond = some bd → KeyOrigin ([lt] ++ la) ([rt] ++ ra) (xs ++ [.msg e pdu]) bd.ltk :=
    fun hs bd hb => (hg bd (hs ▸ hb)).mono
  have hinv := inv_handler (e := e) hi hp hh
  unfold handlerOf at hh
  split at hh
  · cases hh; exact keep ((keep_response e data).app c).1
  split at hh
  · cases hh; exact keep ((keep_confirm e data).app c).1
  split at hh
  · rename_i hc
    cases hh
    rcases (random_keys e c data).1 with ⟨k1, _⟩ | ⟨key, b, n, z, mk, ltk, k1, k2, k3, k4, k5, k6, k7, k8, k9⟩
    · exact keep k1
    · have hf5 := f5_inv k7
      rw [f4_keys _ _ _ _ k4] at k6
      have hcf : c.remoteConfirm = le (SmpSpec.f4 P (P.coordX b) (P.coordX key.pub) (le data) z) := by
        have := Go.ok.inj k6; rw [← this]; rfl
      have hrc : Received xs 0x03 (le (SmpSpec.f4 P (P.coordX b) (P.coordX key.pub) (le data) z)) := by
        rw [← hcf]
        rcases hi.conf with hcc | hcc
        · rw [hcc] at hcf
          have := congrArg List.length hcf
          simp [le, SmpSpec.f4, P.cmac_length] at this
        · exact hcc
      have hsec : (generateSecret P key.priv b).reverse = P.dh key.priv b := by simp [generateSecret, swapBuf_eq]
      have hta : (typed c.localAddr c.localAddrType).reverse = [lt] ++ la := by rw [typed_reverse, hi.hla, hi.hlt, addr56_swap]
      have htb : (typed c.remoteAddr c.remoteAddrType).reverse = [rt] ++ ra := by rw [typed_reverse, hi.hra, hi.hrt, addr56_swap]
      rw [hsec, hta, htb] at hf5
      have hex : Exchanged ([lt] ++ la) ([rt] ++ ra) (xs ++ [.msg e pdu]) (SmpSpec.macKey P (P.dh key.priv b) n.reverse data.reverse ([lt] ++ la) ([rt] ++ ra))
          (SmpSpec.ltk P (P.dh key.priv b) n.reverse data.reverse ([lt] ++ la) ([rt] ++ ra)) := by
        refine ⟨xs, [], e, pdu, key, b, le n, le data, z, rfl, by rw [hp, hc]; simp [le], by simpa [le] using k4, k5, hi.pub b k2, hrc, hi.keys key k1, ?_, rfl, rfl⟩
        simpa [le] using hi.nonce n k3
      intro bd hbd
      rw [k9] at hbd
      refine .exchange _ _ hex ?_
      rw [← Option.some.inj hbd, hf5.2]; rfl
  split at hh
  · cases hh; exact keep rfl
  split at hh
  · rename_i hc
    cases hh
    intro bd hb
    have hb : some (⟨data, 0, 0, true⟩ : Bond) = some bd := hb
    rw [hc] at hrec
    rw [← Option.some.inj hb]
    exact .told hrec
  split at hh
  · cases hh
    intro bd hb
    obtain ⟨b0, h1, h2⟩ := master_bond e c data bd hb
    rw [← h2]
    exact (hg b0 h1).mono
  split at hh
  · cases hh
    rcases (security_keys e c data).1 with k1 | ⟨b, k1, k2⟩
    · exact keep k1
    · intro bd hbd
      rw [k2] at hbd
      exact .store bd ⟨e, pdu, hlast, by rw [k1]; exact hbd⟩ rfl
  split at hh
  · cases hh; exact keep ((keep_pk e data).app c).1
  split at hh
  · cases hh; exact keep (dhcheck_keys e c data).1
  · simp at hh

theorem origin_run (cfg : Config) (la ra : Bytes) (lt rt : UInt8) (xs : List (Event P)) :
    ∀ bd, (run (newMgr cfg la ra lt rt : Mgr P) xs).1.ctx.bond = some bd → KeyOrigin ([lt] ++ la) ([rt] ++ ra) xs bd.ltk := by
  refine snocInd (p := fun xs => ∀ bd, (run (newMgr cfg la ra lt rt : Mgr P) xs).1.ctx.bond = some bd → KeyOrigin ([lt] ++ la) ([rt] ++ ra) xs bd.ltk) ?_ ?_ xs
  · simp [run, newMgr]
  · intro xs x hg
    have hi := inv_run (P := P) cfg la ra lt rt xs
    rw [run_append]
    generalize hm : (run (newMgr cfg la ra lt rt : Mgr P) xs).1 = m at hi hg
    show ∀ bd, (run m [x]).1.ctx.bond = some bd → _
    have hx1 : (run m [x]).1 = (step m x).1 := rfl
    rw [hx1]
    have hmono : ∀ bd, m.ctx.bond = some bd → KeyOrigin ([lt] ++ la) ([rt] ++ ra) (xs ++ [x]) bd.ltk := fun bd h => (hg bd h).mono
    cases x with
    | timeout =>
      simp only [step, pairTimeout]
      split <;> exact hmono
    | pair e a =>
      simp only [step, pair]
      split
      · exact hmono
      · have hctx : ∀ c : Ctx P, (sendPairingRequest e c).1 = c := fun c => by rw [sendPairingRequest_app, sendOut_ctx]
        split
        · split <;> simp only [hctx] <;> split <;> exact hmono
        · simp only [hctx]; split <;> exact hmono
    | msg e pdu =>
      simp only [step]
      rcases handle_ctx e pdu m with h | ⟨code, data, h, hp, hh, hc⟩
      · rw [h]; exact hmono
      · have := origin_handler (e := e) hi hg hp hh
        rcases hc with hc | hc
        · rw [hc]; exact this
        · rw [hc]; exact this

end SmpOriginAux

open SmpOriginAux SmpBondAux SmpHonestAux Aux

/-- **C166.** In every history from a new connection on, whatever the peer sends: whenever a bond is stored, it is stored for the peer's address, and either in answer to a DHKey check whose value is f6 under the MacKey of an
exchange that was run before, or in answer to a Master Identification, whose diversifier and random value it then has. Its key is the LTK of an exchange that was run before, or a key that the store had, or one that the peer
sent in an Encryption Information. -/
theorem stored_bond_origin (cfg : Config) (la ra : Bytes) (lt rt : UInt8) (xs : List (Event P)) {a : Bytes} {b : Bond} (hs : Eff.save a b ∈ (run (newMgr cfg la ra lt rt : Mgr P) xs).2) :
    a = le ra ∧ ∃ (pre post : List (Event P)) (e : Env P) (pdu : Bytes), xs = pre ++ .msg e pdu :: post ∧ KeyOrigin ([lt] ++ la) ([rt] ++ ra) pre b.ltk ∧
      ((∃ mk ltk n1 n2 r io, Exchanged ([lt] ++ la) ([rt] ++ ra) pre mk ltk ∧ pdu.drop 4 = 0x0d :: le (SmpSpec.f6 P mk n1 n2 r io ([rt] ++ ra) ([lt] ++ la))) ∨
       ∃ d0 d1 rand rest, pdu.drop 4 = 0x07 :: d0 :: d1 :: (rand ++ rest) ∧ rand.length = 8 ∧ b = ⟨b.ltk, SmpSpec.num [d1, d0], SmpSpec.num (le rand), true⟩) := by
  obtain ⟨pre, ev, post, hx, he⟩ := eff_split xs _ _ hs
  obtain ⟨e, pdu, code, data, f, rfl, hp, hf, hsv⟩ := step_save he
  have hi := inv_run (P := P) cfg la ra lt rt pre
  have hg := origin_run (P := P) cfg la ra lt rt pre
  rcases hf with ⟨rfl, rfl⟩ | ⟨rfl, rfl⟩
  · obtain ⟨h1, h2, _, h4⟩ := (dhcheck_keys e _ data).2.2 a b hsv
    refine ⟨by rw [h1, hi.hra, swapBuf_eq]; rfl, pre, post, e, pdu, hx, hg b h2, .inl ?_⟩
    generalize (run (newMgr cfg la ra lt rt : Mgr P) pre).1.ctx = c at *
    unfold checkDHKeyCheck at h4
    simp only [Go.bind_eq_ok] at h4
    obtain ⟨chk, hchk, heq⟩ := h4
    have hd : data = chk := by
      split at heq
      · assumption
      · simp at heq
    obtain ⟨hl, hv⟩ := f6_inv hchk
    have hta : (typed c.localAddr c.localAddrType).reverse = [lt] ++ la := by rw [typed_reverse, hi.hla, hi.hlt, addr56_swap]
    have htb : (typed c.remoteAddr c.remoteAddrType).reverse = [rt] ++ ra := by rw [typed_reverse, hi.hra, hi.hrt, addr56_swap]
    rcases hi.mac with h | ⟨mk, ltk, hm, hex⟩
    · rw [h] at hl; simp at hl
    · have : ∃ n1 n2 r io, pdu.drop 4 = 0x0d :: le (SmpSpec.f6 P mk n1 n2 r io ([rt] ++ ra) ([lt] ++ la)) := by
        rw [hp, hd, hv, hta, htb, hm]
        exact ⟨_, _, _, _, by simp only [le, List.reverse_reverse]; rfl⟩
      obtain ⟨n1, n2, r, io, hq⟩ := this
      exact ⟨mk, ltk, n1, n2, r, io, hex, hq⟩
  · obtain ⟨h1, h2, b0, h3, h4⟩ := master_save e _ data hsv
    refine ⟨by rw [h1, hi.hra, swapBuf_eq]; rfl, pre, post, e, pdu, hx, by rw [h4]; exact hg b0 h3, .inr ?_⟩
    match data, h2 with
    | d0 :: d1 :: rest, h2 =>
      refine ⟨d0, d1, rest.take 8, rest.drop 8, by rw [hp, List.take_append_drop], by simp at h2 ⊢; omega, ?_⟩
      rw [h4]
      simp only [List.getD_cons_zero, List.getD_cons_succ, List.drop_succ_cons, List.drop_zero]
      have hn2 : le16 d0 d1 = SmpSpec.num [d1, d0] := by simp [SmpSpec.num, le16]; omega
      have hn8 : le64 rest = SmpSpec.num (le (rest.take 8)) := by
        unfold le64 SmpSpec.num
        rw [le, List.foldl_reverse]
        congr 1; funext x acc; omega
      rw [hn2, hn8]

/-- Both cases of the key's origin that need no secret occur: a key told by the peer (`bond_forged`), here on a new connection. -/
theorem example_told (cfg : Config) (la ra : Bytes) (lt rt : UInt8) (hb : bonding cfg.authReq = true) {e1 e2 : Env P} (hs : e2.saveOk = true) (ltk : Bytes) (d0 d1 : UInt8) (rand : Bytes) (hr : rand.length = 8) :
    ∃ a b, Eff.save a b ∈ (run (newMgr cfg la ra lt rt : Mgr P) [.msg e1 (encInfoMsg ltk), .msg e2 (masterIdMsg [d0, d1] rand)]).2 ∧ b.ltk = le ltk :=
  ⟨_, _, bond_forged (m := newMgr cfg la ra lt rt) rfl hb hs ltk d0 d1 rand hr (by simp [newMgr]), rfl⟩

/-- **C40.** What a connection asks for: the Pairing Request of `Pair` says keyboard and display, bonding and secure connections, without MITM protection, keys of up to 16 bytes, no keys from us and the encryption key from the peer;
OOB data is announced if the caller has some. The message goes out on channel 6. -/
theorem connection_pairing_request (P : Prims) (la ra : Bytes) (lt rt : UInt8) (e : Env P) (he : e.sendOk = true) (a : AuthData) :
    (pair e a (newMgr defaultConfig la ra lt rt : Mgr P)).2 = [Eff.send [7, 0, 6, 0, 0x01, 0x04, if a.oobData.length > 0 then 1 else 0, 0x09, 16, 0, 0x01]] := by
  unfold pair
  by_cases ho : a.oobData.length > 0 <;> simp [newMgr, ho, sendPairingRequest_app, sendOut, he, buildReq, defaultConfig, frame, put16] <;> decide

end Ble.Props
