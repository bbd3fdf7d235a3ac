import Verif.Smp.Trace
import Verif.Props.SmpReject
set_option autoImplicit false

/-!
# C42: when a bond is stored

For every history of messages, calls and timeouts on a connection, whatever the peer sends.
-/

namespace Ble.Props

open Ble.Smp

variable {P : Prims}

/-- A message with this code and these data arrived. -/
def Received (xs : List (Event P)) (code : UInt8) (data : Bytes) : Prop := ∃ e pdu, Event.msg e pdu ∈ xs ∧ pdu.drop 4 = code :: data

/-- The host drew this key pair, this random number; its bond store returned this bond. -/
def OwnKeys (xs : List (Event P)) (k : Keys P) : Prop := ∃ e pdu, Event.msg e pdu ∈ xs ∧ e.fresh = k
def OwnNonce (xs : List (Event P)) (n : Bytes) : Prop := ∃ e pdu, Event.msg e pdu ∈ xs ∧ e.rnd = n
def FromStore (xs : List (Event P)) (b : Bond) : Prop := ∃ e pdu, Event.msg e pdu ∈ xs ∧ e.found = some b

/-- The exchange was run: after a public key `b` and a confirm value had arrived, a nonce `nb` arrived that the confirm value commits to, and MacKey and LTK are f5 of the Diffie-Hellman secret of the host's own
key pair with `b`, a nonce of the host and `nb`. -/
structure Exchanged (A B : Bytes) (xs : List (Event P)) (mk ltk : Bytes) : Prop where
  intro ::
  ex : ∃ (pre post : List (Event P)) (e : Env P) (pdu : Bytes) (k : Keys P) (b : P.Pub) (na nb : Bytes) (z : UInt8),
    xs = pre ++ .msg e pdu :: post ∧ pdu.drop 4 = 0x04 :: le nb ∧ nb.length = 16 ∧ (z = 0 ∨ z = 0x80 ∨ z = 0x81) ∧
    Received pre 0x0c (le (P.coordX b) ++ le (P.coordY b)) ∧
    Received pre 0x03 (le (SmpSpec.f4 P (P.coordX b) (P.coordX k.pub) nb z)) ∧
    OwnKeys pre k ∧ OwnNonce pre (le na) ∧
    mk = SmpSpec.macKey P (P.dh k.priv b) na nb A B ∧ ltk = SmpSpec.ltk P (P.dh k.priv b) na nb A B

theorem Received.mono {xs ys : List (Event P)} {code : UInt8} {d : Bytes} (h : Received xs code d) : Received (xs ++ ys) code d := by
  obtain ⟨e, p, hm, hp⟩ := h; exact ⟨e, p, List.mem_append_left _ hm, hp⟩
theorem OwnKeys.mono {xs ys : List (Event P)} {k : Keys P} (h : OwnKeys xs k) : OwnKeys (xs ++ ys) k := by
  obtain ⟨e, p, hm, hp⟩ := h; exact ⟨e, p, List.mem_append_left _ hm, hp⟩
theorem OwnNonce.mono {xs ys : List (Event P)} {k : Bytes} (h : OwnNonce xs k) : OwnNonce (xs ++ ys) k := by
  obtain ⟨e, p, hm, hp⟩ := h; exact ⟨e, p, List.mem_append_left _ hm, hp⟩
theorem FromStore.mono {xs ys : List (Event P)} {k : Bond} (h : FromStore xs k) : FromStore (xs ++ ys) k := by
  obtain ⟨e, p, hm, hp⟩ := h; exact ⟨e, p, List.mem_append_left _ hm, hp⟩
theorem Exchanged.mono {A B : Bytes} {xs ys : List (Event P)} {mk ltk : Bytes} (h : Exchanged A B xs mk ltk) : Exchanged A B (xs ++ ys) mk ltk := by
  obtain ⟨pre, post, e, pdu, k, b, na, nb, z, hx, rest⟩ := h.ex
  exact ⟨pre, post ++ ys, e, pdu, k, b, na, nb, z, by rw [hx]; simp, rest⟩

namespace SmpBondAux
open SmpHonestAux Aux

/-- No Encryption Information and no Master Identification arrived. -/
def NoKeyDist (xs : List (Event P)) : Prop := ∀ e pdu code data, Event.msg e pdu ∈ xs → pdu.drop 4 = code :: data → code ≠ 0x06 ∧ code ≠ 0x07

theorem NoKeyDist.init {xs ys : List (Event P)} (h : NoKeyDist (xs ++ ys)) : NoKeyDist xs := fun e p c d hm => h e p c d (List.mem_append_left _ hm)

/-- What is known of a connection after a history; of its bond, after a history without key distribution messages. -/
structure Inv (la ra : Bytes) (lt rt : UInt8) (xs : List (Event P)) (c : Ctx P) : Prop where
  hla : c.localAddr = swapBuf la
  hlt : c.localAddrType = lt
  hra : c.remoteAddr = swapBuf ra
  hrt : c.remoteAddrType = rt
  keys : ∀ k, c.keys = some k → OwnKeys xs k
  nonce : ∀ n, c.localRandom = some n → OwnNonce xs n
  pub : ∀ b, c.remotePub = some b → Received xs 0x0c (le (P.coordX b) ++ le (P.coordY b))
  conf : c.remoteConfirm = [] ∨ Received xs 0x03 c.remoteConfirm
  mac : c.macKey = [] ∨ ∃ mk ltk, c.macKey = le mk ∧ Exchanged ([lt] ++ la) ([rt] ++ ra) xs mk ltk
  bond : NoKeyDist xs → ∀ bd, c.bond = some bd → FromStore xs bd ∨ ∃ mk ltk, c.macKey = le mk ∧ bd = ⟨le ltk, 0, 0, false⟩ ∧ Exchanged ([lt] ++ la) ([rt] ++ ra) xs mk ltk

theorem f5_inv {w n1 n2 a1 a2 mk ltk : Bytes} (h : smpF5 P w n1 n2 a1 a2 = .ok (mk, ltk)) :
    mk = (SmpSpec.macKey P w.reverse n1.reverse n2.reverse a1.reverse a2.reverse).reverse ∧ ltk = (SmpSpec.ltk P w.reverse n1.reverse n2.reverse a1.reverse a2.reverse).reverse := by
  have h0 := h
  unfold smpF5 at h
  split at h
  · simp at h
  split at h
  · simp at h
  split at h
  · simp at h
  split at h
  · simp at h
  split at h
  · simp at h
  rw [f5_ok P (by simp_all) (by simp_all) (by simp_all) (by simp_all) (by simp_all)] at h0
  simp only [Go.ok.injEq, Prod.mk.injEq] at h0
  exact ⟨h0.1.symm, h0.2.symm⟩

/-- The same context up to the pairing state. -/
theorem inv_congr {la ra : Bytes} {lt rt : UInt8} {xs : List (Event P)} {c : Ctx P} (s : PState) (h : Inv la ra lt rt xs c) : Inv la ra lt rt xs { c with state := s } :=
  ⟨h.hla, h.hlt, h.hra, h.hrt, h.keys, h.nonce, h.pub, h.conf, h.mac, h.bond⟩

theorem master_keeps (e : Env P) (c : Ctx P) (data : Bytes) : (onMasterIdentification data e c).1.remotePub = c.remotePub ∧ (onMasterIdentification data e c).1.remoteConfirm = c.remoteConfirm ∧
    (onMasterIdentification data e c).1.macKey = c.macKey := by
  unfold onMasterIdentification
  rw [M.ite_app]
  split
  · exact ⟨rfl, rfl, rfl⟩
  · cases hbd : c.bond with
    | none => simp [hbd]
    | some b => cases hb : bonding c.request.authReq <;> cases ho : e.saveOk <;> simp [saveBondInfo, hb, hbd, ho]

/-- One handler. -/
theorem inv_handler {la ra : Bytes} {lt rt : UInt8} {xs : List (Event P)} {c : Ctx P} {e : Env P} {pdu data : Bytes} {code : UInt8} {h : Bytes → M P Unit}
    (hi : Inv la ra lt rt xs c) (hp : pdu.drop 4 = code :: data) (hh : handlerOf (P := P) code = some h) :
    Inv la ra lt rt (xs ++ [.msg e pdu]) (h data e c).1 := by
  have ho := (own_handler e hh data).app c
  obtain ⟨o1, o2, o3, o4, o5, o6, _⟩ := ho
  have hlast : (Event.msg e pdu) ∈ xs ++ [.msg e pdu] := by simp
  have hrec : Received (xs ++ [.msg e pdu]) code data := ⟨e, pdu, hlast, hp⟩
  have keys' : ∀ k, (h data e c).1.keys = some k → OwnKeys (xs ++ [.msg e pdu]) k := by
    intro k hk
    rcases o5 with o | o
    · exact (hi.keys k (o ▸ hk)).mono
    · rw [o] at hk; exact ⟨e, pdu, hlast, Option.some.inj hk⟩
  have nonce' : ∀ n, (h data e c).1.localRandom = some n → OwnNonce (xs ++ [.msg e pdu]) n := by
    intro n hn
    rcases o6 with o | o
    · exact (hi.nonce n (o ▸ hn)).mono
    · rw [o] at hn; exact ⟨e, pdu, hlast, Option.some.inj hn⟩
  -- facts in case the peer's values and the keys stay
  have pubS : (h data e c).1.remotePub = c.remotePub → ∀ b, (h data e c).1.remotePub = some b → Received (xs ++ [.msg e pdu]) 0x0c (le (P.coordX b) ++ le (P.coordY b)) :=
    fun hs b hb => (hi.pub b (hs ▸ hb)).mono
  have confS : (h data e c).1.remoteConfirm = c.remoteConfirm → ((h data e c).1.remoteConfirm = [] ∨ Received (xs ++ [.msg e pdu]) 0x03 (h data e c).1.remoteConfirm) := by
    intro hs; rw [hs]
    rcases hi.conf with h | h
    · exact Or.inl h
    · exact Or.inr h.mono
  have macS : (h data e c).1.macKey = c.macKey → ((h data e c).1.macKey = [] ∨ ∃ mk ltk, (h data e c).1.macKey = le mk ∧ Exchanged ([lt] ++ la) ([rt] ++ ra) (xs ++ [.msg e pdu]) mk ltk) := by
    intro hs; rw [hs]
    rcases hi.mac with h | ⟨mk, ltk, h1, h2⟩
    · exact Or.inl h
    · exact Or.inr ⟨mk, ltk, h1, h2.mono⟩
  have bondS : (h data e c).1.bond = c.bond → (h data e c).1.macKey = c.macKey → NoKeyDist (xs ++ [.msg e pdu]) → ∀ bd, (h data e c).1.bond = some bd →
      FromStore (xs ++ [.msg e pdu]) bd ∨ ∃ mk ltk, (h data e c).1.macKey = le mk ∧ bd = ⟨le ltk, 0, 0, false⟩ ∧ Exchanged ([lt] ++ la) ([rt] ++ ra) (xs ++ [.msg e pdu]) mk ltk := by
    intro hs hm hno bd hb
    rw [hm]
    rcases hi.bond hno.init bd (hs ▸ hb) with h | ⟨mk, ltk, h1, h2, h3⟩
    · exact Or.inl h.mono
    · exact Or.inr ⟨mk, ltk, h1, h2, h3.mono⟩
  have done : (h data e c).1.remotePub = c.remotePub → (h data e c).1.remoteConfirm = c.remoteConfirm → (h data e c).1.bond = c.bond → (h data e c).1.macKey = c.macKey →
      Inv la ra lt rt (xs ++ [.msg e pdu]) (h data e c).1 := fun a b c' d =>
    ⟨o1.trans hi.hla, o2.trans hi.hlt, o3.trans hi.hra, o4.trans hi.hrt, keys', nonce', pubS a, confS b, macS d, bondS c' d⟩
  unfold handlerOf at hh
  split at hh
  · cases hh
    have p := (peer_response e data).app c
    have k := (keep_response e data).app c
    exact done p.1 p.2.2 k.1 k.2.1
  split at hh
  · rename_i hc
    cases hh
    have p := confirm_peer e c data
    have k := (keep_confirm e data).app c
    refine ⟨o1.trans hi.hla, o2.trans hi.hlt, o3.trans hi.hra, o4.trans hi.hrt, keys', nonce', pubS p.1, ?_, macS k.2.1, bondS k.1 k.2.1⟩
    rcases p.2 with p | ⟨_, p⟩
    · exact confS p
    · rw [p]; right; rw [hc] at hrec; exact hrec
  split at hh
  · rename_i hc
    cases hh
    have p := random_peer e c data
    have k := random_keys e c data
    rcases k.1 with ⟨k1, k2⟩ | ⟨key, b, n, z, mk, ltk, k1, k2, k3, k4, k5, k6, k7, k8, k9⟩
    · exact done p.1 p.2 k1 k2
    · have hf5 := f5_inv k7
      rw [f4_keys _ _ _ _ k4] at k6
      have hcf : c.remoteConfirm = le (SmpSpec.f4 P (P.coordX b) (P.coordX key.pub) (le data) z) := by
        have := Go.ok.inj k6; rw [← this]; rfl
      have hrc : Received xs 0x03 (le (SmpSpec.f4 P (P.coordX b) (P.coordX key.pub) (le data) z)) := by
        rw [← hcf]
        rcases hi.conf with hcc | hcc
        · rw [hcc] at hcf
          have := congrArg List.length hcf
          simp [le, SmpSpec.f4, P.cmac_length] at this
        · exact hcc
      have hsec : (generateSecret P key.priv b).reverse = P.dh key.priv b := by simp [generateSecret, swapBuf_eq]
      have hta : (typed c.localAddr c.localAddrType).reverse = [lt] ++ la := by rw [typed_reverse, hi.hla, hi.hlt, addr56_swap]
      have htb : (typed c.remoteAddr c.remoteAddrType).reverse = [rt] ++ ra := by rw [typed_reverse, hi.hra, hi.hrt, addr56_swap]
      rw [hsec, hta, htb] at hf5
      have hex : Exchanged ([lt] ++ la) ([rt] ++ ra) (xs ++ [.msg e pdu]) (SmpSpec.macKey P (P.dh key.priv b) n.reverse data.reverse ([lt] ++ la) ([rt] ++ ra))
          (SmpSpec.ltk P (P.dh key.priv b) n.reverse data.reverse ([lt] ++ la) ([rt] ++ ra)) := by
        refine ⟨xs, [], e, pdu, key, b, le n, le data, z, rfl, by rw [hp, hc]; simp [le], by simpa [le] using k4, k5, hi.pub b k2, hrc, hi.keys key k1, ?_, rfl, rfl⟩
        simpa [le] using hi.nonce n k3
      refine ⟨o1.trans hi.hla, o2.trans hi.hlt, o3.trans hi.hra, o4.trans hi.hrt, keys', nonce', pubS p.1, confS p.2, Or.inr ⟨_, _, k8.trans hf5.1, hex⟩, ?_⟩
      intro _ bd hbd
      rw [k9] at hbd
      refine Or.inr ⟨_, _, k8.trans hf5.1, ?_, hex⟩
      rw [← Option.some.inj hbd, hf5.2]; rfl
  split at hh
  · cases hh; exact done rfl rfl rfl rfl
  split at hh
  · rename_i hc
    cases hh
    exact ⟨o1.trans hi.hla, o2.trans hi.hlt, o3.trans hi.hra, o4.trans hi.hrt, keys', nonce', pubS rfl, confS rfl, macS rfl,
      fun hno => absurd hc (hno e pdu code data hlast hp).1⟩
  split at hh
  · rename_i hc
    cases hh
    have hm : (onMasterIdentification data e c).1.remotePub = c.remotePub ∧ (onMasterIdentification data e c).1.remoteConfirm = c.remoteConfirm ∧
        (onMasterIdentification data e c).1.macKey = c.macKey := master_keeps e c data
    exact ⟨o1.trans hi.hla, o2.trans hi.hlt, o3.trans hi.hra, o4.trans hi.hrt, keys', nonce', pubS hm.1, confS hm.2.1, macS hm.2.2,
      fun hno => absurd hc (hno e pdu code data hlast hp).2⟩
  split at hh
  · cases hh
    have p := (peer_security e data).app c
    have k := security_keys e c data
    refine ⟨o1.trans hi.hla, o2.trans hi.hlt, o3.trans hi.hra, o4.trans hi.hrt, keys', nonce', pubS p.1, confS p.2.2, macS k.2.1, ?_⟩
    rcases k.1 with k1 | ⟨b, k1, k2⟩
    · exact bondS k1 k.2.1
    · intro _ bd hbd
      rw [k2] at hbd
      exact Or.inl ⟨e, pdu, hlast, by rw [k1]; exact hbd⟩
  split at hh
  · rename_i hc
    cases hh
    have p := pk_peer e c data
    have k := (keep_pk e data).app c
    refine ⟨o1.trans hi.hla, o2.trans hi.hlt, o3.trans hi.hra, o4.trans hi.hrt, keys', nonce', ?_, confS p.1, macS k.2.1, bondS k.1 k.2.1⟩
    rcases p.2 with p | ⟨hl, q, hq, p⟩
    · exact pubS p
    · intro b hb
      rw [p] at hb
      cases hb
      have := public_key_sound P data q hq hl
      rw [hc] at hrec
      rw [← (public_key_roundtrip P q).1, this]
      exact hrec
  split at hh
  · cases hh
    have p := (peer_dhcheck e data).app c
    have k := dhcheck_keys e c data
    exact done p.1 p.2.2 k.1 k.2.1
  · simp at hh

theorem snocInd {α : Type} {p : List α → Prop} (h0 : p []) (h1 : ∀ xs x, p xs → p (xs ++ [x])) (xs : List α) : p xs := by
  have : ∀ ys : List α, p ys.reverse := by
    intro ys
    induction ys with
    | nil => exact h0
    | cons y ys ih => rw [List.reverse_cons]; exact h1 _ _ ih
  have := this xs.reverse
  rwa [List.reverse_reverse] at this

/-- The context after `Handle`. -/
theorem handle_ctx (e : Env P) (pdu : Bytes) (m : Mgr P) : (handle e pdu m).1.ctx = m.ctx ∨
    ∃ code data h, pdu.drop 4 = code :: data ∧ handlerOf (P := P) code = some h ∧ ((handle e pdu m).1.ctx = (h data e m.ctx).1 ∨ (handle e pdu m).1.ctx = { (h data e m.ctx).1 with state := .error }) := by
  unfold handle
  split
  · exact Or.inl rfl
  · split
    · exact Or.inl rfl
    · rename_i code data hp
      split
      · exact Or.inl rfl
      · rename_i h hh
        right
        refine ⟨code, data, h, hp, hh, ?_⟩
        dsimp only
        split
        · exact Or.inl rfl
        · right; split
          · rfl
          · split <;> rfl
        · left; split
          · split
            · rfl
            · split <;> rfl
          · rfl

theorem inv_run (cfg : Config) (la ra : Bytes) (lt rt : UInt8) : ∀ (xs : List (Event P)), Inv la ra lt rt xs (run (newMgr cfg la ra lt rt : Mgr P) xs).1.ctx := by
  intro xs
  refine snocInd (p := fun xs => Inv la ra lt rt xs (run (newMgr cfg la ra lt rt : Mgr P) xs).1.ctx) ?_ ?_ xs
  · exact ⟨rfl, rfl, rfl, rfl, by simp [run, newMgr], by simp [run, newMgr], by simp [run, newMgr], Or.inl rfl, Or.inl rfl, by simp [run, newMgr]⟩
  · intro xs x hi
    rw [run_append]
    generalize hm : (run (newMgr cfg la ra lt rt : Mgr P) xs).1 = m at hi
    show Inv la ra lt rt (xs ++ [x]) (run m [x]).1.ctx
    have hx1 : (run m [x]).1 = (step m x).1 := rfl
    rw [hx1]
    have hmono : Inv la ra lt rt (xs ++ [x]) m.ctx :=
      ⟨hi.hla, hi.hlt, hi.hra, hi.hrt, fun k h => (hi.keys k h).mono, fun k h => (hi.nonce k h).mono, fun k h => (hi.pub k h).mono,
       hi.conf.imp id (fun h => h.mono), hi.mac.imp id (fun ⟨a, b, h1, h2⟩ => ⟨a, b, h1, h2.mono⟩), fun hno bd h => (hi.bond hno.init bd h).imp (fun h => h.mono) (fun ⟨a, b, h1, h2, h3⟩ => ⟨a, b, h1, h2, h3.mono⟩)⟩
    cases x with
    | timeout =>
      simp only [step, pairTimeout]
      split <;> exact hmono
    | pair e a =>
      simp only [step, pair]
      split
      · exact hmono
      · have hctx : ∀ c : Ctx P, (sendPairingRequest e c).1 = c := fun c => by rw [sendPairingRequest_app, sendOut_ctx]
        split
        · split <;> simp only [hctx] <;> split <;> exact ⟨hmono.hla, hmono.hlt, hmono.hra, hmono.hrt, hmono.keys, hmono.nonce, hmono.pub, hmono.conf, hmono.mac, hmono.bond⟩
        · simp only [hctx]; split <;> exact ⟨hmono.hla, hmono.hlt, hmono.hra, hmono.hrt, hmono.keys, hmono.nonce, hmono.pub, hmono.conf, hmono.mac, hmono.bond⟩
    | msg e pdu =>
      simp only [step]
      rcases handle_ctx e pdu m with h | ⟨code, data, h, hp, hh, hc⟩
      · rw [h]; exact hmono
      · have := inv_handler (e := e) hi hp hh
        rcases hc with hc | hc
        · rw [hc]; exact this
        · rw [hc]; exact inv_congr _ this

/-- An effect of a history is an effect of one of its events. -/
theorem eff_split : ∀ (xs : List (Event P)) (m : Mgr P) (x : Eff), x ∈ (run m xs).2 → ∃ pre ev post, xs = pre ++ ev :: post ∧ x ∈ (step (run m pre).1 ev).2 := by
  intro xs
  induction xs with
  | nil => intro m x h; simp [run] at h
  | cons y ys ih =>
    intro m x h
    rw [run] at h
    rcases List.mem_append.1 h with h | h
    · exact ⟨[], y, ys, rfl, h⟩
    · obtain ⟨pre, ev, post, hx, he⟩ := ih _ x h
      exact ⟨y :: pre, ev, post, by rw [hx]; rfl, he⟩

/-- The effects of `Handle` other than results of `Pair` are the handler's. -/
theorem handle_save {e : Env P} {pdu : Bytes} {m : Mgr P} {a : Bytes} {b : Bond} (h : Eff.save a b ∈ (handle e pdu m).2) :
    m.life = .running ∧ ∃ code data f, pdu.drop 4 = code :: data ∧ handlerOf (P := P) code = some f ∧ Eff.save a b ∈ (f data e m.ctx).2.1 := by
  unfold handle at h
  split at h
  · simp at h
  · rename_i hl
    refine ⟨by cases hh : m.life <;> simp_all, ?_⟩
    split at h
    · simp at h
    · rename_i code data hp
      split at h
      · rw [send_app] at h; unfold sendOut at h; split at h <;> simp at h
      · rename_i f hh
        refine ⟨code, data, f, hp, hh, ?_⟩
        dsimp only at h
        split at h
        · exact h
        · split at h
          · exact h
          · split at h
            · simpa using h
            · exact h
        · split at h
          · split at h
            · exact h
            · split at h
              · simpa using h
              · exact h
          · exact h

/-- Only a DHKey check and a Master Identification store. -/
theorem save_handler {e : Env P} {c : Ctx P} {code : UInt8} {data : Bytes} {f : Bytes → M P Unit} {a : Bytes} {b : Bond} (hh : handlerOf (P := P) code = some f)
    (h : Eff.save a b ∈ (f data e c).2.1) : code = 0x0d ∧ f = onDHKeyCheck ∨ code = 0x07 ∧ f = onMasterIdentification := by
  unfold handlerOf at hh
  split at hh
  · cases hh; exact absurd h (((keep_response e data).app c).2.2 a b)
  split at hh
  · cases hh; exact absurd h (((keep_confirm e data).app c).2.2 a b)
  split at hh
  · cases hh; exact absurd h ((random_keys e c data).2 a b)
  split at hh
  · cases hh; simp at h
  split at hh
  · cases hh; simp [onEncryptionInformation] at h
  split at hh
  · cases hh; right; exact ⟨by assumption, rfl⟩
  split at hh
  · cases hh; exact absurd h ((security_keys e c data).2.2 a b)
  split at hh
  · cases hh; exact absurd h (((keep_pk e data).app c).2.2 a b)
  split at hh
  · cases hh; left; exact ⟨by assumption, rfl⟩
  · simp at hh

theorem step_save {x : Event P} {m : Mgr P} {a : Bytes} {b : Bond} (h : Eff.save a b ∈ (step m x).2) :
    ∃ e pdu code data f, x = .msg e pdu ∧ pdu.drop 4 = code :: data ∧ (code = 0x0d ∧ f = onDHKeyCheck ∨ code = 0x07 ∧ f = onMasterIdentification) ∧ Eff.save a b ∈ (f data e m.ctx).2.1 := by
  cases x with
  | timeout => simp only [step, pairTimeout] at h; split at h <;> simp at h
  | pair e au =>
    simp only [step, pair] at h
    split at h
    · simp at h
    · have hw : ∀ c : Ctx P, Eff.save a b ∉ (sendPairingRequest e c).2.1 := by
        intro c; rw [sendPairingRequest_app]; unfold sendOut; split <;> simp
      split at h
      · split at h
        · rw [List.mem_append] at h; exact absurd h (by simp [hw])
        · exact absurd h (hw _)
      · rw [List.mem_append] at h; exact absurd h (by simp [hw])
  | msg e pdu =>
    obtain ⟨_, code, data, f, hp, hh, hs⟩ := handle_save h
    exact ⟨e, pdu, code, data, f, rfl, hp, save_handler hh hs, hs⟩

theorem f6_inv {w n1 n2 r io a1 a2 x : Bytes} (h : smpF6 P w n1 n2 r io a1 a2 = .ok x) : w.length = 16 ∧
    x = (SmpSpec.f6 P w.reverse n1.reverse n2.reverse r.reverse io.reverse a1.reverse a2.reverse).reverse := by
  have h0 := h
  unfold smpF6 at h
  split at h
  · simp at h
  · rename_i hc
    simp only [Bool.or_eq_true, decide_eq_true_eq, not_or, ne_eq, Decidable.not_not] at hc
    obtain ⟨⟨⟨⟨⟨⟨h1, h2⟩, h3⟩, h4⟩, h5⟩, h6⟩, h7⟩ := hc
    rw [f6_ok P h1 h2 h3 h4 h5 h6 h7] at h0
    exact ⟨h1, (Go.ok.inj h0).symm⟩

end SmpBondAux

open SmpBondAux SmpHonestAux Aux

/-- C42. For every history from a new connection on, of any messages, calls and timeouts, in which the peer sends no Encryption Information and no Master Identification: whenever a bond is stored, it is stored for
the peer's address, in answer to a DHKey check whose value is f6 under the MacKey of an exchange that was run before; and the stored key is the LTK of that same exchange (or a bond that the store
itself had returned for the peer). -/
theorem bond_saved_only_after_check_partial (cfg : Config) (la ra : Bytes) (lt rt : UInt8) (xs : List (Event P)) (hno : NoKeyDist xs) {a : Bytes} {b : Bond}
    (hs : Eff.save a b ∈ (run (newMgr cfg la ra lt rt : Mgr P) xs).2) :
    a = le ra ∧ ∃ (pre post : List (Event P)) (e : Env P) (pdu mk ltk : Bytes), xs = pre ++ .msg e pdu :: post ∧ Exchanged ([lt] ++ la) ([rt] ++ ra) pre mk ltk ∧
      (∃ n1 n2 r io, pdu.drop 4 = 0x0d :: le (SmpSpec.f6 P mk n1 n2 r io ([rt] ++ ra) ([lt] ++ la))) ∧
      (b = ⟨le ltk, 0, 0, false⟩ ∨ FromStore pre b) := by
  obtain ⟨pre, ev, post, hx, he⟩ := eff_split xs _ _ hs
  obtain ⟨e, pdu, code, data, f, rfl, hp, hf, hsv⟩ := step_save he
  have hmem : Event.msg e pdu ∈ xs := by rw [hx]; simp
  have hn := hno e pdu code data hmem hp
  have hpre : NoKeyDist pre := fun e p c d hm => hno e p c d (by rw [hx]; exact List.mem_append_left _ hm)
  have hi := inv_run (P := P) cfg la ra lt rt pre
  have hf : code = 0x0d ∧ f = onDHKeyCheck := hf.resolve_right (fun h => hn.2 h.1)
  obtain ⟨rfl, rfl⟩ := hf
  obtain ⟨h1, h2, _, h4⟩ := (dhcheck_keys e _ data).2.2 a b hsv
  refine ⟨by rw [h1, hi.hra, swapBuf_eq]; rfl, ?_⟩
  generalize (run (newMgr cfg la ra lt rt : Mgr P) pre).1.ctx = c at *
  -- the check
  unfold checkDHKeyCheck at h4
  simp only [Go.bind_eq_ok] at h4
  obtain ⟨chk, hchk, heq⟩ := h4
  have hd : data = chk := by
    split at heq
    · assumption
    · simp at heq
  obtain ⟨hl, hv⟩ := f6_inv hchk
  have hta : (typed c.localAddr c.localAddrType).reverse = [lt] ++ la := by rw [typed_reverse, hi.hla, hi.hlt, addr56_swap]
  have htb : (typed c.remoteAddr c.remoteAddrType).reverse = [rt] ++ ra := by rw [typed_reverse, hi.hra, hi.hrt, addr56_swap]
  have hmac : c.macKey ≠ [] := by intro h; rw [h] at hl; simp at hl
  have fin : ∀ mk, c.macKey = le mk → ∃ n1 n2 r io, pdu.drop 4 = 0x0d :: le (SmpSpec.f6 P mk n1 n2 r io ([rt] ++ ra) ([lt] ++ la)) := by
    intro mk hmk
    rw [hp, hd, hv, hta, htb, hmk]
    exact ⟨_, _, _, _, by simp only [le, List.reverse_reverse]; rfl⟩
  rcases hi.bond hpre b h2 with hb | ⟨mk, ltk, hm, hb, hex⟩
  · rcases hi.mac with h | ⟨mk, ltk, hm, hex⟩
    · exact absurd h hmac
    · exact ⟨pre, post, e, pdu, mk, ltk, hx, hex, fin mk hm, Or.inr hb⟩
  · exact ⟨pre, post, e, pdu, mk, ltk, hx, hex, fin mk hm, Or.inl hb⟩

/-- C42, in all histories: a bond is only ever stored in answer to a DHKey check or to a Master Identification. -/
theorem only_two_messages_store (m : Mgr P) (xs : List (Event P)) {a : Bytes} {b : Bond} (hs : Eff.save a b ∈ (run m xs).2) :
    ∃ e pdu data, Event.msg e pdu ∈ xs ∧ (pdu.drop 4 = 0x0d :: data ∨ pdu.drop 4 = 0x07 :: data) := by
  obtain ⟨pre, ev, post, hx, he⟩ := eff_split xs _ _ hs
  obtain ⟨e, pdu, code, data, f, rfl, hp, hf, _⟩ := step_save he
  refine ⟨e, pdu, data, by rw [hx]; simp, ?_⟩
  rcases hf with ⟨rfl, _⟩ | ⟨rfl, _⟩
  · exact Or.inl hp
  · exact Or.inr hp

/-- C42 does not hold in general. On any connection, in any state, also a new one on which `Pair` was never called: if bonding is asked for (as it is by default), two unauthenticated messages
make the host store a key of the peer's choice. -/
theorem bond_forged {m : Mgr P} (hl : m.life = .running) (hb : bonding m.ctx.request.authReq = true) {e1 e2 : Env P} (hs : e2.saveOk = true) (ltk : Bytes) (d0 d1 : UInt8) (rand : Bytes) (hr : rand.length = 8) 
    (hfin : m.ctx.state ≠ .finished) :
    Eff.save m.ctx.remoteAddr ⟨le ltk, SmpSpec.num [d1, d0], SmpSpec.num (le rand), true⟩ ∈ (run m [.msg e1 (encInfoMsg ltk), .msg e2 (masterIdMsg [d0, d1] rand)]).2 := by
  have h1 : step m (.msg e1 (encInfoMsg ltk)) = ({ m with ctx := { m.ctx with bond := some ⟨le ltk, 0, 0, true⟩ } }, []) :=
    handle_ok (h := onEncryptionInformation) (data := le ltk) (code := 0x06) hl rfl rfl hfin
  rw [run_cons _ _ _ h1]
  have hn2 : le16 d0 d1 = SmpSpec.num [d1, d0] := by simp [SmpSpec.num, le16]; omega
  have hn8 : le64 rand = SmpSpec.num (le rand) := by
    unfold le64 SmpSpec.num
    rw [List.take_of_length_le (by omega), le, List.foldl_reverse]
    congr 1; funext x acc; omega
  have h5 : onMasterIdentification (d0 :: d1 :: rand) e2 { m.ctx with bond := some ⟨le ltk, 0, 0, true⟩ } =
      ({ m.ctx with bond := some ⟨le ltk, SmpSpec.num [d1, d0], SmpSpec.num (le rand), true⟩, state := .finished },
       [.save m.ctx.remoteAddr ⟨le ltk, SmpSpec.num [d1, d0], SmpSpec.num (le rand), true⟩], .ok ()) := by
    unfold onMasterIdentification
    rw [M.ite_app, if_neg (by simp [hr])]
    simp only [M.bind_app, M.get_app, M.modify_app, List.getD_cons_zero, List.getD_cons_succ, List.drop_succ_cons, List.drop_zero, hn2, hn8]
    rw [saveBondInfo_app e2 (c := { m.ctx with bond := some ⟨le ltk, SmpSpec.num [d1, d0], SmpSpec.num (le rand), true⟩ }) rfl hs]
    simp [hb]
  have hpd : (masterIdMsg [d0, d1] rand).drop 4 = 0x07 :: d0 :: d1 :: rand := by rw [masterIdMsg, pdu_drop]; rfl
  rw [List.nil_append]
  refine List.mem_append_left _ ?_
  simp only [step, handle, hpd, hl, ne_eq, not_true, if_false]
  have : handlerOf (P := P) 0x07 = some onMasterIdentification := rfl
  rw [this]
  simp only [h5, if_true]
  split
  · simp
  · split <;> simp

/-- The default configuration asks for bonding, so a new connection meets the hypotheses. -/
example (la ra : Bytes) (lt rt : UInt8) : (newMgr defaultConfig la ra lt rt : Mgr P).life = .running ∧ bonding (newMgr (P := P) defaultConfig la ra lt rt).ctx.request.authReq = true ∧
    (newMgr defaultConfig la ra lt rt : Mgr P).ctx.state ≠ .finished := by
  exact ⟨rfl, by simp [newMgr, bonding, defaultConfig]; decide, by simp [newMgr]⟩

end Ble.Props
