import Verif.Props.AttServer
import Verif.Props.ReadLong
import Verif.Props.Coc
import Verif.Props.SmpMethod
import Verif.Props.SmpBond
import Verif.Props.SmpPair
import Verif.Props.SmpLive
import Verif.Props.Bond
import Verif.Props.BondConc
import Verif.Props.DiscoveryChars
set_option autoImplicit false

/-!
# What holds as it stands, continued (C156 and following)
-/

namespace Ble.Whole

open Ble.Att Ble.Spec Ble.Props in
/-- **C156.** What the server sends in answer to a PDU it handles: nothing exactly if the PDU is empty, a Write Command or a confirmation; otherwise one PDU, the response that belongs to the request or an Error Response naming its opcode. -/
theorem answered_exactly {σ : Type} (s s' : Server σ) (b : Bytes) (out : List Bytes) (h : loopStep s b = .ok (s', out)) :
    (out = [] ↔ b = [] ∨ b.head? = some 0x52 ∨ b.head? = some 0x1E) ∧
    ∀ op t, b = op :: t → op ≠ 0x52 → op ≠ 0x1E → ∃ rsp, out = [rsp] ∧
      ((∃ c r, responseOpcode op = some c ∧ rsp = c :: r) ∨ (∃ h1 h2 e, rsp = [0x01, op, h1, h2, e])) := by
  obtain ⟨h1, h2⟩ := one_answer_partial s s' b out h
  refine ⟨⟨?_, h1⟩, h2⟩
  intro ho
  cases b with
  | nil => exact .inl rfl
  | cons op t =>
    right
    by_cases h52 : op = 0x52
    · left; rw [h52]; rfl
    · by_cases h1e : op = 0x1E
      · right; rw [h1e]; rfl
      · obtain ⟨rsp, hr, -⟩ := h2 op t rfl h52 h1e
        rw [hr] at ho; cases ho

open Ble.Att Ble.Client Ble.Spec Ble.Props in
/-- **C157.** What `ReadLongCharacteristic` returns for a value served by a handler: all of it if the client's transmit MTU is at most the server's MTU, and else exactly what fits in one response, without an error. -/
theorem readLong_exact {σ : Type} (s : Server σ) (c : Cli (Server σ)) (h : Nat) (a : Attr σ) (f : ReadH σ) (v : Bytes) (hh : h < 65536)
    (ha : s.db.at h = some a) (hv : a.v = none) (hr : a.rh = some f) (hf : Serves f v) (hvl : v.length < 65536)
    (hp : c.peer = s) (hb : 5 ≤ c.buf.length) (h2 : 2 ≤ c.txMTU) (hs : 0 < s.mtu) :
    ∃ c', readLong serverPeer (v.length + 2) c h = .ok (some (c', if c.txMTU ≤ s.mtu then v else v.take (s.mtu - 1))) := by
  by_cases hm : c.txMTU ≤ s.mtu
  · rw [if_pos hm]
    exact readLong_returns_value_partial s c h a f v hh ha hv hr hf hvl hp hb h2 hm
  · rw [if_neg hm]
    exact readLong_truncates s c h a f v hh ha hv hr hf hp hb (by omega) hs (v.length + 1)

open Ble.Coc Ble.Props Ble.Props.CocSpec in
/-- **C158, sending.** The frames `Send` writes for an SDU are well formed, as the specification asks, exactly if the SDU is not empty and fits in one frame with its length; and in any case every frame belongs to the channel, respects the MPS and carries the SDU's length and the next
piece of it. -/
theorem coc_send_exact (cid mps : Nat) (data : Bytes) (hm : 2 < mps) (hm2 : mps < 65536) (hc : cid < 65536) :
    ∃ ps : List Bytes, sendFrames cid mps data = some (ps.map (kframe cid data.length)) ∧ ps.flatten = data ∧ (∀ p ∈ ps, p ≠ [] ∧ 2 + p.length ≤ mps) ∧
      (IsSegmentation mps data (ps.map (put16 data.length ++ ·)) ↔ data ≠ [] ∧ data.length ≤ mps - 2) := by
  obtain ⟨ps, h1, h2, h3⟩ := coc_frames_carry_data cid mps data hm hm2 hc
  refine ⟨ps, h1, h2, fun p hp => ⟨(h3 p hp).1, (h3 p hp).2.1⟩, ?_⟩
  constructor
  · intro hseg
    refine ⟨?_, ?_⟩
    · rintro rfl
      have : ps = [] := by
        cases ps with
        | nil => rfl
        | cons p ps =>
          simp only [List.flatten_cons, List.append_eq_nil_iff] at h2
          exact absurd h2.1 (h3 p (by simp)).1
      subst this
      obtain ⟨first, rest, hx, -⟩ := hseg
      cases hx
    · apply Classical.byContradiction
      intro hl
      refine coc_multi_frame_send_malformed cid mps data hm (by omega) _ (ps.map (put16 data.length ++ ·)) h1 ?_ ?_ hm2 hseg
      · rw [List.map_map]
        apply List.map_congr_left
        intro p hp
        simp [kframe]
      · intro i hi
        obtain ⟨p, hp, rfl⟩ := List.mem_map.1 hi
        have := (h3 p hp).2.1
        simp only [List.length_append, put16_length]
        omega
  · rintro ⟨hne, hl⟩
    match ps, h2, h3 with
    | [], h2, _ => exact absurd h2.symm hne
    | [p], h2, h3 =>
      simp only [List.flatten_cons, List.flatten_nil, List.append_nil] at h2
      subst h2
      exact ⟨p, [], rfl, by simp, by omega, by simp, by simp; omega⟩
    | p :: q :: ps, h2, h3 =>
      obtain ⟨f, info, hf, -⟩ := coc_single_frame_sent_partial cid mps data hm hm2 hc hne hl
      rw [hf] at h1
      cases h1

open Ble.Coc Ble.Props Ble.Props.CocSpec in
/-- **C158, receiving.** An SDU that a peer sends to a channel with a subscriber, cut as the specification asks, is delivered by one of its frames exactly if it was sent in one frame. -/
theorem coc_receive_iff (s : St) (cid mps : Nat) (sdu : Bytes) (infos : List Bytes) (c : Chan) (hc : lookupLocal s cid = some c) (hs : c.sub = true)
    (hseg : IsSegmentation mps sdu infos) : (∃ info ∈ infos, receive s cid info = .deliver sdu) ↔ infos.length = 1 := by
  match infos, hseg with
  | [], hseg => obtain ⟨first, rest, hx, -⟩ := hseg; cases hx
  | [i], hseg => exact ⟨fun _ => rfl, fun _ => ⟨i, by simp, coc_single_frame_received_partial s cid mps sdu i c hc hs hseg⟩⟩
  | i :: j :: is, hseg =>
    constructor
    · rintro ⟨info, hi, hd⟩
      exact absurd hd (coc_multi_frame_never_received s cid mps sdu i j is hseg info hi)
    · intro h; simp at h

open Ble.Smp Ble.Props in
/-- **C159.** The method used after a Pairing Response, for assigned IO capabilities: the specification's for the two feature sets, with secure connections if the response has that bit (whatever the request has); except that in legacy pairing with one OOB flag OOB is used. -/
theorem pairing_method_exact {P : Prims} {m : Mgr P} (hm : m.life = .running) (e : Env P) (r : Config) {i j : SmpSpec.IO}
    (hi : SmpSpec.IO.ofByte m.ctx.request.ioCap = some i) (hj : SmpSpec.IO.ofByte r.ioCap = some j) :
    (handle e (pairingResponsePdu r) m).1.ctx.method =
      if r.authReq &&& 0x08 = 0x08 ∨ oobSet m.ctx.request = oobSet r then
        SmpSpec.pairingMethod (r.authReq &&& 0x08 == 0x08) (oobSet m.ctx.request) (oobSet r) (mitmSet m.ctx.request) (mitmSet r) i j
      else .oob := by
  split
  · rename_i h; exact pairing_method_partial hm e r hi hj h
  · rename_i h
    simp only [not_or] at h
    exact (legacy_one_sided_oob hm e r i j h.1 h.2).1

end Ble.Whole
