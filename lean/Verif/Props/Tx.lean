import Verif.Hci.Tx
import Verif.Props.L2cap
set_option autoImplicit false

/-! # C65: concurrent writes on a connection arrive whole and in order -/

namespace Ble.Props

open Ble.L2cap Ble.L2capSpec Ble.Tx

/-! ## Specification -/

/-- The ACL packets of a connection among everything the host wrote to the controller. -/
def aclOf (h : Nat) (wire : List Bytes) : List Acl := (wire.filterMap parseHci).filter fun f => f.handle = h

/-- How a controller or a receiver puts fragments together [Core, Vol 3, Part A, 7.2]: a fragment that is not a continuation begins a new PDU, a continuation belongs to the PDU begun last. -/
def feed (pdus : List Bytes) (f : Acl) : List Bytes :=
  if f.pb = 1 then pdus.dropLast ++ [pdus.getLastD [] ++ f.data] else pdus ++ [f.data]

def reassemble (frags : List Acl) : List Bytes := frags.foldl feed []

/-- The PDUs written on a connection whose write has returned nil, in order. -/
def writtenOn (h : Nat) (s : Tx.St) : List Bytes := (s.returned.filter fun x => x.1 = h).map (·.2)

namespace TxAux

theorem aclOf_append (h : Nat) (a b : List Bytes) : aclOf h (a ++ b) = aclOf h a ++ aclOf h b := by simp [aclOf]

theorem reassemble_snoc (fs : List Acl) (f : Acl) : reassemble (fs ++ [f]) = feed (reassemble fs) f := by simp [reassemble]

/-- What the wire holds for a connection. -/
structure Inv (h : Nat) (s : Tx.St) : Prop where
  wire : reassemble (aclOf h s.wire) = writtenOn h s ++ (match s.lock with
    | some w => if w.handle = h ∧ w.flags = 0x10 then [w.pdu.take (w.pdu.length - w.rest.length)] else []
    | none => [])
  writer : ∀ w, s.lock = some w → w.handle < 4096 ∧ w.pdu ≠ [] ∧ ∃ p, w.pdu = p ++ w.rest ∧ (w.flags = 0 ∧ p = [] ∨ w.flags = 0x10)

theorem take_of (p r : Bytes) : (p ++ r).take ((p ++ r).length - r.length) = p := by
  rw [List.length_append, Nat.add_sub_cancel]; simp

theorem step_inv {bufSize h : Nat} (hb : 0 < bufSize) (hb2 : bufSize < 65536) {s s' : Tx.St} {a : Act} (hi : Inv h s) (hf : a ≠ .fail h) (hpdu : ∀ x p, a = .start x p → x < 4096 ∧ p ≠ [])
    (hs : step bufSize s a = some s') : Inv h s' := by
  obtain ⟨h1, h2⟩ := hi
  cases a with
  | start x pdu =>
    simp only [step] at hs
    split at hs
    · rename_i hl
      injection hs with hs; subst hs
      obtain ⟨hx, hp⟩ := hpdu x pdu rfl
      refine ⟨?_, ?_⟩
      · rw [hl] at h1
        simpa [writtenOn] using h1
      · intro w hw; injection hw with hw; subst hw
        exact ⟨hx, hp, [], rfl, .inl ⟨rfl, rfl⟩⟩
    · simp at hs
  | xmit =>
    simp only [step] at hs
    split at hs
    · simp at hs
    · rename_i w hl
      obtain ⟨hx, hp, p, hpe, hfl⟩ := h2 w hl
      split at hs
      · simp at hs
      · rename_i hr
        injection hs with hs
        have e5 : 1 + 4 + bufSize - 1 - 4 = bufSize := by omega
        rw [e5] at hs
        generalize hfe : (if w.rest.length > bufSize then bufSize else w.rest.length) = flen at hs
        have hfl1 : 0 < flen := by
          have := List.length_pos_iff.2 hr
          rw [← hfe]; split <;> omega
        have hfl2 : flen ≤ bufSize := by rw [← hfe]; split <;> omega
        have hfl3 : flen ≤ w.rest.length := by rw [← hfe]; split <;> omega
        subst hs
        have hpar := parse_aclPacket w.handle w.flags (w.rest.take flen) hx (by rcases hfl with h | h <;> simp [h]) (by simp; omega)
        have hacl : aclOf h [aclPacket w.handle w.flags (w.rest.take flen)] = if w.handle = h then [⟨w.handle, if w.flags = 0 then 0 else 1, 0, w.rest.take flen⟩] else [] := by
          simp only [aclOf, List.filterMap_cons, hpar, List.filterMap_nil, List.filter_cons, List.filter_nil, decide_eq_true_eq]
        refine ⟨?_, ?_⟩
        · simp only [aclOf_append, hacl]
          rw [hl] at h1
          simp only at h1
          by_cases hh : w.handle = h
          · subst hh
            rw [if_pos rfl, reassemble_snoc]
            have hdrop : w.pdu.length - (w.rest.drop flen).length = p.length + flen := by
              rw [hpe, List.length_append, List.length_drop]; omega
            have htake : w.pdu.take (p.length + flen) = p ++ w.rest.take flen := by
              rw [hpe, List.take_length_add_append]
            have hgoal : (if w.handle = w.handle ∧ True then [w.pdu.take (w.pdu.length - (w.rest.drop flen).length)] else []) = [p ++ w.rest.take flen] := by
              rw [if_pos ⟨rfl, trivial⟩, hdrop, htake]
            show _ = writtenOn w.handle s ++ (if w.handle = w.handle ∧ True then [w.pdu.take (w.pdu.length - (w.rest.drop flen).length)] else [])
            rw [hgoal]
            rcases hfl with ⟨h0, hp0⟩ | h10
            · rw [if_neg (by simp [h0]), List.append_nil] at h1
              rw [h1, hp0]
              simp [feed, h0]
            · rw [if_pos ⟨rfl, h10⟩] at h1
              have htk : w.pdu.take (w.pdu.length - w.rest.length) = p := by rw [hpe]; exact take_of p w.rest
              rw [htk] at h1
              rw [h1]
              simp [feed, h10]
          · rw [if_neg hh, if_neg (fun x => hh x.1), List.append_nil, h1, if_neg (fun x => hh x.1)]
            rfl
        · intro w' hw'; injection hw' with hw'; subst hw'
          exact ⟨hx, hp, p ++ w.rest.take flen, by simp [hpe], .inr rfl⟩
  | stop =>
    simp only [step] at hs
    split at hs
    · simp at hs
    · rename_i w hl
      obtain ⟨hx, hp, p, hpe, hfl⟩ := h2 w hl
      split at hs
      · rename_i hr
        injection hs with hs; subst hs
        refine ⟨?_, by intro w hw; simp at hw⟩
        rw [hl] at h1
        simp only at h1
        show reassemble (aclOf h s.wire) = _
        rw [h1]
        rw [hr, List.append_nil] at hpe
        have hf10 : w.flags = 0x10 := by
          rcases hfl with ⟨_, hp0⟩ | h10
          · exact absurd (hpe.trans hp0) hp
          · exact h10
        by_cases hh : w.handle = h
        · rw [if_pos ⟨hh, hf10⟩]
          simp [writtenOn, hh, hr]
        · rw [if_neg (fun x => hh x.1)]
          simp [writtenOn, hh]
      · simp at hs
  | fail x =>
    simp only [step] at hs
    split at hs
    · simp at hs
    · rename_i w hl
      split at hs
      · rename_i hx
        injection hs with hs; subst hs
        refine ⟨?_, by intro w hw; simp at hw⟩
        rw [hl] at h1
        simp only at h1
        show reassemble (aclOf h s.wire) = _
        rw [h1, if_neg (fun y => hf (by rw [← hx, y.1]))]
        rfl
      · simp at hs
  | command params =>
    simp only [step, Option.some.injEq] at hs
    subst hs
    refine ⟨?_, h2⟩
    have : aclOf h [0x01 :: params] = [] := by simp [aclOf, parseHci]
    simp only [aclOf_append, this, List.append_nil]
    exact h1

theorem run_inv {bufSize h : Nat} (hb : 0 < bufSize) (hb2 : bufSize < 65536) : ∀ (as : List Act) {s s' : Tx.St}, Inv h s → Act.fail h ∉ as → (∀ x p, Act.start x p ∈ as → x < 4096 ∧ p ≠ []) →
    run bufSize s as = some s' → Inv h s' := by
  intro as
  induction as with
  | nil => intro s s' hi _ _ hr; simp only [run, Option.some.injEq] at hr; subst hr; exact hi
  | cons a as ih =>
    intro s s' hi hf hp hr
    simp only [run] at hr
    split at hr
    · simp at hr
    · rename_i t ht
      exact ih (step_inv hb hb2 hi (fun h => hf (by simp [h])) (fun x p h => hp x p (by simp [h])) ht) (fun h => hf (by simp [h])) (fun x p h => hp x p (by simp [h])) hr

/-- A stream of fragments that begins with the start of a PDU splits into fragmentations of the reassembled PDUs. -/
theorem split_groups (frags : List Acl) (hw : ∀ (i : Nat) f, frags[i]? = some f → (i = 0 → f.pb ≠ 1) ∧ (f.pb = 1 → f.data ≠ []) ∧ (f.pb ≠ 1 → 4 ≤ f.data.length)) :
    ∃ gs : List (List Acl), frags = gs.flatten ∧ gs.length = (reassemble frags).length ∧ ∀ (i : Nat) g, gs[i]? = some g → ∃ p, (reassemble frags)[i]? = some p ∧ IsFragmentation p g := by
  suffices H : ∀ (n : Nat), n ≤ frags.length → ∃ gs : List (List Acl), frags.take n = gs.flatten ∧ gs.length = (reassemble (frags.take n)).length ∧
      (∀ (i : Nat) g, gs[i]? = some g → ∃ p, (reassemble (frags.take n))[i]? = some p ∧ IsFragmentation p g) ∧ (n ≠ 0 → gs ≠ []) by
    obtain ⟨gs, h1, h2, h3, _⟩ := H frags.length (Nat.le_refl _)
    rw [List.take_length] at h1 h2 h3
    exact ⟨gs, h1, h2, h3⟩
  intro n
  induction n with
  | zero => intro _; exact ⟨[], by simp, by simp [reassemble], by simp, by simp⟩
  | succ n ih =>
    intro hn
    obtain ⟨gs, h1, h2, h3, h4⟩ := ih (by omega)
    have hget : frags[n]? = some frags[n] := List.getElem?_eq_getElem (by omega)
    obtain ⟨w1, w2, w3⟩ := hw n _ hget
    have htake : frags.take (n + 1) = frags.take n ++ [frags[n]] := by rw [List.take_succ, hget]; rfl
    rw [htake, reassemble_snoc]
    by_cases hpb : frags[n].pb = 1
    · have hn0 : n ≠ 0 := fun h => w1 h hpb
      have hne := h4 hn0
      obtain ⟨gi, gl, rfl⟩ : ∃ gi gl, gs = gi ++ [gl] := ⟨gs.dropLast, gs.getLast hne, (List.dropLast_concat_getLast hne).symm⟩
      generalize hR : reassemble (frags.take n) = R at h2 h3
      have hRne : R ≠ [] := by intro h; rw [h] at h2; simp at h2
      obtain ⟨Ri, Rl, rfl⟩ : ∃ gi gl, R = gi ++ [gl] := ⟨R.dropLast, R.getLast hRne, (List.dropLast_concat_getLast hRne).symm⟩
      have hlen : gi.length = Ri.length := by simpa using h2
      refine ⟨gi ++ [gl ++ [frags[n]]], ?_, ?_, ?_, by simp⟩
      · rw [h1]; simp
      · simp [feed, hpb, hlen]
      · intro i g hg
        simp only [feed, hpb, if_true, List.dropLast_concat]
        by_cases hi : i < gi.length
        · rw [List.getElem?_append_left hi] at hg
          obtain ⟨p, hp1, hp2⟩ := h3 i g (by rw [List.getElem?_append_left hi]; exact hg)
          rw [List.getElem?_append_left (by omega)] at hp1
          exact ⟨p, by rw [List.getElem?_append_left (by omega)]; exact hp1, hp2⟩
        · have hi' : i = gi.length := by
            have := (List.getElem?_eq_some_iff.1 hg).1
            simp at this; omega
          subst hi'
          rw [List.getElem?_append_right (Nat.le_refl _)] at hg
          simp only [Nat.sub_self, List.getElem?_cons_zero, Option.some.injEq] at hg
          subst hg
          obtain ⟨p, hp1, f, fs, hgl, hp2, hp3, hp4⟩ := h3 gi.length gl (by rw [List.getElem?_append_right (Nat.le_refl _)]; simp)
          rw [hlen, List.getElem?_append_right (Nat.le_refl _)] at hp1
          simp only [Nat.sub_self, List.getElem?_cons_zero, Option.some.injEq] at hp1
          subst hp1
          refine ⟨Rl ++ frags[n].data, ?_, f, fs ++ [frags[n]], by simp [hgl], by simp [hp2], hp3, ?_⟩
          · rw [hlen, List.getElem?_append_right (Nat.le_refl _)]
            simp
          · intro g hg
            rcases List.mem_append.1 hg with hg | hg
            · exact hp4 g hg
            · rw [List.mem_singleton] at hg; subst hg; exact ⟨hpb, w2 hpb⟩
    · refine ⟨gs ++ [[frags[n]]], ?_, ?_, ?_, by simp⟩
      · rw [h1]; simp
      · simp [feed, hpb, h2]
      · intro i g hg
        simp only [feed, hpb, if_false]
        by_cases hi : i < gs.length
        · rw [List.getElem?_append_left hi] at hg
          obtain ⟨p, hp1, hp2⟩ := h3 i g hg
          exact ⟨p, by rw [List.getElem?_append_left (by omega)]; exact hp1, hp2⟩
        · have hi' : i = gs.length := by
            have := (List.getElem?_eq_some_iff.1 hg).1
            simp at this; omega
          subst hi'
          rw [List.getElem?_append_right (Nat.le_refl _)] at hg
          simp only [Nat.sub_self, List.getElem?_cons_zero, Option.some.injEq] at hg
          subst hg
          refine ⟨frags[n].data, ?_, _, [], rfl, by simp, w3 hpb, by simp⟩
          rw [h2, List.getElem?_append_right (Nat.le_refl _)]
          simp

end TxAux

open TxAux

/-- **C65**, on the wire. For every number of goroutines writing PDUs on any connections under every schedule, with command packets in between: as long as no write on the connection has failed, putting
the connection's fragments together gives exactly the PDUs whose write has returned, each whole, in the order of return, followed at most by the beginning of the one being written. -/
theorem writes_arrive_whole (bufSize h : Nat) (hb : 0 < bufSize) (hb2 : bufSize < 65536) (as : List Act) (s : Tx.St) (hr : run bufSize Tx.init as = some s) (hf : Act.fail h ∉ as)
    (hp : ∀ x p, Act.start x p ∈ as → x < 4096 ∧ p ≠ []) :
    reassemble (aclOf h s.wire) = writtenOn h s ∨ ∃ w k, s.lock = some w ∧ w.handle = h ∧ reassemble (aclOf h s.wire) = writtenOn h s ++ [w.pdu.take k] := by
  obtain ⟨h1, _⟩ := run_inv hb hb2 as (⟨rfl, by intro w hw; simp [Tx.init] at hw⟩ : Inv h Tx.init) hf hp hr
  rw [h1]
  cases hl : s.lock with
  | none => left; simp
  | some w =>
    by_cases hw : w.handle = h ∧ w.flags = 0x10
    · right; exact ⟨w, w.pdu.length - w.rest.length, rfl, hw.1, by simp only [if_pos hw]⟩
    · left; simp only [if_neg hw, List.append_nil]

/-- **C65**, end to end with this library on the other side. If the link delivers the same PDUs, cut into fragments in any way (each first fragment with at least the L2CAP header, no empty continuations), the
receiving connection delivers exactly the frames whose write has returned, whole and in the order of return, each to the place for its channel. -/
theorem concurrent_writes_delivered (bufSize h rxMPS : Nat) (hb : 0 < bufSize) (hb2 : bufSize < 65536) (as : List Act) (s : Tx.St) (hr : run bufSize Tx.init as = some s) (hf : Act.fail h ∉ as)
    (hp : ∀ x p, Act.start x p ∈ as → x < 4096 ∧ p ≠ []) (hl : s.lock = none)
    (cidOf : Bytes → Nat) (hfr : ∀ p ∈ writtenOn h s, ∃ info, IsFrame (cidOf p) info p ∧ (cidOf p = 4 → info.length ≤ rxMPS))
    (rx : List Bytes) (frags : List Acl) (hrx : rx.map parseAcl = frags.map some) (hlink : reassemble frags = reassemble (aclOf h s.wire))
    (hw : ∀ (i : Nat) f, frags[i]? = some f → (i = 0 → f.pb ≠ 1) ∧ (f.pb = 1 → f.data ≠ []) ∧ (f.pb ≠ 1 → 4 ≤ f.data.length)) :
    recvLoop rxMPS rx = ((writtenOn h s).map fun p => rightPlace (cidOf p) p, .waiting) := by
  have hwire : reassemble (aclOf h s.wire) = writtenOn h s := by
    rcases writes_arrive_whole bufSize h hb hb2 as s hr hf hp with h1 | ⟨w, k, h1, _⟩
    · exact h1
    · rw [hl] at h1; simp at h1
  obtain ⟨gs, hg1, hg2, hg3⟩ := split_groups frags hw
  rw [hlink, hwire] at hg2 hg3
  generalize writtenOn h s = ps at *
  clear hwire hlink hr hf hp hl hw
  -- induction over the groups
  induction gs generalizing rx frags ps with
  | nil =>
    have : ps = [] := List.length_eq_zero_iff.1 hg2.symm
    subst this
    have : rx = [] := by subst hg1; simpa using hrx
    subst this
    rw [recvLoop]; rfl
  | cons g gs ih =>
    cases ps with
    | nil => simp at hg2
    | cons p ps =>
      subst hg1
      rw [List.flatten_cons, List.map_append] at hrx
      obtain ⟨r1, r2, rfl, hr1, hr2⟩ := List.map_eq_append_iff.1 hrx
      obtain ⟨q, hq1, hq2⟩ := hg3 0 g rfl
      simp only [List.getElem?_cons_zero, Option.some.injEq] at hq1
      subst hq1
      obtain ⟨info, hi1, hi2⟩ := hfr p (by simp)
      have hrec := recombine_returns_frame rxMPS (cidOf p) info p r1 r2 g hi1 hr1 hq2 hi2
      rw [recvLoop]
      split
      · rename_i p' rest he
        rw [hrec] at he
        injection he with e1 e2
        subst e1; subst e2
        rw [ih r2 gs.flatten hr2 rfl ps (fun x hx => hfr x (by simp [hx])) (by simpa using hg2) (fun i g hg => hg3 (i + 1) g hg), dispatch_frame hi1]
        rfl
      all_goals (rename_i he; rw [hrec] at he; cases he)

/-- **C65** needs that no write failed: if the socket refuses the second fragment of a PDU, the next write on the connection follows the incomplete one, and a receiver (this library's too) that waits for
the rest gets the start of another PDU and gives the connection up. -/
theorem failed_write_breaks_next (bufSize h : Nat) (hh : h < 4096) (hb : 4 ≤ bufSize) (hb2 : bufSize < 65536) (cid cid' : Nat) (info info' : Bytes) (p q : Bytes) (hp : IsFrame cid info p) (hq : IsFrame cid' info' q)
    (hl : bufSize < p.length) (hql : q.length ≤ bufSize) (rxMPS : Nat) (hm : info.length ≤ rxMPS) :
    ∃ s, run bufSize Tx.init [.start h p, .xmit, .fail h, .start h q, .xmit, .stop] = some s ∧ writtenOn h s = [q] ∧ reassemble (aclOf h s.wire) = [p.take bufSize, q] ∧
      recvLoop rxMPS (s.wire.map (List.drop 1)) = ([], .failed) := by
  have hp0 : p ≠ [] := by intro h0; rw [h0] at hl; simp at hl
  have hq4 : 4 ≤ q.length := by rw [hq.2.2]; simp [put16]
  have hq0 : q ≠ [] := by intro h0; rw [h0] at hq4; simp at hq4
  have e5 : 1 + 4 + bufSize - 1 - 4 = bufSize := by omega
  have hw : run bufSize Tx.init [.start h p, .xmit, .fail h, .start h q, .xmit, .stop] = some ⟨[aclPacket h 0 (p.take bufSize), aclPacket h 0 q], none, [(h, q)]⟩ := by
    simp only [run, step, Tx.init, hp0, if_false, e5, hl, if_true, hq0, gt_iff_lt, Nat.not_lt.2 hql, List.drop_length, List.take_length, List.nil_append, List.cons_append]
  have a1 := parse_aclPacket h 0 (p.take bufSize) hh (.inl rfl) (by simp; omega)
  have a2 := parse_aclPacket h 0 q hh (.inl rfl) (by omega)
  refine ⟨_, hw, by simp [writtenOn], ?_, ?_⟩
  · simp [aclOf, a1, a2, reassemble, feed]
  · have d1 : (aclPacket h 0 (p.take bufSize)).drop 1 = put16 (h ||| (0 <<< 8)) ++ put16 (p.take bufSize).length ++ p.take bufSize := rfl
    have hd1 : pktData ((aclPacket h 0 (p.take bufSize)).drop 1) = some (p.take bufSize) := by rw [d1]; simp [pktData, put16]
    have hpb : pktPbf ((aclPacket h 0 q).drop 1) = some 0 := by
      have : (aclPacket h 0 q).drop 1 = UInt8.ofNat h :: UInt8.ofNat (h / 256) :: (put16 q.length ++ q) := by simp [aclPacket, put16]
      rw [this]
      simp only [pktPbf, List.getElem?_cons_succ, List.getElem?_cons_zero, Option.some.injEq]
      have : (UInt8.ofNat (h / 256)).toNat = h / 256 := by simp only [UInt8.toNat_ofNat']; omega
      rw [this]
      have : (h / 256) >>> 4 = 0 := by rw [Nat.shiftRight_eq_div_pow]; omega
      rw [this]; rfl
    obtain ⟨h1, h2, h3⟩ := hp
    have hpt : p.take bufSize = UInt8.ofNat info.length :: UInt8.ofNat (info.length / 256) :: UInt8.ofNat cid :: UInt8.ofNat (cid / 256) :: info.take (bufSize - 4) := by
      rw [h3]
      obtain ⟨k, rfl⟩ : ∃ k, bufSize = k + 4 := ⟨bufSize - 4, by omega⟩
      simp [put16]
    have hcid : pduCid (p.take bufSize) = some cid := by rw [hpt]; simp only [pduCid]; rw [show le16 (UInt8.ofNat cid) (UInt8.ofNat (cid / 256)) = cid from le16_put16 _ h1]
    have hlen : pduLen (p.take bufSize) = some info.length := by rw [hpt]; simp only [pduLen]; rw [show le16 (UInt8.ofNat info.length) (UInt8.ofNat (info.length / 256)) = info.length from le16_put16 _ h2]
    have hpl : p.length = info.length + 4 := by rw [h3]; simp [put16]
    have hrec : recombine rxMPS [(aclPacket h 0 (p.take bufSize)).drop 1, (aclPacket h 0 q).drop 1] = .fail := by
      simp only [recombine, hd1, hcid, hlen]
      rw [if_neg (by omega), collect, if_pos (by simp; omega), hpb]
      simp
    rw [recvLoop]
    split
    · rename_i he; simp only [List.map_cons, List.map_nil, hrec] at he; cases he
    · rename_i he; simp only [List.map_cons, List.map_nil, hrec] at he; cases he
    · rfl
    · rename_i he; simp only [List.map_cons, List.map_nil, hrec] at he; cases he

/-- A concrete schedule: writers on two connections take turns, a command in between; nothing fails, and three PDUs return. -/
theorem example_concurrent_writes : ∃ s, run 27 Tx.init [.start 0x40 (bframe 4 (List.replicate 40 1)), .xmit, .command [3, 12, 0], .xmit, .stop, .start 0x41 (bframe 4 [9]), .xmit, .stop,
      .start 0x40 (bframe 6 [2]), .xmit, .stop] = some s ∧ writtenOn 0x40 s = [bframe 4 (List.replicate 40 1), bframe 6 [2]] ∧ s.lock = none := by
  refine ⟨_, rfl, ?_, rfl⟩
  rfl

end Ble.Props
