import Verif.Att.SrvBytes
import Verif.Props.SrvEnd
import Verif.Props.L2cap
set_option autoImplicit false

/-!
# C213: what an accepted connection handles, in octets
-/

namespace Ble.SrvBytes

open Ble.SrvEnd (Pdu reqs due)
open Ble.L2capSpec
open Ble.L2cap (pktData pktPbf pduLen pduCid cidAtt)
open Ble.Props (Arrival)

/-! ## Specification -/

/-- The ATT PDUs that a list of packets makes, when a PDU is begun. What the library does not accept or crashes on counts as `big`, which ends the connection. `pdus_of_frames` says what this is for a peer that keeps to the specification, `pdusOf_recombine` relates it to `L2cap.recombine`. -/
def pdusOf (nm : Bytes → Nat) : Part → List Packet → List Pdu
  | _, [] => []
  | st, f :: fs =>
    match out st f with
    | .done p => (classify nm p).toList ++ pdusOf nm none fs
    | .wait p n => pdusOf nm (some (p, n)) fs
    | .fail | .crash => .big :: pdusOf nm none fs

/-- Steps of the library's goroutines, and calls that return. -/
def Own : Ev → Prop
  | .arrive _ => False
  | .other e => SrvEnd.Own e
  | _ => True

/-- Nothing the library does is left to do. -/
def AtRest (nm : Bytes → Nat) (s : State) : Prop := ∀ e, Own e → step nm s e = none

/-- What the server is to do with the information of an ATT frame. -/
def pduOfInfo (nm : Bytes → Nat) (info : Bytes) : Pdu :=
  if info = [] ∨ 515 < info.length then .empty else if info.head? = some 0x1e then .conf else .req (nm info)

/-! ## Simulation by the model without fragments -/

/-- The PDU that is begun after a list of packets. -/
def begun : Part → List Packet → Part
  | st, [] => st
  | st, f :: fs =>
    match out st f with
    | .wait p n => begun (some (p, n)) fs
    | _ => begun none fs

theorem pdusOf_append (nm : Bytes → Nat) (a b : List Packet) : ∀ st, pdusOf nm st (a ++ b) = pdusOf nm st a ++ pdusOf nm (begun st a) b := by
  induction a with
  | nil => intro st; simp [pdusOf, begun]
  | cons f fs ih =>
    intro st
    simp only [List.cons_append, pdusOf, begun]
    cases out st f <;> simp [ih]

theorem begun_append (a b : List Packet) : ∀ st, begun st (a ++ b) = begun (begun st a) b := by
  induction a with
  | nil => intro st; simp [begun]
  | cons f fs ih =>
    intro st
    simp only [List.cons_append, begun]
    cases out st f <;> exact ih _

theorem pdusOf_length (nm : Bytes → Nat) (fs : List Packet) : ∀ st, (pdusOf nm st fs).length ≤ fs.length := by
  induction fs with
  | nil => intro st; simp [pdusOf]
  | cons f fs ih =>
    intro st
    have hl : ∀ p : Option Pdu, p.toList.length ≤ 1 := by intro p; cases p <;> simp
    simp only [pdusOf, List.length_cons]
    cases out st f with
    | done p => have := ih none; have := hl (classify nm p); simp only [List.length_append]; omega
    | wait p n => have := ih (some (p, n)); simp only; omega
    | fail => have := ih none; simp only [List.length_cons]; omega
    | crash => have := ih none; simp only [List.length_cons]; omega

/-- One packet makes at most one PDU. -/
theorem pdusOf_one (nm : Bytes → Nat) (f : Packet) (st : Part) : pdusOf nm st [f] = [] ∨ ∃ p, pdusOf nm st [f] = [p] := by
  have := pdusOf_length nm [f] st
  cases h : pdusOf nm st [f] with
  | nil => exact .inl rfl
  | cons p ps =>
    rw [h] at this
    simp only [List.length_cons, List.length_nil] at this
    cases ps with
    | nil => exact .inr ⟨p, rfl⟩
    | cons q qs => simp at this

theorem classify_big (nm : Bytes → Nat) (p : Bytes) : classify nm p ≠ some .big := by
  unfold classify
  (repeat' split) <;> simp

/-- The state of the model without fragments that corresponds: complete PDUs instead of packets. -/
def abs (nm : Bytes → Nat) (s : State) (ps : List Pdu) : SrvEnd.State := { s.base with pkts := ps, received := pdusOf nm none s.got }

structure Sim (nm : Bytes → Nat) (s : State) (a : SrvEnd.State) : Prop where
  eq : ∃ ps, a = abs nm s ps ∧ (s.base.rdr ≠ .ended → ps = pdusOf nm s.part s.frags)
  hist : s.base.rdr ≠ .ended → ∃ pre, s.got = pre ++ s.frags ∧ begun none pre = s.part
  ended : s.base.rdr = .ended → s.base.up = false
  part : s.base.rdr ≠ .idle → s.part = none
  pkts : s.base.pkts = []
  crash : s.crashed = true → Pdu.big ∈ pdusOf nm none s.got

/-- The steps that do not touch the packets are the same with any packets. -/
theorem other_step {b b' : SrvEnd.State} {e : SrvEnd.Ev} (he : ∀ p, e ≠ .arrive p) (h1 : e ≠ .take) (h2 : e ≠ .recEnd) (h : SrvEnd.step b e = some b') (ps qs : List Pdu) :
    SrvEnd.step { b with pkts := ps, received := qs } e = some { b' with pkts := ps, received := qs } ∧ b'.pkts = b.pkts ∧ (b.rdr ≠ .ended → b'.rdr ≠ .ended) ∧ (b.rdr = .ended → b'.rdr = .ended) ∧ (b.up = false → b'.up = false) ∧ (b'.rdr ≠ .idle → b.rdr ≠ .idle) := by
  cases e with
  | arrive p => exact absurd rfl (he p)
  | take => exact absurd rfl h1
  | recEnd => exact absurd rfl h2
  | _ =>
    simp only [SrvEnd.step] at h ⊢
    (repeat' split at h) <;> first
      | (cases h; done)
      | (obtain rfl := Option.some.inj h
         simp_all)

theorem other_none {b : SrvEnd.State} {e : SrvEnd.Ev} (he : ∀ p, e ≠ .arrive p) (h1 : e ≠ .take) (h2 : e ≠ .recEnd) (h : SrvEnd.step b e = none) (ps qs : List Pdu) :
    SrvEnd.step { b with pkts := ps, received := qs } e = none := by
  cases hx : SrvEnd.step { b with pkts := ps, received := qs } e with
  | none => rfl
  | some b' =>
    have := (other_step he h1 h2 hx b.pkts b.received).1
    rw [show ({ ({ b with pkts := ps, received := qs } : SrvEnd.State) with pkts := b.pkts, received := b.received } : SrvEnd.State) = b from rfl, h] at this
    cases this

theorem sim_complete (nm : Bytes → Nat) {s : State} {ps : List Pdu} {p : Option Pdu} (hi : s.base.rdr = .idle) (hp : p ≠ some .big) :
    ∃ es, SrvEnd.run (abs nm s (p.toList ++ ps)) es = some (abs nm (complete s p) ps) := by
  cases p with
  | none => exact ⟨[], rfl⟩
  | some q =>
    refine ⟨[.take], ?_⟩
    cases q with
    | big => exact absurd rfl hp
    | _ => simp [SrvEnd.run, runT, SrvEnd.step, abs, complete, hi]

theorem sim_fail (nm : Bytes → Nat) {s : State} {ps : List Pdu} (hi : s.base.rdr = .idle) : SrvEnd.run (abs nm s (.big :: ps)) [.take] = some (abs nm (fail s) ps) := by
  simp [SrvEnd.run, runT, SrvEnd.step, abs, fail, hi]

theorem sim_stepUp {nm : Bytes → Nat} {s s' : State} {a : SrvEnd.State} {e : Ev} (hs : Sim nm s a) (hc0 : s.crashed = false) (h : stepUp nm s e = some s') :
    ∃ es a', SrvEnd.run a es = some a' ∧ Sim nm s' a' := by
  obtain ⟨⟨ps, rfl, hps⟩, hh, he, hpt, hk, hcr⟩ := hs
  cases e with
  | arrive f =>
    simp only [stepUp] at h
    split at h
    · rename_i hc
      cases h
      have hne : s.base.rdr ≠ .ended := fun hx => by rw [he hx] at hc; cases hc.1
      have h1 := hps hne
      subst h1
      obtain ⟨pre, hg, hb⟩ := hh hne
      have hx0 : begun none s.got = begun s.part s.frags := by rw [hg, begun_append, hb]
      have hq : pdusOf nm none (s.got ++ [f]) = pdusOf nm none s.got ++ pdusOf nm (begun s.part s.frags) [f] := by rw [pdusOf_append, hx0]
      have hp : pdusOf nm s.part (s.frags ++ [f]) = pdusOf nm s.part s.frags ++ pdusOf nm (begun s.part s.frags) [f] := pdusOf_append ..
      have hh2 : ∃ pre, s.got ++ [f] = pre ++ (s.frags ++ [f]) ∧ begun none pre = s.part := ⟨pre, by rw [hg, List.append_assoc], hb⟩
      have hlen := pdusOf_length nm s.frags s.part
      have hcr' : s.crashed = true → Pdu.big ∈ pdusOf nm none (s.got ++ [f]) := fun hx => by rw [hc0] at hx; cases hx
      rcases pdusOf_one nm f (begun s.part s.frags) with hx | ⟨p, hx⟩
      · rw [hx, List.append_nil] at hq hp
        refine ⟨[], _, rfl, ⟨⟨_, ?_, fun _ => rfl⟩, fun _ => hh2, he, hpt, hk, hcr'⟩⟩
        simp only [abs, hq, hp]
      · rw [hx] at hq hp
        refine ⟨[.arrive p], abs nm { s with frags := s.frags ++ [f], got := s.got ++ [f] } (pdusOf nm s.part (s.frags ++ [f])), ?_, ⟨⟨_, rfl, fun _ => rfl⟩, fun _ => hh2, he, hpt, hk, hcr'⟩⟩
        have hl : (pdusOf nm s.part s.frags).length < 16 := by omega
        simp [SrvEnd.run, runT, SrvEnd.step, abs, hq, hp, hc.1, hl]
    · cases h
  | take =>
    simp only [stepUp] at h
    split at h
    · rename_i hi
      have hne : s.base.rdr ≠ .ended := by rw [hi]; simp
      have h1 := hps hne
      obtain ⟨pre, hg, hb⟩ := hh hne
      subst h1
      cases hf : s.frags with
      | nil => rw [hf] at h; cases h
      | cons f rest =>
        rw [hf] at h hg
        simp only at h
        have hg2 : s.got = (pre ++ [f]) ++ rest := by rw [hg]; simp
        have hb2 : ∀ st, begun s.part [f] = st → begun none (pre ++ [f]) = st := by intro st hx; rw [begun_append, hb, hx]
        cases ho : out s.part f with
        | done p =>
          rw [ho] at h
          simp only [Option.some.injEq] at h
          subst h
          have hpd : pdusOf nm s.part (f :: rest) = (classify nm p).toList ++ pdusOf nm none rest := by simp only [pdusOf, ho]
          obtain ⟨es, h3⟩ := sim_complete nm (s := { s with frags := rest }) (ps := pdusOf nm none rest) (p := classify nm p) hi (classify_big nm p)
          have hbe := hb2 none (by simp [begun, ho])
          rw [hpd]
          refine ⟨es, _, h3, ?_⟩
          cases classify nm p with
          | none => exact ⟨⟨_, rfl, fun _ => rfl⟩, fun _ => ⟨_, hg2, hbe⟩, he, fun _ => rfl, hk, hcr⟩
          | some q => exact ⟨⟨_, rfl, fun _ => rfl⟩, fun _ => ⟨_, hg2, hbe⟩, by simp [complete], fun _ => rfl, hk, hcr⟩
        | wait p n =>
          rw [ho] at h
          simp only [Option.some.injEq] at h
          subst h
          have hpd : pdusOf nm s.part (f :: rest) = pdusOf nm (some (p, n)) rest := by simp only [pdusOf, ho]
          have hbe := hb2 (some (p, n)) (by simp [begun, ho])
          refine ⟨[], _, rfl, ⟨⟨_, rfl, fun _ => hpd⟩, fun _ => ⟨_, hg2, hbe⟩, he, fun hx => absurd hi hx, hk, hcr⟩⟩
        | fail =>
          rw [ho] at h
          simp only [Option.some.injEq] at h
          subst h
          have hpd : pdusOf nm s.part (f :: rest) = .big :: pdusOf nm none rest := by simp only [pdusOf, ho]
          rw [hpd]
          refine ⟨[.take], _, sim_fail nm (s := { s with frags := rest }) hi, ⟨⟨_, rfl, ?_⟩, ?_, fun _ => rfl, fun _ => rfl, hk, hcr⟩⟩ <;> simp [fail]
        | crash =>
          rw [ho] at h
          simp only [Option.some.injEq] at h
          subst h
          have hpd : pdusOf nm s.part (f :: rest) = .big :: pdusOf nm none rest := by simp only [pdusOf, ho]
          rw [hpd]
          refine ⟨[.take], _, sim_fail nm (s := { s with frags := rest, crashed := true }) hi, ⟨⟨_, rfl, ?_⟩, ?_, fun _ => rfl, fun _ => rfl, hk, fun _ => ?_⟩⟩
          · simp [fail]
          · simp [fail]
          · show Pdu.big ∈ pdusOf nm none s.got
            rw [hg, pdusOf_append, hb, hpd]
            simp
    · cases h
  | recEnd =>
    simp only [stepUp] at h
    split at h
    · rename_i hc
      obtain ⟨hi, hf, hu⟩ := hc
      cases h
      have hne : s.base.rdr ≠ .ended := by rw [hi]; simp
      have h1 := hps hne
      have h0 : pdusOf nm s.part s.frags = [] := by rw [hf]; rfl
      rw [h0] at h1
      subst h1
      refine ⟨[.recEnd], abs nm { s with base := { s.base with rdr := .ended }, part := none } [], ?_, ⟨⟨_, rfl, ?_⟩, ?_, fun _ => hu, fun _ => rfl, hk, hcr⟩⟩
      · simp [SrvEnd.run, runT, SrvEnd.step, abs, hi, hu]
      · simp
      · simp
    · cases h
  | other e =>
    have key : ∀ e : SrvEnd.Ev, (∀ p, e ≠ .arrive p) → e ≠ .take → e ≠ .recEnd → ∀ b, SrvEnd.step s.base e = some b → s' = { s with base := b } → ∃ es a', SrvEnd.run (abs nm s ps) es = some a' ∧ Sim nm s' a' := by
      intro e h1 h2 h3 b hb hs'
      subst hs'
      obtain ⟨k1, k2, k3, k4, k5, k6⟩ := other_step h1 h2 h3 hb ps (pdusOf nm none s.got)
      refine ⟨[e], abs nm { s with base := b } ps, ?_, ⟨⟨ps, rfl, ?_⟩, ?_, ?_, ?_, by rw [← hk, ← k2], hcr⟩⟩
      · simp only [SrvEnd.run, runT, abs, k1]
      · intro hx; exact hps fun hy => hx (k4 hy)
      · intro hx; exact hh fun hy => hx (k4 hy)
      · intro hx
        by_cases hy : s.base.rdr = .ended
        · exact k5 (he hy)
        · exact absurd hx (k3 hy)
      · intro hx; exact hpt (k6 hx)
    cases e <;> simp only [stepUp] at h <;> first
      | (cases h; done)
      | (split at h
         · rename_i b hb
           cases h
           exact key _ (by simp) (by simp) (by simp) b hb rfl
         · cases h)

theorem up_of_step {nm : Bytes → Nat} {s s' : State} {e : Ev} (h : step nm s e = some s') : s.crashed = false ∧ stepUp nm s e = some s' := by
  simp only [step] at h
  split at h
  · cases h
  · rename_i hc
    exact ⟨by simpa using hc, h⟩

theorem sim_run {nm : Bytes → Nat} {s : State} : ∀ es, run nm init es = some s → ∃ es' a, SrvEnd.run SrvEnd.init es' = some a ∧ Sim nm s a := by
  intro es h
  refine runT_ind (P := fun (_ : List Ev) (s : State) => ∃ es' a, SrvEnd.run SrvEnd.init es' = some a ∧ Sim nm s a) ?_ ?_ es s h
  · refine ⟨[], SrvEnd.init, rfl, ⟨⟨[], rfl, fun _ => rfl⟩, fun _ => ⟨[], rfl, rfl⟩, ?_, ?_, rfl, ?_⟩⟩ <;> simp [init]
  · rintro es s e s' - ⟨es', a, h1, h2⟩ hst
    obtain ⟨hc, hst⟩ := up_of_step hst
    obtain ⟨es2, a', h3, h4⟩ := sim_stepUp h2 hc hst
    exact ⟨es' ++ es2, a', runT_append.2 ⟨a, h1, h3⟩, h4⟩

theorem sim_rest {nm : Bytes → Nat} {s : State} {a : SrvEnd.State} (hs : Sim nm s a) (hd : s.base.up = false) (hcr : s.crashed = false) (hr0 : AtRest nm s) : SrvEnd.AtRest a := by
  obtain ⟨⟨ps, rfl, hps⟩, hh, he, hpt, hk, -⟩ := hs
  have hr : ∀ e, Own e → stepUp nm s e = none := by
    intro e ho
    have := hr0 e ho
    simpa [step, hcr] using this
  have hni : s.base.rdr ≠ .idle := by
    intro hi
    have h1 := hr .take trivial
    have h2 := hr .recEnd trivial
    simp only [stepUp, hi] at h1 h2
    cases hf : s.frags with
    | nil => simp [hf, hd] at h2
    | cons f rest =>
      rw [hf] at h1
      simp only [if_true] at h1
      (repeat' split at h1) <;> cases h1
  intro e ho
  have key : (∀ p, e ≠ .arrive p) → e ≠ .take → e ≠ .recEnd → SrvEnd.step (abs nm s ps) e = none := by
    intro h1 h2 h3
    refine other_none h1 h2 h3 ?_ _ _
    have := hr (.other e) ho
    cases e <;> simp only [stepUp] at this <;> first
      | (exact absurd rfl (h1 _))
      | (exact absurd rfl h2)
      | (exact absurd rfl h3)
      | (split at this
         · cases this
         · assumption)
  cases e with
  | arrive p => exact absurd ho (by simp [SrvEnd.Own])
  | take =>
    simp only [SrvEnd.step, abs]
    cases hr' : s.base.rdr with
    | idle => exact absurd hr' hni
    | _ => rfl
  | recEnd => simp [SrvEnd.step, abs, hni]
  | _ => exact key (by simp) (by simp) (by simp)

/-! ## Packets and frames -/

/-- Packets after which a PDU is still incomplete or complete, as `L2cap.collect` has it. -/
theorem pdusOf_collect (nm : Bytes → Nat) (fs : List Packet) (n : Nat) : ∀ (p : Bytes), p.length < 4 + n →
    (∀ q rest, L2cap.collect p n (fs.map Packet.bytes) = .done q rest → ∃ r, rest = r.map Packet.bytes ∧ (∃ u, fs = u ++ r) ∧ pdusOf nm (some (p, n)) fs = (classify nm q).toList ++ pdusOf nm none r) := by
  induction fs with
  | nil => intro p hp q rest h; simp [L2cap.collect, hp] at h
  | cons f fs ih =>
    intro p hp q rest h
    simp only [List.map_cons, L2cap.collect, if_pos hp] at h
    split at h
    · cases h
    · rename_i b hb
      split at h
      · cases h
      · rename_i hb1
        split at h
        · cases h
        · rename_i d hd
          simp only [pdusOf, out, hb, hb1, if_false, hd, collected]
          by_cases hl : (p ++ d).length < 4 + n
          · rw [if_pos hl]
            obtain ⟨r, h1, ⟨u, hu⟩, h2⟩ := ih (p ++ d) hl q rest h
            exact ⟨r, h1, ⟨f :: u, by rw [hu]; rfl⟩, h2⟩
          · rw [if_neg hl]
            have : L2cap.collect (p ++ d) n (fs.map Packet.bytes) = .done (p ++ d) (fs.map Packet.bytes) := by
              cases fs <;> simp only [List.map_cons, List.map_nil, L2cap.collect, if_neg hl]
            rw [this] at h
            cases h
            exact ⟨fs, rfl, ⟨[f], rfl⟩, rfl⟩

/-- Where `L2cap.recombine` completes a PDU, this model does, with the same octets and the same packets left. -/
theorem pdusOf_recombine (nm : Bytes → Nat) (mps : Nat) (fs : List Packet) (hm : ∀ f ∈ fs, f.mps = mps) (q : Bytes) (rest : List Bytes) (h : L2cap.recombine mps (fs.map Packet.bytes) = .done q rest) :
    ∃ r, rest = r.map Packet.bytes ∧ (∃ u, fs = u ++ r) ∧ pdusOf nm none fs = (classify nm q).toList ++ pdusOf nm none r := by
  cases fs with
  | nil => simp [L2cap.recombine] at h
  | cons f fs =>
    have hf := hm f (List.mem_cons_self ..)
    simp only [List.map_cons, L2cap.recombine] at h
    split at h
    · cases h
    · rename_i p hp
      split at h
      · rename_i cid dlen h1 h2
        split at h
        · cases h
        · rename_i hb
          simp only [pdusOf, out, hp, h1, h2, hf, if_neg hb, collected]
          by_cases hl : p.length < 4 + dlen
          · rw [if_pos hl]
            obtain ⟨r, h3, ⟨u, hu⟩, h4⟩ := pdusOf_collect nm fs dlen p hl q rest h
            exact ⟨r, h3, ⟨f :: u, by rw [hu]; rfl⟩, h4⟩
          · rw [if_neg hl]
            have : L2cap.collect p dlen (fs.map Packet.bytes) = .done p (fs.map Packet.bytes) := by
              cases fs <;> simp only [List.map_cons, List.map_nil, L2cap.collect, if_neg hl]
            rw [this] at h
            cases h
            exact ⟨fs, rfl, ⟨[f], rfl⟩, rfl⟩
      · cases h

theorem classify_frame (nm : Bytes → Nat) {cid : Nat} {info p : Bytes} (hf : IsFrame cid info p) : classify nm p = if cid = 4 then some (pduOfInfo nm info) else none := by
  obtain ⟨a, b, c, d, hpa, ha, hc⟩ := Ble.Props.bframe_len hf
  have h1 : pduCid p = some cid := by rw [hpa, ← hc]; rfl
  have h2 : pduLen p = some info.length := by rw [hpa, ← ha]; rfl
  have h3 : p.drop 4 = info := by rw [hpa]; rfl
  unfold classify pduOfInfo
  rw [h1, h2, h3]
  simp only [cidAtt, Option.some.injEq, List.take_length]
  split
  · cases info with
    | nil => simp
    | cons x xs => simp only [reduceCtorEq, false_or, List.head?_cons, Option.some.injEq]; (repeat' split) <;> simp_all
  · rfl

/-- The ATT PDUs of frames. -/
def attPdus (nm : Bytes → Nat) (as : List Arrival) : List Pdu := as.filterMap fun a => if a.cid = 4 then some (pduOfInfo nm a.info) else none

/-- Frames of any channels, fragmented in any way, make exactly the ATT PDUs among them, in order. -/
theorem pdus_of_frames (nm : Bytes → Nat) (mps : Nat) (as : List Arrival) (h : ∀ a ∈ as, a.ok mps) : ∀ fs : List Packet, (∀ f ∈ fs, f.mps = mps) → fs.map Packet.bytes = as.flatMap (·.pkts) →
    pdusOf nm none fs = attPdus nm as := by
  induction as with
  | nil =>
    intro fs _ hfs
    simp only [List.flatMap_nil, List.map_eq_nil_iff] at hfs
    subst hfs
    rfl
  | cons a as ih =>
    intro fs hm hfs
    obtain ⟨h1, ⟨frags, h2, h3⟩, h4⟩ := h a (List.mem_cons_self ..)
    have hr := Ble.Props.recombine_returns_frame mps a.cid a.info a.p a.pkts (as.flatMap (·.pkts)) frags h1 h2 h3 h4
    rw [List.flatMap_cons] at hfs
    rw [← hfs] at hr
    obtain ⟨r, h5, ⟨u, hu⟩, h6⟩ := pdusOf_recombine nm mps fs hm a.p _ hr
    rw [h6, ih (fun x hx => h x (List.mem_cons_of_mem _ hx)) r (fun f hf => hm f (by rw [hu]; exact List.mem_append_right _ hf)) h5.symm, classify_frame nm h1]
    simp only [attPdus, List.filterMap_cons]
    split <;> rfl

/-! ## Theorems -/

/-- **C213** At every time the requests handled are the first ones of those among the PDUs received completely, before one that ends the connection, each once, in order and octet for octet. -/
theorem handled_in_order (nm : Bytes → Nat) (es : List Ev) (s : State) (h : run nm init es = some s) : s.base.handled <+: due (pdusOf nm none s.got) := by
  obtain ⟨es', a, h1, h2⟩ := sim_run es h
  obtain ⟨⟨ps, rfl, -⟩, -⟩ := h2
  exact SrvEnd.handled_in_order es' _ h1

/-- A bound for the number of steps that are left. -/
def left (s : State) : Nat := 7 * s.frags.length + SrvEnd.left s.base

theorem left_stepUp {nm : Bytes → Nat} {s s' : State} {e : Ev} (ho : Own e) (h : stepUp nm s e = some s') : left s' < left s := by
  cases e with
  | arrive f => cases ho
  | take =>
    simp only [stepUp] at h
    split at h
    · rename_i hi
      have hc : ∀ (t : State) (p : Option Pdu), t.base.rdr = .idle → SrvEnd.left (complete t p).base ≤ SrvEnd.left t.base + 6 ∧ (complete t p).frags = t.frags := by
        intro t p ht
        cases p with
        | none => exact ⟨Nat.le_add_right _ _, rfl⟩
        | some q => refine ⟨?_, rfl⟩; cases hw : t.base.indWait <;> simp [complete, SrvEnd.left, ht, SrvEnd.mRdr, hw] <;> omega
      have hfl : ∀ (t : State), t.base.rdr = .idle → SrvEnd.left (fail t).base ≤ SrvEnd.left t.base ∧ (fail t).frags = t.frags := by
        intro t ht
        refine ⟨?_, rfl⟩
        cases hw : t.base.indWait <;> simp [fail, SrvEnd.left, ht, SrvEnd.mRdr, hw]
      cases hf : s.frags with
      | nil => rw [hf] at h; cases h
      | cons f rest =>
        rw [hf] at h
        simp only at h
        split at h <;> simp only [Option.some.injEq] at h <;> subst h
        · rename_i p _
          have h1 := hc { s with frags := rest } (classify nm p) hi
          simp only [left, hf, h1.2, List.length_cons]; have := h1.1; simp only at this; omega
        · simp only [left, hf, List.length_cons]; omega
        · have h1 := hfl { s with frags := rest } hi
          simp only [left, hf, h1.2, List.length_cons]; have := h1.1; simp only at this; omega
        · have h1 := hfl { s with frags := rest, crashed := true } hi
          simp only [left, hf, h1.2, List.length_cons]; have := h1.1; simp only at this; omega
    · cases h
  | recEnd =>
    simp only [stepUp] at h
    split at h
    · rename_i hc
      cases h
      cases hw : s.base.indWait <;> simp [left, SrvEnd.left, hc.1, SrvEnd.mRdr, hw]
    · cases h
  | other e =>
    have ho' : SrvEnd.Own e := ho
    cases e <;> simp only [stepUp] at h <;> first
      | (cases h; done)
      | (split at h
         · rename_i b hb
           cases h
           have := SrvEnd.left_step ho' hb
           simp only [left]
           omega
         · cases h)

theorem left_run {nm : Bytes → Nat} {s s' : State} {es : List Ev} (ho : ∀ e ∈ es, Own e) (h : run nm s es = some s') : es.length + left s' ≤ left s := by
  induction es generalizing s with
  | nil =>
    simp only [run, runT, Option.some.injEq] at h
    subst h
    simp
  | cons e es ih =>
    simp only [run, runT] at h
    split at h
    · cases h
    · next t ht =>
      have h1 := left_stepUp (ho e (List.mem_cons_self ..)) (up_of_step ht).2
      have h3 := ih (fun x hx => ho x (List.mem_cons_of_mem _ hx)) h
      simp only [List.length_cons]
      omega

/-- **C213** From every state the library comes to rest within a bounded number of steps, in every order of the steps, if nothing more is received. -/
theorem bounded (nm : Bytes → Nat) (s : State) (es : List Ev) (s' : State) (ho : ∀ e ∈ es, Own e) (h : run nm s es = some s') : es.length ≤ left s := by
  have := left_run ho h
  omega

/-- **C213** The library has a way to come to rest from every state. -/
theorem can_rest (nm : Bytes → Nat) (s : State) : ∃ es s', (∀ e ∈ es, Own e) ∧ run nm s es = some s' ∧ AtRest nm s' := by
  have key : ∀ n (t : State), left t ≤ n → ∃ es s', (∀ e ∈ es, Own e) ∧ run nm t es = some s' ∧ AtRest nm s' := by
    intro n
    induction n with
    | zero =>
      intro t hl
      refine ⟨[], t, by simp, rfl, fun e he => ?_⟩
      cases hs : step nm t e with
      | none => rfl
      | some t' => have := left_stepUp he (up_of_step hs).2; omega
    | succ n ih =>
      intro t hl
      by_cases hr : AtRest nm t
      · exact ⟨[], t, by simp, rfl, hr⟩
      · obtain ⟨e, he⟩ := Classical.not_forall.1 hr
        obtain ⟨he, hs⟩ := Classical.not_imp.1 he
        obtain ⟨t', ht'⟩ := Option.ne_none_iff_exists'.1 hs
        have h1 := left_stepUp he (up_of_step ht').2
        obtain ⟨es, s', h3, h4, h5⟩ := ih t' (by omega)
        refine ⟨e :: es, s', ?_, ?_, h5⟩
        · intro x hx
          rcases List.mem_cons.1 hx with rfl | hx
          · exact he
          · exact h3 x hx
        · simp only [run, runT, ht']
          exact h4
  exact key _ s (Nat.le_refl _)

/-- **C213** Where the library comes to rest after the end of the connection, and the program has not crashed, every request received completely before a PDU that ends the connection has been handled, and either all goroutines have ended and every indication has returned, or all but the recombining one. -/
theorem at_rest (nm : Bytes → Nat) (pre : List Ev) (s : State) (h : run nm init pre = some s) (hd : s.base.up = false) (hc : s.crashed = false) (hr : AtRest nm s) :
    s.base.handled = due (pdusOf nm none s.got) ∧ (SrvEnd.AllEnded s.base ∨ SrvEnd.Leaked s.base) := by
  obtain ⟨es', a, h1, h2⟩ := sim_run pre h
  have hra := sim_rest h2 hd hc hr
  obtain ⟨⟨ps, rfl, -⟩, -⟩ := h2
  exact (SrvEnd.comes_to_rest es' _ h1 hd).2 hra

/-- **C213** The program crashes in this part only on a packet the peer's controller should not have delivered: never if what was received makes only PDUs that the library accepts. -/
theorem no_crash (nm : Bytes → Nat) (pre : List Ev) (s : State) (h : run nm init pre = some s) (hb : Pdu.big ∉ pdusOf nm none s.got) : s.crashed = false := by
  obtain ⟨es', a, h1, h2⟩ := sim_run pre h
  cases hc : s.crashed with
  | false => rfl
  | true => exact absurd (h2.crash hc) hb

/-- **C213** Nothing the peer sends is refused, but for a connection that has ended, or if 16 packets wait. -/
theorem delivered_iff (nm : Bytes → Nat) (s : State) (f : Packet) : (∃ s', step nm s (.arrive f) = some s' ∧ s'.got = s.got ++ [f]) ↔ s.crashed = false ∧ s.base.up = true ∧ s.frags.length ≤ 15 := by
  simp only [step, stepUp]
  constructor
  · rintro ⟨s', h, -⟩
    split at h
    · cases h
    · rename_i hc
      split at h
      · rename_i hu
        exact ⟨by simpa using hc, hu.1, by omega⟩
      · cases h
  · rintro ⟨h1, h2, h3⟩
    have : s.frags.length < 16 := by omega
    simp [h1, h2, this]

theorem attPdus_big (nm : Bytes → Nat) (as : List Arrival) : Pdu.big ∉ attPdus nm as := by
  simp only [attPdus, List.mem_filterMap, not_exists, not_and]
  intro a _ ha
  split at ha
  · simp only [Option.some.injEq, pduOfInfo] at ha
    (repeat' split at ha) <;> cases ha
  · cases ha

theorem attPdus_empty (nm : Bytes → Nat) (as : List Arrival) (h : ∀ a ∈ as, a.cid = 4 → a.info ≠ [] ∧ a.info.length ≤ 515) : Pdu.empty ∉ attPdus nm as := by
  simp only [attPdus, List.mem_filterMap, not_exists, not_and]
  intro a ha0 ha
  split at ha
  · rename_i h4
    obtain ⟨h1, h2⟩ := h a ha0 h4
    simp only [Option.some.injEq, pduOfInfo] at ha
    split at ha
    · rename_i hx; rcases hx with hx | hx
      · exact h1 hx
      · omega
    · split at ha <;> cases ha
  · cases ha

theorem due_fine (nm : Bytes → Nat) (as : List Arrival) (h : ∀ a ∈ as, a.cid = 4 → a.info ≠ [] ∧ a.info.length ≤ 515) :
    due (attPdus nm as) = (as.filter fun a => a.cid == 4 && a.info.head? != some 0x1e).map fun a => nm a.info := by
  induction as with
  | nil => rfl
  | cons a as ih =>
    have ih' := ih fun x hx => h x (List.mem_cons_of_mem _ hx)
    by_cases h4 : a.cid = 4
    · obtain ⟨h1, h2⟩ := h a (List.mem_cons_self ..) h4
      have hn : ¬ (a.info = [] ∨ 515 < a.info.length) := by rintro (hx | hx); exact h1 hx; omega
      have e1 : attPdus nm (a :: as) = pduOfInfo nm a.info :: attPdus nm as := by simp [attPdus, h4]
      rw [e1]
      by_cases hcf : a.info.head? = some 0x1e
      · simp only [pduOfInfo, if_neg hn, if_pos hcf, List.filter_cons, h4, hcf]
        have e2 : due (Pdu.conf :: attPdus nm as) = due (attPdus nm as) := rfl
        rw [if_true, e2]
        simpa using ih'
      · simp only [pduOfInfo, if_neg hn, if_neg hcf, List.filter_cons, h4]
        have : (a.info.head? != some 0x1e) = true := by simpa using hcf
        simp only [this, beq_self_eq_true, Bool.and_self, if_true, List.map_cons, ← ih']
        rfl
    · have e1 : attPdus nm (a :: as) = attPdus nm as := by simp [attPdus, h4]
      rw [e1, ih']
      simp [h4]

/-- **C213** A central that keeps to the specification: it sends frames on any channels, its controller and ours divide them into packets in any way, none of its ATT PDUs is empty or longer than the connection and the server can take. When the connection has ended and the library has come
to rest, the program has not crashed, the server has handled exactly the ATT PDUs that are not confirmations, octet for octet, in order, and all goroutines have ended.
Missing: a central that sends empty PDUs (`SrvFrag.goroutine_leaks`), and packets that make the program crash (`crash_example`). -/
theorem requests_handled_partial (nm : Bytes → Nat) (mps : Nat) (as : List Arrival) (hok : ∀ a ∈ as, a.ok mps) (hin : ∀ a ∈ as, a.cid = 4 → a.info ≠ [] ∧ a.info.length ≤ 515)
    (pre : List Ev) (s : State) (h : run nm init pre = some s) (hg : s.got.map Packet.bytes = as.flatMap (·.pkts)) (hm : ∀ f ∈ s.got, f.mps = mps) (hd : s.base.up = false) (hr : AtRest nm s) :
    s.crashed = false ∧ s.base.handled = ((as.filter fun a => a.cid == 4 && a.info.head? != some 0x1e).map fun a => nm a.info) ∧ SrvEnd.AllEnded s.base := by
  have hp := pdus_of_frames nm mps as hok s.got hm hg
  have hc := no_crash nm pre s h (by rw [hp]; exact attPdus_big nm as)
  refine ⟨hc, ?_, ?_⟩
  · rw [(at_rest nm pre s h hd hc hr).1, hp, due_fine nm as hin]
  · obtain ⟨es', a, h1, h2⟩ := sim_run pre h
    have hra := sim_rest h2 hd hc hr
    obtain ⟨⟨ps, rfl, -⟩, -⟩ := h2
    have := SrvEnd.all_end_partial es' (abs nm s ps) h1 hd (by show Pdu.empty ∉ pdusOf nm none s.got; rw [hp]; exact attPdus_empty nm as hin) hra
    exact this

/-! ## Examples -/

/-- A read request in two packets with an L2CAP signalling PDU after it. -/
def frames : List Arrival := [⟨4, [0x0a, 3, 0], [3, 0, 4, 0, 0x0a, 3, 0], [[0x40, 0x20, 5, 0, 3, 0, 4, 0, 0x0a], [0x40, 0x10, 2, 0, 3, 0]]⟩, ⟨5, [1], [1, 0, 5, 0, 1], [[0x40, 0x20, 5, 0, 1, 0, 5, 0, 1]]⟩]

theorem frames_ok : ∀ a ∈ frames, a.ok 23 := by
  intro a ha
  simp only [frames, List.mem_cons, List.not_mem_nil, or_false] at ha
  rcases ha with rfl | rfl
  · exact ⟨⟨by decide, by decide, rfl⟩, ⟨[⟨0x40, 2, 0, [3, 0, 4, 0, 0x0a]⟩, ⟨0x40, 1, 0, [3, 0]⟩], by decide, ⟨_, _, rfl, by decide, by decide, by decide⟩⟩, by decide⟩
  · exact ⟨⟨by decide, by decide, rfl⟩, ⟨[⟨0x40, 2, 0, [1, 0, 5, 0, 1]⟩], by decide, ⟨_, _, rfl, by decide, by decide, by decide⟩⟩, by decide⟩

/-- The packets of these frames arrive, and everything ends. -/
def busy : List Ev := (frames.flatMap (·.pkts)).map (fun b => Ev.arrive ⟨b, 23⟩) ++ [.take, .take, .other .push, .take, .other .down, .recEnd, .other (.read false), .other .give, .other .swap, .other (.read false), .other .close, .other .hangup, .other .handle, .other .giveBack, .other .loopEnd, .other .clean]

/-- The name of a request in the example. -/
def nm0 (b : Bytes) : Nat := (b.map UInt8.toNat).sum

/-- The hypotheses of `requests_handled_partial` are met, and the request is handled. -/
theorem frames_example : ∃ s, run nm0 init busy = some s ∧ s.got.map Packet.bytes = frames.flatMap (·.pkts) ∧ (∀ f ∈ s.got, f.mps = 23) ∧ s.base.up = false ∧ s.crashed = false ∧ s.base.handled = [13] ∧ AtRest nm0 s ∧ SrvEnd.AllEnded s.base :=
  ⟨_, rfl, rfl, (by decide : ∀ f ∈ (frames.flatMap (·.pkts)).map (fun b => Packet.mk b 23), f.mps = 23), rfl, rfl, rfl, (by
    intro e ho
    cases e with
    | arrive f => cases ho
    | other e => cases e <;> first | (cases ho; done) | rfl
    | _ => rfl), rfl, rfl, rfl, rfl, rfl⟩

/-- A first packet with three octets of data: the program crashes. -/
theorem crash_example (nm : Bytes → Nat) : ∃ s, run nm init [.arrive ⟨[0x40, 0x20, 3, 0, 1, 0, 4], 23⟩, .take] = some s ∧ s.crashed = true := ⟨_, rfl, rfl⟩

end Ble.SrvBytes
