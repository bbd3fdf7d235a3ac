import Verif.Att.SrvFrag
import Verif.Props.SrvEnd
set_option autoImplicit false

/-!
# C211: requests in fragments
-/

namespace Ble.SrvFrag

open Ble.SrvEnd (Pdu reqs due)

/-! ## Specification -/

/-- The ATT PDUs that a list of packets makes, when a PDU `st` is begun: a PDU is made of its first packet and of as many continuing ones as it takes. A PDU that is too big counts at its first packet. A packet that is not continuing within a PDU ends the
connection, as a PDU that is too big does. -/
def pdusOf : Option (Option Pdu × Nat) → List Frag → List Pdu
  | _, [] => []
  | none, f :: fs =>
    if f.pdu = some .big then .big :: pdusOf none fs
    else if f.more = 0 then f.pdu.toList ++ pdusOf none fs
    else pdusOf (some (f.pdu, f.more)) fs
  | some (p, k), f :: fs =>
    if f.cont = false then .big :: pdusOf none fs
    else if k ≤ 1 then p.toList ++ pdusOf none fs
    else pdusOf (some (p, k - 1)) fs

/-- Steps of the library's goroutines, and calls that return. -/
def Own : Ev → Prop
  | .arrive _ => False
  | .other e => SrvEnd.Own e
  | _ => True

/-- Nothing the library does is left to do. -/
def AtRest (s : State) : Prop := ∀ e, Own e → step s e = none

/-! ## Simulation by the model without fragments -/

/-- The PDU that is begun after a list of packets. -/
def begun : Option (Option Pdu × Nat) → List Frag → Option (Option Pdu × Nat)
  | st, [] => st
  | none, f :: fs =>
    if f.pdu = some .big then begun none fs
    else if f.more = 0 then begun none fs
    else begun (some (f.pdu, f.more)) fs
  | some (p, k), f :: fs =>
    if f.cont = false then begun none fs
    else if k ≤ 1 then begun none fs
    else begun (some (p, k - 1)) fs

theorem pdusOf_append (a b : List Frag) : ∀ st, pdusOf st (a ++ b) = pdusOf st a ++ pdusOf (begun st a) b := by
  induction a with
  | nil => intro st; cases st <;> simp [pdusOf, begun]
  | cons f fs ih =>
    intro st
    cases st with
    | none => simp only [List.cons_append, pdusOf, begun]; (repeat' split) <;> simp [ih]
    | some x => simp only [List.cons_append, pdusOf, begun]; (repeat' split) <;> simp [ih]

theorem begun_append (a b : List Frag) : ∀ st, begun st (a ++ b) = begun (begun st a) b := by
  induction a with
  | nil => intro st; cases st <;> simp [begun]
  | cons f fs ih =>
    intro st
    cases st with
    | none => simp only [List.cons_append, begun]; (repeat' split) <;> exact ih _
    | some x => simp only [List.cons_append, begun]; (repeat' split) <;> exact ih _

theorem pdusOf_length (fs : List Frag) : ∀ st, (pdusOf st fs).length ≤ fs.length := by
  induction fs with
  | nil => intro st; cases st <;> simp [pdusOf]
  | cons f fs ih =>
    intro st
    have hl : ∀ p : Option Pdu, p.toList.length ≤ 1 := by intro p; cases p <;> simp
    cases st with
    | none =>
      simp only [pdusOf, List.length_cons]
      (repeat' split) <;> (try simp only [List.length_cons, List.length_append]) <;> first
        | (have := ih none; have := hl f.pdu; omega)
        | (have := ih (some (f.pdu, f.more)); omega)
    | some x =>
      simp only [pdusOf, List.length_cons]
      (repeat' split) <;> (try simp only [List.length_cons, List.length_append]) <;> first
        | (have := ih none; have := hl x.1; omega)
        | (have := ih (some (x.1, x.2 - 1)); omega)

/-- One packet makes at most one PDU. -/
theorem pdusOf_one (f : Frag) (st : Option (Option Pdu × Nat)) : pdusOf st [f] = [] ∨ ∃ p, pdusOf st [f] = [p] := by
  have := pdusOf_length [f] st
  cases h : pdusOf st [f] with
  | nil => exact .inl rfl
  | cons p ps =>
    rw [h] at this
    simp only [List.length_cons, List.length_nil] at this
    cases ps with
    | nil => exact .inr ⟨p, rfl⟩
    | cons q qs => simp at this

/-- The state of the model without fragments that corresponds: complete PDUs instead of packets. -/
def abs (s : State) (ps : List Pdu) : SrvEnd.State := { s.base with pkts := ps, received := pdusOf none s.got }

structure Sim (s : State) (a : SrvEnd.State) : Prop where
  eq : ∃ ps, a = abs s ps ∧ (s.base.rdr ≠ .ended → ps = pdusOf s.part s.frags)
  hist : s.base.rdr ≠ .ended → begun none s.got = begun s.part s.frags
  ended : s.base.rdr = .ended → s.base.up = false
  part : s.base.rdr ≠ .idle → s.part = none
  whole : ∀ p k, s.part = some (p, k) → p ≠ some .big
  pkts : s.base.pkts = []

/-- The steps that do not touch the packets are the same with any packets. -/
theorem other_step {b b' : SrvEnd.State} {e : SrvEnd.Ev} (he : ∀ p, e ≠ .arrive p) (h1 : e ≠ .take) (h2 : e ≠ .recEnd) (h : SrvEnd.step b e = some b') (ps qs : List Pdu) :
    SrvEnd.step { b with pkts := ps, received := qs } e = some { b' with pkts := ps, received := qs } ∧ b'.pkts = b.pkts ∧ (b.rdr ≠ .ended → b'.rdr ≠ .ended) ∧ (b.rdr = .ended → b'.rdr = .ended) ∧ (b.up = false → b'.up = false) ∧ (b'.rdr ≠ .idle → b.rdr ≠ .idle) := by
  cases e with
  | arrive p => exact absurd rfl (he p)
  | take => exact absurd rfl h1
  | recEnd => exact absurd rfl h2
  | _ =>
    simp only [SrvEnd.step] at h ⊢
    (repeat' split at h) <;> first
      | (cases h; done)
      | (obtain rfl := Option.some.inj h
         simp_all)

theorem other_none {b : SrvEnd.State} {e : SrvEnd.Ev} (he : ∀ p, e ≠ .arrive p) (h1 : e ≠ .take) (h2 : e ≠ .recEnd) (h : SrvEnd.step b e = none) (ps qs : List Pdu) :
    SrvEnd.step { b with pkts := ps, received := qs } e = none := by
  cases hx : SrvEnd.step { b with pkts := ps, received := qs } e with
  | none => rfl
  | some b' =>
    have := (other_step he h1 h2 hx b.pkts b.received).1
    rw [show ({ ({ b with pkts := ps, received := qs } : SrvEnd.State) with pkts := b.pkts, received := b.received } : SrvEnd.State) = b from rfl, h] at this
    cases this

theorem sim_complete {s : State} {ps : List Pdu} {p : Option Pdu} (hi : s.base.rdr = .idle) (hp : p ≠ some .big) :
    ∃ es, SrvEnd.run (abs s (p.toList ++ ps)) es = some (abs (complete s p) ps) := by
  cases p with
  | none => exact ⟨[], rfl⟩
  | some q =>
    refine ⟨[.take], ?_⟩
    cases q with
    | big => exact absurd rfl hp
    | _ => simp [SrvEnd.run, runT, SrvEnd.step, abs, complete, hi]

theorem sim_fail {s : State} {ps : List Pdu} (hi : s.base.rdr = .idle) : SrvEnd.run (abs s (.big :: ps)) [.take] = some (abs (fail s) ps) := by
  simp [SrvEnd.run, runT, SrvEnd.step, abs, fail, hi]

theorem sim_step {s s' : State} {a : SrvEnd.State} {e : Ev} (hs : Sim s a) (h : step s e = some s') : ∃ es a', SrvEnd.run a es = some a' ∧ Sim s' a' := by
  obtain ⟨⟨ps, rfl, hps⟩, hh, he, hpt, hw, hk⟩ := hs
  cases e with
  | arrive f =>
    simp only [step] at h
    split at h
    · rename_i hc
      cases h
      have hne : s.base.rdr ≠ .ended := fun hx => by rw [he hx] at hc; cases hc.1
      have h1 := hps hne
      subst h1
      have hh' := hh hne
      have hq : pdusOf none (s.got ++ [f]) = pdusOf none s.got ++ pdusOf (begun s.part s.frags) [f] := by rw [pdusOf_append, hh']
      have hp : pdusOf s.part (s.frags ++ [f]) = pdusOf s.part s.frags ++ pdusOf (begun s.part s.frags) [f] := pdusOf_append ..
      have hb : begun none (s.got ++ [f]) = begun s.part (s.frags ++ [f]) := by rw [begun_append, begun_append, hh']
      have hlen := pdusOf_length s.frags s.part
      rcases pdusOf_one f (begun s.part s.frags) with hx | ⟨p, hx⟩
      · rw [hx, List.append_nil] at hq hp
        refine ⟨[], _, rfl, ⟨⟨_, ?_, fun _ => rfl⟩, fun _ => hb, he, hpt, hw, hk⟩⟩
        simp only [abs, hq, hp]
      · rw [hx] at hq hp
        refine ⟨[.arrive p], abs { s with frags := s.frags ++ [f], got := s.got ++ [f] } (pdusOf s.part (s.frags ++ [f])), ?_, ⟨⟨_, rfl, fun _ => rfl⟩, fun _ => hb, he, hpt, hw, hk⟩⟩
        have hl : (pdusOf s.part s.frags).length < 16 := by omega
        simp [SrvEnd.run, runT, SrvEnd.step, abs, hq, hp, hc.1, hl]
    · cases h
  | take =>
    simp only [step] at h
    split at h
    · rename_i hi
      have hne : s.base.rdr ≠ .ended := by rw [hi]; simp
      have h1 := hps hne
      have hh' := hh hne
      subst h1
      have cpl : ∀ (t : State) (p : Option Pdu), t.base = s.base → t.got = s.got → p ≠ some .big → pdusOf s.part s.frags = p.toList ++ pdusOf none t.frags → begun s.part s.frags = begun none t.frags →
          ∃ es a', SrvEnd.run (abs s (pdusOf s.part s.frags)) es = some a' ∧ Sim (complete t p) a' := by
        intro t p hb hg hp h1 h2
        obtain ⟨es, h3⟩ := sim_complete (s := t) (ps := pdusOf none t.frags) (p := p) (by rw [hb]; exact hi) hp
        refine ⟨es, _, by rw [h1, ← h3]; simp only [abs, hb, hg], ⟨⟨_, rfl, ?_⟩, ?_, ?_, ?_, ?_, ?_⟩⟩
        · intro _; cases p <;> rfl
        · intro _
          have : begun none s.got = begun none t.frags := by rw [hh', h2]
          rw [← hg] at this
          cases p <;> exact this
        · intro hx
          cases p with
          | none => simp only [complete, hb] at hx ⊢; exact he hx
          | some q => simp [complete] at hx
        · intro _; cases p <;> rfl
        · intro q k hx; cases p <;> simp [complete] at hx
        · cases p <;> simp only [complete, hb] <;> exact hk
      have fl : ∀ (t : State), t.base = s.base → t.got = s.got → pdusOf s.part s.frags = .big :: pdusOf none t.frags → ∃ es a', SrvEnd.run (abs s (pdusOf s.part s.frags)) es = some a' ∧ Sim (fail t) a' := by
        intro t hb hg h1
        have h3 := sim_fail (s := t) (ps := pdusOf none t.frags) (by rw [hb]; exact hi)
        refine ⟨[.take], abs (fail t) (pdusOf none t.frags), by rw [h1, ← h3]; simp only [abs, hb, hg], ⟨⟨_, rfl, ?_⟩, ?_, ?_, ?_, ?_, ?_⟩⟩ <;> simp [fail, hb, hk]
      have mid : ∀ (t : State) (p : Option Pdu) (k : Nat), t.base = s.base → t.got = s.got → t.part = some (p, k) → p ≠ some .big → pdusOf s.part s.frags = pdusOf (some (p, k)) t.frags → begun s.part s.frags = begun (some (p, k)) t.frags →
          ∃ es a', SrvEnd.run (abs s (pdusOf s.part s.frags)) es = some a' ∧ Sim t a' := by
        intro t p k hb hg ht hp h1 h2
        refine ⟨[], _, rfl, ⟨⟨pdusOf s.part s.frags, by simp only [abs, hb, hg], fun _ => by rw [ht, h1]⟩, fun _ => by rw [hg, hh', h2, ht], by rw [hb]; exact he, ?_, ?_, by rw [hb]; exact hk⟩⟩
        · rw [hb]; intro hx; exact absurd hi hx
        · intro q j hx; rw [ht] at hx; cases hx; exact hp
      split at h
      · rename_i f rest hp hf
        rw [hp, hf] at cpl fl mid
        rw [hp, hf]
        split at h
        · rename_i hbig
          cases h
          exact fl { s with frags := rest } rfl rfl (by simp [pdusOf, hbig])
        · rename_i hbig
          split at h
          · rename_i hm
            cases h
            exact cpl { s with frags := rest } f.pdu rfl rfl hbig (by simp [pdusOf, hbig, hm]) (by simp [begun, hbig, hm])
          · rename_i hm
            cases h
            exact mid { s with frags := rest, part := some (f.pdu, f.more) } f.pdu f.more rfl rfl rfl hbig (by simp [pdusOf, hbig, hm]) (by simp [begun, hbig, hm])
      · rename_i p k f rest hp hf
        have hpb := hw p k hp
        rw [hp, hf] at cpl fl mid
        rw [hp, hf]
        split at h
        · rename_i hc
          cases h
          exact fl { s with frags := rest } rfl rfl (by simp [pdusOf, hc])
        · rename_i hc
          split at h
          · rename_i hm
            cases h
            exact cpl { s with frags := rest } p rfl rfl hpb (by simp [pdusOf, hc, hm]) (by simp [begun, hc, hm])
          · rename_i hm
            cases h
            exact mid { s with frags := rest, part := some (p, k - 1) } p (k - 1) rfl rfl rfl hpb (by simp only [pdusOf, if_neg hc, if_neg hm]) (by simp only [begun, if_neg hc, if_neg hm])
      · cases h
    · cases h
  | recEnd =>
    simp only [step] at h
    split at h
    · rename_i hc
      obtain ⟨hi, hf, hu⟩ := hc
      cases h
      have hne : s.base.rdr ≠ .ended := by rw [hi]; simp
      have h1 := hps hne
      have h0 : pdusOf s.part s.frags = [] := by rw [hf]; cases s.part <;> rfl
      rw [h0] at h1
      subst h1
      refine ⟨[.recEnd], abs { s with base := { s.base with rdr := .ended }, part := none } [], ?_, ⟨⟨_, rfl, ?_⟩, ?_, ?_, ?_, ?_, ?_⟩⟩
      · simp [SrvEnd.run, runT, SrvEnd.step, abs, hi, hu]
      · simp
      · simp
      · intro _; exact hu
      · simp
      · simp
      · exact hk
    · cases h
  | other e =>
    have key : ∀ e : SrvEnd.Ev, (∀ p, e ≠ .arrive p) → e ≠ .take → e ≠ .recEnd → ∀ b, SrvEnd.step s.base e = some b → s' = { s with base := b } → ∃ es a', SrvEnd.run (abs s ps) es = some a' ∧ Sim s' a' := by
      intro e h1 h2 h3 b hb hs'
      subst hs'
      obtain ⟨k1, k2, k3, k4, k5, k6⟩ := other_step h1 h2 h3 hb ps (pdusOf none s.got)
      refine ⟨[e], abs { s with base := b } ps, ?_, ⟨⟨ps, rfl, ?_⟩, ?_, ?_, ?_, hw, by rw [← hk, ← k2]⟩⟩
      · simp only [SrvEnd.run, runT, abs, k1]
      · intro hx; exact hps fun hy => hx (k4 hy)
      · intro hx; exact hh fun hy => hx (k4 hy)
      · intro hx
        by_cases hy : s.base.rdr = .ended
        · exact k5 (he hy)
        · exact absurd hx (k3 hy)
      · intro hx; exact hpt (k6 hx)
    cases e <;> simp only [step] at h <;> first
      | (cases h; done)
      | (split at h
         · rename_i b hb
           cases h
           exact key _ (by simp) (by simp) (by simp) b hb rfl
         · cases h)

theorem sim_run {s : State} : ∀ es, run init es = some s → ∃ es' a, SrvEnd.run SrvEnd.init es' = some a ∧ Sim s a := by
  intro es h
  refine runT_ind (P := fun (_ : List Ev) (s : State) => ∃ es' a, SrvEnd.run SrvEnd.init es' = some a ∧ Sim s a) ?_ ?_ es s h
  · refine ⟨[], SrvEnd.init, rfl, ⟨⟨[], rfl, fun _ => rfl⟩, fun _ => rfl, ?_, ?_, ?_, rfl⟩⟩ <;> simp [init]
  · rintro es s e s' - ⟨es', a, h1, h2⟩ hst
    obtain ⟨es2, a', h3, h4⟩ := sim_step h2 hst
    exact ⟨es' ++ es2, a', runT_append.2 ⟨a, h1, h3⟩, h4⟩

theorem sim_rest {s : State} {a : SrvEnd.State} (hs : Sim s a) (hd : s.base.up = false) (hr : AtRest s) : SrvEnd.AtRest a := by
  obtain ⟨⟨ps, rfl, hps⟩, hh, he, hpt, hw, hk⟩ := hs
  have hni : s.base.rdr ≠ .idle := by
    intro hi
    have h1 := hr .take trivial
    have h2 := hr .recEnd trivial
    simp only [step, hi] at h1 h2
    cases hf : s.frags with
    | nil => simp [hf, hd] at h2
    | cons f rest =>
      rw [hf] at h1
      cases hp : s.part with
      | none => rw [hp] at h1; simp only [if_true] at h1; (repeat' split at h1) <;> cases h1
      | some x => rw [hp] at h1; obtain ⟨p, k⟩ := x; simp only [if_true] at h1; (repeat' split at h1) <;> cases h1
  intro e ho
  have key : (∀ p, e ≠ .arrive p) → e ≠ .take → e ≠ .recEnd → SrvEnd.step (abs s ps) e = none := by
    intro h1 h2 h3
    refine other_none h1 h2 h3 ?_ _ _
    have := hr (.other e) ho
    cases e <;> simp only [step] at this <;> first
      | (exact absurd rfl (h1 _))
      | (exact absurd rfl h2)
      | (exact absurd rfl h3)
      | (split at this
         · cases this
         · assumption)
  cases e with
  | arrive p => exact absurd ho (by simp [SrvEnd.Own])
  | take =>
    simp only [SrvEnd.step, abs]
    cases hr' : s.base.rdr with
    | idle => exact absurd hr' hni
    | _ => rfl
  | recEnd => simp [SrvEnd.step, abs, hni]
  | _ => exact key (by simp) (by simp) (by simp)

/-! ## Theorems -/

/-- **C211** At every time the requests handled are the first ones of those whose packets have been received, before a PDU or packet that ends the connection, each once and in order. -/
theorem handled_in_order (es : List Ev) (s : State) (h : run init es = some s) : s.base.handled <+: due (pdusOf none s.got) := by
  obtain ⟨es', a, h1, h2⟩ := sim_run es h
  obtain ⟨⟨ps, rfl, -⟩, -⟩ := h2
  exact SrvEnd.handled_in_order es' _ h1

/-- A bound for the number of steps that are left. -/
def left (s : State) : Nat := 7 * s.frags.length + SrvEnd.left s.base

theorem left_step {s s' : State} {e : Ev} (ho : Own e) (h : step s e = some s') : left s' < left s := by
  cases e with
  | arrive f => cases ho
  | take =>
    simp only [step] at h
    split at h
    · rename_i hi
      have hc : ∀ (t : State) (p : Option Pdu), t.base.rdr = .idle → SrvEnd.left (complete t p).base ≤ SrvEnd.left t.base + 6 ∧ (complete t p).frags = t.frags := by
        intro t p ht
        cases p with
        | none => exact ⟨Nat.le_add_right _ _, rfl⟩
        | some q => refine ⟨?_, rfl⟩; cases hw : t.base.indWait <;> simp [complete, SrvEnd.left, ht, SrvEnd.mRdr, hw] <;> omega
      have hfl : ∀ (t : State), t.base.rdr = .idle → SrvEnd.left (fail t).base ≤ SrvEnd.left t.base ∧ (fail t).frags = t.frags := by
        intro t ht
        refine ⟨?_, rfl⟩
        cases hw : t.base.indWait <;> simp [fail, SrvEnd.left, ht, SrvEnd.mRdr, hw]
      split at h
      · rename_i f rest hp hf
        have h1 := hc { s with frags := rest } f.pdu hi
        have h2 := hfl { s with frags := rest } hi
        (repeat' split at h) <;> cases h
        · simp only [left, hf, h2.2, List.length_cons]; have := h2.1; simp only at this; omega
        · simp only [left, hf, h1.2, List.length_cons]; have := h1.1; simp only at this; omega
        · simp only [left, hf, List.length_cons]; omega
      · rename_i p k f rest hp hf
        have h1 := hc { s with frags := rest } p hi
        have h2 := hfl { s with frags := rest } hi
        (repeat' split at h) <;> cases h
        · simp only [left, hf, h2.2, List.length_cons]; have := h2.1; simp only at this; omega
        · simp only [left, hf, h1.2, List.length_cons]; have := h1.1; simp only at this; omega
        · simp only [left, hf, List.length_cons]; omega
      · cases h
    · cases h
  | recEnd =>
    simp only [step] at h
    split at h
    · rename_i hc
      cases h
      cases hw : s.base.indWait <;> simp [left, SrvEnd.left, hc.1, SrvEnd.mRdr, hw]
    · cases h
  | other e =>
    have ho' : SrvEnd.Own e := ho
    cases e <;> simp only [step] at h <;> first
      | (cases h; done)
      | (split at h
         · rename_i b hb
           cases h
           have := SrvEnd.left_step ho' hb
           simp only [left]
           omega
         · cases h)

theorem left_run {s s' : State} {es : List Ev} (ho : ∀ e ∈ es, Own e) (h : run s es = some s') : es.length + left s' ≤ left s := by
  induction es generalizing s with
  | nil =>
    simp only [run, runT, Option.some.injEq] at h
    subst h
    simp
  | cons e es ih =>
    simp only [run, runT] at h
    split at h
    · cases h
    · next t ht =>
      have h1 := left_step (ho e (List.mem_cons_self ..)) ht
      have h3 := ih (fun x hx => ho x (List.mem_cons_of_mem _ hx)) h
      simp only [List.length_cons]
      omega

/-- **C211** Once the connection has ended, also in the middle of a PDU, the library comes to rest within a bounded number of steps, in every order of the steps; where it comes to rest, every request all of whose packets were received before a PDU or packet
that ends the connection has been handled, and either all goroutines have ended and every indication has returned, or all but the recombining one. -/
theorem comes_to_rest (pre : List Ev) (s : State) (h : run init pre = some s) (hd : s.base.up = false) :
    (∀ es s', (∀ e ∈ es, Own e) → run s es = some s' → es.length ≤ left s) ∧ (AtRest s → s.base.handled = due (pdusOf none s.got) ∧ (SrvEnd.AllEnded s.base ∨ SrvEnd.Leaked s.base)) := by
  refine ⟨fun es s' ho hr => ?_, fun hr => ?_⟩
  · have := left_run ho hr
    omega
  · obtain ⟨es', a, h1, h2⟩ := sim_run pre h
    have hra := sim_rest h2 hd hr
    obtain ⟨⟨ps, rfl, -⟩, -⟩ := h2
    exact (SrvEnd.comes_to_rest es' _ h1 hd).2 hra

/-- **C211** If the peer has sent no PDU without octets, all goroutines of the connection end, and all indications return.
Missing: after a PDU without octets the recombining goroutine stays if more than 16 PDUs follow (`goroutine_leaks`). -/
theorem all_end_partial (es : List Ev) (s : State) (h : run init es = some s) (hd : s.base.up = false) (he : Pdu.empty ∉ pdusOf none s.got) (hr : AtRest s) : SrvEnd.AllEnded s.base := by
  obtain ⟨es', a, h1, h2⟩ := sim_run es h
  have hra := sim_rest h2 hd hr
  obtain ⟨⟨ps, rfl, -⟩, -⟩ := h2
  have := SrvEnd.all_end_partial es' (abs s ps) h1 hd he hra
  exact this

/-- **C211** The library has a way to come to rest from every state. -/
theorem can_rest (s : State) : ∃ es s', (∀ e ∈ es, Own e) ∧ run s es = some s' ∧ AtRest s' := by
  have key : ∀ n (t : State), left t ≤ n → ∃ es s', (∀ e ∈ es, Own e) ∧ run t es = some s' ∧ AtRest s' := by
    intro n
    induction n with
    | zero =>
      intro t hl
      refine ⟨[], t, by simp, rfl, fun e he => ?_⟩
      cases hs : step t e with
      | none => rfl
      | some t' => have := left_step he hs; omega
    | succ n ih =>
      intro t hl
      by_cases hr : AtRest t
      · exact ⟨[], t, by simp, rfl, hr⟩
      · obtain ⟨e, he⟩ := Classical.not_forall.1 hr
        obtain ⟨he, hs⟩ := Classical.not_imp.1 he
        obtain ⟨t', ht'⟩ := Option.ne_none_iff_exists'.1 hs
        have h1 := left_step he ht'
        obtain ⟨es, s', h3, h4, h5⟩ := ih t' (by omega)
        refine ⟨e :: es, s', ?_, ?_, h5⟩
        · intro x hx
          rcases List.mem_cons.1 hx with rfl | hx
          · exact he
          · exact h3 x hx
        · simp only [run, runT, ht']
          exact h4
  exact key _ s (Nat.le_refl _)

/-- The first packet of a request that takes `k` packets more. -/
def req (n k : Nat) : Frag := ⟨false, some (.req n), k⟩

/-- A continuing packet; read as a first one it would be a PDU of an unknown channel. -/
def more : Frag := ⟨true, none, 0⟩

/-- A request in three packets, a PDU of another channel in two, a request in one, and a request whose last packet never arrives. -/
def packets : List Frag := [req 1 2, more, more, ⟨false, none, 1⟩, more, req 2 0, req 3 1]

def busy : List Ev := packets.map .arrive ++ [.take, .take, .other .down, .take, .other .push, .other (.read false), .other .give, .other .swap, .take, .take, .take, .other .push, .other .handle, .other .giveBack, .other (.read false), .other .give, .other .handle,
  .other .giveBack, .other .swap, .take, .recEnd, .other (.read false), .other .close, .other .hangup, .other .loopEnd, .other .clean]

/-- Requests in fragments are handled, the unfinished one is not, and everything ends. -/
theorem fragments_example : ∃ s, run init busy = some s ∧ s.base.up = false ∧ pdusOf none s.got = [.req 1, .req 2] ∧ s.base.handled = [1, 2] ∧ SrvEnd.AllEnded s.base :=
  ⟨_, rfl, rfl, rfl, rfl, rfl, rfl, rfl, rfl, rfl⟩

/-- A request interrupted by the first packet of another one ends the connection; neither is handled. -/
theorem interrupted_example : ∃ s, run init [.arrive (req 1 1), .arrive (req 2 0), .take, .take] = some s ∧ s.base.up = false ∧ s.base.rdr = .ended ∧ due (pdusOf none s.got) = [] :=
  ⟨_, rfl, rfl, rfl, rfl⟩

/-- The goroutine that stays, in this model: 17 confirmations in two packets each after a PDU without octets. -/
theorem goroutine_leaks : ∃ es s, run init es = some s ∧ s.base.up = false ∧ SrvEnd.Leaked s.base := by
  refine ⟨[.arrive ⟨false, some .empty, 0⟩, .take, .other .push, .other (.read false), .other .close, .other .hangup, .other .loopEnd, .other .clean] ++
    (List.replicate 16 [Ev.arrive ⟨false, some .conf, 1⟩, .arrive more, .take, .take, .other .push]).flatten ++ [.arrive ⟨false, some .conf, 1⟩, .arrive more, .take, .take, .other .down], _, rfl, rfl, ⟨_, rfl⟩, rfl, rfl, rfl, rfl, rfl⟩

end Ble.SrvFrag
