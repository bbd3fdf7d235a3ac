import Verif.Att.SrvAnswers
import Verif.Props.SrvBytes
set_option autoImplicit false

/-!
# C214: what a central is answered
-/

namespace Ble.SrvAnswers

open Ble.Att (Server)
open Ble.SrvEnd (due)
open Ble.SrvBytes (Packet pdusOf)
open Ble.Props (Arrival)

variable {σ : Type}

theorem unname_name (b : Bytes) : unname (name b) = b := by
  have key : ∀ (b : Bytes) (f : Nat), name b ≤ f → unnameAux f (name b) = b := by
    intro b
    induction b with
    | nil => intro f _; cases f <;> rfl
    | cons x xs ih =>
      intro f hf
      have hx : x.toNat < 256 := x.toNat_lt
      have h1 : (name xs * 256 + x.toNat) % 256 = x.toNat := by omega
      have h2 : (name xs * 256 + x.toNat) / 256 = name xs := by omega
      rw [name] at hf ⊢
      cases f with
      | zero => omega
      | succ f =>
        rw [unnameAux, h1, h2, ih f (by omega)]
        simp
  exact key b _ (Nat.le_refl _)

/-! ## Specification -/

/-- The requests of a central among frames: the information of ATT frames that are not confirmations. -/
def requests (as : List Arrival) : List Bytes := (as.filter fun a => a.cid == 4 && a.info.head? != some 0x1e).map fun a => a.info

/-! ## Lemmas -/

theorem loop_append (s : Server σ) (xs ys : List Bytes) : Att.loop s (xs ++ ys) = (do
    let (s1, o1) ← Att.loop s xs
    let (s2, o2) ← Att.loop s1 ys
    pure (s2, o1 ++ o2)) := by
  induction xs generalizing s with
  | nil => cases hy : Att.loop s ys <;> simp [Att.loop, hy, pure, bind, Go.bind]
  | cons x xs ih =>
    simp only [List.cons_append, Att.loop]
    cases Att.loopStep s x with
    | ok r =>
      show (Att.loop r.1 (xs ++ ys)).bind _ = _
      rw [ih r.1]
      cases hx : Att.loop r.1 xs with
      | ok r1 =>
        show ((Att.loop r1.1 ys).bind _).bind _ = _
        cases hy : Att.loop r1.1 ys with
        | ok r2 => simp [Go.bind_ok, hx, hy, bind, pure, Go.bind]
        | err e => cases e
        | panic => simp [Go.bind_ok, hx, hy, bind, pure, Go.bind]
      | err e => cases e
      | panic => simp [hx, bind, pure, Go.bind]
    | err e => cases e
    | panic => rfl

theorem handled_srvEnd {b b' : SrvEnd.State} {e : SrvEnd.Ev} (h : SrvEnd.step b e = some b') : b.handled <+: b'.handled := by
  cases e <;> simp only [SrvEnd.step] at h <;> (repeat' split at h) <;> first
    | (cases h; done)
    | (obtain rfl := Option.some.inj h
       simp)

theorem handled_step {nm : Bytes → Nat} {s s' : SrvBytes.State} {e : SrvBytes.Ev} (h : SrvBytes.step nm s e = some s') : s.base.handled <+: s'.base.handled := by
  obtain ⟨-, h⟩ := SrvBytes.up_of_step h
  cases e with
  | arrive f =>
    simp only [SrvBytes.stepUp] at h
    split at h
    · cases h; exact List.prefix_rfl
    · cases h
  | take =>
    simp only [SrvBytes.stepUp] at h
    split at h
    · split at h
      · split at h <;> simp only [Option.some.injEq] at h <;> subst h
        · rename_i p _
          cases SrvBytes.classify nm p <;> exact List.prefix_rfl
        · exact List.prefix_rfl
        · exact List.prefix_rfl
        · exact List.prefix_rfl
      · cases h
    · cases h
  | recEnd =>
    simp only [SrvBytes.stepUp] at h
    split at h
    · cases h; exact List.prefix_rfl
    · cases h
  | other e =>
    cases e <;> simp only [SrvBytes.stepUp] at h <;> first
      | (cases h; done)
      | (split at h
         · rename_i b hb
           cases h
           exact handled_srvEnd hb
         · cases h)

structure Inv (srv0 : Server σ) (s : State σ) : Prop where
  ok : s.crashed = false → ∃ outs, Att.loop srv0 (s.base.base.handled.map unname) = .ok (s.srv, outs) ∧ s.sent = outs.flatten
  crash : s.crashed = true → Att.loop srv0 (s.base.base.handled.map unname) = .panic

theorem inv_run (srv0 : Server σ) : ∀ es s, run (init srv0) es = some s → SrvBytes.run name SrvBytes.init es = some s.base ∧ Inv srv0 s := by
  refine runT_ind (P := fun (es : List SrvBytes.Ev) (s : State σ) => SrvBytes.run name SrvBytes.init es = some s.base ∧ Inv srv0 s) ?_ ?_
  · exact ⟨rfl, fun _ => ⟨[], rfl, rfl⟩, by simp [init]⟩
  · rintro es s e s' - ⟨hr, hi⟩ h
    simp only [step] at h
    split at h
    · cases h
    · rename_i hc
      have hc : s.crashed = false := by simpa using hc
      split at h
      · cases h
      · rename_i b hb
        have hr' : SrvBytes.run name SrvBytes.init (es ++ [e]) = some b := runT_append.2 ⟨s.base, hr, by simp only [runT, hb]⟩
        obtain ⟨new, hnew⟩ := handled_step hb
        obtain ⟨outs, h1, h2⟩ := hi.ok hc
        have hd : b.base.handled.drop s.base.base.handled.length = new := by rw [← hnew, List.drop_left]
        have happ : Att.loop srv0 (b.base.handled.map unname) = (do
            let (s2, o2) ← Att.loop s.srv (new.map unname)
            pure (s2, outs ++ o2)) := by
          rw [← hnew, List.map_append, loop_append, h1]
          rfl
        rw [hd] at h
        cases hl : Att.loop s.srv (new.map unname) with
        | ok r =>
          rw [hl] at h happ
          simp only [Option.some.injEq] at h
          subst h
          refine ⟨hr', fun _ => ⟨outs ++ r.2, happ, ?_⟩, by simp⟩
          simp [h2]
        | err e => cases e
        | panic =>
          rw [hl] at h happ
          simp only [Option.some.injEq] at h
          subst h
          exact ⟨hr', by simp, fun _ => happ⟩

/-! ## Theorems -/

/-- **C214** At every time, what the server has written in answer, and the state it is in, is what it would be if the requests taken up so far had been given to it one after the other; these are the first ones of those received completely. -/
theorem answers_in_order (srv0 : Server σ) (es : List SrvBytes.Ev) (s : State σ) (h : run (init srv0) es = some s) (hc : s.crashed = false) :
    ∃ reqs outs, reqs.map name <+: due (pdusOf name none s.base.got) ∧ Att.loop srv0 reqs = .ok (s.srv, outs) ∧ s.sent = outs.flatten := by
  obtain ⟨hr, hi⟩ := inv_run srv0 es s h
  obtain ⟨outs, h1, h2⟩ := hi.ok hc
  have hp := SrvBytes.handled_in_order name es s.base hr
  refine ⟨s.base.base.handled.map unname, outs, ?_, h1, h2⟩
  have hall : ∀ n ∈ due (pdusOf name none s.base.got), ∃ b, n = name b := by
    intro n hn
    simp only [due, SrvEnd.reqs, List.mem_filterMap] at hn
    obtain ⟨p, hp1, hp2⟩ := hn
    have hp1 := List.takeWhile_subset _ hp1
    have key : ∀ fs st, p ∈ pdusOf name st fs → ∀ n, p = .req n → ∃ b, n = name b := by
      intro fs
      induction fs with
      | nil => intro st hx; simp [pdusOf] at hx
      | cons f fs ih =>
        intro st hx n hn
        simp only [pdusOf] at hx
        split at hx
        · rename_i q _
          rcases List.mem_append.1 hx with hx | hx
          · rw [Option.mem_toList] at hx
            subst hn
            simp only [SrvBytes.classify] at hx
            (repeat' split at hx) <;> simp at hx
            exact ⟨_, hx.symm⟩
          · exact ih _ hx n hn
        · exact ih _ hx n hn
        · rcases List.mem_cons.1 hx with hx | hx
          · rw [hn] at hx; cases hx
          · exact ih _ hx n hn
        · rcases List.mem_cons.1 hx with hx | hx
          · rw [hn] at hx; cases hx
          · exact ih _ hx n hn
    split at hp2
    · rename_i m
      cases hp2
      exact key _ _ hp1 _ rfl
    · cases hp2
  have hid : (s.base.base.handled.map unname).map name = s.base.base.handled := by
    rw [List.map_map]
    have : ∀ n ∈ s.base.base.handled, (name ∘ unname) n = n := by
      intro n hn
      obtain ⟨b, rfl⟩ := hall n (hp.subset hn)
      simp [unname_name]
    rw [List.map_congr_left this, List.map_id']
  rw [hid]
  exact hp

/-- **C214** A central that keeps to the specification: it sends frames on any channels, divided into packets in any way, none of its ATT PDUs is empty or longer than the connection and the server can take. When the connection has ended and the library has come to rest, the answers written are exactly those the attribute server gives
to the central's requests, octet for octet, one after the other, and the state of the server is that after the last; the program crashes only if the attribute server crashes on these requests.
Missing: a central that sends empty PDUs (`SrvFrag.goroutine_leaks`), and packets that make the program crash (`SrvBytes.crash_example`). -/
theorem answers_partial (srv0 : Server σ) (mps : Nat) (as : List Arrival) (hok : ∀ a ∈ as, a.ok mps) (hin : ∀ a ∈ as, a.cid = 4 → a.info ≠ [] ∧ a.info.length ≤ 515)
    (es : List SrvBytes.Ev) (s : State σ) (h : run (init srv0) es = some s) (hg : s.base.got.map Packet.bytes = as.flatMap (·.pkts)) (hm : ∀ f ∈ s.base.got, f.mps = mps) (hd : s.base.base.up = false)
    (hc : s.crashed = false) (hr : ∀ e, SrvBytes.Own e → step s e = none) :
    ∃ outs, Att.loop srv0 (requests as) = .ok (s.srv, outs) ∧ s.sent = outs.flatten ∧ SrvEnd.AllEnded s.base.base := by
  obtain ⟨hrun, hi⟩ := inv_run srv0 es s h
  have hrest : SrvBytes.AtRest name s.base := by
    intro e ho
    have := hr e ho
    simp only [step, hc] at this
    cases hs : SrvBytes.step name s.base e with
    | none => rfl
    | some b =>
      rw [hs] at this
      simp only [Bool.false_eq_true, if_false] at this
      split at this <;> cases this
  obtain ⟨-, h1, h2⟩ := SrvBytes.requests_handled_partial name mps as hok hin es s.base hrun hg hm hd hrest
  obtain ⟨outs, h3, h4⟩ := hi.ok hc
  refine ⟨outs, ?_, h4, h2⟩
  rw [← h3, h1, List.map_map]
  congr 1
  simp only [requests]
  refine List.map_congr_left fun a _ => ?_
  simp [unname_name]

/-- **C214** The program crashes in a handler of the attribute server only if the attribute server, given the first ones of the requests received one after the other, crashes. -/
theorem crashes_only_if (srv0 : Server σ) (es : List SrvBytes.Ev) (s : State σ) (h : run (init srv0) es = some s) (hc : s.crashed = true) :
    Att.loop srv0 (s.base.base.handled.map unname) = .panic ∧ s.base.base.handled <+: due (pdusOf name none s.base.got) := by
  obtain ⟨hrun, hi⟩ := inv_run srv0 es s h
  exact ⟨hi.crash hc, SrvBytes.handled_in_order name es s.base hrun⟩

/-! ## Example -/

/-- A server with nothing in its database. -/
def srv0 : Server Unit := ⟨⟨1, []⟩, 23, 23, none, [], ()⟩

/-- The packets of `SrvBytes.frames` arrive, a read request for attribute 3 among them; the answer is the error "invalid handle". The hypotheses of `answers_partial` are met (with `SrvBytes.frames_ok`). -/
theorem answers_example : ∃ s, run (init srv0) SrvBytes.busy = some s ∧ s.base.got.map Packet.bytes = SrvBytes.frames.flatMap (·.pkts) ∧ s.base.base.up = false ∧ s.crashed = false ∧ (∀ e, SrvBytes.Own e → step s e = none) ∧ s.sent = [[0x01, 0x0a, 3, 0, 0x01]] := by
  refine ⟨_, rfl, rfl, rfl, rfl, fun e ho => ?_, rfl⟩
  cases e with
  | arrive f => cases ho
  | other e => cases e <;> first | (cases ho; done) | rfl
  | _ => rfl

end Ble.SrvAnswers
