import Verif.Client.Async
set_option autoImplicit false

/-! # C61: a central answers the peripheral's requests -/

namespace Ble.Props

open Ble.Att (Server handleRequest reject errReqNotSupp)
open Ble.Client

/-- The specification: the server handles the PDUs one after the other; its responses, oldest first. -/
def serve {σ : Type} (s : Server σ) : List Bytes → Go Empty (Server σ × List Bytes)
  | [] => .ok (s, [])
  | b :: bs => do
    let (s', o) ← handleRequest s b
    let (s'', os) ← serve s' bs
    pure (s'', o.toList ++ os)

/-- A PDU with an even opcode. -/
def IsReq (b : Bytes) : Bool := match b with
  | op :: _ => op &&& 1 == 0
  | [] => false

namespace AsyncAux

theorem classify_request {b : Bytes} : classify b = .ok .request ↔ IsReq b = true := by
  cases b with
  | nil => simp [classify, IsReq, index, Bind.bind, Go.bind]
  | cons op t =>
    simp only [classify, IsReq, index, List.getElem?_cons_zero, Go.bind_ok]
    by_cases h : op &&& 1 = 0
    · simp [h, pure]
    · simp only [h, if_false, beq_iff_eq]
      split <;> simp [pure]

theorem serve_append {σ : Type} (s : Server σ) (a b : List Bytes) :
    serve s (a ++ b) = (do let (s', x) ← serve s a; let (s'', y) ← serve s' b; pure (s'', x ++ y)) := by
  induction a generalizing s with
  | nil =>
    simp only [List.nil_append, serve, Go.bind_ok, List.nil_append]
    cases serve s b with
    | ok x => rfl
    | err e => rfl
    | panic => rfl
  | cons q a ih =>
    simp only [List.cons_append, serve]
    cases handleRequest s q with
    | ok x =>
      simp only [Go.bind_ok, ih]
      cases serve x.1 a with
      | ok y =>
        simp only [Go.bind_ok, pure]
        cases serve y.1 b with
        | ok z => simp [Bind.bind, Go.bind]
        | err e => rfl
        | panic => rfl
      | err e => rfl
      | panic => rfl
    | err e => rfl
    | panic => rfl

structure AInv {σ : Type} (s0 : Server σ) (c : Central σ) : Prop where
  srv : ∀ srv, c.server = some srv → serve s0 c.taken = .ok (srv, c.answers ++ c.held.toList)
  none : c.server = none → c.taken = [] ∧ c.answers = [] ∧ c.held = none
  sub : (c.taken ++ c.net.inc).Sublist (c.net.seen.filter IsReq)

/-- What a step of the connection does to the queue of requests and to the PDUs read. -/
theorem net_inc {s t : Net} {e : Ev} (h : step s e = some t) :
    (t.inc = s.inc ∧ t.seen = s.seen) ∨
      (e = .read ∧ ∃ b, t.seen = s.seen ++ [b] ∧ ((IsReq b = false ∧ t.inc = s.inc) ∨ (IsReq b = true ∧ t.inc = if s.inc.length < 10 then s.inc ++ [b] else s.inc))) := by
  cases e <;> simp only [step] at h
  case read =>
    right
    split at h
    · rename_i m rest ho hwire
      split at h
      · rename_i hcl
        injection h with h; subst h
        exact ⟨rfl, m.pdu, rfl, .inr ⟨classify_request.1 hcl, rfl⟩⟩
      · rename_i ind hcl
        injection h with h; subst h
        refine ⟨rfl, m.pdu, rfl, .inl ⟨?_, rfl⟩⟩
        cases hb : IsReq m.pdu with
        | false => rfl
        | true => rw [classify_request.2 hb] at hcl; cases hcl
      · rename_i hcl
        injection h with h; subst h
        refine ⟨rfl, m.pdu, rfl, .inl ⟨?_, rfl⟩⟩
        cases hb : IsReq m.pdu with
        | false => rfl
        | true => rw [classify_request.2 hb] at hcl; cases hcl
      · cases h
    · cases h
  all_goals left
  case receive =>
    split at h
    · injection h with h; subst h
      simp only [Net.receive]; split <;> exact ⟨rfl, rfl⟩
    · cases h
  all_goals
    repeat' split at h
    all_goals first
      | (injection h with h; subst h; exact ⟨rfl, rfl⟩)
      | cases h

theorem ainv_step {σ : Type} {s0 : Server σ} {c d : Central σ} {e : CEv} (hi : AInv s0 c) (h : cstep s0 c e = some d) : AInv s0 d := by
  obtain ⟨h1, h2, h3⟩ := hi
  cases e <;> simp only [cstep] at h
  case net ev =>
    split at h
    · cases h
    · cases hs : step c.net ev with
      | none => rw [hs] at h; cases h
      | some n =>
        rw [hs] at h; simp only [Option.map_some, Option.some.injEq] at h; subst h
        refine ⟨h1, h2, ?_⟩
        show (c.taken ++ n.inc).Sublist (n.seen.filter IsReq)
        rcases net_inc hs with ⟨hinc, hseen⟩ | ⟨-, b, hseen, hb | hb⟩
        · rw [hinc, hseen]; exact h3
        · rw [hb.2, hseen, List.filter_append]; exact h3.trans (List.sublist_append_left _ _)
        · rw [hb.2, hseen, List.filter_append]
          have hfb : [b].filter IsReq = [b] := by simp [hb.1]
          rw [hfb]
          split
          · rw [← List.append_assoc]; exact h3.append (List.Sublist.refl _)
          · exact h3.trans (List.sublist_append_left _ _)
  case attach =>
    split at h
    · rename_i hn
      injection h with h; subst h
      obtain ⟨ht, ha, hh⟩ := h2 hn
      exact ⟨(fun srv hsrv => by cases hsrv; simp [ht, ha, hh, serve]), (fun hx => by cases hx), h3⟩
    · cases h
  case start =>
    split at h
    · injection h with h; subst h; exact ⟨h1, h2, h3⟩
    · cases h
  case take =>
    split at h
    · rename_i srv b rest hl hh hs hinc
      split at h
      · rename_i srv' o hr
        injection h with h; subst h
        refine ⟨fun srv2 h2' => ?_, fun hx => by simp at hx, ?_⟩
        · simp only [Option.some.injEq] at h2'; subst h2'
          have := h1 srv hs
          rw [serve_append, this]
          simp [Go.bind_ok, serve, hr, hh, pure, Option.toList]
        · show ((c.taken ++ [b]) ++ rest).Sublist _
          rw [List.append_assoc]; rw [hinc] at h3; exact h3
      · cases h
    · cases h
  case respond =>
    split at h
    · rename_i r hh hw
      injection h with h; subst h
      refine ⟨fun srv hs => ?_, fun hx => ?_, h3⟩
      · have := h1 srv hs
        rw [hh] at this
        simpa using this
      · have := (h2 hx).2.2; rw [hh] at this; cases this
    · cases h
  case indicate =>
    split at h
    · injection h with h; subst h; exact ⟨h1, h2, h3⟩
    · cases h
  case indTimeout =>
    split at h
    · injection h with h; subst h; exact ⟨h1, h2, h3⟩
    · cases h

theorem crun_append {σ : Type} (s0 : Server σ) (c : Central σ) (a b : List CEv) : crun s0 c (a ++ b) = (crun s0 c a).bind fun d => crun s0 d b := by
  induction a generalizing c with
  | nil => rfl
  | cons e a ih =>
    simp only [List.cons_append, crun]
    cases cstep s0 c e with
    | none => rfl
    | some d => simpa using ih d

/-- A property kept by every step holds after every run. -/
theorem cinv {σ : Type} {s0 : Server σ} {P : Central σ → Prop} (hs : ∀ c d e, P c → cstep s0 c e = some d → P d) (evs : List CEv) {c : Central σ} :
    ∀ d, P c → crun s0 c evs = some d → P d := by
  induction evs generalizing c with
  | nil => intro d hc h; cases h; exact hc
  | cons e evs ih =>
    intro d hc h
    simp only [crun] at h
    cases he : cstep s0 c e with
    | none => rw [he] at h; cases h
    | some c' => rw [he] at h; exact ih d (hs c c' e hc he) h

end AsyncAux

open AsyncAux

variable {σ : Type}

/-- **C61** (part). At any time the responses sent, and the one waiting to be sent, are the server's responses to some of the requests received, in the order of the requests, each once: the
requests `taken`. The rest are still queued or were dropped. Missing: "all requests", see `central_answers_all_partial`, `central_without_server`. -/
theorem central_answers_in_order_partial (s0 : Server σ) (evs : List CEv) (c : Central σ) (h : crun s0 {} evs = some c) :
    (∃ srv, serve s0 c.taken = .ok (srv, c.answers ++ c.held.toList)) ∧ (c.taken ++ c.net.inc).Sublist (c.net.seen.filter IsReq) := by
  have hi : AInv s0 c := cinv (P := AInv s0) (fun _ _ _ => ainv_step) evs c ⟨(fun _ hh => by cases hh), fun _ => ⟨rfl, rfl, rfl⟩, by simp⟩ h
  refine ⟨?_, hi.sub⟩
  cases hs : c.server with
  | none => obtain ⟨h1, h2, h3⟩ := hi.none hs; exact ⟨s0, by simp [h1, h2, h3, serve]⟩
  | some srv => exact ⟨srv, hi.srv srv hs⟩

/-- **C61** (part: at most ten requests waiting). If the queue never held ten requests, none was dropped: all that were received were answered or are queued. -/
theorem central_answers_all_partial (s0 : Server σ) (evs : List CEv) (c : Central σ) (h : crun s0 {} evs = some c)
    (hroom : ∀ p q d, evs = p ++ q → crun s0 {} p = some d → d.net.inc.length < 10) : c.taken ++ c.net.inc = c.net.seen.filter IsReq := by
  have key : ∀ q p c0, evs = p ++ q → crun s0 {} p = some c0 → c0.taken ++ c0.net.inc = c0.net.seen.filter IsReq → crun s0 c0 q = some c →
      c.taken ++ c.net.inc = c.net.seen.filter IsReq := by
    intro q
    induction q with
    | nil => intro p c0 _ _ h0 h; cases h; exact h0
    | cons e q ih =>
      intro p c0 hev hp h0 h
      simp only [crun] at h
      cases he : cstep s0 c0 e with
      | none => rw [he] at h; cases h
      | some c1 =>
        rw [he] at h
        have hroom0 := hroom p (e :: q) c0 hev hp
        refine ih (p ++ [e]) c1 (by rw [hev]; simp) (by rw [crun_append, hp]; simp [crun, he]) ?_ h
        cases e <;> simp only [cstep] at he
        case net ev =>
          split at he
          · cases he
          · cases hs : step c0.net ev with
            | none => rw [hs] at he; cases he
            | some n =>
              rw [hs] at he; simp only [Option.map_some, Option.some.injEq] at he; subst he
              show c0.taken ++ n.inc = n.seen.filter IsReq
              rcases net_inc hs with ⟨hinc, hseen⟩ | ⟨-, b, hseen, hb | hb⟩
              · rw [hinc, hseen]; exact h0
              · rw [hb.2, hseen, List.filter_append, ← h0]; simp [hb.1]
              · rw [hb.2, hseen, List.filter_append, ← h0, if_pos hroom0]; simp [hb.1]
        case take =>
          split at he
          · rename_i hinc
            split at he
            · injection he with he; subst he
              simp only at *
              rw [hinc] at h0; simpa using h0
            · cases he
          · cases he
        all_goals
          repeat' split at he
          all_goals first
            | (injection he with he; subst he; exact h0)
            | cases he
  exact key evs [] {} rfl rfl rfl h

/-- **C61** (progress). When the client has no call of its own in flight and the server does not crash on the queued requests, the queue can be worked off: there is a schedule that sends exactly
the server's responses to them. -/
theorem central_works_off_queue (s0 srv srv' : Server σ) (c : Central σ) (outs : List Bytes) (hl : c.loop = some true) (hs : c.server = some srv) (hh : c.held = none)
    (hw : c.net.waiting = none) (hok : serve srv c.net.inc = .ok (srv', outs)) :
    ∃ evs d, crun s0 c evs = some d ∧ d.answers = c.answers ++ outs ∧ d.net.inc = [] ∧ d.server = some srv' := by
  generalize hq : c.net.inc = l at hok
  induction l generalizing c srv outs with
  | nil =>
    simp only [serve, Go.ok.injEq, Prod.mk.injEq] at hok
    exact ⟨[], c, rfl, by rw [← hok.2]; simp, hq, by rw [hs, hok.1]⟩
  | cons b l ih =>
    simp only [serve] at hok
    obtain ⟨⟨s1, o⟩, h1, hok⟩ := Go.bind_eq_ok.1 hok
    obtain ⟨⟨s2, os⟩, h2, hok⟩ := Go.bind_eq_ok.1 hok
    simp only [pure, Go.ok.injEq, Prod.mk.injEq] at hok
    obtain ⟨hok1, hok2⟩ := hok
    subst hok1
    have htake : cstep s0 c .take = some { c with server := some s1, held := o, taken := c.taken ++ [b], net := { c.net with inc := l } } := by
      simp only [cstep, hl, hh, hs, hq, h1]
    cases o with
    | none =>
      obtain ⟨evs, d, h3, h4, h5, h6⟩ := ih s1 { c with server := some s1, held := none, taken := c.taken ++ [b], net := { c.net with inc := l } } os hl rfl rfl hw rfl h2
      refine ⟨.take :: evs, d, by simp only [crun, htake, Option.bind_some]; exact h3, ?_, h5, h6⟩
      rw [h4, ← hok2]; simp
    | some r =>
      obtain ⟨evs, d, h3, h4, h5, h6⟩ := ih s1 { c with server := some s1, held := none, taken := c.taken ++ [b], answers := c.answers ++ [r], net := { c.net with inc := l, sent := c.net.sent ++ [r] } } os hl rfl rfl hw rfl h2
      refine ⟨.take :: .respond :: evs, d, ?_, ?_, h5, h6⟩
      · have hresp : cstep s0 { c with server := some s1, held := some r, taken := c.taken ++ [b], net := { c.net with inc := l } } .respond =
            some { c with server := some s1, held := none, taken := c.taken ++ [b], answers := c.answers ++ [r], net := { c.net with inc := l, sent := c.net.sent ++ [r] } } := by
          simp only [cstep, hw]
        simp only [crun, htake, hresp, Option.bind_some]
        exact h3
      · rw [h4, ← hok2]; simp

/-- **C61** fails (start of `Loop`). The client's `Loop` looks for the server once, when it starts, and `Dial` attaches the server after it has started the goroutine. If the goroutine is faster, no
request of the peer is ever answered. -/
theorem central_without_server (s0 : Server σ) (pre evs : List CEv) (c d : Central σ) (hp : crun s0 {} pre = some c) (hs : c.server = none) (hl : c.loop = none)
    (h : crun s0 c (.start :: evs) = some d) : d.answers = [] ∧ d.taken = [] := by
  have hi : AInv s0 c := cinv (P := AInv s0) (fun _ _ _ => ainv_step) pre c ⟨(fun _ hh => by cases hh), fun _ => ⟨rfl, rfl, rfl⟩, by simp⟩ hp
  have h0 := hi.none hs
  simp only [crun, cstep, hl, hs, Option.bind_some, Option.isSome_none] at h
  have key := cinv (s0 := s0) (c := { c with loop := some false }) (P := fun c => c.loop = some false ∧ c.answers = [] ∧ c.taken = [] ∧ c.held = none) ?_ evs d ⟨rfl, h0.2.1, h0.1, h0.2.2⟩ (by rw [← h, hs])
  · exact ⟨key.2.1, key.2.2.1⟩
  · intro c d e ⟨h1, h2, h3, h4⟩ he
    cases e <;> simp only [cstep, h1, h4] at he
    case net ev =>
      split at he
      · cases he
      · cases hst : step c.net ev with
        | none => rw [hst] at he; cases he
        | some n => rw [hst] at he; simp only [Option.map_some, Option.some.injEq] at he; subst he; first | exact ⟨h1, h2, h3, h4⟩ | exact ⟨rfl, h2, h3, rfl⟩
    all_goals
      repeat' split at he
      all_goals first
        | (injection he with he; subst he; first | exact ⟨h1, h2, h3, h4⟩ | exact ⟨rfl, h2, h3, rfl⟩)
        | cases he

/-- Such a run: the goroutine starts, then the server is attached, then the peer sends a Read Request that is read and stays. -/
example (s0 : Server σ) : ∃ c, crun s0 {} [.start, .attach, .net (.push [0x0A, 1, 0]), .net .read] = some c ∧ c.net.inc = [[0x0A, 1, 0]] ∧ c.server = some s0 := ⟨_, rfl, rfl, rfl⟩

/-- **C61** fails (own calls). A response waits until the client's own call returns: as long as the call neither gets a response nor times out, nothing is answered. With a peer that answers only
after it was answered both wait for 2 s. -/
theorem central_answer_waits_for_own_call (s0 : Server σ) (evs : List CEv) (c d : Central σ) (i : Nat) (op : UInt8) (hw : c.net.waiting = some (i, op))
    (hne : ∀ e ∈ evs, e ≠ .net .receive ∧ e ≠ .net .timeout) (h : crun s0 c evs = some d) : d.answers = c.answers ∧ d.net.waiting = some (i, op) := by
  induction evs generalizing c with
  | nil => cases h; exact ⟨rfl, hw⟩
  | cons e evs ih =>
    simp only [crun] at h
    cases he : cstep s0 c e with
    | none => rw [he] at h; cases h
    | some c1 =>
      rw [he] at h
      have hn := hne e (by simp)
      have key : c1.answers = c.answers ∧ c1.net.waiting = some (i, op) := by
        cases e <;> simp only [cstep] at he
        case net ev =>
          split at he
          · cases he
          · cases hst : step c.net ev with
            | none => rw [hst] at he; cases he
            | some n =>
              rw [hst] at he; simp only [Option.map_some, Option.some.injEq] at he; subst he
              refine ⟨rfl, ?_⟩
              show n.waiting = some (i, op)
              cases ev <;> simp only [step] at hst
              case receive => exact absurd rfl hn.1
              case timeout => exact absurd rfl hn.2
              all_goals
                repeat' split at hst
                all_goals first
                  | (injection hst with hst; subst hst; exact hw)
                  | contradiction
                  | (injection hst with hst; subst hst; simp_all [Net.request, Net.value])
        all_goals
          repeat' split at he
          all_goals first
            | (injection he with he; subst he; exact ⟨rfl, hw⟩)
            | (simp_all; done)
            | cases he
      obtain ⟨h1, h2⟩ := ih c1 key.2 (fun e he => hne e (by simp [he])) h
      exact ⟨by rw [h1, key.1], h2⟩

/-- A state with a call in flight and a request of the peer taken: it can be reached. -/
theorem example_call_and_request (s0 : Server σ) : ∃ c, crun s0 {} [.attach, .start, .net (.call [0x0A, 3, 0]), .net (.push [0x1E]), .net .read, .take] = some c ∧ c.net.waiting = some (0, 0x0A) ∧ c.held.isSome := ⟨_, rfl, rfl, rfl⟩

/-- **C61** fails (confirmations). The peer's confirmation of an indication has an even opcode and is answered with an Error Response, which the specification forbids. -/
theorem central_answers_confirmation (s : Server σ) (t : Bytes) : serve s [0x1E :: t] = .ok (s, [[0x01, 0x1E, 0, 0, 0x06]]) := by
  simp [serve, handleRequest, reject, errReqNotSupp, Ble.Att.errorRsp, put16, Go.bind_ok, pure]

/-- Every indication is accounted for: its call waits or has returned. -/
theorem central_indications_counted (s0 : Server σ) (evs : List CEv) (c : Central σ) (h : crun s0 {} evs = some c) :
    (evs.filter fun e => match e with | .indicate _ _ => true | _ => false).length = c.indWaiting + c.indResults.length := by
  have key : ∀ (evs : List CEv) (c0 c : Central σ), crun s0 c0 evs = some c →
      (evs.filter fun e => match e with | .indicate _ _ => true | _ => false).length + (c0.indWaiting + c0.indResults.length) = c.indWaiting + c.indResults.length := by
    intro evs
    induction evs with
    | nil => intro c0 c h; simp only [crun, Option.some.injEq] at h; subst h; simp
    | cons e es ih =>
      intro c0 c h
      simp only [crun, Option.bind_eq_some_iff] at h
      obtain ⟨c1, h1, h2⟩ := h
      have := ih c1 c h2
      cases e <;> simp only [cstep] at h1 <;> (repeat' split at h1) <;>
        simp only [Option.some.injEq, reduceCtorEq, Option.map_eq_some_iff] at h1 <;>
        (first | (obtain ⟨n, -, h1⟩ := h1; subst h1) | subst h1) <;>
        simp [List.filter_cons] at this ⊢ <;> omega
  simpa using key evs {} c h

/-- **C61** fails (indications of a central). Whatever the peer does, an indication sent on a dialled connection is never reported as confirmed: no call of `indicate` returns success. -/
theorem central_indication_never_succeeds (s0 : Server σ) (evs : List CEv) (c : Central σ) (h : crun s0 {} evs = some c) : ∀ r ∈ c.indResults, r = false := by
  refine cinv (s0 := s0) (P := fun c => ∀ r ∈ c.indResults, r = false) ?_ evs c (by simp) h
  intro c d e hc he
  cases e <;> simp only [cstep] at he
  case net ev =>
    split at he
    · cases he
    · cases hst : step c.net ev with
      | none => rw [hst] at he; cases he
      | some n => rw [hst] at he; simp only [Option.map_some, Option.some.injEq] at he; subst he; exact hc
  case indTimeout =>
    split at he
    · injection he with he; subst he
      intro r hr
      rcases List.mem_append.1 hr with hr | hr
      · exact hc r hr
      · simpa using hr
    · cases he
  all_goals
    repeat' split at he
    all_goals first
      | (injection he with he; subst he; exact hc)
      | cases he

end Ble.Props
