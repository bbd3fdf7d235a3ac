import Verif.Hci.DialConn
set_option autoImplicit false

/-! # C59: a successful `Dial` returns a client of the peer that was dialled -/

namespace Ble.Props.DialConnAux
open Ble.DialConn

/-- Nothing is going on outside the phase. -/
def Quiet (s : St) : Prop := s.ctl = none ∧ s.held = [] ∧ s.chan = none

/-- The connection to `a` is in exactly one place: being made, made, announced (then the queue is `q`), or handed over. -/
def Somewhere (s : St) (a : Peer) (pre post : List Ev) : Prop :=
  (s.ctl = some a ∧ s.held = [] ∧ s.chan = none ∧ s.evq = pre ++ post) ∨
  (s.ctl = none ∧ s.held = [a] ∧ s.chan = none ∧ s.evq = pre ++ post) ∨
  (s.ctl = none ∧ s.held = [] ∧ s.chan = none ∧ s.evq = pre ++ .conn a :: post) ∨
  (s.ctl = none ∧ s.held = [] ∧ s.chan = some a ∧ s.evq = post ∧ pre = [])

def Inv (s : St) : Prop :=
  s.dropped = [] ∧ (∀ x ∈ s.log, x.2 = none ∨ x.2 = some x.1) ∧
  match s.phase with
  | .idle => s.cmd = none ∧ s.evq = [] ∧ Quiet s
  | .creating a => (s.cmd = some (.create a) ∧ s.evq = [] ∧ Quiet s) ∨ (s.cmd = none ∧ Somewhere s a [.created true] [])
  | .waiting a => s.cmd = none ∧ Somewhere s a [] []
  | .cancelling a => (s.cmd = some .cancel ∧ Somewhere s a [] []) ∨ (s.cmd = none ∧ Quiet s ∧ s.evq = [.cancelled true]) ∨
      (s.cmd = none ∧ s.ctl = none ∧ s.held = [] ∧ s.chan = none ∧ s.evq = [.conn a, .cancelled false]) ∨
      (s.cmd = none ∧ s.ctl = none ∧ s.held = [] ∧ s.chan = some a ∧ s.evq = [.cancelled false])
  | .grace a => s.cmd = none ∧ s.ctl = none ∧ s.held = [] ∧ s.chan = some a ∧ s.evq = []

theorem log_snoc {log : List (Peer × Option Peer)} (h : ∀ x ∈ log, x.2 = none ∨ x.2 = some x.1) (a : Peer) (r : Option Peer) (hr : r = none ∨ r = some a) :
    ∀ x ∈ log ++ [(a, r)], x.2 = none ∨ x.2 = some x.1 := by
  intro x hx
  rcases List.mem_append.1 hx with hx | hx
  · exact h x hx
  · simp at hx; subst hx; exact hr

theorem inv_step {s t : St} (hi : Inv s) (h : Step true s t) : Inv t := by
  obtain ⟨hd, hl, hp⟩ := hi
  cases h with
  | dial a h1 =>
    rw [h1] at hp
    exact ⟨hd, hl, .inl ⟨rfl, hp.2.1, hp.2.2⟩⟩
  | ctlCreate a h1 h2 =>
    cases hph : s.phase <;> rw [hph] at hp <;> simp only [Quiet, Somewhere] at hp <;> grind [Inv, Quiet, Somewhere]
  | ctlConnect a h1 =>
    cases hph : s.phase <;> rw [hph] at hp <;> simp only [Quiet, Somewhere] at hp <;> grind [Inv, Quiet, Somewhere]
  | ctlAnnounce a r h1 =>
    cases hph : s.phase <;> rw [hph] at hp <;> simp only [Quiet, Somewhere] at hp <;> grind [Inv, Quiet, Somewhere]
  | ctlCancel h1 h2 =>
    cases hph : s.phase <;> rw [hph] at hp <;> simp only [Quiet, Somewhere] at hp <;> grind [Inv, Quiet, Somewhere]
  | created a ok r h1 h2 =>
    rw [h1] at hp; simp only [Quiet, Somewhere] at hp
    grind [Inv, Quiet, Somewhere, St.finish, log_snoc]
  | cancelled a ok r h1 h2 =>
    rw [h1] at hp; simp only [Quiet, Somewhere] at hp
    grind [Inv, Quiet, Somewhere, St.finish, log_snoc]
  | push c r h1 h2 =>
    cases hph : s.phase <;> rw [hph] at hp <;> simp only [Quiet, Somewhere] at hp <;> grind [Inv, Quiet, Somewhere]
  | drop c d r h1 h2 =>
    cases hph : s.phase <;> rw [hph] at hp <;> simp only [Quiet, Somewhere] at hp <;> grind [Inv, Quiet, Somewhere]
  | take a c h1 h2 =>
    rw [h1] at hp; simp only [Quiet, Somewhere] at hp
    grind [Inv, Quiet, Somewhere, St.finish, log_snoc]
  | interrupt a h1 =>
    rw [h1] at hp; simp only [Quiet, Somewhere] at hp
    grind [Inv, Quiet, Somewhere]
  | takeLate a c h1 h2 =>
    rw [h1] at hp; simp only [Quiet, Somewhere] at hp
    grind [Inv, Quiet, Somewhere, St.finish, log_snoc]
  | giveUp a h1 h2 =>
    rw [h1] at hp; simp only [Quiet, Somewhere] at hp
    grind [Inv, Quiet, Somewhere, St.finish, log_snoc]

theorem inv_reach {s : St} (h : Reach true s) : Inv s := by
  induction h with
  | init => exact ⟨rfl, by simp [init], rfl, rfl, rfl, rfl, rfl⟩
  | step s t _ hs ih => exact inv_step ih hs

end Ble.Props.DialConnAux

namespace Ble.Props.DialConnAux
open Ble.DialConn

/-- The address of the call in progress. -/
def cur : Phase → List Peer
  | .idle => []
  | .creating a => [a]
  | .waiting a => [a]
  | .cancelling a => [a]
  | .grace a => [a]

/-- The addresses dialled so far. -/
def dialled (s : St) : List Peer := s.log.map (·.1) ++ cur s.phase

def Known (s : St) : Prop :=
  (∀ a, s.cmd = some (.create a) → a ∈ dialled s) ∧ (∀ a, s.ctl = some a → a ∈ dialled s) ∧ (∀ a ∈ s.held, a ∈ dialled s) ∧
  (∀ a, Ev.conn a ∈ s.evq → a ∈ dialled s) ∧ (∀ a, s.chan = some a → a ∈ dialled s) ∧ (∀ x ∈ s.log, ∀ c, x.2 = some c → c ∈ dialled s)

theorem known_step {p : Bool} {s t : St} (hi : Known s) (h : Step p s t) : Known t := by
  cases h with
  | created a ok r h1 h2 => cases ok <;> grind [Known, dialled, cur, St.finish, List.mem_append, List.mem_map]
  | cancelled a ok r h1 h2 => cases ok <;> grind [Known, dialled, cur, St.finish, List.mem_append, List.mem_map]
  | _ => grind [Known, dialled, cur, St.finish, List.mem_append, List.mem_map]

theorem known_reach {p : Bool} {s : St} (h : Reach p s) : Known s := by
  induction h with
  | init => simp [Known, init]
  | step s t _ hs ih => exact known_step ih hs

/-- The state left behind: idle, with a connection in the channel that nobody waits for. -/
def Stale (c : Peer) (s : St) : Prop := s.phase = .idle ∧ s.cmd = none ∧ s.ctl = none ∧ s.held = [] ∧ s.evq = [] ∧ s.chan = some c

end Ble.Props.DialConnAux

namespace Ble.Props
open Ble.DialConn DialConnAux

/-- C59 when the controller raises the events of the connections it has made before it answers a command: in every execution, every successful `Dial` returned a client of the peer that was
dialled, no connection was lost, and a finished call leaves nothing behind (no connection attempt in the controller, no connection in the channel). Missing: controllers that announce a connection
more than 50 ms after they refused to cancel it. -/
theorem dial_right_peer_partial (s : St) (h : Reach true s) :
    (∀ a c, (a, some c) ∈ s.log → c = a) ∧ s.dropped = [] ∧ (s.phase = .idle → s.ctl = none ∧ s.held = [] ∧ s.evq = [] ∧ s.chan = none) := by
  obtain ⟨h1, h2, h3⟩ := inv_reach h
  refine ⟨fun a c hm => ?_, h1, fun hp => ?_⟩
  · simpa using h2 _ hm
  · rw [hp] at h3
    exact ⟨h3.2.2.1, h3.2.2.2.1, h3.2.1, h3.2.2.2.2⟩

/-- C59, any controller: the client of a successful `Dial` is a client of a peer that was dialled, then or before. -/
theorem dial_returns_some_dialled_peer (p : Bool) (s : St) (h : Reach p s) (a c : Peer) (hm : (a, some c) ∈ s.log) :
    c ∈ s.log.map (·.1) ∨ s.phase = .creating c ∨ s.phase = .waiting c ∨ s.phase = .cancelling c ∨ s.phase = .grace c := by
  have := (known_reach h).2.2.2.2.2 _ hm c rfl
  simp only [dialled, List.mem_append] at this
  rcases this with h | h
  · exact .inl h
  · cases hp : s.phase <;> rw [hp] at h <;> simp [cur] at h <;> simp [h]

/-- A run of a whole call of `Dial b` that finds the leftover `c` in the channel, and leaves its own connection there. -/
theorem DialConnAux.stale_dial {s : St} {c : Peer} (hr : Reach false s) (hs : Stale c s) (b : Peer) :
    ∃ t, Reach false t ∧ Stale b t ∧ t.log = s.log ++ [(b, some c)] := by
  obtain ⟨h1, h2, h3, h4, h5, h6⟩ := hs
  obtain ⟨ph, cmd, ctl, held, evq, chan, log, dropped⟩ := s
  simp only at h1 h2 h3 h4 h5 h6
  subst h1 h2 h3 h4 h5 h6
  have r1 := Reach.step _ _ hr (Step.dial (prompt := false) _ b rfl)
  have r2 := Reach.step _ _ r1 (Step.ctlCreate (prompt := false) _ b rfl (by simp))
  simp only [if_true, List.nil_append] at r2
  have r3 := Reach.step _ _ r2 (Step.created (prompt := false) _ b true [] rfl rfl)
  simp only [if_true] at r3
  have r4 := Reach.step _ _ r3 (Step.take (prompt := false) _ b c rfl rfl)
  have r5 := Reach.step _ _ r4 (Step.ctlConnect (prompt := false) _ b rfl)
  have r6 := Reach.step _ _ r5 (Step.ctlAnnounce (prompt := false) _ b [] rfl)
  have r7 := Reach.step _ _ r6 (Step.push (prompt := false) _ b [] rfl rfl)
  exact ⟨_, r7, ⟨rfl, rfl, rfl, rfl, rfl, rfl⟩, rfl⟩

/-- The pairs (dialled, peer of the client) when every call gets the previous one's connection. -/
def shifted : Peer → List Peer → List (Peer × Option Peer)
  | _, [] => []
  | c, b :: bs => (b, some c) :: shifted b bs

/-- C59 is false when the controller refuses to cancel because the connection is made, and announces the connection only after the 50 ms of `cancelDial`: the connection stays in the channel, and
from then on every `Dial`, however many there are, can return a client of the peer dialled before it. -/
theorem dial_off_by_one (a : Peer) (bs : List Peer) : ∃ s, Reach false s ∧ s.phase = .idle ∧ s.log = (a, none) :: shifted a bs := by
  have base : ∃ s, Reach false s ∧ Stale a s ∧ s.log = [(a, none)] := by
    have r1 := Reach.step _ _ Reach.init (Step.dial (prompt := false) _ a rfl)
    have r2 := Reach.step _ _ r1 (Step.ctlCreate (prompt := false) _ a rfl (by simp))
    simp only [init, if_true, List.nil_append] at r2
    have r3 := Reach.step _ _ r2 (Step.created (prompt := false) _ a true [] rfl rfl)
    simp only [if_true] at r3
    have r4 := Reach.step _ _ r3 (Step.ctlConnect (prompt := false) _ a rfl)
    have r5 := Reach.step _ _ r4 (Step.interrupt (prompt := false) _ a rfl)
    have r6 := Reach.step _ _ r5 (Step.ctlCancel (prompt := false) _ rfl (by simp))
    simp only [Option.isSome_none, List.nil_append] at r6
    have r7 := Reach.step _ _ r6 (Step.cancelled (prompt := false) _ a false [] rfl rfl)
    simp only [Bool.false_eq_true, if_false] at r7
    have r8 := Reach.step _ _ r7 (Step.giveUp (prompt := false) _ a rfl rfl)
    have r9 := Reach.step _ _ r8 (Step.ctlAnnounce (prompt := false) _ a [] rfl)
    have r10 := Reach.step _ _ r9 (Step.push (prompt := false) _ a [] rfl rfl)
    exact ⟨_, r10, ⟨rfl, rfl, rfl, rfl, rfl, rfl⟩, rfl⟩
  have ind : ∀ (bs : List Peer) (c : Peer) (s : St), Reach false s → Stale c s → ∃ t, Reach false t ∧ t.phase = .idle ∧ t.log = s.log ++ shifted c bs := by
    intro bs
    induction bs with
    | nil => intro c s hr hs; exact ⟨s, hr, hs.1, by simp [shifted]⟩
    | cons b bs ih =>
      intro c s hr hs
      obtain ⟨t, ht, hst, hlog⟩ := stale_dial hr hs b
      obtain ⟨u, hu, hp, hlog2⟩ := ih b t ht hst
      exact ⟨u, hu, hp, by rw [hlog2, hlog]; simp [shifted]⟩
  obtain ⟨s, hr, hs, hl⟩ := base
  obtain ⟨t, ht, hp, hlog⟩ := ind bs a s hr hs
  exact ⟨t, ht, hp, by rw [hlog, hl]; rfl⟩

/-- Instance: after one cancelled call to A, dialling B gives a client of A, and dialling C a client of B. -/
example : ∃ s, Reach false s ∧ s.log = [([0xA], none), ([0xB], some [0xA]), ([0xC], some [0xB])] := by
  obtain ⟨s, h1, -, h2⟩ := dial_off_by_one [0xA] [[0xB], [0xC]]
  exact ⟨s, h1, h2⟩

/-- Non-vacuity of the positive claim: a prompt execution of a call whose cancel came too late and which still gets its client. -/
theorem example_prompt_dial : ∃ s, Reach true s ∧ s.phase = .idle ∧ s.log = [([1], some [1])] := by
  have r1 := Reach.step _ _ Reach.init (Step.dial (prompt := true) _ [1] rfl)
  have r2 := Reach.step _ _ r1 (Step.ctlCreate (prompt := true) _ [1] rfl (by simp [init]))
  simp only [init, if_true, List.nil_append] at r2
  have r3 := Reach.step _ _ r2 (Step.created (prompt := true) _ [1] true [] rfl rfl)
  simp only [if_true] at r3
  have r4 := Reach.step _ _ r3 (Step.ctlConnect (prompt := true) _ [1] rfl)
  have r5 := Reach.step _ _ r4 (Step.ctlAnnounce (prompt := true) _ [1] [] rfl)
  have r6 := Reach.step _ _ r5 (Step.interrupt (prompt := true) _ [1] rfl)
  have r7 := Reach.step _ _ r6 (Step.ctlCancel (prompt := true) _ rfl (by simp))
  have r8 := Reach.step _ _ r7 (Step.push (prompt := true) _ [1] [.cancelled false] rfl rfl)
  have r9 := Reach.step _ _ r8 (Step.cancelled (prompt := true) _ [1] false [] rfl rfl)
  simp only [Bool.false_eq_true, if_false] at r9
  have r10 := Reach.step _ _ r9 (Step.takeLate (prompt := true) _ [1] [1] rfl rfl)
  exact ⟨_, r10, rfl, rfl⟩

end Ble.Props
