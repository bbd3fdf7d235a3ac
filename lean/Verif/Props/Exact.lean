import Verif.Props.SmpPair
import Verif.Props.Conns
import Verif.Props.BondConc
import Verif.Props.DialConn
import Verif.Props.Async
import Verif.Props.Indicate
import Verif.Props.Subscriptions
set_option autoImplicit false

/-!
# The parts of some properties that hold, as properties of their own (C169 to C175)
-/

namespace Ble.Props

section
open Ble.Smp
variable {P : Prims}

/-- **C169.** For every history from a new connection on: when a call of `Pair` returns nil, it does so on a message that arrived after the call and is one of three: a DHKey check with the right value under the MacKey of an exchange that was
run before; in legacy pairing, a nonce to which an earlier confirm value commits under a temporary key of the call; or a Master Identification. -/
theorem pair_nil_causes (cfg : Config) {la ra : Bytes} (lt rt : UInt8) (hla : la.length = 6) (hra : ra.length = 6) (xs : List (Event P))
    (hpk : ∀ e a, Event.pair e a ∈ xs → a.passkey < 2 ^ 32) (hs : Eff.pairResult true ∈ (run (newMgr cfg la ra lt rt : Mgr P) xs).2) :
    ∃ (pre post : List (Event P)) (e e' : Env P) (pdu : Bytes) (a : AuthData), xs = pre ++ .msg e pdu :: post ∧ Event.pair e' a ∈ pre ∧
      ((∃ mk ltk n1 n2 r io, Exchanged ([lt] ++ la) ([rt] ++ ra) pre mk ltk ∧ pdu.drop 4 = 0x0d :: le (SmpSpec.f6 P mk n1 n2 r io ([rt] ++ ra) ([lt] ++ la))) ∨
       (∃ tk sr preq pres, TemporaryKey a tk ∧ sr.length = 16 ∧ pdu.drop 4 = 0x04 :: le sr ∧ Received pre 0x03 (le (SmpSpec.c1 P tk sr preq pres lt rt la ra))) ∨
       ∃ data, pdu.drop 4 = 0x07 :: data) :=
  pair_nil_only_after_check_partial cfg lt rt hla hra xs hpk hs
end

section
open Ble.Evt Ble.HciPkt Ble.Conns Ble.HciSpec

/-- **C170.** As long as a connection is listed, its encryption state is what the last Encryption Change event for its handle said. -/
theorem encryption_is_last_change (s s' : State) (hs : ConnReachable s) (i : Nat) (c c' : Conn) (hc : s.conns[i]? = some c) (hl : s.table c.handle = some i)
    (es : List Ev) (h : run s es = .ok s') (hc' : s'.conns[i]? = some c') (hl' : s'.table c'.handle = some i) :
    c'.enc = encryptionAfter c.handle c.enc (packetsOf es) :=
  encryption_follows_events_partial s s' hs i c c' hc hl es h hc' hl'
end

section
open Ble.Store

/-- **C171.** Calls of the bond manager made at the same time, in any interleaving of their steps, none of which saves an empty key, behave as if made one after the other: there is an order of the calls that took effect, each once, in which
sequential calls give each the result it got; every call that returned is in it. -/
theorem bond_calls_linearizable (J : Json BondData) (setup os : List Op) (hs : KeysNotEmpty setup) (hk : KeysNotEmpty os) (as : List Step) (s : Conc)
    (hr : crun J (cinit (calls J none (setup.map fun o => (Env.fine, o))).1 os) as = some s) :
    (calls J (calls J none (setup.map fun o => (Env.fine, o))).1 (s.log.map fun x => (Env.fine, x.2.1))).2 = s.log.map (fun x => x.2.2) ∧
    (s.log.map fun x => x.1).Nodup ∧
    (∀ (i : Nat) o r, s.threads[i]? = some (o, .done r) → (i, o, r) ∈ s.log) ∧
    (∀ (i : Nat) o r, (i, o, r) ∈ s.log → s.threads[i]? = some (o, .returning r) ∨ s.threads[i]? = some (o, .done r)) :=
  bond_linearizable_partial J setup os hs hk as s hr

/-- The hypotheses are met: after a bond was saved, two concurrent calls of `Find` hold the lock at the same time, and a `Save` that waits for both comes last. -/
theorem example_interleaving (J : Json BondData) (addr : Text) (ha : strLen addr = 12) (b c : Bond) (hb : b.ltk ≠ []) (hc : c.ltk ≠ []) :
    KeysNotEmpty [.save addr (some b)] ∧ KeysNotEmpty [.find addr, .find addr, .save addr (some c)] ∧
    ∃ s, crun J (cinit (calls J none ([Op.save addr (some b)].map fun o => (Env.fine, o))).1 [.find addr, .find addr, .save addr (some c)])
      [.acquire 0, .acquire 1, .load 1, .load 0, .finish 0, .finish 1, .acquire 2, .load 2, .chunk 2 5, .finish 2] = some s ∧
      s.log = [(1, .find addr, .bond (.ok b)), (0, .find addr, .bond (.ok b)), (2, .save addr (some c), .done (.ok ()))] := by
  refine ⟨by intro a x hx; simp at hx; rw [hx.2]; exact hb, by intro a x hx; simp at hx; rw [hx.2]; exact hc, ?_⟩
  have hh : BondAux.Holds J (calls J none ([Op.save addr (some b)].map fun o => (Env.fine, o))).1 (BondAux.after (fun _ => none) (.save addr (some b))) :=
    BondAux.call_holds (BondAux.holds_none J) _ (fun a x h => by simp at h; rw [← h.2]; exact hb)
  generalize (calls J none ([Op.save addr (some b)].map fun o => (Env.fine, o))).1 = f at hh
  obtain ⟨m, h1, h2⟩ := hh
  have hv : BondAux.view J (some (f.getD [])) = some m := (BondAux.view_some J f).trans h1
  rcases h2 addr with ⟨h3, -⟩ | ⟨d, b', h3, h4, h5, -⟩
  · simp [BondAux.after, ha] at h3
  · simp [BondAux.after, ha] at h3
    subst h3
    simp [crun, cstep, cinit, early, ha, free, exclusive, Phase.holds, plan, BondAux.load_fine, h1, hv, h4, h5]
end

section
open Ble.DialConn

/-- **C172.** With a controller that raises the events of the connections it has made before it answers a command: in every execution every successful `Dial` returned a client of the peer that was dialled, no connection was lost, and a
finished call leaves nothing behind. -/
theorem dial_right_peer (s : St) (h : Reach true s) :
    (∀ a c, (a, some c) ∈ s.log → c = a) ∧ s.dropped = [] ∧ (s.phase = .idle → s.ctl = none ∧ s.held = [] ∧ s.evq = [] ∧ s.chan = none) :=
  dial_right_peer_partial s h
end

section
open Ble.Att Ble.Client
variable {σ : Type}

/-- **C173.** At any time what a central has sent in answer, and what is waiting to be sent, are the server's responses to some of the peripheral's requests, in their order, each once; and to all of them, but those still queued, if
never ten requests were waiting. -/
theorem central_answers (s0 : Server σ) (evs : List CEv) (c : Central σ) (h : crun s0 {} evs = some c) :
    (∃ srv, serve s0 c.taken = .ok (srv, c.answers ++ c.held.toList)) ∧ (c.taken ++ c.net.inc).Sublist (c.net.seen.filter IsReq) ∧
    ((∀ p q d, evs = p ++ q → crun s0 {} p = some d → d.net.inc.length < 10) → c.taken ++ c.net.inc = c.net.seen.filter IsReq) :=
  ⟨(central_answers_in_order_partial s0 evs c h).1, (central_answers_in_order_partial s0 evs c h).2, central_answers_all_partial s0 evs c h⟩
end

section
open Ble.Ind IndAux

/-- **C174.** Never have more indications succeeded than the peer has confirmed; and until a first call times out each that succeeded was itself confirmed, every call that returned succeeded, and the peer holds at most one unconfirmed
indication. -/
theorem indication_success (evs : List Ev) (s : St) (h : run {} evs = some s) :
    oks s.results ≤ s.confirmed.length ∧ ((∀ x ∈ s.results, x.2 ≠ .timeout) → (∀ x ∈ s.results, x.2 = .ok ∧ x.1 ∈ s.confirmed) ∧ s.owed.length ≤ 1) :=
  ⟨indication_successes_le_confirmations evs s h, indication_success_confirmed_partial evs s h⟩
end

section
open Ble.Client Ble.Spec

/-- **C175.** After any history of calls on a connection whose CCCDs started at 0, the peer's CCCD of every characteristic to which the last write did not fail holds exactly the bits of the active subscriptions. -/
theorem cccd_after_successful_write (cccd : Nat → Nat) (hinj : ∀ x y, cccd x = cccd y → x = y) (ops : List SubOp) (w : World)
    (h : World.run cccd {} ops = some w) (vh : Nat) (hf : w.failed (cccd vh) = false) : w.peer (cccd vh) = cccBits (activeAfter ops) vh :=
  cccd_matches_subscriptions_partial cccd hinj ops w h vh hf
end

end Ble.Props
