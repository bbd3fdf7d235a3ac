import Verif.Hci.LinkEnc
import Verif.Props.Links2
set_option autoImplicit false

/-!
# C209, C210: encryption and commands of connections over links that come and go
-/

namespace Ble.LinkEnc

open Ble.Conns Ble.Props Ble.Props.ConnsAux Ble.HciPkt Ble.HciSpec Ble.Links

/-! ## Specification -/

/-- The entries of a list about number `i`, in order. -/
def about (l : List (Nat × Report)) (i : Nat) : List Report := l.filterMap fun x => if x.1 = i then some x.2 else none

/-- The reports about link `i` that wait to be handled by the host. -/
def waitingFor (l : List News) (i : Nat) : List Report := l.filterMap fun n => if n.link = i then some n.report else none

/-- Whether encryption is on after these reports: the last one decides; a new link is not encrypted. -/
def isOn (l : List Report) : Bool :=
  match l.getLast? with
  | some r => r.enabled == 1
  | none => false

/-! ## Invariant -/

theorem base_step {b b' : Links.State} {e : Links.Ev} (hi : Links.Inv b) (h : Links.step b e = some b') :
    b.links.length ≤ b'.links.length ∧ (∀ (k : Nat) l, b.links[k]? = some l → ∃ l', b'.links[k]? = some l' ∧ l'.handle = l.handle) ∧
    (∀ (k : Nat) c, b.host.conns[k]? = some c → ∃ c', b'.host.conns[k]? = some c' ∧ c'.handle = c.handle ∧ (c.done = true → c'.done = true)) ∧
    (e = .handle → ∃ n, b.notes = n :: b'.notes ∧ b'.host.conns.length = b.host.conns.length + (pending [n]).length) ∧
    (e ≠ .handle → ∃ ns, b'.notes = b.notes ++ ns ∧ b'.host.conns.length = b.host.conns.length) := by
  have same : ∀ (k : Nat) c, b.host.conns[k]? = some c → ∃ c', b.host.conns[k]? = some c' ∧ c'.handle = c.handle ∧ (c.done = true → c'.done = true) := fun k c hc => ⟨c, hc, rfl, id⟩
  have sameL : ∀ (k : Nat) l, b.links[k]? = some l → ∃ l', b.links[k]? = some l' ∧ l'.handle = l.handle := fun k l hl => ⟨l, hl, rfl⟩
  cases e with
  | connect hd role addr =>
    simp only [Links.step] at h
    split at h <;> cases h
    refine ⟨by simp, fun k l hl => ⟨l, ?_, rfl⟩, same, fun h => (by cases h), fun _ => ⟨_, rfl, rfl⟩⟩
    simp only
    rw [List.getElem?_append_left (List.getElem?_eq_some_iff.1 hl).1]; exact hl
  | lose i r =>
    simp only [Links.step] at h
    split at h
    · split at h <;> cases h
      exact ⟨by simp [takeDown_length], fun k l hl => takeDown_some _ _ _ hl, same, fun h => (by cases h), fun _ => ⟨_, rfl, rfl⟩⟩
    · cases h
  | peerSend i f r =>
    simp only [Links.step] at h
    split at h
    · split at h <;> cases h
      exact ⟨Nat.le_refl _, sameL, same, fun h => (by cases h), fun _ => ⟨_, rfl, rfl⟩⟩
    · cases h
  | handle =>
    simp only [Links.step] at h
    split at h
    · cases h
    · rename_i i rest hn
      split at h
      · rename_i l hl
        obtain ⟨hsm, hal⟩ := hi.small l (List.mem_of_getElem? hl)
        have hp := connection_event_creates b.host 0 l.role 0 l.handle (by omega) l.addr [0, 0, 0, 0, 0, 0, 0] (by rw [hal]; decide)
        rw [if_neg (by simp)] at hp
        rw [hp] at h
        simp only [Option.some.injEq] at h
        subst h
        refine ⟨Nat.le_refl _, sameL, fun k c hc => ⟨c, ?_, rfl, id⟩, fun _ => ⟨_, hn, by simp [pending]⟩, fun h => absurd rfl h⟩
        simp only
        rw [List.getElem?_append_left (List.getElem?_eq_some_iff.1 hc).1]; exact hc
      · cases h
    · rename_i hd reason rest hn
      split at h
      · rename_i b2 hb
        cases h
        have hsm := hi.lostSmall hd reason (by rw [hn]; simp)
        obtain ⟨-, k2, k3⟩ := host_disconnect hi.reach (by omega) hb
        exact ⟨Nat.le_refl _, sameL, k3, fun _ => ⟨_, hn, by simpa [pending] using k2⟩, fun h => absurd rfl h⟩
      · cases h
    · rename_i x hd f r rest hn
      split at h
      · rename_i b2 hb
        cases h
        have hsm := hi.dataSmall x hd f r (by rw [hn]; simp)
        obtain ⟨-, k2, k3⟩ := host_acl hi.reach hsm.1 hsm.2 hb
        exact ⟨Nat.le_refl _, sameL, k3, fun _ => ⟨_, hn, by simpa [pending] using k2⟩, fun h => absurd rfl h⟩
      · cases h
  | close i =>
    simp only [Links.step] at h
    split at h
    · split at h
      · split at h <;> cases h
        · exact ⟨by simp [takeDown_length], fun k l hl => takeDown_some _ _ _ hl, same, fun h => (by cases h), fun _ => ⟨_, rfl, rfl⟩⟩
        · exact ⟨Nat.le_refl _, sameL, same, fun h => (by cases h), fun _ => ⟨[], by simp, rfl⟩⟩
      · cases h
    · cases h
  | cleanup i =>
    simp only [Links.step] at h
    split at h
    · split at h
      · rename_i b2 hb
        cases h
        obtain ⟨-, k2, k3⟩ := host_close hi.reach hb
        exact ⟨Nat.le_refl _, sameL, k3, fun h => (by cases h), fun _ => ⟨[], by simp, k2⟩⟩
      · cases h
    · cases h
  | write i =>
    simp only [Links.step] at h
    split at h
    · split at h <;> cases h
      exact ⟨Nat.le_refl _, sameL, same, fun h => (by cases h), fun _ => ⟨[], by simp, rfl⟩⟩
    · cases h

/-- The number of connections the host has made when it comes to the event in place `p`. -/
def madeBefore (b : Links.State) (p : Nat) : Nat := b.host.conns.length + (pending (b.notes.take p)).length

/-- When the host comes to the event its link is the latest with this handle of those it knows. -/
structure Placed (b : Links.State) (n : News) : Prop where
  le : n.ahead ≤ b.notes.length
  own : ∃ l, b.links[n.link]? = some l ∧ l.handle = n.handle
  known : n.link < madeBefore b n.ahead
  latest : ∀ (k : Nat) l, k < madeBefore b n.ahead → b.links[k]? = some l → l.handle = n.handle → k ≤ n.link

theorem madeBefore_le {b : Links.State} (hi : Links.Inv b) (p : Nat) : madeBefore b p ≤ b.links.length := by
  have h1 : (pending (b.notes.take p)).length ≤ (pending b.notes).length := by
    conv => rhs; rw [← List.take_append_drop p b.notes, pending_append, List.length_append]
    omega
  rw [hi.queue, List.length_range'] at h1
  have := hi.le
  unfold madeBefore
  omega

theorem placed_move {b b' : Links.State} (hi : Links.Inv b) {n : News} (hp : Placed b n) {p : Nat} (hp' : p ≤ b'.notes.length) (hm : madeBefore b' p = madeBefore b n.ahead)
    (hl : ∀ (k : Nat) l, b.links[k]? = some l → ∃ l', b'.links[k]? = some l' ∧ l'.handle = l.handle) : Placed b' { n with ahead := p } := by
  obtain ⟨l, h1, h2⟩ := hp.own
  obtain ⟨l', h3, h4⟩ := hl _ _ h1
  refine ⟨hp', ⟨l', h3, by rw [h4, h2]⟩, by simp only [hm]; exact hp.known, ?_⟩
  intro k m hk hmm hh
  simp only [hm] at hk
  have hlt : k < b.links.length := Nat.lt_of_lt_of_le hk (madeBefore_le hi _)
  obtain ⟨m', e1, e2⟩ := hl k _ (List.getElem?_eq_getElem hlt)
  rw [hmm] at e1; cases e1
  exact hp.latest k _ hk (List.getElem?_eq_getElem hlt) (by rw [← e2]; exact hh)

structure Good (s : State) : Prop where
  inv : Links.Inv s.base
  rx : Links.Rx s.base
  placed : ∀ n ∈ s.waiting, Placed s.base n
  sorted : s.waiting.Pairwise fun a b => a.ahead ≤ b.ahead
  future : ∀ i, s.base.host.conns.length ≤ i → about s.reported i = waitingFor s.waiting i ∧ about s.offered i = []
  flow : ∀ (i : Nat) c, s.base.host.conns[i]? = some c → ∃ d, about s.reported i = about s.offered i ++ d ++ waitingFor s.waiting i ∧ (c.done = false → d = [])
  enc : ∀ i, s.enc i = isOn (about s.offered i)

theorem waitingFor_forward (l : List News) (i : Nat) : waitingFor (l.map News.forward) i = waitingFor l i := by
  simp only [waitingFor, News.forward, List.filterMap_map, Function.comp_def]
  rfl

theorem about_append (a b : List (Nat × Report)) (i : Nat) : about (a ++ b) i = about a i ++ about b i := by simp [about]

theorem waitingFor_append (a b : List News) (i : Nat) : waitingFor (a ++ b) i = waitingFor a i ++ waitingFor b i := by simp [waitingFor]

/-- The host's connections after a step of the base: the flow of reports is as before. -/
theorem flow_base {s : State} (hs : Good s) {b' : Links.State} (hlen : s.base.host.conns.length ≤ b'.host.conns.length)
    (hc : ∀ (k : Nat) c, s.base.host.conns[k]? = some c → ∃ c', b'.host.conns[k]? = some c' ∧ c'.handle = c.handle ∧ (c.done = true → c'.done = true)) :
    (∀ i, b'.host.conns.length ≤ i → about s.reported i = waitingFor s.waiting i ∧ about s.offered i = []) ∧
    (∀ (i : Nat) c, b'.host.conns[i]? = some c → ∃ d, about s.reported i = about s.offered i ++ d ++ waitingFor s.waiting i ∧ (c.done = false → d = [])) := by
  refine ⟨fun i hi => hs.future i (by omega), fun i c hci => ?_⟩
  by_cases hlt : i < s.base.host.conns.length
  · obtain ⟨c', e1, -, e3⟩ := hc i _ (List.getElem?_eq_getElem hlt)
    rw [hci] at e1; cases e1
    obtain ⟨d, d1, d2⟩ := hs.flow i _ (List.getElem?_eq_getElem hlt)
    refine ⟨d, d1, fun hd => d2 ?_⟩
    cases hx : (s.base.host.conns[i]).done with
    | false => rfl
    | true => rw [e3 hx] at hd; cases hd
  · obtain ⟨f1, f2⟩ := hs.future i (by omega)
    exact ⟨[], by rw [f1, f2]; rfl, fun _ => rfl⟩

theorem good_base {s s' : State} {e : Links.Ev} (hs : Good s) (hne : e ≠ .handle) (h : step s (.base e) = some s') : Good s' := by
  have h' : ∃ b, Links.step s.base e = some b ∧ s' = { s with base := b } := by
    unfold step at h
    split at h <;> rename_i hx
    · cases hx; exact absurd rfl hne
    · cases hx
      split at h
      · rename_i b hb; cases h; exact ⟨b, hb, rfl⟩
      · cases h
    all_goals cases hx
  obtain ⟨b, hb, rfl⟩ := h'
  obtain ⟨k1, k2, k3, -, k5⟩ := base_step hs.inv hb
  obtain ⟨ns, m1, m2⟩ := k5 hne
  obtain ⟨f1, f2⟩ := flow_base hs (by omega) k3
  refine ⟨(Links.inv_step hs.inv hb).1, Links.rx_step hs.inv hs.rx hb, ?_, hs.sorted, f1, f2, hs.enc⟩
  intro n hn
  have hp := hs.placed n hn
  have := hp.le
  refine placed_move hs.inv hp (p := n.ahead) (by rw [m1, List.length_append]; omega) ?_ k2
  simp only [madeBefore, m1, m2]
  rw [List.take_append_of_le_length this]

theorem good_step {s s' : State} {e : Ev} (hs : Good s) (h : step s e = some s') : Good s' := by
  cases e with
  | base e =>
    by_cases hne : e = .handle
    · subst hne
      simp only [step] at h
      split at h
      · cases h
      · rename_i hhead
        split at h
        · rename_i b hb
          cases h
          obtain ⟨k1, k2, k3, k4, -⟩ := base_step hs.inv hb
          obtain ⟨n0, m1, m2⟩ := k4 rfl
          obtain ⟨f1, f2⟩ := flow_base hs (by omega) k3
          have hpos : ∀ n ∈ s.waiting, 0 < n.ahead := by
            intro n hn
            cases hw : s.waiting with
            | nil => rw [hw] at hn; cases hn
            | cons w ws =>
              have hsrt := hs.sorted
              rw [hw] at hn hhead hsrt
              simp only [List.head?_cons, Option.map_some, Option.some.injEq] at hhead
              rcases List.mem_cons.1 hn with rfl | hn
              · omega
              · have := (List.pairwise_cons.1 hsrt).1 n hn
                omega
          refine ⟨(Links.inv_step hs.inv hb).1, Links.rx_step hs.inv hs.rx hb, ?_, ?_, ?_, ?_, hs.enc⟩
          · intro n' hn'
            obtain ⟨n, hn, rfl⟩ := List.mem_map.1 hn'
            have hp := hs.placed n hn
            have hle := hp.le
            have h0 := hpos n hn
            rw [m1] at hle
            simp only [List.length_cons] at hle
            refine placed_move hs.inv hp (p := n.ahead - 1) (show n.ahead - 1 ≤ b.notes.length by omega) ?_ k2
            obtain ⟨q, hq⟩ : ∃ q, n.ahead = q + 1 := ⟨n.ahead - 1, by omega⟩
            simp only [madeBefore, hq, m1, List.take_succ_cons, Nat.add_sub_cancel]
            rw [show n0 :: b.notes.take q = [n0] ++ b.notes.take q from rfl, pending_append, List.length_append, m2]
            omega
          · rw [List.pairwise_map]
            exact hs.sorted.imp fun hab => by simp only [News.forward]; omega
          · intro i hi
            simp only [waitingFor_forward]
            exact f1 i hi
          · intro i c hc
            simp only [waitingFor_forward]
            exact f2 i c hc
        · cases h
    · exact good_base hs hne h
  | change i r =>
    simp only [step] at h
    split at h
    · rename_i l hl
      split at h
      · rename_i hu
        cases h
        have hil := (List.getElem?_eq_some_iff.1 hl).1
        have hmb : madeBefore s.base s.base.notes.length = s.base.links.length := by
          have := hs.inv.le
          unfold madeBefore
          rw [List.take_length, hs.inv.queue, List.length_range']
          omega
        have hnew : ∀ j, about (s.reported ++ [(i, r)]) j = about s.reported j ++ waitingFor [⟨i, l.handle, r, s.base.notes.length⟩] j := by
          intro j
          rw [about_append]
          simp only [about, waitingFor, List.filterMap_cons, List.filterMap_nil]
        refine ⟨hs.inv, hs.rx, ?_, ?_, ?_, ?_, hs.enc⟩
        · intro n hn
          rcases List.mem_append.1 hn with hn | hn
          · exact hs.placed n hn
          · simp only [List.mem_singleton] at hn
            subst hn
            refine ⟨Nat.le_refl _, ⟨l, hl, rfl⟩, by simp only [hmb]; exact hil, ?_⟩
            intro k m _ hm hh
            exact hs.rx.upLatest i l hl hu k m hm hh
        · rw [List.pairwise_append]
          refine ⟨hs.sorted, List.pairwise_singleton _ _, ?_⟩
          intro a ha b hb
          simp only [List.mem_singleton] at hb
          subst hb
          exact (hs.placed a ha).le
        · intro j hj
          simp only [hnew, waitingFor_append]
          obtain ⟨f1, f2⟩ := hs.future j hj
          exact ⟨by rw [f1], f2⟩
        · intro j c hc
          simp only [hnew, waitingFor_append]
          obtain ⟨d, d1, d2⟩ := hs.flow j c hc
          exact ⟨d, by rw [d1]; simp only [List.append_assoc], d2⟩
      · cases h
    · cases h
  | handleNews =>
    simp only [step] at h
    split at h
    · cases h
    · rename_i n rest hw
      split at h
      · rename_i h0
        have hp := hs.placed n (by rw [hw]; simp)
        have hmb : madeBefore s.base n.ahead = s.base.host.conns.length := by simp [madeBefore, h0, pending]
        have hkn := hp.known
        have hla := hp.latest
        rw [hmb] at hkn hla
        have hcx := List.getElem?_eq_getElem hkn
        generalize s.base.host.conns[n.link] = c at hcx
        obtain ⟨l, o1, o2⟩ := hp.own
        obtain ⟨l0, p1, p2⟩ := hs.inv.handles n.link c hcx
        rw [o1] at p1; cases p1
        have hch : c.handle = n.handle := by rw [← p2, o2]
        have hlx : ∀ (k : Nat) d, s.base.host.conns[k]? = some d → d.handle = n.handle → k ≤ n.link := by
          intro k d hd hh
          obtain ⟨m, m1, m2⟩ := hs.inv.handles k d hd
          exact hla k m (List.getElem?_eq_some_iff.1 hd).1 m1 (by rw [m2, hh])
        have hq : ∀ j, waitingFor s.waiting j = (if n.link = j then [n.report] else []) ++ waitingFor rest j := by
          intro j
          rw [hw]
          simp only [waitingFor, List.filterMap_cons]
          split <;> rename_i hh <;> split at hh <;> simp_all
        have hsrt : rest.Pairwise fun a b => a.ahead ≤ b.ahead := by have := hs.sorted; rw [hw] at this; exact (List.pairwise_cons.1 this).2
        have hpl : ∀ n ∈ rest, Placed s.base n := fun n hn => hs.placed n (by rw [hw]; simp [hn])
        split at h
        · rename_i ht
          cases h
          have hdone : c.done = true := by
            rcases hs.rx.live n.link c hcx (fun k d h1 h2 => hlx k d h1 (by rw [h2, hch])) with h1 | h1
            · rw [hch, ht] at h1; cases h1
            · exact h1
          refine ⟨hs.inv, hs.rx, hpl, hsrt, ?_, ?_, hs.enc⟩
          · intro j hj
            simp only at hj ⊢
            obtain ⟨f1, f2⟩ := hs.future j hj
            rw [hq, if_neg (by omega)] at f1
            exact ⟨f1, f2⟩
          · intro j d hd
            simp only at hd ⊢
            obtain ⟨dr, e1, e2⟩ := hs.flow j d hd
            rw [hq] at e1
            by_cases hxj : n.link = j
            · subst hxj
              rw [hcx] at hd; cases hd
              rw [if_pos rfl] at e1
              exact ⟨dr ++ [n.report], by rw [e1]; simp only [List.append_assoc], fun hf => by rw [hdone] at hf; cases hf⟩
            · rw [if_neg hxj] at e1
              exact ⟨dr, e1, e2⟩
        · rename_i k ht
          obtain ⟨c2, q3, q4, q5, q6⟩ := (reachable_inv hs.inv.reach).listed n.handle k ht
          have hkx : k = n.link := by
            have h1 := hlx k c2 q3 q4
            have h2 := hs.rx.latest n.handle k ht n.link c hcx hch
            omega
          subst hkx
          rw [hcx] at q3; cases q3
          simp only [told, hcx] at h
          split at h
          · cases h
          · cases h
            have hof : ∀ j, about (s.offered ++ [(n.link, n.report)]) j = about s.offered j ++ (if n.link = j then [n.report] else []) := by
              intro j
              rw [about_append]
              congr 1
              simp only [about, List.filterMap_cons, List.filterMap_nil]
              by_cases hx : n.link = j <;> simp [hx]
            refine ⟨hs.inv, hs.rx, hpl, hsrt, ?_, ?_, ?_⟩
            · intro j hj
              simp only at hj ⊢
              obtain ⟨f1, f2⟩ := hs.future j hj
              rw [hq, if_neg (by omega)] at f1
              rw [hof, if_neg (by omega)]
              exact ⟨f1, by rw [f2]; rfl⟩
            · intro j d hd
              simp only at hd ⊢
              obtain ⟨dr, e1, e2⟩ := hs.flow j d hd
              rw [hq] at e1
              rw [hof]
              by_cases hxj : n.link = j
              · subst hxj
                rw [hcx] at hd; cases hd
                rw [e2 q5, if_pos rfl] at e1
                rw [if_pos rfl]
                exact ⟨[], by rw [e1]; simp only [List.append_assoc, List.nil_append], fun _ => rfl⟩
              · rw [if_neg hxj] at e1 ⊢
                exact ⟨dr, by rw [e1]; simp only [List.append_nil, List.nil_append], e2⟩
            · intro j
              simp only [hof]
              by_cases hxj : n.link = j
              · subst hxj
                simp [isOn]
              · have : j ≠ n.link := fun hx => hxj hx.symm
                rw [if_neg hxj, if_neg this, List.append_nil]
                exact hs.enc j
      · cases h
  | startEncryption i key =>
    simp only [step] at h
    split at h
    · split at h
      · cases h; exact hs
      · split at h
        · cases h
        · split at h <;> cases h
          · exact ⟨hs.inv, hs.rx, hs.placed, hs.sorted, hs.future, hs.flow, hs.enc⟩
          · exact hs
    · cases h
  | readRSSI i =>
    simp only [step] at h
    split at h
    · cases h
      exact ⟨hs.inv, hs.rx, hs.placed, hs.sorted, hs.future, hs.flow, hs.enc⟩
    · cases h
  | reader i =>
    simp only [step] at h
    split at h
    · split at h
      · split at h <;> cases h
        · exact ⟨hs.inv, hs.rx, hs.placed, hs.sorted, hs.future, hs.flow, hs.enc⟩
        · exact ⟨hs.inv, hs.rx, hs.placed, hs.sorted, hs.future, hs.flow, hs.enc⟩
      · cases h
    · cases h

theorem good_run (smp handler : Bool) (scan : AdvHist.Scan) : ∀ es s, run (init smp handler scan) es = some s → Good s := by
  refine runT_ind (P := fun _ s => Good s) ?_ fun es s e s' _ ih he => good_step ih he
  obtain ⟨h1, h2⟩ := rx_run smp handler scan [] _ rfl
  refine ⟨h1, h2, ?_, ?_, ?_, ?_, ?_⟩ <;> simp [init, Links.init, Conns.init, about, waitingFor, isOn]

/-! ## C209 -/

/-- C209. **What a connection says about encryption is about its own link**: what it has offered to the application are the first reports of the controller about its own link, in order, and it takes itself to be encrypted exactly if the last of them said
so; whatever handles were used before or are used again, and however late the host handles the events. -/
theorem encryption_is_own (smp handler : Bool) (scan : AdvHist.Scan) (es : List Ev) (s : State) (h : run (init smp handler scan) es = some s) (i : Nat) (hi : i < s.base.host.conns.length) :
    about s.offered i <+: about s.reported i ∧ s.enc i = isOn (about s.offered i) := by
  have hs := good_run smp handler scan es s h
  obtain ⟨d, h1, -⟩ := hs.flow i _ (List.getElem?_eq_getElem hi)
  exact ⟨⟨d ++ waitingFor s.waiting i, by rw [h1, List.append_assoc]⟩, hs.enc i⟩

/-- C209. **Until `Disconnected()` fires no report is lost**: the connection has offered all reports of the controller about its link but those that wait to be handled; so if none waits, the connection takes itself to be encrypted exactly if its link
is. -/
theorem encryption_current (smp handler : Bool) (scan : AdvHist.Scan) (es : List Ev) (s : State) (h : run (init smp handler scan) es = some s) (i : Nat) (c : Conn) (hc : s.base.host.conns[i]? = some c) (hd : c.done = false) :
    about s.reported i = about s.offered i ++ waitingFor s.waiting i ∧ ((∀ n ∈ s.waiting, n.link ≠ i) → s.enc i = isOn (about s.reported i)) := by
  have hs := good_run smp handler scan es s h
  obtain ⟨d, h1, h2⟩ := hs.flow i c hc
  rw [h2 hd, List.append_nil] at h1
  refine ⟨h1, fun hn => ?_⟩
  have : waitingFor s.waiting i = [] := by
    unfold waitingFor
    rw [List.filterMap_eq_nil_iff]
    intro n hm
    rw [if_neg (hn n hm)]
  rw [h1, this, List.append_nil]
  exact hs.enc i

/-- C209. A connection starts unencrypted, even if the link that had its handle before was encrypted. -/
theorem new_connection_unencrypted (smp handler : Bool) (scan : AdvHist.Scan) (es : List Ev) (s : State) (h : run (init smp handler scan) es = some s) (i : Nat) (hi : s.base.host.conns.length ≤ i) : s.enc i = false := by
  have hs := good_run smp handler scan es s h
  rw [hs.enc i, (hs.future i hi).2]
  rfl

/-- The steps of the links and connections in a history. -/
def baseOf (es : List Ev) : List Links.Ev := es.filterMap fun e => match e with | .base e => some e | _ => none

/-- A history of this model is one of `Links`. -/
theorem run_base (smp handler : Bool) (scan : AdvHist.Scan) : ∀ es s, run (init smp handler scan) es = some s → Links.run (Links.init smp handler scan) (baseOf es) = some s.base := by
  refine runT_ind (P := fun (es : List Ev) (s : State) => Links.run (Links.init smp handler scan) (baseOf es) = some s.base) rfl ?_
  intro es s e s' _ ih he
  cases e with
  | base e =>
    have hb : Links.step s.base e = some s'.base := by
      unfold step at he
      split at he <;> rename_i hx
      · cases hx
        split at he
        · cases he
        · split at he
          · rename_i b hb; cases he; exact hb
          · cases he
      · cases hx
        split at he
        · rename_i b hb; cases he; exact hb
        · cases he
      all_goals cases hx
    rw [show baseOf (es ++ [.base e]) = baseOf es ++ [e] by simp [baseOf]]
    exact runT_snoc.2 ⟨_, ih, hb⟩
  | change i r =>
    rw [show baseOf (es ++ [.change i r]) = baseOf es by simp [baseOf], ih]
    simp only [step] at he
    split at he
    · split at he <;> cases he; rfl
    · cases he
  | handleNews =>
    rw [show baseOf (es ++ [.handleNews]) = baseOf es by simp [baseOf], ih]
    simp only [step] at he
    split at he
    · cases he
    · split at he
      · split at he
        · cases he; rfl
        · simp only [told] at he
          split at he
          · split at he <;> cases he; rfl
          · cases he
      · cases he
  | startEncryption i key =>
    rw [show baseOf (es ++ [.startEncryption i key]) = baseOf es by simp [baseOf], ih]
    simp only [step] at he
    split at he
    · split at he
      · cases he; rfl
      · split at he
        · cases he
        · split at he <;> cases he <;> rfl
    · cases he
  | readRSSI i =>
    rw [show baseOf (es ++ [.readRSSI i]) = baseOf es by simp [baseOf], ih]
    simp only [step] at he
    split at he
    · cases he; rfl
    · cases he
  | reader i =>
    rw [show baseOf (es ++ [.reader i]) = baseOf es by simp [baseOf], ih]
    simp only [step] at he
    split at he
    · split at he
      · split at he <;> cases he <;> rfl
      · cases he
    · cases he

/-- C209. **The host can handle the next event**, whatever it is, unless it is a report of a failed encryption for a connection without security manager: this one crashes the process (conn.go:463: `c.smp` is nil). -/
theorem next_event (smp handler : Bool) (scan : AdvHist.Scan) (es : List Ev) (s : State) (h : run (init smp handler scan) es = some s) (hn : s.base.notes ≠ [] ∨ s.waiting ≠ []) :
    (∃ s', step s (.base .handle) = some s') ∨ (∃ s', step s .handleNews = some s' ∧ s'.waiting = s.waiting.tail) ∨
    ∃ n k c, s.waiting.head? = some n ∧ n.report.status ≠ 0 ∧ s.base.host.table n.handle = some k ∧ s.base.host.conns[k]? = some c ∧ c.smp = false := by
  have hs := good_run smp handler scan es s h
  have hb := (events_can_be_handled smp handler scan (baseOf es) s.base (run_base smp handler scan es s h)).1
  by_cases hhead : (s.waiting.head?.map (·.ahead)) = some 0
  · right
    cases hw : s.waiting with
    | nil => rw [hw] at hhead; cases hhead
    | cons n rest =>
      rw [hw] at hhead
      simp only [List.head?_cons, Option.map_some, Option.some.injEq] at hhead
      cases ht : s.base.host.table n.handle with
      | none => left; simp only [step, hw, if_pos hhead, ht]; exact ⟨_, rfl, rfl⟩
      | some k =>
        obtain ⟨c, q3, -⟩ := (reachable_inv hs.inv.reach).listed n.handle k ht
        by_cases hx : n.report.status ≠ 0 ∧ c.smp = false
        · right; exact ⟨n, k, c, rfl, hx.1, ht, q3, hx.2⟩
        · left; simp only [step, hw, if_pos hhead, ht, told, q3, if_neg hx]; exact ⟨_, rfl, rfl⟩
  · left
    have hne : s.base.notes ≠ [] := by
      rcases hn with hn | hn
      · exact hn
      · cases hw : s.waiting with
        | nil => exact absurd hw hn
        | cons n rest =>
          rw [hw] at hhead
          simp only [List.head?_cons, Option.map_some, Option.some.injEq] at hhead
          have := (hs.placed n (by rw [hw]; simp)).le
          intro hx
          rw [hx] at this
          simp only [List.length_nil] at this
          omega
    obtain ⟨b, hb1, -⟩ := hb hne
    simp only [step, if_neg hhead, hb1]
    exact ⟨_, rfl⟩

/-- Reports about a link that is lost, and about its successor with the same handle, wait while the host is late: each connection gets its own, the second starts unencrypted. -/
theorem encryption_example : ∃ s, run (init true false AdvHist.initial) [.base (.connect 64 1 (adr 1)), .base .handle, .change 0 ⟨0, 1⟩, .base (.lose 0 0x13), .base (.connect 64 1 (adr 2)), .change 1 ⟨6, 0⟩, .handleNews, .base .handle, .base .handle] = some s ∧
    s.enc 0 = true ∧ s.enc 1 = false ∧ about s.offered 0 = [⟨0, 1⟩] ∧ about s.offered 1 = [] ∧ waitingFor s.waiting 1 = [⟨6, 0⟩] ∧ (∃ s', step s .handleNews = some s' ∧ about s'.offered 1 = [⟨6, 0⟩]) :=
  ⟨_, rfl, rfl, rfl, rfl, rfl, rfl, _, rfl, rfl⟩

/-- The exception of `next_event` occurs. -/
theorem crash_example : ∃ s, run (init false false AdvHist.initial) [.base (.connect 64 1 (adr 1)), .base .handle, .change 0 ⟨6, 0⟩] = some s ∧ step s .handleNews = none ∧ step s (.base .handle) = none :=
  ⟨_, rfl, rfl, rfl⟩

/-! ## C210 -/

/-- C210, the full statement: a command made with a method of a connection is carried out by the controller for the link of this connection, or refused. Proved: as long as the link exists, whatever handles were used before and whatever the host has not
heard of yet. **Missing, and false of the code**: when the link is gone and its handle has a new owner, see `commands_reach_other_device`. -/
theorem commands_reach_own_link_partial (smp handler : Bool) (scan : AdvHist.Scan) (es : List Ev) (s : State) (h : run (init smp handler scan) es = some s) (i : Nat) (l : Link) (hl : s.base.links[i]? = some l) (hu : l.up = true) (s' : State) :
    (step s (.readRSSI i) = some s' → s'.commands = s.commands ++ [(i, .rssi, some i)]) ∧
    (∀ key, step s (.startEncryption i key) = some s' → s'.commands = s.commands ++ if key = true ∧ s.enc i = false then [(i, .encrypt, some i)] else []) ∧
    (step s (.reader i) = some s' → ∃ c p, s.base.host.conns[i]? = some c ∧ c.rx[s.read i]? = some p ∧ s'.commands = s.commands ++ if isUpdateRequest p = true ∧ c.slave = false then [(i, .update, some i)] else []) := by
  have hs := good_run smp handler scan es s h
  have key : ∀ c, s.base.host.conns[i]? = some c → target s.base.links c.handle = some i := by
    intro c hc
    obtain ⟨l0, n1, n2⟩ := hs.inv.handles i c hc
    rw [hl] at n1; cases n1
    cases ht : target s.base.links c.handle with
    | none => exact absurd n2 (target_none ht hl hu)
    | some j =>
      obtain ⟨lj, m1, m2, m3⟩ := target_some ht
      rw [hs.inv.uniq j i lj l m1 hl m2 hu (by rw [m3, n2])]
  refine ⟨?_, ?_, ?_⟩
  · intro he
    simp only [step] at he
    split at he
    · rename_i c hc
      cases he
      rw [← key c hc]
    · cases he
  rotate_left
  · intro he
    simp only [step] at he
    split at he
    · rename_i c hc
      split at he
      · rename_i p hp
        refine ⟨c, p, hc, hp, ?_⟩
        split at he
        · rename_i hx
          cases he
          simp only [Bool.and_eq_true, Bool.not_eq_true'] at hx
          rw [if_pos hx, ← key c hc]
        · rename_i hx
          cases he
          simp only [Bool.and_eq_true, Bool.not_eq_true'] at hx
          rw [if_neg hx, List.append_nil]
      · cases he
    · cases he
  · intro k he
    simp only [step] at he
    split at he
    · rename_i c hc
      split at he
      · rename_i hen
        cases he
        simp [hen]
      · rename_i hen
        split at he
        · cases he
        · split at he
          · rename_i hk
            cases he
            simp [hen, hk, key c hc]
          · rename_i hk
            cases he
            simp [hk]
    · cases he

/-- C210. **A command reaches another device only through its handle**: if no two links of the history had the same handle, every command was carried out for the link of its connection, or refused. -/
theorem commands_without_reuse_partial (smp handler : Bool) (scan : AdvHist.Scan) : ∀ (es : List Ev) (s : State), run (init smp handler scan) es = some s →
    (∀ (i j : Nat) a b, s.base.links[i]? = some a → s.base.links[j]? = some b → a.handle = b.handle → i = j) → ∀ i c j, (i, c, some j) ∈ s.commands → i = j := by
  refine runT_ind (P := fun (_ : List Ev) (s : State) => (∀ (i j : Nat) a b, s.base.links[i]? = some a → s.base.links[j]? = some b → a.handle = b.handle → i = j) → ∀ i c j, (i, c, some j) ∈ s.commands → i = j) ?_ ?_
  · intro _ i c j hm
    simp [init] at hm
  · intro es s e s' hrun ih he hu
    have hs := good_run smp handler scan es s hrun
    have new : ∀ i (cn : Conn) j, s.base.host.conns[i]? = some cn → target s.base.links cn.handle = some j → (∀ (i j : Nat) a b, s.base.links[i]? = some a → s.base.links[j]? = some b → a.handle = b.handle → i = j) → i = j := by
      intro i cn j hc ht hu
      obtain ⟨l0, n1, n2⟩ := hs.inv.handles i cn hc
      obtain ⟨lj, m1, -, m3⟩ := target_some ht
      exact hu i j l0 lj n1 m1 (by rw [n2, m3])
    cases e with
    | base e =>
      have hb : ∃ b, Links.step s.base e = some b ∧ s'.base = b ∧ s'.commands = s.commands := by
        unfold step at he
        split at he <;> rename_i hx
        · cases hx
          split at he
          · cases he
          · split at he
            · rename_i b hb; cases he; exact ⟨b, hb, rfl, rfl⟩
            · cases he
        · cases hx
          split at he
          · rename_i b hb; cases he; exact ⟨b, hb, rfl, rfl⟩
          · cases he
        all_goals cases hx
      obtain ⟨b, hb1, hb2, hb3⟩ := hb
      rw [hb3]
      obtain ⟨-, k2, -⟩ := base_step hs.inv hb1
      refine ih fun i j a a' h1 h2 h3 => ?_
      obtain ⟨x, x1, x2⟩ := k2 i a h1
      obtain ⟨y, y1, y2⟩ := k2 j a' h2
      exact hu i j x y (by rw [hb2]; exact x1) (by rw [hb2]; exact y1) (by rw [x2, y2, h3])
    | change i r =>
      simp only [step] at he
      split at he
      · split at he <;> cases he; exact ih hu
      · cases he
    | handleNews =>
      simp only [step] at he
      split at he
      · cases he
      · split at he
        · split at he
          · cases he; exact ih hu
          · simp only [told] at he
            split at he
            · split at he <;> cases he; exact ih hu
            · cases he
        · cases he
    | startEncryption i k =>
      simp only [step] at he
      split at he
      · rename_i c hc
        split at he
        · cases he; exact ih hu
        · split at he
          · cases he
          · split at he <;> cases he
            · intro x y j hm
              simp only [List.mem_append, List.mem_singleton, Prod.mk.injEq] at hm
              rcases hm with hm | ⟨rfl, -, hj⟩
              · exact ih hu x y j hm
              · exact new x c j hc hj.symm hu
            · exact ih hu
      · cases he
    | readRSSI i =>
      simp only [step] at he
      split at he
      · rename_i c hc
        cases he
        intro x y j hm
        simp only [List.mem_append, List.mem_singleton, Prod.mk.injEq] at hm
        rcases hm with hm | ⟨rfl, -, hj⟩
        · exact ih hu x y j hm
        · exact new x c j hc hj.symm hu
      · cases he
    | reader i =>
      simp only [step] at he
      split at he
      · rename_i c hc
        split at he
        · split at he <;> cases he
          · intro x y j hm
            simp only [List.mem_append, List.mem_singleton, Prod.mk.injEq] at hm
            rcases hm with hm | ⟨rfl, -, hj⟩
            · exact ih hu x y j hm
            · exact new x c j hc hj.symm hu
          · exact ih hu
        · cases he
      · cases he

/-- C210, not in the code (conn.go:157-183, 270-328, 540-543): `StartEncryption` and `ReadRSSI` do not look whether the connection has ended, and send the handle it had. Here `Disconnected()` of connection 0 has fired (a write is refused), and its handle
belongs to a link with another device: the value of `ReadRSSI` of connection 0 is that of the other device, and `StartEncryption` of connection 0 makes the controller encrypt the link to the other device with the key of the first one. This fails, and the
failure is reported on connection 1, which deletes the bond with the other device. -/
theorem commands_reach_other_device : ∃ s, run (init true false AdvHist.initial) [.base (.connect 64 1 (adr 1)), .base .handle, .base (.lose 0 0x13), .base .handle, .base (.connect 64 1 (adr 2)), .base .handle, .readRSSI 0, .startEncryption 0 true, .change 1 ⟨6, 0⟩, .handleNews] = some s ∧
    s.base.host.conns.map (·.done) = [true, false] ∧ step s (.base (.write 0)) = none ∧ s.commands = [(0, .rssi, some 1), (0, .encrypt, some 1)] ∧ about s.offered 1 = [⟨6, 0⟩] :=
  ⟨_, rfl, rfl, rfl, rfl, rfl⟩

/-- What is taken for a request that is carried out: a packet on the signalling channel (0x0005) with code 0x12 and four parameters of two octets [Vol 3, Part A, 4.20]. -/
theorem update_request_iff (p : Bytes) : isUpdateRequest p = true ↔ ∃ acl l2cap id params, acl.length = 4 ∧ l2cap.length = 2 ∧ params.length = 8 ∧ p = acl ++ l2cap ++ [0x05, 0x00, 0x12, id, 8, 0] ++ params := by
  constructor
  · intro h
    unfold isUpdateRequest at h
    split at h
    · rename_i a0 a1 a2 a3 b0 b1 c0 c1 code id l0 l1 params
      simp only [Bool.and_eq_true, beq_iff_eq] at h
      obtain ⟨⟨⟨⟨⟨rfl, rfl⟩, rfl⟩, rfl⟩, rfl⟩, hl⟩ := h
      exact ⟨[a0, a1, a2, a3], [b0, b1], id, params, rfl, rfl, hl, rfl⟩
    · cases h
  · rintro ⟨acl, l2cap, id, params, h1, h2, h3, rfl⟩
    match acl, h1 with
    | [a, b, c, d], _ =>
      match l2cap, h2 with
      | [e, f], _ => simp [isUpdateRequest, h3]

/-- A Connection Parameter Update Request of a peer, with its ACL length: L2CAP length 12, signalling channel, code, identifier, length 8, intervals 6 to 12, latency 0, timeout 200. -/
def updateRequest : Bytes := [16, 0, 12, 0, 5, 0, 0x12, 1, 8, 0, 6, 0, 12, 0, 0, 0, 200, 0]

/-- C210, not in the code (signal.go:257-267): nor does the reader of a connection look whether the connection has ended before it carries out a parameter update request of the peer that it finds in its queue. Here the peer of connection 0 has sent such a
request and the link was lost before the reader came to it; the parameters of the link with the other device, which has the handle now, are changed. -/
theorem update_reaches_other_device : ∃ s, run (init true false AdvHist.initial) [.base (.connect 64 0 (adr 1)), .base .handle, .base (.peerSend 0 2 updateRequest), .base (.lose 0 0x13), .base (.connect 64 0 (adr 2)), .base .handle, .base .handle, .base .handle, .reader 0] = some s ∧
    s.base.host.conns.map (·.done) = [true, false] ∧ s.commands = [(0, .update, some 1)] :=
  ⟨_, rfl, rfl, rfl⟩

/-- A request read in time changes the parameters of its own link; a peripheral rejects it. -/
theorem update_example : ∃ s, run (init true false AdvHist.initial) [.base (.connect 64 0 (adr 1)), .base (.connect 65 1 (adr 2)), .base (.peerSend 0 2 updateRequest), .base (.peerSend 1 2 updateRequest), .base .handle, .base .handle, .base .handle, .base .handle, .reader 0, .reader 1] = some s ∧
    s.commands = [(0, .update, some 0)] ∧ step s (.reader 0) = none :=
  ⟨_, rfl, rfl, rfl⟩

/-- The hypotheses of the two theorems above are met. -/
theorem commands_example : ∃ s, run (init true false AdvHist.initial) [.base (.connect 64 1 (adr 1)), .base .handle, .base (.lose 0 0x13), .base (.connect 65 1 (adr 2)), .base .handle, .base .handle, .readRSSI 1, .startEncryption 0 true, .startEncryption 1 true, .change 1 ⟨0, 1⟩, .handleNews, .startEncryption 1 true] = some s ∧
    s.base.links.map (·.up) = [false, true] ∧ s.base.links.map (·.handle) = [64, 65] ∧ s.commands = [(1, .rssi, some 1), (0, .encrypt, none), (1, .encrypt, some 1)] :=
  ⟨_, rfl, rfl, rfl, rfl⟩

end Ble.LinkEnc
