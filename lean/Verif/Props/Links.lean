import Verif.Hci.Links
import Verif.Props.Conns
import Verif.Props.Readers
set_option autoImplicit false

/-!
# C189, C190: data written on a connection reach only its peer
-/

namespace Ble.Links

open Ble.Conns Ble.Props Ble.Props.ConnsAux Ble.HciPkt Ble.HciSpec

theorem target_some {ls : List Link} {h j : Nat} (ht : target ls h = some j) : ∃ l, ls[j]? = some l ∧ l.up = true ∧ l.handle = h := by
  unfold target at ht
  obtain ⟨hj, h1, -⟩ := List.findIdx?_eq_some_iff_getElem.1 ht
  simp only [Bool.and_eq_true, beq_iff_eq] at h1
  exact ⟨_, List.getElem?_eq_getElem hj, h1⟩

theorem target_none {ls : List Link} {h : Nat} (ht : target ls h = none) {j : Nat} {l : Link} (hl : ls[j]? = some l) (hu : l.up = true) : l.handle ≠ h := by
  unfold target at ht
  rw [List.findIdx?_eq_none_iff] at ht
  have := ht l (List.mem_of_getElem? hl)
  simp only [hu, Bool.true_and, beq_eq_false_iff_ne] at this
  exact this

theorem takeDown_get (ls : List Link) (i k : Nat) {l : Link} (h : (takeDown ls i)[k]? = some l) : ∃ l0, ls[k]? = some l0 ∧ l.handle = l0.handle ∧ (l.up = true → l = l0 ∧ k ≠ i) := by
  unfold takeDown at h
  split at h
  · rename_i li hi
    by_cases hki : i = k
    · subst hki
      have := (List.getElem?_eq_some_iff.1 hi).1
      rw [List.getElem?_set_self this] at h
      cases h
      exact ⟨li, hi, rfl, fun h => by cases h⟩
    · rw [List.getElem?_set_ne hki] at h
      exact ⟨l, h, rfl, fun _ => ⟨rfl, fun hx => hki hx.symm⟩⟩
  · rename_i hi
    exact ⟨l, h, rfl, fun _ => ⟨rfl, fun hx => by rw [hx, hi] at h; cases h⟩⟩

theorem takeDown_some (ls : List Link) (i k : Nat) {l : Link} (h : ls[k]? = some l) : ∃ l', (takeDown ls i)[k]? = some l' ∧ l'.handle = l.handle := by
  unfold takeDown
  split
  · rename_i li hi
    by_cases hki : i = k
    · subst hki
      have := (List.getElem?_eq_some_iff.1 hi).1
      rw [List.getElem?_set_self this]
      rw [hi] at h; cases h
      exact ⟨_, rfl, rfl⟩
    · rw [List.getElem?_set_ne hki]
      exact ⟨l, h, rfl⟩
  · exact ⟨l, h, rfl⟩

theorem takeDown_mem (ls : List Link) (i : Nat) {l : Link} (h : l ∈ takeDown ls i) : ∃ l0 ∈ ls, l.handle = l0.handle ∧ l.addr = l0.addr := by
  unfold takeDown at h
  split at h
  · rename_i li hi
    rcases List.mem_or_eq_of_mem_set h with h1 | h1
    · exact ⟨l, h1, rfl, rfl⟩
    · exact ⟨li, List.mem_of_getElem? hi, by rw [h1], by rw [h1]⟩
  · exact ⟨l, h, rfl, rfl⟩

theorem takeDown_length (ls : List Link) (i : Nat) : (takeDown ls i).length = ls.length := by
  unfold takeDown; split <;> simp

/-- The host has removed every connection that had handle `h`, and no event about the making of such a connection is on its way. -/
def Released (s : State) (h : Nat) : Prop :=
  (∀ c ∈ s.host.conns, c.handle = h → c.done = true) ∧ ∀ i l, .made i ∈ s.notes → s.links[i]? = some l → l.handle ≠ h

/-- The controller gives a handle to a new link only when the host has removed the connection that had it. -/
def NoEarlyReuse (s0 : State) (es : List Ev) : Prop :=
  ∀ pre h role addr post, es = pre ++ Ev.connect h role addr :: post → ∀ s, run s0 pre = some s → Released s h

/-- The numbers of the links whose connections the host has not made yet. -/
def pending (ns : List Note) : List Nat := ns.filterMap fun n => match n with | .made i => some i | _ => none

structure Inv (s : State) : Prop where
  reach : ConnReachable s.host
  le : s.host.conns.length ≤ s.links.length
  queue : pending s.notes = List.range' s.host.conns.length (s.links.length - s.host.conns.length)
  handles : ∀ (i : Nat) c, s.host.conns[i]? = some c → ∃ l, s.links[i]? = some l ∧ l.handle = c.handle
  small : ∀ l ∈ s.links, l.handle < 4096 ∧ l.addr.length = 6
  lostSmall : ∀ h r, .lost h r ∈ s.notes → h < 4096
  dataSmall : ∀ i h f r, .data i h f r ∈ s.notes → h < 4096 ∧ f < 16
  uniq : ∀ (i j : Nat) a b, s.links[i]? = some a → s.links[j]? = some b → a.up = true → b.up = true → a.handle = b.handle → i = j

/-- The part of the invariant that needs `NoEarlyReuse`. -/
structure Own (s : State) : Prop where
  old : ∀ (j : Nat) b, s.links[j]? = some b → b.up = true → ∀ (i : Nat) a, i ≠ j → s.links[i]? = some a → a.handle = b.handle → ∃ c, s.host.conns[i]? = some c ∧ c.done = true
  sent : ∀ i j, (i, some j) ∈ s.sent → i = j

theorem pending_append (a b : List Note) : pending (a ++ b) = pending a ++ pending b := by simp [pending]

/-- What the host's handling of an event does to its connections. -/
theorem host_disconnect {b b' : Conns.State} (hb : ConnReachable b) {h : Nat} (hh : h < 65536) {r : UInt8} (hp : Conns.packet b (disconnection 0 h r) = .ok b') :
    ConnReachable b' ∧ b'.conns.length = b.conns.length ∧ (∀ (i : Nat) c, b.conns[i]? = some c → ∃ c', b'.conns[i]? = some c' ∧ c'.handle = c.handle ∧ (c.done = true → c'.done = true)) := by
  have hr : ConnReachable b' := step_reachable hb (e := .packet _) hp
  refine ⟨hr, ?_, ?_⟩
  · by_cases hx : r = 0x16 ∨ b.table h = none
    · have := (disconnect_reaches_connection b hb 0 r h hh).1 hx
      rw [this] at hp; cases hp; rfl
    · obtain ⟨h1, h2⟩ := not_or.1 hx
      cases ht : b.table h with
      | none => exact absurd ht h2
      | some i =>
        have := Readers.disconnect_exact (reachable_inv hb) 0 r h hh h1 ht
        rw [this] at hp; cases hp
        rw [modify_length]
  · intro i c hc
    obtain ⟨c', h1, h2, -⟩ := Readers.grows_step (e := .packet _) hp i c hc
    refine ⟨c', h1, h2, fun hd => ?_⟩
    have := closed_connection_frozen b b' hb i c hc hd [.packet (disconnection 0 h r)] (by simp only [Conns.run, Conns.step, hp, Go.bind_ok])
    rw [h1] at this; cases this; exact hd

theorem host_close {b b' : Conns.State} (hb : ConnReachable b) {k : Nat} (hp : Conns.step b (.close k) = .ok b') :
    ConnReachable b' ∧ b'.conns.length = b.conns.length ∧ (∀ (i : Nat) c, b.conns[i]? = some c → ∃ c', b'.conns[i]? = some c' ∧ c'.handle = c.handle ∧ (c.done = true → c'.done = true)) := by
  have hr : ConnReachable b' := step_reachable hb hp
  refine ⟨hr, ?_, ?_⟩
  · simp only [Conns.step] at hp
    split at hp
    · cases hp; rfl
    · rename_i c hc
      rcases cleanup_spec (reachable_inv hb) c.handle with ⟨-, h1⟩ | ⟨i, d, -, -, h1⟩
      · rw [h1] at hp; cases hp; rfl
      · rw [h1] at hp; cases hp; rw [modify_length]
  · intro i c hc
    obtain ⟨c', h1, h2, -⟩ := Readers.grows_step hp i c hc
    refine ⟨c', h1, h2, fun hd => ?_⟩
    have := closed_connection_frozen b b' hb i c hc hd [.close k] (by simp only [Conns.run, hp, Go.bind_ok])
    rw [h1] at this; cases this; exact hd

theorem host_acl {b b' : Conns.State} (hb : ConnReachable b) {h f : Nat} (hh : h < 4096) (hf : f < 16) {r : Bytes} (hp : Conns.packet b (aclPkt h f r) = .ok b') :
    ConnReachable b' ∧ b'.conns.length = b.conns.length ∧ (∀ (i : Nat) c, b.conns[i]? = some c → ∃ c', b'.conns[i]? = some c' ∧ c'.handle = c.handle ∧ (c.done = true → c'.done = true)) := by
  have hr : ConnReachable b' := step_reachable hb (e := .packet _) hp
  obtain ⟨h1, h2⟩ := acl_reaches_connection b hb h f hh hf r
  refine ⟨hr, ?_, ?_⟩
  · cases ht : b.table h with
    | none => rw [h1 ht] at hp; cases hp; rfl
    | some i => obtain ⟨c, -, k⟩ := h2 i ht; rw [k] at hp; cases hp; simp
  · intro i c hc
    obtain ⟨c', h1, h2, -⟩ := Readers.grows_step (e := .packet _) hp i c hc
    refine ⟨c', h1, h2, fun hd => ?_⟩
    have := closed_connection_frozen b b' hb i c hc hd [.packet (aclPkt h f r)] (by simp only [Conns.run, Conns.step, hp, Go.bind_ok])
    rw [h1] at this; cases this; exact hd

theorem range'_snoc (a n : Nat) : List.range' a (n + 1) = List.range' a n ++ [a + n] := by
  rw [List.range'_concat]; simp

theorem inv_down {s : State} (hs : Inv s) (i hd : Nat) (r : UInt8) (hh : hd < 4096) (cl : List Nat) :
    Inv { s with links := takeDown s.links i, notes := s.notes ++ [.lost hd r], closing := cl } ∧ (Own s → Own { s with links := takeDown s.links i, notes := s.notes ++ [.lost hd r], closing := cl }) := by
  refine ⟨⟨hs.reach, by simp only [takeDown_length]; exact hs.le, by simp only [takeDown_length, pending_append]; rw [hs.queue]; simp [pending], ?_, ?_, ?_, fun i h f r hm => hs.dataSmall i h f r (by simpa using hm), ?_⟩, fun ho => ⟨?_, ho.sent⟩⟩
  · intro k c hc
    obtain ⟨l0, k1, k2⟩ := hs.handles k c hc
    obtain ⟨l', k3, k4⟩ := takeDown_some s.links i k k1
    exact ⟨l', k3, by rw [k4, k2]⟩
  · intro l' hl'
    obtain ⟨l0, k1, k2, k3⟩ := takeDown_mem _ _ hl'
    rw [k2, k3]; exact hs.small l0 k1
  · intro h' r' hm
    rcases List.mem_append.1 hm with hm | hm
    · exact hs.lostSmall h' r' hm
    · simp only [List.mem_singleton, Note.lost.injEq] at hm
      rw [hm.1]; exact hh
  · intro x y a b ha hb hua hub hab
    obtain ⟨a0, k1, k2, k3⟩ := takeDown_get _ _ _ ha
    obtain ⟨b0, m1, m2, m3⟩ := takeDown_get _ _ _ hb
    obtain ⟨rfl, -⟩ := k3 hua
    obtain ⟨rfl, -⟩ := m3 hub
    exact hs.uniq x y a b k1 m1 hua hub hab
  · intro j b hb hub x a hxj ha hab
    obtain ⟨a0, k1, k2, k3⟩ := takeDown_get _ _ _ ha
    obtain ⟨b0, m1, m2, m3⟩ := takeDown_get _ _ _ hb
    obtain ⟨rfl, -⟩ := m3 hub
    exact ho.old j b m1 hub x a0 hxj k1 (by rw [← k2, hab])

theorem inv_host {s : State} (hs : Inv s) {b' : Conns.State} {ns : List Note} (cl : List Nat) (hns : pending ns = pending s.notes) (hsub : ∀ n ∈ ns, n ∈ s.notes)
    (hb : ConnReachable b' ∧ b'.conns.length = s.host.conns.length ∧ (∀ (i : Nat) c, s.host.conns[i]? = some c → ∃ c', b'.conns[i]? = some c' ∧ c'.handle = c.handle ∧ (c.done = true → c'.done = true))) :
    Inv { s with host := b', notes := ns, closing := cl } ∧ (Own s → Own { s with host := b', notes := ns, closing := cl }) := by
  obtain ⟨hr, hl, hc⟩ := hb
  refine ⟨⟨hr, by simp only [hl]; exact hs.le, by simp only [hl, hns]; exact hs.queue, ?_, hs.small, fun h r hm => hs.lostSmall h r (hsub _ hm), fun i h f r hm => hs.dataSmall i h f r (hsub _ hm), hs.uniq⟩, fun ho => ⟨?_, ho.sent⟩⟩
  · intro i c' hi
    simp only at hi
    have hlt : i < s.host.conns.length := by
      have := (List.getElem?_eq_some_iff.1 hi).1
      omega
    obtain ⟨c2, k1, k2, -⟩ := hc i _ (List.getElem?_eq_getElem hlt)
    rw [hi] at k1; cases k1
    obtain ⟨l, m1, m2⟩ := hs.handles i _ (List.getElem?_eq_getElem hlt)
    exact ⟨l, m1, by rw [m2, k2]⟩
  · intro j b hb hub x a hxj ha hab
    obtain ⟨c, k1, k2⟩ := ho.old j b hb hub x a hxj ha hab
    obtain ⟨c', m1, -, m3⟩ := hc x c k1
    exact ⟨c', m1, m3 k2⟩

theorem inv_step {s s' : State} {e : Ev} (hs : Inv s) (h : step s e = some s') :
    Inv s' ∧ (Own s → (∀ hd role addr, e = .connect hd role addr → Released s hd) → Own s') := by
  cases e with
  | connect hd role addr =>
    simp only [step] at h
    split at h
    · rename_i hc
      obtain ⟨h1, h2, h3⟩ := hc
      cases h
      have hle := hs.le
      refine ⟨⟨hs.reach, by simp; omega, ?_, ?_, ?_, fun h r hm => hs.lostSmall h r (by simpa using hm), fun i h f r hm => hs.dataSmall i h f r (by simpa using hm), ?_⟩, ?_⟩
      · rw [pending_append, hs.queue]
        simp only [List.length_append, List.length_singleton]
        rw [show s.links.length + 1 - s.host.conns.length = (s.links.length - s.host.conns.length) + 1 by omega, range'_snoc]
        simp only [pending, List.filterMap_cons, List.filterMap_nil]
        congr 2
        omega
      · intro i c hci
        obtain ⟨l, k1, k2⟩ := hs.handles i c hci
        exact ⟨l, by simp only; rw [List.getElem?_append_left (List.getElem?_eq_some_iff.1 k1).1]; exact k1, k2⟩
      · intro l hl
        rcases List.mem_append.1 hl with hl | hl
        · exact hs.small l hl
        · simp only [List.mem_singleton] at hl; subst hl; exact ⟨h2, h3⟩
      · intro i j a b ha hb hua hub hab
        simp only [List.getElem?_append] at ha hb
        split at ha
        · split at hb
          · exact hs.uniq i j a b ha hb hua hub hab
          · have : b = ⟨hd, role, addr, true⟩ := by
              have := List.mem_of_getElem? hb; simpa using this
            subst this
            exact absurd hab (target_none h1 ha hua)
        · have : a = ⟨hd, role, addr, true⟩ := by
            have := List.mem_of_getElem? ha; simpa using this
          subst this
          split at hb
          · exact absurd hab.symm (target_none h1 hb hub)
          · have e1 := (List.getElem?_eq_some_iff.1 ha).1
            have e2 := (List.getElem?_eq_some_iff.1 hb).1
            simp only [List.length_singleton] at e1 e2
            omega
      · intro ho hrel
        obtain ⟨r1, r2⟩ := hrel hd role addr rfl
        refine ⟨?_, ho.sent⟩
        intro j b hb hub i a hij ha hab
        simp only [List.getElem?_append] at ha hb
        split at hb
        · split at ha
          · exact ho.old j b hb hub i a hij ha hab
          · have : a = ⟨hd, role, addr, true⟩ := by
              have := List.mem_of_getElem? ha; simpa using this
            subst this
            exact absurd hab.symm (target_none h1 hb hub)
        · rename_i hjn
          have : b = ⟨hd, role, addr, true⟩ := by
            have := List.mem_of_getElem? hb; simpa using this
          subst this
          split at ha
          · rename_i hil
            by_cases hic : i < s.host.conns.length
            · have hci := List.getElem?_eq_getElem hic
              obtain ⟨l, k1, k2⟩ := hs.handles i _ hci
              rw [ha] at k1; cases k1
              exact ⟨_, hci, r1 _ (List.getElem_mem hic) (by rw [← k2, hab])⟩
            · exfalso
              refine r2 i a ?_ ha hab
              have : i ∈ pending s.notes := by rw [hs.queue, List.mem_range'_1]; omega
              simp only [pending, List.mem_filterMap] at this
              obtain ⟨n, n1, n2⟩ := this
              cases n with
              | made k => simp only [Option.some.injEq] at n2; subst n2; exact n1
              | lost _ _ => cases n2
              | data _ _ _ _ => cases n2
          · have e1 := (List.getElem?_eq_some_iff.1 ha).1
            have e2 := (List.getElem?_eq_some_iff.1 hb).1
            simp only [List.length_singleton] at e1 e2
            omega
    · cases h
  | lose i reason =>
    simp only [step] at h
    split at h
    · rename_i l hl
      split at h
      · cases h
        obtain ⟨k1, k2⟩ := inv_down hs i l.handle reason (hs.small l (List.mem_of_getElem? hl)).1 s.closing
        exact ⟨k1, fun ho _ => k2 ho⟩
      · cases h
    · cases h
  | peerSend i flags rest =>
    simp only [step] at h
    split at h
    · rename_i l hl
      split at h
      · rename_i hu
        cases h
        refine ⟨⟨hs.reach, hs.le, by rw [pending_append, hs.queue]; simp [pending], hs.handles, hs.small, fun h r hm => hs.lostSmall h r (by simpa using hm), ?_, hs.uniq⟩, fun ho _ => ⟨ho.old, ho.sent⟩⟩
        intro j h f r hm
        rcases List.mem_append.1 hm with hm | hm
        · exact hs.dataSmall j h f r hm
        · simp only [List.mem_singleton, Note.data.injEq] at hm
          obtain ⟨-, rfl, rfl, -⟩ := hm
          exact ⟨(hs.small l (List.mem_of_getElem? hl)).1, hu.2⟩
      · cases h
    · cases h
  | handle =>
    simp only [step] at h
    split at h
    · cases h
    · rename_i i rest hn
      split at h
      · rename_i l hl
        obtain ⟨hsm, hal⟩ := hs.small l (List.mem_of_getElem? hl)
        have hp := connection_event_creates s.host 0 l.role 0 l.handle (by omega) l.addr [0, 0, 0, 0, 0, 0, 0] (by rw [hal]; decide)
        rw [if_neg (by simp)] at hp
        have hr : ConnReachable _ := step_reachable hs.reach (e := .packet _) hp
        rw [hp] at h
        simp only [Option.some.injEq] at h
        subst h
        have hq := hs.queue
        rw [hn] at hq
        simp only [pending, List.filterMap_cons] at hq
        have hlt : s.host.conns.length < s.links.length := by
          apply Classical.byContradiction
          intro hge
          rw [show s.links.length - s.host.conns.length = 0 by omega] at hq
          simp at hq
        obtain ⟨n, hnn⟩ : ∃ n, s.links.length - s.host.conns.length = n + 1 := ⟨s.links.length - s.host.conns.length - 1, by omega⟩
        rw [hnn, List.range'_succ] at hq
        simp only [List.cons.injEq] at hq
        obtain ⟨hq1, hq2⟩ := hq
        subst hq1
        refine ⟨⟨hr, by simp; omega, ?_, ?_, hs.small, fun h r hm => hs.lostSmall h r (by rw [hn]; simp [hm]), fun i h f r hm => hs.dataSmall i h f r (by rw [hn]; simp [hm]), hs.uniq⟩, fun ho _ => ⟨?_, ho.sent⟩⟩
        · simp only [List.length_append, List.length_singleton]
          rw [show s.links.length - (s.host.conns.length + 1) = n by omega]
          exact hq2
        · intro k c hc
          simp only [List.getElem?_append] at hc
          split at hc
          · exact hs.handles k c hc
          · rename_i hk
            have e1 := (List.getElem?_eq_some_iff.1 hc).1
            simp only [List.length_singleton] at e1
            have hk0 : k = s.host.conns.length := by omega
            have := List.mem_of_getElem? hc
            simp only [List.mem_singleton] at this
            subst this
            exact ⟨l, by rw [hk0]; exact hl, rfl⟩
        · intro j b hb hub x a hxj ha hab
          obtain ⟨c, k1, k2⟩ := ho.old j b hb hub x a hxj ha hab
          exact ⟨c, by simp only; rw [List.getElem?_append_left (List.getElem?_eq_some_iff.1 k1).1]; exact k1, k2⟩
      · cases h
    · rename_i hd reason rest hn
      split at h
      · rename_i b hb
        cases h
        have hsm := hs.lostSmall hd reason (by rw [hn]; simp)
        obtain ⟨k1, k2⟩ := inv_host hs (ns := rest) s.closing (by rw [hn]; rfl) (fun n hm => by rw [hn]; simp [hm]) (host_disconnect hs.reach (by omega) hb)
        exact ⟨k1, fun ho _ => k2 ho⟩
      · cases h
    · rename_i x hd f r rest hn
      split at h
      · rename_i b hb
        cases h
        have hsm := hs.dataSmall x hd f r (by rw [hn]; simp)
        obtain ⟨k1, k2⟩ := inv_host hs (ns := rest) s.closing (by rw [hn]; rfl) (fun n hm => by rw [hn]; simp [hm]) (host_acl hs.reach hsm.1 hsm.2 hb)
        exact ⟨k1, fun ho _ => k2 ho⟩
      · cases h
  | close i =>
    simp only [step] at h
    split at h
    · rename_i c hc
      split at h
      · split at h
        · rename_i j hj
          cases h
          obtain ⟨l, m1, -, m3⟩ := target_some hj
          obtain ⟨k1, k2⟩ := inv_down hs j c.handle 0x16 (by rw [← m3]; exact (hs.small l (List.mem_of_getElem? m1)).1) (s.closing ++ [i])
          exact ⟨k1, fun ho _ => k2 ho⟩
        · cases h
          exact ⟨⟨hs.reach, hs.le, hs.queue, hs.handles, hs.small, hs.lostSmall, hs.dataSmall, hs.uniq⟩, fun ho _ => ⟨ho.old, ho.sent⟩⟩
      · cases h
    · cases h
  | cleanup i =>
    simp only [step] at h
    split at h
    · split at h
      · rename_i b hb
        cases h
        obtain ⟨k1, k2⟩ := inv_host hs (ns := s.notes) (s.closing.erase i) rfl (fun n hm => hm) (host_close hs.reach hb)
        exact ⟨k1, fun ho _ => k2 ho⟩
      · cases h
    · cases h
  | write i =>
    simp only [step] at h
    split at h
    · rename_i c hc
      split at h
      · rename_i hd
        cases h
        refine ⟨⟨hs.reach, hs.le, hs.queue, hs.handles, hs.small, hs.lostSmall, hs.dataSmall, hs.uniq⟩, fun ho _ => ⟨ho.old, ?_⟩⟩
        intro x y hxy
        simp only [List.mem_append, List.mem_singleton, Prod.mk.injEq] at hxy
        rcases hxy with hxy | ⟨rfl, hy⟩
        · exact ho.sent x y hxy
        · obtain ⟨l, m1, m2, m3⟩ := target_some hy.symm
          apply Classical.byContradiction
          intro hne
          obtain ⟨l0, n1, n2⟩ := hs.handles x c hc
          obtain ⟨c', p1, p2⟩ := ho.old y l m1 m2 x l0 hne n1 (by rw [n2, m3])
          rw [hc] at p1; cases p1
          rw [hd] at p2; cases p2
      · cases h
    · cases h

theorem inv_run (smp handler : Bool) (scan : AdvHist.Scan) : ∀ es s, run (init smp handler scan) es = some s → Inv s ∧ (NoEarlyReuse (init smp handler scan) es → Own s) := by
  refine runT_ind (P := fun es s => Inv s ∧ (NoEarlyReuse (init smp handler scan) es → Own s)) ?_ ?_
  · refine ⟨⟨⟨smp, handler, scan, [], rfl⟩, by simp [init, Conns.init], rfl, ?_, ?_, ?_, ?_, ?_⟩, fun _ => ⟨?_, ?_⟩⟩ <;> simp [init, Conns.init]
  · intro es s e s' hrun ih he
    obtain ⟨k1, k2⟩ := inv_step ih.1 he
    refine ⟨k1, fun hn => k2 (ih.2 ?_) ?_⟩
    · intro pre h role addr post hes t ht
      exact hn pre h role addr (post ++ [e]) (by rw [hes]; simp) t ht
    · intro h role addr hee
      exact hn es h role addr [] (by rw [hee]) s hrun

/-- C189, the full statement: what is written on a connection goes to the device this connection was made with, or nowhere. Proved: if the controller gives a handle to a new link only when the host has removed the connection that had it before.
**Missing, and false of the code**: without this, see `write_reaches_wrong_peer`. -/
theorem writes_reach_own_peer_partial (smp handler : Bool) (scan : AdvHist.Scan) (es : List Ev) (s : State) (h : run (init smp handler scan) es = some s) (hn : NoEarlyReuse (init smp handler scan) es)
    (i j : Nat) (hij : (i, some j) ∈ s.sent) : i = j :=
  ((inv_run smp handler scan es s h).2 hn).sent i j hij

/-- C190. **As long as its link exists, what is written on a connection goes over this link**, whatever handles the controller has given out before, and whatever the host has not heard of yet. -/
theorem write_reaches_link (smp handler : Bool) (scan : AdvHist.Scan) (es : List Ev) (s : State) (h : run (init smp handler scan) es = some s) (i : Nat) (l : Link) (hl : s.links[i]? = some l) (hu : l.up = true) (s' : State)
    (hw : step s (.write i) = some s') : s'.sent = s.sent ++ [(i, some i)] := by
  have hs := (inv_run smp handler scan es s h).1
  simp only [step] at hw
  split at hw
  · rename_i c hc
    split at hw
    · cases hw
      obtain ⟨l0, n1, n2⟩ := hs.handles i c hc
      rw [hl] at n1; cases n1
      cases ht : target s.links c.handle with
      | none => exact absurd n2 (target_none ht hl hu)
      | some j =>
        obtain ⟨lj, m1, m2, m3⟩ := target_some ht
        rw [hs.uniq j i lj l m1 hl m2 hu (by rw [m3, n2])]
    · cases hw
  · cases hw

theorem run_conns {s s' : State} (hs : Inv s) (i : Nat) (c : Conn) (hc : s.host.conns[i]? = some c) (hd : c.done = true) (es : List Ev) (h : run s es = some s') :
    Inv s' ∧ (∃ c', s'.host.conns[i]? = some c' ∧ c'.done = true) ∧ (∀ t, (i, t) ∈ s'.sent → (i, t) ∈ s.sent) ∧ s'.sent.filter (·.1 == i) = s.sent.filter (·.1 == i) := by
  revert es s'
  refine fun es h => runT_ind (P := fun _ s' => Inv s' ∧ (∃ c', s'.host.conns[i]? = some c' ∧ c'.done = true) ∧ (∀ t, (i, t) ∈ s'.sent → (i, t) ∈ s.sent) ∧ s'.sent.filter (·.1 == i) = s.sent.filter (·.1 == i)) ?_ ?_ _ _ h
  · exact ⟨hs, ⟨c, hc, hd⟩, fun _ h => h, rfl⟩
  · intro es s1 e s2 _ ih he
    obtain ⟨k1, ⟨c1, k2, k3⟩, k4, k5⟩ := ih
    refine ⟨(inv_step k1 he).1, ?_⟩
    cases e with
    | connect hd role addr =>
      simp only [step] at he
      split at he
      · cases he; exact ⟨⟨c1, k2, k3⟩, k4, k5⟩
      · cases he
    | lose j reason =>
      simp only [step] at he
      split at he
      · split at he
        · cases he; exact ⟨⟨c1, k2, k3⟩, k4, k5⟩
        · cases he
      · cases he
    | handle =>
      simp only [step] at he
      split at he
      · cases he
      · split at he
        · rename_i l hl
          obtain ⟨hsm, hal⟩ := k1.small l (List.mem_of_getElem? hl)
          have hp := connection_event_creates s1.host 0 l.role 0 l.handle (by omega) l.addr [0, 0, 0, 0, 0, 0, 0] (by rw [hal]; decide)
          rw [if_neg (by simp)] at hp
          rw [hp] at he
          simp only [Option.some.injEq] at he
          subst he
          exact ⟨⟨c1, by simp only; rw [List.getElem?_append_left (List.getElem?_eq_some_iff.1 k2).1]; exact k2, k3⟩, k4, k5⟩
        · cases he
      · rename_i hd reason rest hn
        split at he
        · rename_i b hb
          cases he
          have hsm := k1.lostSmall hd reason (by rw [hn]; simp)
          obtain ⟨c', m1, -, m3⟩ := (host_disconnect k1.reach (by omega) hb).2.2 i c1 k2
          exact ⟨⟨c', m1, m3 k3⟩, k4, k5⟩
        · cases he
      · rename_i x hd f r rest hn
        split at he
        · rename_i b hb
          cases he
          have hsm := k1.dataSmall x hd f r (by rw [hn]; simp)
          obtain ⟨c', m1, -, m3⟩ := (host_acl k1.reach hsm.1 hsm.2 hb).2.2 i c1 k2
          exact ⟨⟨c', m1, m3 k3⟩, k4, k5⟩
        · cases he
    | peerSend j flags rest =>
      simp only [step] at he
      split at he
      · split at he
        · cases he; exact ⟨⟨c1, k2, k3⟩, k4, k5⟩
        · cases he
      · cases he
    | close j =>
      simp only [step] at he
      split at he
      · split at he
        · split at he
          · cases he; exact ⟨⟨c1, k2, k3⟩, k4, k5⟩
          · cases he; exact ⟨⟨c1, k2, k3⟩, k4, k5⟩
        · cases he
      · cases he
    | cleanup j =>
      simp only [step] at he
      split at he
      · split at he
        · rename_i b hb
          cases he
          obtain ⟨c', m1, -, m3⟩ := (host_close k1.reach hb).2.2 i c1 k2
          exact ⟨⟨c', m1, m3 k3⟩, k4, k5⟩
        · cases he
      · cases he
    | write j =>
      simp only [step] at he
      split at he
      · rename_i cj hcj
        split at he
        · rename_i hdj
          have hij : j ≠ i := by
            intro hx; subst hx
            rw [k2] at hcj; cases hcj
            rw [k3] at hdj; cases hdj
          cases he
          refine ⟨⟨c1, k2, k3⟩, ?_, ?_⟩
          · intro t ht
            simp only [List.mem_append, List.mem_singleton, Prod.mk.injEq] at ht
            rcases ht with ht | ⟨ht, -⟩
            · exact k4 t ht
            · exact absurd ht.symm hij
          · simp [List.filter_append, k5, hij]
        · cases he
      · cases he

/-- C190. **Once the host has announced a connection as closed, nothing written on it is sent**, to any device, whatever happens later: the data sent on this connection stay what they were. -/
theorem closed_writes_nothing (smp handler : Bool) (scan : AdvHist.Scan) (es : List Ev) (s : State) (h : run (init smp handler scan) es = some s) (i : Nat) (c : Conn) (hc : s.host.conns[i]? = some c) (hd : c.done = true)
    (es' : List Ev) (s' : State) (h' : run s es' = some s') : s'.sent.filter (·.1 == i) = s.sent.filter (·.1 == i) :=
  (run_conns (inv_run smp handler scan es s h).1 i c hc hd es' h').2.2.2

/-! ## Received data -/

/-- The packets the peer of link `i` has sent. -/
def sentBy (s : State) (i : Nat) : List Bytes := s.air.filterMap fun x => if x.1 = i then some x.2 else none

/-- Those of them that wait to be handled by the host. -/
def queuedFor (ns : List Note) (i : Nat) : List Bytes :=
  ns.filterMap fun n => match n with | .data j h f r => if j = i then some ((aclPkt h f r).drop 1) else none | _ => none

/-- Connection `i` is the latest one with its handle. -/
def IsLatest (b : Conns.State) (i : Nat) (c : Conn) : Prop := ∀ (k : Nat) d, b.conns[k]? = some d → d.handle = c.handle → k ≤ i

structure Rx (s : State) : Prop where
  isOpen : s.host.isOpen = true
  latest : Readers.Latest s.host
  upLatest : ∀ (i : Nat) l, s.links[i]? = some l → l.up = true → ∀ (k : Nat) m, s.links[k]? = some m → m.handle = l.handle → k ≤ i
  order : ∀ pre i h f r post, s.notes = pre ++ Note.data i h f r :: post → (∃ l, s.links[i]? = some l ∧ l.handle = h) ∧ i < s.host.conns.length + (pending pre).length ∧
    ∀ (k : Nat) l, k < s.host.conns.length + (pending pre).length → s.links[k]? = some l → l.handle = h → k ≤ i
  live : ∀ (i : Nat) c, s.host.conns[i]? = some c → IsLatest s.host i c → s.host.table c.handle = some i ∨ c.done = true
  future : ∀ i, s.host.conns.length ≤ i → sentBy s i = queuedFor s.notes i
  flow : ∀ (i : Nat) c, s.host.conns[i]? = some c → ∃ d, sentBy s i = c.rx ++ d ++ queuedFor s.notes i ∧ (c.done = false → d = [])

theorem queuedFor_append (a b : List Note) (i : Nat) : queuedFor (a ++ b) i = queuedFor a i ++ queuedFor b i := by simp [queuedFor]

/-- Nothing but the links' being up, or events without data at the end of the queue, has changed. -/
theorem rx_frame {s : State} (hs : Rx s) (ls : List Link) (ns : List Note) (cl : List Nat) (st : List (Nat × Option Nat)) (hl : ∀ (k : Nat) l, ls[k]? = some l → ∃ l0, s.links[k]? = some l0 ∧ l.handle = l0.handle ∧ (l.up = true → l0.up = true))
    (hl' : ∀ (k : Nat) l, s.links[k]? = some l → ∃ l', ls[k]? = some l' ∧ l'.handle = l.handle) (hns : ∀ n ∈ ns, ∃ h r, n = .lost h r) :
    Rx { s with links := ls, notes := s.notes ++ ns, closing := cl, sent := st } := by
  have hq : ∀ i, queuedFor ns i = [] := by
    intro i
    unfold queuedFor
    rw [List.filterMap_eq_nil_iff]
    intro n hn
    obtain ⟨h, r, rfl⟩ := hns n hn
    rfl
  refine ⟨hs.isOpen, hs.latest, ?_, ?_, hs.live, ?_, ?_⟩
  · intro i l h1 hu k m h2 hm
    obtain ⟨l0, a1, a2, a3⟩ := hl i l h1
    obtain ⟨m0, b1, b2, -⟩ := hl k m h2
    exact hs.upLatest i l0 a1 (a3 hu) k m0 b1 (by rw [← b2, hm, a2])
  · intro pre i h f r post he
    simp only at he
    have : ∃ post', s.notes = pre ++ .data i h f r :: post' := by
      rcases List.append_eq_append_iff.1 he with ⟨as, h1, h2⟩ | ⟨bs, h1, h2⟩
      · exfalso
        obtain ⟨a, b, hx⟩ := hns (.data i h f r) (by rw [h2]; simp)
        cases hx
      · cases bs with
        | nil =>
          exfalso
          obtain ⟨a, b, hx⟩ := hns (.data i h f r) (by rw [← List.nil_append ns, ← h2]; simp)
          cases hx
        | cons x bs =>
          simp only [List.cons_append, List.cons.injEq] at h2
          exact ⟨bs, by rw [h1, h2.1]⟩
    obtain ⟨post', hp⟩ := this
    obtain ⟨⟨l, c1, c2⟩, c3, c4⟩ := hs.order pre i h f r post' hp
    obtain ⟨l', d1, d2⟩ := hl' i l c1
    refine ⟨⟨l', d1, by rw [d2, c2]⟩, c3, ?_⟩
    intro k m hk hm hh
    obtain ⟨m0, b1, b2, -⟩ := hl k m hm
    exact c4 k m0 hk b1 (by rw [← b2, hh])
  · intro i hi
    simp only [queuedFor_append, hq, List.append_nil]
    exact hs.future i hi
  · intro i c hc
    simp only [queuedFor_append, hq, List.append_nil]
    exact hs.flow i c hc

/-- A listed connection is removed, or nothing changes. -/
def Removal (b b' : Conns.State) : Prop :=
  b' = b ∨ ∃ h i, b.table h = some i ∧ b' = ({ b with table := fun x => if x = h then none else b.table x }.modify i fun c => { c with done := c.done || (b.isOpen || !c.slave), rxClosed := true })

theorem removal_get {b b' : Conns.State} (h : Removal b b') (k : Nat) : (∀ c', b'.conns[k]? = some c' → ∃ c, b.conns[k]? = some c ∧ c'.handle = c.handle ∧ c'.rx = c.rx ∧ (c'.done = false → c.done = false)) ∧
    (∀ c, b.conns[k]? = some c → ∃ c', b'.conns[k]? = some c' ∧ c'.handle = c.handle) := by
  rcases h with rfl | ⟨h, i, h1, h2⟩
  · exact ⟨fun c hc => ⟨c, hc, rfl, rfl, id⟩, fun c hc => ⟨c, hc, rfl⟩⟩
  · subst h2
    by_cases hik : i = k
    · subst hik
      rw [modify_conns_self]
      simp only
      constructor
      · intro c' hc'
        cases hc : b.conns[i]? with
        | none => rw [hc] at hc'; cases hc'
        | some c =>
          rw [hc] at hc'
          simp only [Option.map_some, Option.some.injEq] at hc'
          subst hc'
          exact ⟨c, rfl, rfl, rfl, by simp only [Bool.or_eq_false_iff]; exact fun h => h.1⟩
      · intro c hc
        rw [hc]
        exact ⟨_, rfl, rfl⟩
    · rw [modify_conns_ne _ _ _ _ hik]
      exact ⟨fun c hc => ⟨c, hc, rfl, rfl, id⟩, fun c hc => ⟨c, hc, rfl⟩⟩

theorem rx_removal {s : State} (hs : Rx s) {b' : Conns.State} (hb : Removal s.host b') (hlat : Readers.Latest b') (cl : List Nat) (ns : List Note) (hns : ns = s.notes ∨ ∃ h r, s.notes = Note.lost h r :: ns)
    (hlen : b'.conns.length = s.host.conns.length) : Rx { s with host := b', notes := ns, closing := cl } := by
  have hq : ∀ i, queuedFor ns i = queuedFor s.notes i := by
    intro i
    rcases hns with rfl | ⟨h, r, hn⟩
    · rfl
    · rw [hn]; rfl
  have hopen : b'.isOpen = true := by
    rcases hb with rfl | ⟨h, i, -, rfl⟩
    · exact hs.isOpen
    · exact hs.isOpen
  refine ⟨hopen, hlat, hs.upLatest, ?_, ?_, ?_, ?_⟩
  · intro pre i h f r post he
    simp only [hlen] at he ⊢
    rcases hns with rfl | ⟨h', r', hn⟩
    · exact hs.order pre i h f r post he
    · have := hs.order (.lost h' r' :: pre) i h f r post (by rw [hn, he]; rfl)
      exact this
  · intro i c' hc' hl
    simp only at hc' hl ⊢
    obtain ⟨c, k1, k2, k3, k4⟩ := (removal_get hb i).1 c' hc'
    have hl0 : IsLatest s.host i c := by
      intro k d hd hh
      obtain ⟨d', e1, e2⟩ := (removal_get hb k).2 d hd
      exact hl k d' e1 (by rw [e2, hh, k2])
    rcases hs.live i c k1 hl0 with h1 | h1
    · rcases hb with rfl | ⟨h, j, hj, rfl⟩
      · left; rw [k2]; exact h1
      · by_cases hh : c.handle = h
        · right
          have hji : j = i := by rw [hh, hj] at h1; injection h1
          subst hji
          rw [modify_conns_self] at hc'
          simp only [k1, Option.map_some, Option.some.injEq] at hc'
          subst hc'
          simp [hs.isOpen]
        · left
          show (if c'.handle = h then none else s.host.table c'.handle) = some i
          rw [k2, if_neg hh]
          exact h1
    · right
      cases hd : c'.done with
      | true => rfl
      | false => rw [k4 hd] at h1; cases h1
  · intro i hi
    simp only [hlen] at hi
    show sentBy s i = queuedFor ns i
    rw [hq]
    exact hs.future i hi
  · intro i c' hc'
    obtain ⟨c, k1, k2, k3, k4⟩ := (removal_get hb i).1 c' hc'
    obtain ⟨d, f1, f2⟩ := hs.flow i c k1
    refine ⟨d, ?_, fun hd => f2 (k4 hd)⟩
    show sentBy s i = c'.rx ++ d ++ queuedFor ns i
    rw [hq, k3]
    exact f1

theorem rx_step {s s' : State} {e : Ev} (hi : Inv s) (hs : Rx s) (h : step s e = some s') : Rx s' := by
  cases e with
  | connect hd role addr =>
    simp only [step] at h
    split at h
    · rename_i hc
      obtain ⟨h1, -, -⟩ := hc
      cases h
      have hle := hi.le
      refine ⟨hs.isOpen, hs.latest, ?_, ?_, hs.live, ?_, ?_⟩
      · intro i l hl hu k m hm hh
        simp only [List.getElem?_append] at hl hm
        split at hl
        · split at hm
          · exact hs.upLatest i l hl hu k m hm hh
          · have : m = ⟨hd, role, addr, true⟩ := by have := List.mem_of_getElem? hm; simpa using this
            subst this
            exact absurd hh.symm (target_none h1 hl hu)
        · have h2 : k < s.links.length + 1 := by
            split at hm
            · omega
            · have := (List.getElem?_eq_some_iff.1 hm).1; simp at this; omega
          omega
      · intro pre i h f r post he
        simp only at he
        have : ∃ post', s.notes = pre ++ .data i h f r :: post' := by
          rcases List.append_eq_append_iff.1 he with ⟨as, h3, h4⟩ | ⟨bs, h3, h4⟩
          · cases as with
            | nil => simp at h4
            | cons x as => simp at h4
          · cases bs with
            | nil => simp at h4
            | cons x bs =>
              simp only [List.cons_append, List.cons.injEq] at h4
              exact ⟨bs, by rw [h3, h4.1]⟩
        obtain ⟨post', hp⟩ := this
        obtain ⟨⟨l, c1, c2⟩, c3, c4⟩ := hs.order pre i h f r post' hp
        have hlt : s.host.conns.length + (pending pre).length ≤ s.links.length := by
          have := congrArg List.length hi.queue
          rw [hp, pending_append] at this
          simp only [List.length_append, List.length_range'] at this
          omega
        refine ⟨⟨l, by simp only; rw [List.getElem?_append_left (by omega)]; exact c1, c2⟩, c3, ?_⟩
        intro k m hk hm hh
        simp only at hk hm
        rw [List.getElem?_append_left (by omega)] at hm
        exact c4 k m hk hm hh
      · intro i hi'
        simp only [queuedFor_append]
        rw [show queuedFor [Note.made s.links.length] i = [] from rfl, List.append_nil]
        exact hs.future i hi'
      · intro i c hc
        simp only [queuedFor_append]
        rw [show queuedFor [Note.made s.links.length] i = [] from rfl, List.append_nil]
        exact hs.flow i c hc
    · cases h
  | lose i reason =>
    simp only [step] at h
    split at h
    · split at h
      · cases h
        refine rx_frame hs _ _ s.closing s.sent (fun k l hl => ?_) (fun k l hl => ?_) (fun n hn => ?_)
        · obtain ⟨l0, h1, h2, h3⟩ := takeDown_get _ _ _ hl
          exact ⟨l0, h1, h2, fun hu => by rw [← (h3 hu).1]; exact hu⟩
        · exact takeDown_some _ _ _ hl
        · simp only [List.mem_singleton] at hn; exact ⟨_, _, hn⟩
      · cases h
    · cases h
  | peerSend i flags rest =>
    simp only [step] at h
    split at h
    · rename_i l hl
      split at h
      · rename_i hu
        cases h
        have hp : ∀ j, sentBy { s with notes := s.notes ++ [.data i l.handle flags rest], air := s.air ++ [(i, (aclPkt l.handle flags rest).drop 1)] } j =
            sentBy s j ++ queuedFor [.data i l.handle flags rest] j := by
          intro j
          simp only [sentBy, queuedFor, List.filterMap_append, List.filterMap_cons, List.filterMap_nil]
        refine ⟨hs.isOpen, hs.latest, hs.upLatest, ?_, hs.live, ?_, ?_⟩
        · intro pre j h f r post he
          simp only at he
          rcases List.append_eq_append_iff.1 he with ⟨as, h3, h4⟩ | ⟨bs, h3, h4⟩
          · cases as with
            | cons x as => simp at h4
            | nil =>
              simp only [List.nil_append, List.cons.injEq, Note.data.injEq, List.append_nil] at h4 h3
              obtain ⟨⟨rfl, rfl, rfl, rfl⟩, -⟩ := h4
              subst h3
              have hlen : (pending s.notes).length = s.links.length - s.host.conns.length := by rw [hi.queue, List.length_range']
              have hil := (List.getElem?_eq_some_iff.1 hl).1
              have hle := hi.le
              refine ⟨⟨l, hl, rfl⟩, by simp only [hlen]; omega, ?_⟩
              intro k m _ hm hh
              exact hs.upLatest i l hl hu.1 k m hm hh
          · cases bs with
            | nil =>
              simp only [List.nil_append, List.cons.injEq, Note.data.injEq, List.append_nil] at h4 h3
              obtain ⟨⟨rfl, rfl, rfl, rfl⟩, -⟩ := h4
              rw [← h3]
              have hlen : (pending s.notes).length = s.links.length - s.host.conns.length := by rw [hi.queue, List.length_range']
              have hil := (List.getElem?_eq_some_iff.1 hl).1
              have hle := hi.le
              refine ⟨⟨l, hl, rfl⟩, by simp only [hlen]; omega, ?_⟩
              intro k m _ hm hh
              exact hs.upLatest _ l hl hu.1 k m hm hh
            | cons x bs =>
              simp only [List.cons_append, List.cons.injEq] at h4
              exact hs.order pre j h f r bs (by rw [h3, h4.1])
        · intro j hj
          rw [hp j]
          simp only [queuedFor_append]
          rw [hs.future j hj]
        · intro j c hc
          rw [hp j]
          simp only [queuedFor_append]
          obtain ⟨d, d1, d2⟩ := hs.flow j c hc
          exact ⟨d, by rw [d1, List.append_assoc], d2⟩
      · cases h
    · cases h
  | handle =>
    simp only [step] at h
    split at h
    · cases h
    · rename_i i rest hn
      split at h
      · rename_i l hl
        obtain ⟨hsm, hal⟩ := hi.small l (List.mem_of_getElem? hl)
        have hp := connection_event_creates s.host 0 l.role 0 l.handle (by omega) l.addr [0, 0, 0, 0, 0, 0, 0] (by rw [hal]; decide)
        rw [if_neg (by simp)] at hp
        have hlat := Readers.latest_step hs.latest (e := .packet _) hp
        rw [hp] at h
        simp only [Option.some.injEq] at h
        subst h
        have hli : i = s.host.conns.length := by
          have hq := hi.queue
          rw [hn] at hq
          simp only [pending, List.filterMap_cons] at hq
          cases hx : s.links.length - s.host.conns.length with
          | zero => rw [hx] at hq; simp at hq
          | succ n => rw [hx, List.range'_succ] at hq; exact (List.cons.inj hq).1
        subst hli
        have hq : ∀ j, queuedFor rest j = queuedFor s.notes j := by intro j; rw [hn]; rfl
        refine ⟨hs.isOpen, hlat, hs.upLatest, ?_, ?_, ?_, ?_⟩
        · intro pre j h f r post he
          simp only at he
          have := hs.order (.made s.host.conns.length :: pre) j h f r post (by rw [hn, he]; rfl)
          have e1 : (pending (.made s.host.conns.length :: pre)).length = (pending pre).length + 1 := by simp [pending]
          rw [e1] at this
          simp only [List.length_append, List.length_singleton]
          rw [show s.host.conns.length + 1 + (pending pre).length = s.host.conns.length + ((pending pre).length + 1) by omega]
          exact this
        · intro j c hc hla
          simp only [List.getElem?_append] at hc ⊢
          split at hc
          · rename_i hjl
            by_cases hh : c.handle = l.handle
            · exfalso
              have := hla s.host.conns.length { handle := l.handle, slave := l.role ≠ 0, smp := s.host.smpEnabled } (by simp only; rw [List.getElem?_append_right (by omega)]; simp) hh.symm
              omega
            · rw [if_neg hh]
              refine hs.live j c hc (fun k d hd hhd => ?_)
              refine hla k d ?_ hhd
              simp only
              rw [List.getElem?_append_left (List.getElem?_eq_some_iff.1 hd).1]
              exact hd
          · left
            have e1 := (List.getElem?_eq_some_iff.1 hc).1
            simp only [List.length_singleton] at e1
            have hj : j = s.host.conns.length := by omega
            have := List.mem_of_getElem? hc
            simp only [List.mem_singleton] at this
            subst this
            simp [hj]
        · intro j hj
          simp only [List.length_append, List.length_singleton] at hj
          show sentBy s j = queuedFor rest j
          rw [hq]
          exact hs.future j (by omega)
        · intro j c hc
          simp only [List.getElem?_append] at hc
          split at hc
          · obtain ⟨d, d1, d2⟩ := hs.flow j c hc
            refine ⟨d, ?_, d2⟩
            show sentBy s j = c.rx ++ d ++ queuedFor rest j
            rw [hq]; exact d1
          · have := List.mem_of_getElem? hc
            simp only [List.mem_singleton] at this
            subst this
            refine ⟨[], ?_, fun _ => rfl⟩
            show sentBy s j = [] ++ [] ++ queuedFor rest j
            rw [hq]
            exact hs.future j (by omega)
      · cases h
    · rename_i hd reason rest hn
      split at h
      · rename_i b hb
        cases h
        have hsm := hi.lostSmall hd reason (by rw [hn]; simp)
        refine rx_removal hs ?_ (Readers.latest_step hs.latest (e := .packet _) hb) s.closing rest (.inr ⟨_, _, hn⟩) (host_disconnect hi.reach (by omega) hb).2.1
        by_cases hx : reason = 0x16 ∨ s.host.table hd = none
        · have := (disconnect_reaches_connection s.host hi.reach 0 reason hd (by omega)).1 hx
          rw [this] at hb; cases hb; exact .inl rfl
        · obtain ⟨h1, h2⟩ := not_or.1 hx
          cases ht : s.host.table hd with
          | none => exact absurd ht h2
          | some i =>
            have := Readers.disconnect_exact (reachable_inv hi.reach) 0 reason hd (by omega) h1 ht
            rw [this] at hb; cases hb
            exact .inr ⟨hd, i, ht, rfl⟩
      · cases h
    · rename_i x hd f r rest hn
      split at h
      · rename_i b hb
        cases h
        have hsm := hi.dataSmall x hd f r (by rw [hn]; simp)
        obtain ⟨⟨l, o1, o2⟩, o3, o4⟩ := hs.order [] x hd f r rest (by rw [hn]; rfl)
        simp only [pending, List.filterMap_nil, List.length_nil, Nat.add_zero] at o3 o4
        have hcx := List.getElem?_eq_getElem o3
        generalize s.host.conns[x] = c at hcx
        obtain ⟨l0, p1, p2⟩ := hi.handles x c hcx
        rw [o1] at p1; cases p1
        have hch : c.handle = hd := by rw [← p2, o2]
        have hlx : ∀ (k : Nat) d, s.host.conns[k]? = some d → d.handle = hd → k ≤ x := by
          intro k d hd' hh
          obtain ⟨m, m1, m2⟩ := hi.handles k d hd'
          exact o4 k m (List.getElem?_eq_some_iff.1 hd').1 m1 (by rw [m2, hh])
        have hq : ∀ j, queuedFor s.notes j = (if x = j then [(aclPkt hd f r).drop 1] else []) ++ queuedFor rest j := by
          intro j
          rw [hn]
          simp only [queuedFor, List.filterMap_cons]
          split <;> rename_i hh <;> split at hh <;> simp_all
        have hord : ∀ (b : Conns.State), b.conns.length = s.host.conns.length → ∀ pre i h f' r' post, rest = pre ++ Note.data i h f' r' :: post → (∃ l, s.links[i]? = some l ∧ l.handle = h) ∧ i < b.conns.length + (pending pre).length ∧
            ∀ (k : Nat) l, k < b.conns.length + (pending pre).length → s.links[k]? = some l → l.handle = h → k ≤ i := by
          intro b hb pre i h f' r' post he
          rw [hb]
          exact hs.order (.data x hd f r :: pre) i h f' r' post (by rw [hn, he]; rfl)
        obtain ⟨a1, a2⟩ := acl_reaches_connection s.host hi.reach hd f hsm.1 hsm.2 r
        cases ht : s.host.table hd with
        | none =>
          rw [a1 ht] at hb
          cases hb
          have hdone : c.done = true := by
            rcases hs.live x c hcx (fun k d h1 h2 => hlx k d h1 (by rw [h2, hch])) with h1 | h1
            · rw [hch, ht] at h1; cases h1
            · exact h1
          refine ⟨hs.isOpen, hs.latest, hs.upLatest, hord _ rfl, hs.live, ?_, ?_⟩
          · intro j hj
            simp only at hj
            show sentBy s j = queuedFor rest j
            have := hs.future j hj
            rw [hq, if_neg (by omega)] at this
            exact this
          · intro j d hd'
            simp only at hd'
            obtain ⟨dr, e1, e2⟩ := hs.flow j d hd'
            rw [hq] at e1
            by_cases hxj : x = j
            · subst hxj
              rw [hcx] at hd'; cases hd'
              rw [if_pos rfl] at e1
              refine ⟨dr ++ [(aclPkt hd f r).drop 1], ?_, fun hf => by rw [hdone] at hf; cases hf⟩
              show sentBy s x = _
              rw [e1]; simp only [List.append_assoc]
            · rw [if_neg hxj] at e1
              exact ⟨dr, e1, e2⟩
        | some i =>
          obtain ⟨c', q1, q2⟩ := a2 i ht
          obtain ⟨c2, q3, q4, q5, q6⟩ := (reachable_inv hi.reach).listed hd i ht
          rw [q1] at q3; cases q3
          have hix : i = x := by
            have h1 := hlx i c' q1 q4
            have h2 := hs.latest hd i ht x c hcx hch
            omega
          subst hix
          rw [hcx] at q1; cases q1
          have hlat := Readers.latest_step hs.latest (e := .packet _) hb
          rw [q2] at hb
          cases hb
          refine ⟨hs.isOpen, hlat, hs.upLatest, hord _ (by simp), ?_, ?_, ?_⟩
          · intro j d hd' hla
            simp only at hd' ⊢
            by_cases hxj : i = j
            · subst hxj
              rw [List.getElem?_set_self o3] at hd'
              cases hd'
              left
              rw [hch]; exact ht
            · rw [List.getElem?_set_ne hxj] at hd'
              refine hs.live j d hd' (fun k g hg hgh => ?_)
              by_cases hik : i = k
              · subst hik
                rw [hcx] at hg; cases hg
                exact hla i { c with rx := c.rx ++ [(aclPkt hd f r).drop 1] } (by simp only; rw [List.getElem?_set_self o3]) hgh
              · exact hla k g (by simp only; rw [List.getElem?_set_ne hik]; exact hg) hgh
          · intro j hj
            simp only [List.length_set] at hj
            show sentBy s j = queuedFor rest j
            have := hs.future j hj
            rw [hq, if_neg (by omega)] at this
            exact this
          · intro j d hd'
            simp only at hd'
            by_cases hxj : i = j
            · subst hxj
              rw [List.getElem?_set_self o3] at hd'
              cases hd'
              obtain ⟨dr, e1, e2⟩ := hs.flow i c hcx
              rw [hq, if_pos rfl, e2 q5] at e1
              refine ⟨[], ?_, fun _ => rfl⟩
              show sentBy s i = _
              rw [e1]; simp only [List.append_assoc, List.nil_append, List.append_nil]
            · rw [List.getElem?_set_ne hxj] at hd'
              obtain ⟨dr, e1, e2⟩ := hs.flow j d hd'
              rw [hq, if_neg hxj] at e1
              exact ⟨dr, e1, e2⟩
      · cases h
  | close i =>
    simp only [step] at h
    split at h
    · split at h
      · split at h
        · cases h
          refine rx_frame hs _ _ _ s.sent (fun k l hl => ?_) (fun k l hl => ?_) (fun n hn => ?_)
          · obtain ⟨l0, h1, h2, h3⟩ := takeDown_get _ _ _ hl
            exact ⟨l0, h1, h2, fun hu => by rw [← (h3 hu).1]; exact hu⟩
          · exact takeDown_some _ _ _ hl
          · simp only [List.mem_singleton] at hn; exact ⟨_, _, hn⟩
        · cases h
          exact ⟨hs.isOpen, hs.latest, hs.upLatest, hs.order, hs.live, hs.future, hs.flow⟩
      · cases h
    · cases h
  | cleanup i =>
    simp only [step] at h
    split at h
    · split at h
      · rename_i b hb
        cases h
        refine rx_removal hs ?_ (Readers.latest_step hs.latest hb) _ s.notes (.inl rfl) (host_close hi.reach hb).2.1
        simp only [Conns.step] at hb
        split at hb
        · cases hb; exact .inl rfl
        · rename_i c hc
          rcases cleanup_spec (reachable_inv hi.reach) c.handle with ⟨-, h1⟩ | ⟨j, d, h1, -, h2⟩
          · rw [h1] at hb; cases hb; exact .inl rfl
          · rw [h2] at hb; cases hb; exact .inr ⟨_, _, h1, rfl⟩
      · cases h
    · cases h
  | write i =>
    simp only [step] at h
    split at h
    · split at h
      · cases h
        exact ⟨hs.isOpen, hs.latest, hs.upLatest, hs.order, hs.live, hs.future, hs.flow⟩
      · cases h
    · cases h

theorem rx_run (smp handler : Bool) (scan : AdvHist.Scan) : ∀ es s, run (init smp handler scan) es = some s → Inv s ∧ Rx s := by
  refine runT_ind (P := fun _ s => Inv s ∧ Rx s) ?_ ?_
  · refine ⟨(inv_run smp handler scan [] _ rfl).1, rfl, ?_, ?_, ?_, ?_, ?_, ?_⟩
    all_goals simp [init, Conns.init, Readers.Latest, sentBy, queuedFor]
  · intro es s e s' _ ih he
    exact ⟨(inv_step ih.1 he).1, rx_step ih.1 ih.2 he⟩

/-- C191. **What is received on a connection is what its own peer sent over its link, in order, from the first packet on**; never data of another device, whatever handles are used again and however late the host handles the events. -/
theorem received_from_own_peer (smp handler : Bool) (scan : AdvHist.Scan) (es : List Ev) (s : State) (h : run (init smp handler scan) es = some s) (i : Nat) (c : Conn) (hc : s.host.conns[i]? = some c) : c.rx <+: sentBy s i := by
  obtain ⟨d, h1, -⟩ := (rx_run smp handler scan es s h).2.flow i c hc
  exact ⟨d ++ queuedFor s.notes i, by rw [h1, List.append_assoc]⟩

/-- C191. **Until `Disconnected()` fires nothing is lost**: all the packets the peer sent have been received, or wait in the queue of the host, even if the link is gone or its handle has a new owner. -/
theorem nothing_lost_before_disconnected (smp handler : Bool) (scan : AdvHist.Scan) (es : List Ev) (s : State) (h : run (init smp handler scan) es = some s) (i : Nat) (c : Conn) (hc : s.host.conns[i]? = some c) (hd : c.done = false) :
    sentBy s i = c.rx ++ queuedFor s.notes i := by
  obtain ⟨d, h1, h2⟩ := (rx_run smp handler scan es s h).2.flow i c hc
  rw [h1, h2 hd, List.append_nil]

/-- A link that is lost, with data before the loss and data of a new link with the same handle waiting in the queue: each connection receives its own. -/
theorem received_example : ∃ s, run (init false false AdvHist.initial) [.connect 64 1 [1, 0, 0, 0, 0, 0], .handle, .peerSend 0 2 [1, 0, 7], .lose 0 0x13, .connect 64 1 [2, 0, 0, 0, 0, 0], .peerSend 1 2 [1, 0, 8], .handle, .handle, .handle, .handle] = some s ∧
    s.notes = [] ∧ s.host.conns.map (fun c => (c.rx, c.done)) = [([[64, 32, 1, 0, 7]], true), ([[64, 32, 1, 0, 8]], false)] :=
  ⟨_, rfl, rfl, rfl⟩

/-- An address. -/
def adr (b : UInt8) : Bytes := [b, 0, 0, 0, 0, 0]

/-- C189, not in the code (conn.go:328-391, hci.go:790-909). **What is written on a connection can reach another device.** First: the link of connection 0 is lost and its handle given to a new link with another device; until the host has handled the
first event, the data written on connection 0 go to the other device. (`writePDU` looks only at `chDone`.) Second, and for good: `Close` of connection 0, whose handle is given to a new link while `Close` waits for the answer to its Disconnect command
(the Disconnection Complete event with reason 0x16 does nothing: hci.go:903-906). `Close` then removes and announces as closed connection 1; connection 0, which has been closed, is never announced as closed, and all that is written on it goes to the
device of connection 1. -/
theorem write_reaches_wrong_peer :
    (∃ s, run (init false false AdvHist.initial) [.connect 64 1 (adr 1), .handle, .lose 0 0x13, .connect 64 1 (adr 2), .write 0] = some s ∧ s.sent = [(0, some 1)]) ∧
    (∃ s, run (init false false AdvHist.initial) [.connect 64 1 (adr 1), .handle, .close 0, .connect 64 1 (adr 2), .handle, .handle, .cleanup 0, .write 0, .write 0] = some s ∧ s.sent = [(0, some 1), (0, some 1)] ∧
      s.notes = [] ∧ s.closing = [] ∧ s.host.conns.map (·.done) = [false, true]) :=
  ⟨⟨_, rfl, rfl⟩, ⟨_, rfl, rfl, rfl, rfl, rfl⟩⟩

theorem append_cons_cases {α : Type} {x a : α} {l pre post : List α} (h : x :: l = pre ++ a :: post) : (pre = [] ∧ x = a ∧ l = post) ∨ ∃ p, pre = x :: p ∧ l = p ++ a :: post := by
  cases pre with
  | nil => simp at h; exact .inl ⟨rfl, h⟩
  | cons y p => simp at h; exact .inr ⟨p, by rw [h.1], h.2⟩

/-- The history of the example: two connections; the first one is lost, the second one is closed; then both handles are used again. -/
def example1 : List Ev := [.connect 64 1 (adr 1), .connect 65 0 (adr 2), .handle, .handle, .write 0, .lose 0 0x08, .handle, .close 1, .handle, .cleanup 1, .connect 64 1 (adr 3), .handle, .write 2, .connect 65 1 (adr 4), .handle, .write 3]

/-- The hypotheses of `writes_reach_own_peer_partial`, `write_reaches_link` and `closed_writes_nothing` hold together in a history that uses handles again. -/
theorem links_example : NoEarlyReuse (init false false AdvHist.initial) example1 ∧ ∃ s, run (init false false AdvHist.initial) example1 = some s ∧ s.sent = [(0, some 0), (2, some 2), (3, some 3)] ∧
    s.host.conns.map (·.done) = [true, true, false, false] ∧ s.links.map (·.up) = [false, false, true, true] := by
  refine ⟨?_, ⟨_, rfl, rfl, rfl, rfl⟩⟩
  intro pre h role addr post hes s hs
  have hr : ∀ (l : List Ev) (h : Nat), (match run (init false false AdvHist.initial) l with
      | some s => (s.host.conns.all fun c => c.handle != h || c.done) && (pending s.notes).all fun i => match s.links[i]? with | some l => l.handle != h | none => true
      | none => true) = true → ∀ s, run (init false false AdvHist.initial) l = some s → Released s h := by
    intro l h hb s hs
    rw [hs] at hb
    simp only [Bool.and_eq_true, List.all_eq_true, Bool.or_eq_true, bne_iff_ne] at hb
    refine ⟨fun c hc hh => (hb.1 c hc).resolve_left (fun hx => hx hh), fun i l' hi hl => ?_⟩
    have := hb.2 i (by simp only [pending, List.mem_filterMap]; exact ⟨_, hi, rfl⟩)
    rw [hl] at this
    simpa using this
  unfold example1 at hes
  replace hes := append_cons_cases hes
  rcases hes with ⟨rfl, h1, -⟩ | ⟨p, rfl, hes⟩
  · cases h1; exact hr _ _ rfl s hs
  replace hes := append_cons_cases hes
  rcases hes with ⟨rfl, h1, -⟩ | ⟨p, rfl, hes⟩
  · cases h1; exact hr _ _ rfl s hs
  iterate 8
    replace hes := append_cons_cases hes
    rcases hes with ⟨rfl, h1, -⟩ | ⟨p, rfl, hes⟩
    · cases h1
  replace hes := append_cons_cases hes
  rcases hes with ⟨rfl, h1, -⟩ | ⟨p, rfl, hes⟩
  · cases h1; exact hr _ _ rfl s hs
  iterate 2
    replace hes := append_cons_cases hes
    rcases hes with ⟨rfl, h1, -⟩ | ⟨p, rfl, hes⟩
    · cases h1
  replace hes := append_cons_cases hes
  rcases hes with ⟨rfl, h1, -⟩ | ⟨p, rfl, hes⟩
  · cases h1; exact hr _ _ rfl s hs
  iterate 2
    replace hes := append_cons_cases hes
    rcases hes with ⟨rfl, h1, -⟩ | ⟨p, rfl, hes⟩
    · cases h1
  cases p <;> cases hes

end Ble.Links
