import Verif.Props.Links
set_option autoImplicit false

/-!
# C189: how long data can go to the wrong device
-/

namespace Ble.Links

open Ble.Conns Ble.Props Ble.Props.ConnsAux Ble.HciPkt Ble.HciSpec

/-! ## Specification -/

/-- `Close` and the controller do not get in each other's way at this step: no new link gets the handle of a connection that is being closed, and `Close` is not called for a connection whose handle has a new owner. -/
def Orderly (s : State) : Ev → Prop
  | .connect h _ _ => ∀ i ∈ s.closing, ∀ c, s.host.conns[i]? = some c → c.handle ≠ h
  | .close i => ∀ c, s.host.conns[i]? = some c → target s.links c.handle = some i ∨ target s.links c.handle = none
  | _ => True

/-- … at all steps of a history. -/
def OrderlyHistory (s0 : State) (es : List Ev) : Prop := ∀ pre e post, es = pre ++ e :: post → ∀ s, run s0 pre = some s → Orderly s e

/-! ## Invariant -/

structure Ok (s : State) : Prop where
  listed : ∀ (i : Nat) c, s.host.conns[i]? = some c → c.done = false → s.host.table c.handle = some i
  exist : ∀ j ∈ s.closing, j < s.host.conns.length
  upClose : ∀ (m : Nat) l, s.links[m]? = some l → l.up = true → ∀ j ∈ s.closing, ∀ c, s.host.conns[j]? = some c → c.handle ≠ l.handle
  upLost : ∀ (m : Nat) l, s.links[m]? = some l → l.up = true → ∀ pre r post, s.notes = pre ++ Note.lost l.handle r :: post → r ≠ 0x16 → Note.made m ∈ post
  upDone : ∀ (m : Nat) l c, s.links[m]? = some l → l.up = true → s.host.conns[m]? = some c → c.done = false
  down : ∀ (i : Nat) l, s.links[i]? = some l → l.up = false → (∀ c, s.host.conns[i]? = some c → c.done = false) →
    (∃ pre r post, s.notes = pre ++ Note.lost l.handle r :: post ∧ r ≠ 0x16 ∧ (i < s.host.conns.length ∨ Note.made i ∈ pre) ∧ ∀ (k : Nat) m, Note.made k ∈ pre → s.links[k]? = some m → m.handle = l.handle → k ≤ i) ∨
    (i < s.host.conns.length ∧ (∃ j ∈ s.closing, ∃ c, s.host.conns[j]? = some c ∧ c.handle = l.handle) ∧ ∀ (k : Nat) m, Note.made k ∈ s.notes → s.links[k]? = some m → m.handle = l.handle → k ≤ i)

theorem made_pending {ns : List Note} {i : Nat} (h : Note.made i ∈ ns) : i ∈ pending ns := by
  simp only [pending, List.mem_filterMap]; exact ⟨_, h, rfl⟩

theorem pending_made {ns : List Note} {i : Nat} (h : i ∈ pending ns) : Note.made i ∈ ns := by
  simp only [pending, List.mem_filterMap] at h
  obtain ⟨n, h1, h2⟩ := h
  cases n with
  | made k => simp only [Option.some.injEq] at h2; subst h2; exact h1
  | lost _ _ => cases h2
  | data _ _ _ _ => cases h2

theorem made_iff {s : State} (hi : Inv s) (i : Nat) : Note.made i ∈ s.notes ↔ s.host.conns.length ≤ i ∧ i < s.links.length := by
  have hle := hi.le
  constructor
  · intro h
    have := made_pending h
    rw [hi.queue, List.mem_range'_1] at this
    omega
  · intro h
    apply pending_made
    rw [hi.queue, List.mem_range'_1]
    omega

/-- Decomposition of a queue with an element appended. -/
theorem snoc_split {α : Type} {ns pre post : List α} {x a : α} (h : ns ++ [x] = pre ++ a :: post) : (x = a ∧ ns = pre ∧ post = []) ∨ ∃ post0, ns = pre ++ a :: post0 ∧ post = post0 ++ [x] := by
  rcases List.append_eq_append_iff.1 h with ⟨as, h1, h2⟩ | ⟨bs, h1, h2⟩
  · cases as with
    | nil => simp only [List.nil_append, List.cons.injEq, List.append_nil] at h1 h2; exact .inl ⟨h2.1, h1.symm, h2.2.symm⟩
    | cons y as => simp at h2
  · cases bs with
    | nil => simp only [List.nil_append, List.cons.injEq, List.append_nil] at h1 h2; exact .inl ⟨h2.1.symm, h1, h2.2⟩
    | cons y bs =>
      simp only [List.cons_append, List.cons.injEq] at h2
      exact .inr ⟨bs, by rw [h1, h2.1], h2.2⟩

theorem takeDown_self {ls : List Link} {i : Nat} {l : Link} (h : ls[i]? = some l) : (takeDown ls i)[i]? = some { l with up := false } := by
  unfold takeDown
  rw [h]
  exact List.getElem?_set_self (List.getElem?_eq_some_iff.1 h).1

/-- Link `i`, which is up, goes down; an event is queued. -/
theorem ok_down {s : State} (hi : Inv s) (hr : Rx s) (hs : Ok s) (i : Nat) (l : Link) (hl : s.links[i]? = some l) (hu : l.up = true) (r : UInt8) (cl : List Nat)
    (hcl : ∀ j ∈ s.closing, j ∈ cl) (hcl' : ∀ j ∈ cl, j ∈ s.closing ∨ (j = i ∧ i < s.host.conns.length))
    (hq : r ≠ 0x16 ∨ (i ∈ cl ∧ i < s.host.conns.length)) :
    Ok { s with links := takeDown s.links i, notes := s.notes ++ [.lost l.handle r], closing := cl } := by
  have hil := (List.getElem?_eq_some_iff.1 hl).1
  have hnew : ∀ (k : Nat) m, Note.made k ∈ s.notes → s.links[k]? = some m → m.handle = l.handle → k ≤ i := fun k m _ hm hh => hr.upLatest i l hl hu k m hm hh
  refine ⟨hs.listed, ?_, ?_, ?_, ?_, ?_⟩
  · intro j hj
    rcases hcl' j hj with h | ⟨rfl, h⟩
    · exact hs.exist j h
    · exact h
  · intro m l' hm hum j hj c hc
    obtain ⟨l0, k1, k2, k3⟩ := takeDown_get _ _ _ hm
    obtain ⟨rfl, hne⟩ := k3 hum
    rcases hcl' j hj with h | ⟨rfl, h⟩
    · exact hs.upClose m l' k1 hum j h c hc
    · intro hh
      obtain ⟨l1, n1, n2⟩ := hi.handles j c hc
      rw [hl] at n1; cases n1
      exact hne (hi.uniq m j l' l k1 hl hum hu (by rw [n2, hh]))
  · intro m l' hm hum pre r' post he hre
    obtain ⟨l0, k1, k2, k3⟩ := takeDown_get _ _ _ hm
    obtain ⟨rfl, hne⟩ := k3 hum
    rcases snoc_split he with ⟨h1, -, -⟩ | ⟨post0, h1, h2⟩
    · simp only [Note.lost.injEq] at h1
      exact absurd (hi.uniq i m l l' hl k1 hu hum h1.1).symm hne
    · rw [h2]
      exact List.mem_append_left _ (hs.upLost m l' k1 hum pre r' post0 h1 hre)
  · intro m l' c hm hum hc
    obtain ⟨l0, k1, k2, k3⟩ := takeDown_get _ _ _ hm
    obtain ⟨rfl, hne⟩ := k3 hum
    exact hs.upDone m l' c k1 hum hc
  · intro x lx hx hux hcx
    simp only at hx hcx
    have hlinks : ∀ (k : Nat) m, (takeDown s.links i)[k]? = some m → ∃ m0, s.links[k]? = some m0 ∧ m.handle = m0.handle := fun k m hm => by
      obtain ⟨m0, b1, b2, -⟩ := takeDown_get _ _ _ hm
      exact ⟨m0, b1, b2⟩
    have hmade : ∀ k, Note.made k ∈ s.notes ++ [Note.lost l.handle r] → Note.made k ∈ s.notes := fun k hk => by simpa using hk
    by_cases hxi : x = i
    · subst hxi
      rw [takeDown_self hl] at hx
      cases hx
      rcases hq with hq | ⟨hq1, hq2⟩
      · left
        refine ⟨s.notes, r, [], rfl, hq, ?_, ?_⟩
        · by_cases hlt : x < s.host.conns.length
          · exact .inl hlt
          · exact .inr ((made_iff hi x).2 ⟨by omega, hil⟩)
        · intro k m hk hm hh
          obtain ⟨m0, b1, b2⟩ := hlinks k m hm
          exact hnew k m0 hk b1 (by rw [← b2]; exact hh)
      · right
        refine ⟨hq2, ⟨x, hq1, _, List.getElem?_eq_getElem hq2, ?_⟩, ?_⟩
        · obtain ⟨l1, n1, n2⟩ := hi.handles x _ (List.getElem?_eq_getElem hq2)
          rw [hl] at n1; cases n1
          exact n2.symm
        · intro k m hk hm hh
          obtain ⟨m0, b1, b2⟩ := hlinks k m hm
          exact hnew k m0 (hmade k hk) b1 (by rw [← b2]; exact hh)
    · have hx0 : s.links[x]? = some lx := by
        unfold takeDown at hx
        rw [hl] at hx
        rw [List.getElem?_set_ne (fun h => hxi h.symm)] at hx
        exact hx
      rcases hs.down x lx hx0 hux hcx with ⟨pre, r', post, d1, d2, d3, d4⟩ | ⟨d1, ⟨j, d2, d3⟩, d4⟩
      · left
        refine ⟨pre, r', post ++ [.lost l.handle r], by simp [d1], d2, d3, ?_⟩
        intro k m hk hm hh
        obtain ⟨m0, b1, b2⟩ := hlinks k m hm
        exact d4 k m0 hk b1 (by rw [← b2]; exact hh)
      · right
        refine ⟨d1, ⟨j, hcl j d2, d3⟩, ?_⟩
        intro k m hk hm hh
        obtain ⟨m0, b1, b2⟩ := hlinks k m hm
        exact d4 k m0 (hmade k hk) b1 (by rw [← b2]; exact hh)

/-- The connections keep handles and ends, and the table is the same; the head of the queue, if one is taken, is of no concern. -/
theorem ok_same {s : State} (hs : Ok s) (b : Conns.State) (ht : b.table = s.host.table) (hlen : b.conns.length = s.host.conns.length)
    (hb : ∀ (k : Nat) c, b.conns[k]? = some c → ∃ c0, s.host.conns[k]? = some c0 ∧ c.handle = c0.handle ∧ c.done = c0.done)
    (hb' : ∀ (k : Nat) c, s.host.conns[k]? = some c → ∃ c', b.conns[k]? = some c' ∧ c'.handle = c.handle)
    (n : Note) (ns : List Note) (hn : s.notes = n :: ns) (hm : ∀ k, n ≠ .made k)
    (hl : ∀ h r, n = .lost h r → r ≠ 0x16 → s.host.table h = none) (hi : Inv s) : Ok { s with host := b, notes := ns } := by
  refine ⟨?_, fun j hj => by simp only [hlen]; exact hs.exist j hj, ?_, ?_, ?_, ?_⟩
  · intro i c hc hd
    obtain ⟨c0, k1, k2, k3⟩ := hb i c hc
    simp only [ht]
    rw [k2]
    exact hs.listed i c0 k1 (by rw [← k3]; exact hd)
  · intro m l hml hu j hj c hc
    obtain ⟨c0, k1, k2, k3⟩ := hb j c hc
    rw [k2]
    exact hs.upClose m l hml hu j hj c0 k1
  · intro m l hml hu pre r post he hre
    exact hs.upLost m l hml hu (n :: pre) r post (by rw [hn]; simp only at he; rw [he]; rfl) hre
  · intro m l c hml hu hc
    obtain ⟨c0, k1, k2, k3⟩ := hb m c hc
    rw [k3]
    exact hs.upDone m l c0 hml hu k1
  · intro i l hil hu hc
    simp only [hlen] at hc ⊢
    have hc0 : ∀ c, s.host.conns[i]? = some c → c.done = false := by
      intro c hcc
      obtain ⟨c', e1, -⟩ := hb' i c hcc
      obtain ⟨c0, k1, -, k3⟩ := hb i c' e1
      rw [hcc] at k1; cases k1
      rw [← k3]; exact hc c' e1
    rcases hs.down i l hil hu hc0 with ⟨pre, r, post, d1, d2, d3, d4⟩ | ⟨d1, ⟨j, d2, c, d3, d5⟩, d4⟩
    · left
      cases pre with
      | nil =>
        exfalso
        rw [hn] at d1
        simp only [List.nil_append, List.cons.injEq] at d1
        have htn := hl _ _ d1.1 d2
        have hic : i < s.host.conns.length := d3.resolve_right (by simp)
        obtain ⟨l0, n1, n2⟩ := hi.handles i _ (List.getElem?_eq_getElem hic)
        rw [hil] at n1; cases n1
        have := hs.listed i _ (List.getElem?_eq_getElem hic) (hc0 _ (List.getElem?_eq_getElem hic))
        rw [← n2, htn] at this; cases this
      | cons x pre =>
        rw [hn] at d1
        simp only [List.cons_append, List.cons.injEq] at d1
        refine ⟨pre, r, post, d1.2, d2, ?_, fun k m hk => d4 k m (by simp [hk])⟩
        rcases d3 with d3 | d3
        · exact .inl d3
        · right
          rcases List.mem_cons.1 d3 with h | h
          · exact absurd (d1.1.trans h.symm) (hm i)
          · exact h
    · right
      obtain ⟨c', e1, e2⟩ := hb' j c d3
      exact ⟨d1, ⟨j, d2, c', e1, by rw [e2, d5]⟩, fun k m hk => d4 k m (by rw [hn]; simp [hk])⟩

/-- A listed connection whose link is down is removed. -/
theorem ok_removed {s : State} (hs : Ok s) (hi : Inv s) {h i0 : Nat} (ht : s.host.table h = some i0) (hdown : ∀ l, s.links[i0]? = some l → l.up = false)
    (ns : List Note) (hns : ns = s.notes ∨ ∃ r, s.notes = Note.lost h r :: ns) (cl : List Nat) (hcl : ∀ j ∈ cl, j ∈ s.closing)
    (hcl' : ∀ j ∈ s.closing, (∀ c, s.host.conns[j]? = some c → c.handle ≠ h) → j ∈ cl) (hopen : s.host.isOpen = true) :
    Ok { s with host := ({ s.host with table := fun x => if x = h then none else s.host.table x }.modify i0 fun c => { c with done := c.done || (s.host.isOpen || !c.slave), rxClosed := true }), notes := ns, closing := cl } := by
  generalize hb : ({ s.host with table := fun x => if x = h then none else s.host.table x }.modify i0 fun c => { c with done := c.done || (s.host.isOpen || !c.slave), rxClosed := true }) = b
  have hrem : Removal s.host b := .inr ⟨h, i0, ht, hb.symm⟩
  have htab : b.table = fun x => if x = h then none else s.host.table x := by rw [← hb]; rfl
  have hlen : b.conns.length = s.host.conns.length := by rw [← hb, modify_length]
  have hne : ∀ k, k ≠ i0 → b.conns[k]? = s.host.conns[k]? := by
    intro k hk
    rw [← hb, modify_conns_ne _ _ _ _ hk.symm]
  have hself : ∀ c, b.conns[i0]? = some c → c.done = true := by
    intro c hc
    rw [← hb, modify_conns_self] at hc
    simp only at hc
    cases hx : s.host.conns[i0]? with
    | none => rw [hx] at hc; cases hc
    | some d =>
      rw [hx] at hc
      simp only [Option.map_some, Option.some.injEq] at hc
      subst hc
      simp [hopen]
  -- a connection that is not done is another one, with another handle
  have hnd : ∀ (i : Nat) c, b.conns[i]? = some c → c.done = false → i ≠ i0 ∧ s.host.conns[i]? = some c ∧ c.handle ≠ h := by
    intro i c hc hd
    have h1 : i ≠ i0 := fun hx => by subst hx; rw [hself c hc] at hd; cases hd
    rw [hne i h1] at hc
    refine ⟨h1, hc, fun hh => ?_⟩
    have := hs.listed i c hc hd
    rw [hh, ht] at this
    injection this with this
    exact h1 this.symm
  refine ⟨?_, ?_, ?_, ?_, ?_, ?_⟩
  · intro i c hc hd
    obtain ⟨h1, h2, h3⟩ := hnd i c hc hd
    simp only [htab, if_neg h3]
    exact hs.listed i c h2 hd
  · intro j hj
    simp only [hlen]
    exact hs.exist j (hcl j hj)
  · intro m l hml hu j hj c hc
    obtain ⟨c0, k1, k2, -⟩ := (removal_get hrem j).1 c hc
    rw [k2]
    exact hs.upClose m l hml hu j (hcl j hj) c0 k1
  · intro m l hml hu pre r post he hre
    simp only at he
    rcases hns with rfl | ⟨r0, hn⟩
    · exact hs.upLost m l hml hu pre r post he hre
    · exact hs.upLost m l hml hu (.lost h r0 :: pre) r post (by rw [hn, he]; rfl) hre
  · intro m l c hml hu hc
    have h1 : m ≠ i0 := fun hx => by subst hx; rw [hdown l hml] at hu; cases hu
    simp only at hc
    rw [hne m h1] at hc
    exact hs.upDone m l c hml hu hc
  · intro i l hil hu hc
    simp only at hc hil
    have h1 : i ≠ i0 := by
      intro hx
      subst hx
      obtain ⟨d, g1, -⟩ := (reachable_inv hi.reach).listed h i ht
      obtain ⟨c', g2, -⟩ := (removal_get hrem i).2 d g1
      have := hc c' g2
      rw [hself c' g2] at this; cases this
    have hc0 : ∀ c, s.host.conns[i]? = some c → c.done = false := fun c hcc => hc c (by rw [hne i h1]; exact hcc)
    have hih : i < s.host.conns.length → l.handle ≠ h := by
      intro hlt hh
      have hg := List.getElem?_eq_getElem hlt
      obtain ⟨l0, n1, n2⟩ := hi.handles i _ hg
      rw [hil] at n1; cases n1
      have := hs.listed i _ hg (hc0 _ hg)
      rw [← n2, hh, ht] at this
      injection this with this
      exact h1 this.symm
    simp only [hlen]
    rcases hs.down i l hil hu hc0 with ⟨pre, r, post, d1, d2, d3, d4⟩ | ⟨d1, ⟨j, d2, c, d3, d5⟩, d4⟩
    · left
      rcases hns with rfl | ⟨r0, hn⟩
      · exact ⟨pre, r, post, d1, d2, d3, d4⟩
      · cases pre with
        | nil =>
          exfalso
          rw [hn] at d1
          simp only [List.nil_append, List.cons.injEq, Note.lost.injEq] at d1
          exact hih (d3.resolve_right (by simp)) d1.1.1.symm
        | cons x pre =>
          rw [hn] at d1
          simp only [List.cons_append, List.cons.injEq] at d1
          refine ⟨pre, r, post, d1.2, d2, ?_, fun k m hk => d4 k m (by simp [hk])⟩
          rcases d3 with d3 | d3
          · exact .inl d3
          · right
            rcases List.mem_cons.1 d3 with h2 | h2
            · rw [← d1.1] at h2; cases h2
            · exact h2
    · right
      obtain ⟨c', e1, e2⟩ := (removal_get hrem j).2 c d3
      refine ⟨d1, ⟨j, hcl' j d2 (fun c2 hc2 => ?_), c', e1, by rw [e2, d5]⟩, fun k m hk => d4 k m ?_⟩
      · rw [d3] at hc2; cases hc2; rw [d5]; exact hih d1
      · rcases hns with rfl | ⟨r0, hn⟩
        · exact hk
        · rw [hn]; simp only [List.mem_cons]; exact .inr hk

theorem ok_step {s s' : State} {e : Ev} (hi : Inv s) (hr : Rx s) (hs : Ok s) (ho : Orderly s e) (h : step s e = some s') : Ok s' := by
  cases e with
  | connect hd role addr =>
    simp only [step] at h
    split at h
    · rename_i hc
      obtain ⟨h1, -, -⟩ := hc
      cases h
      simp only [Orderly] at ho
      have hle := hi.le
      have hlk : ∀ (k : Nat) l, (s.links ++ [(⟨hd, role, addr, true⟩ : Link)])[k]? = some l → s.links[k]? = some l ∨ (k = s.links.length ∧ l = ⟨hd, role, addr, true⟩) := by
        intro k l hk
        rw [List.getElem?_append] at hk
        split at hk
        · exact .inl hk
        · have e1 := (List.getElem?_eq_some_iff.1 hk).1
          have := List.mem_of_getElem? hk
          simp only [List.mem_singleton, List.length_singleton] at this e1
          exact .inr ⟨by omega, this⟩
      have hmk : ∀ k, Note.made k ∈ s.notes → k ≠ s.links.length := fun k hk => by have := (made_iff hi k).1 hk; omega
      refine ⟨hs.listed, hs.exist, ?_, ?_, ?_, ?_⟩
      · intro m l hm hu j hj c hc
        rcases hlk m l hm with hm | ⟨-, rfl⟩
        · exact hs.upClose m l hm hu j hj c hc
        · exact ho j hj c hc
      · intro m l hm hu pre r post he hre
        rcases snoc_split he with ⟨hx, -, -⟩ | ⟨post0, k1, k2⟩
        · cases hx
        · rw [k2]
          rcases hlk m l hm with hm | ⟨rfl, -⟩
          · exact List.mem_append_left _ (hs.upLost m l hm hu pre r post0 k1 hre)
          · simp
      · intro m l c hm hu hc
        rcases hlk m l hm with hm | ⟨rfl, -⟩
        · exact hs.upDone m l c hm hu hc
        · have := (List.getElem?_eq_some_iff.1 hc).1
          simp only at this
          omega
      · intro i l hil hu hc
        rcases hlk i l hil with hil | ⟨-, rfl⟩
        · rcases hs.down i l hil hu hc with ⟨pre, r, post, d1, d2, d3, d4⟩ | ⟨d1, ⟨j, d2, c, d3, d5⟩, d4⟩
          · left
            refine ⟨pre, r, post ++ [.made s.links.length], by simp [d1], d2, d3, ?_⟩
            intro k m hk hm hh
            rcases hlk k m hm with hm | ⟨hx, -⟩
            · exact d4 k m hk hm hh
            · exact absurd hx (hmk k (by rw [d1]; simp [hk]))
          · right
            refine ⟨d1, ⟨j, d2, c, d3, d5⟩, ?_⟩
            intro k m hk hm hh
            rcases hlk k m hm with hm | ⟨hx, rfl⟩
            · simp only [List.mem_append, List.mem_singleton, Note.made.injEq] at hk
              rcases hk with hk | hk
              · exact d4 k m hk hm hh
              · have := (List.getElem?_eq_some_iff.1 hm).1
                omega
            · exact absurd (by rw [d5]; exact hh.symm) (ho j d2 c d3)
        · cases hu
    · cases h
  | lose i reason =>
    simp only [step] at h
    split at h
    · rename_i l hl
      split at h
      · rename_i hc
        cases h
        exact ok_down hi hr hs i l hl hc.1 reason s.closing (fun _ h => h) (fun _ h => .inl h) (.inl hc.2)
      · cases h
    · cases h
  | peerSend i flags rest =>
    simp only [step] at h
    split at h
    · rename_i l hl
      split at h
      · cases h
        refine ⟨hs.listed, hs.exist, hs.upClose, ?_, hs.upDone, ?_⟩
        · intro m l' hm hu pre r post he hre
          rcases snoc_split he with ⟨hx, -, -⟩ | ⟨post0, k1, k2⟩
          · cases hx
          · rw [k2]; exact List.mem_append_left _ (hs.upLost m l' hm hu pre r post0 k1 hre)
        · intro x lx hx hu hc
          rcases hs.down x lx hx hu hc with ⟨pre, r, post, d1, d2, d3, d4⟩ | ⟨d1, d2, d4⟩
          · left
            exact ⟨pre, r, post ++ [.data i l.handle flags rest], by simp [d1], d2, d3, d4⟩
          · right
            exact ⟨d1, d2, fun k m hk => d4 k m (by simpa using hk)⟩
      · cases h
    · cases h
  | handle =>
    simp only [step] at h
    split at h
    · cases h
    · rename_i i rest hn
      split at h
      · rename_i l hl
        obtain ⟨hsm, hal⟩ := hi.small l (List.mem_of_getElem? hl)
        have hp := connection_event_creates s.host 0 l.role 0 l.handle (by omega) l.addr [0, 0, 0, 0, 0, 0, 0] (by rw [hal]; decide)
        rw [if_neg (by simp)] at hp
        rw [hp] at h
        simp only [Option.some.injEq] at h
        subst h
        have hli : i = s.host.conns.length := by
          have hq := hi.queue
          rw [hn] at hq
          simp only [pending, List.filterMap_cons] at hq
          cases hx : s.links.length - s.host.conns.length with
          | zero => rw [hx] at hq; simp at hq
          | succ n => rw [hx, List.range'_succ] at hq; exact (List.cons.inj hq).1
        subst hli
        generalize hnc : ({ handle := l.handle, slave := l.role ≠ 0, smp := s.host.smpEnabled } : Conn) = nc
        have nch : nc.handle = l.handle := by rw [← hnc]
        have ncd : nc.done = false := by rw [← hnc]
        have hcs : ∀ (k : Nat) c, (s.host.conns ++ [nc])[k]? = some c → s.host.conns[k]? = some c ∨ (k = s.host.conns.length ∧ c = nc) := by
          intro k c hk
          rw [List.getElem?_append] at hk
          split at hk
          · exact .inl hk
          · have e1 := (List.getElem?_eq_some_iff.1 hk).1
            have := List.mem_of_getElem? hk
            simp only [List.mem_singleton, List.length_singleton] at this e1
            exact .inr ⟨by omega, this⟩
        have hcs' : ∀ (k : Nat) c, s.host.conns[k]? = some c → (s.host.conns ++ [nc])[k]? = some c := fun k c hk => by
          rw [List.getElem?_append_left (List.getElem?_eq_some_iff.1 hk).1]; exact hk
        refine ⟨?_, ?_, ?_, ?_, ?_, ?_⟩
        · intro j c hc hd
          simp only at hc ⊢
          rcases hcs j c hc with hc | ⟨rfl, rfl⟩
          · by_cases hh : c.handle = l.handle
            · exfalso
              have hjl := (List.getElem?_eq_some_iff.1 hc).1
              obtain ⟨lj, n1, n2⟩ := hi.handles j c hc
              cases hup : lj.up with
              | true =>
                have := hr.upLatest j lj n1 hup _ l hl (by rw [n2, hh])
                omega
              | false =>
                rcases hs.down j lj n1 hup (fun c' hc' => by rw [hc] at hc'; cases hc'; exact hd) with ⟨pre, r, post, d1, d2, d3, d4⟩ | ⟨d1, d2, d4⟩
                · cases pre with
                  | nil => rw [hn] at d1; simp at d1
                  | cons x pre =>
                    rw [hn] at d1
                    simp only [List.cons_append, List.cons.injEq] at d1
                    have := d4 s.host.conns.length l (by rw [d1.1]; simp) hl (by rw [n2, hh])
                    omega
                · have := d4 s.host.conns.length l (by rw [hn]; simp) hl (by rw [n2, hh])
                  omega
            · rw [if_neg hh]
              exact hs.listed j c hc hd
          · rw [nch, if_pos rfl]
        · intro j hj
          have := hs.exist j hj
          simp only [List.length_append]
          omega
        · intro m l' hm hu j hj c hc
          rcases hcs j c hc with hc | ⟨rfl, rfl⟩
          · exact hs.upClose m l' hm hu j hj c hc
          · have := hs.exist _ hj
            omega
        · intro m l' hm hu pre r post he hre
          exact hs.upLost m l' hm hu (.made s.host.conns.length :: pre) r post (by rw [hn]; simp only at he; rw [he]; rfl) hre
        · intro m l' c hm hu hc
          rcases hcs m c hc with hc | ⟨rfl, rfl⟩
          · exact hs.upDone m l' c hm hu hc
          · exact ncd
        · intro x lx hx hu hc
          simp only [List.length_append, List.length_singleton]
          rcases hs.down x lx hx hu (fun c hcc => hc c (hcs' x c hcc)) with ⟨pre, r, post, d1, d2, d3, d4⟩ | ⟨d1, ⟨j, d2, c, d3, d5⟩, d4⟩
          · left
            cases pre with
            | nil => rw [hn] at d1; simp at d1
            | cons y pre =>
              rw [hn] at d1
              simp only [List.cons_append, List.cons.injEq] at d1
              refine ⟨pre, r, post, d1.2, d2, ?_, fun k m hk => d4 k m (by simp [hk])⟩
              rcases d3 with d3 | d3
              · exact .inl (by omega)
              · rcases List.mem_cons.1 d3 with h2 | h2
                · rw [← d1.1] at h2
                  injection h2 with h2
                  exact .inl (by omega)
                · exact .inr h2
          · right
            exact ⟨by omega, ⟨j, d2, c, hcs' j c d3, d5⟩, fun k m hk => d4 k m (by rw [hn]; simp [hk])⟩
      · cases h
    · rename_i hd reason rest hn
      split at h
      · rename_i b hb
        cases h
        have hsm := hi.lostSmall hd reason (by rw [hn]; simp)
        by_cases hx : reason = 0x16 ∨ s.host.table hd = none
        · have := (disconnect_reaches_connection s.host hi.reach 0 reason hd (by omega)).1 hx
          rw [this] at hb; cases hb
          refine ok_same hs s.host rfl rfl (fun k c hc => ⟨c, hc, rfl, rfl⟩) (fun k c hc => ⟨c, hc, rfl⟩) _ rest hn (fun k hk => by cases hk) ?_ hi
          intro h' r' he hre
          cases he
          exact hx.resolve_left hre
        · obtain ⟨h1, h2⟩ := not_or.1 hx
          cases ht : s.host.table hd with
          | none => exact absurd ht h2
          | some i =>
            have := Readers.disconnect_exact (reachable_inv hi.reach) 0 reason hd (by omega) h1 ht
            rw [this] at hb; cases hb
            refine ok_removed hs hi ht ?_ rest (.inr ⟨reason, hn⟩) s.closing (fun _ h => h) (fun _ h _ => h) hr.isOpen
            intro l hl
            obtain ⟨c, g1, g2, -⟩ := (reachable_inv hi.reach).listed hd i ht
            obtain ⟨l0, n1, n2⟩ := hi.handles i c g1
            rw [hl] at n1; cases n1
            cases hup : l.up with
            | false => rfl
            | true =>
              exfalso
              have hm := hs.upLost i l hl hup [] reason rest (by rw [hn, n2, g2]; rfl) h1
              have := (made_iff hi i).1 (by rw [hn]; simp [hm])
              have := (List.getElem?_eq_some_iff.1 g1).1
              omega
      · cases h
    · rename_i x hd f r rest hn
      split at h
      · rename_i b hb
        cases h
        have hsm := hi.dataSmall x hd f r (by rw [hn]; simp)
        obtain ⟨a1, a2⟩ := acl_reaches_connection s.host hi.reach hd f hsm.1 hsm.2 r
        cases ht : s.host.table hd with
        | none =>
          rw [a1 ht] at hb
          cases hb
          exact ok_same hs s.host rfl rfl (fun k c hc => ⟨c, hc, rfl, rfl⟩) (fun k c hc => ⟨c, hc, rfl⟩) _ rest hn (fun k hk => by cases hk) (fun h' r' he => by cases he) hi
        | some i =>
          obtain ⟨c, q1, q2⟩ := a2 i ht
          rw [q2] at hb
          cases hb
          have hil := (List.getElem?_eq_some_iff.1 q1).1
          refine ok_same hs { s.host with conns := s.host.conns.set i { c with rx := c.rx ++ [(aclPkt hd f r).drop 1] } } rfl (by simp) ?_ ?_ _ rest hn (fun k hk => by cases hk) (fun h' r' he => by cases he) hi
          · intro k d hd'
            simp only at hd'
            by_cases hik : i = k
            · subst hik
              rw [List.getElem?_set_self hil] at hd'
              cases hd'
              exact ⟨c, q1, rfl, rfl⟩
            · rw [List.getElem?_set_ne hik] at hd'
              exact ⟨d, hd', rfl, rfl⟩
          · intro k d hd'
            simp only
            by_cases hik : i = k
            · subst hik
              rw [q1] at hd'; cases hd'
              rw [List.getElem?_set_self hil]
              exact ⟨_, rfl, rfl⟩
            · rw [List.getElem?_set_ne hik]
              exact ⟨d, hd', rfl⟩
      · cases h
  | close i =>
    simp only [step] at h
    split at h
    · rename_i c hc
      have hic := (List.getElem?_eq_some_iff.1 hc).1
      have ho' := ho c hc
      split at h
      · split at h
        · rename_i j hj
          have hji : j = i := by
            rcases ho' with h1 | h1
            · rw [h1] at hj; injection hj with hj; exact hj.symm
            · rw [h1] at hj; cases hj
          subst hji
          cases h
          obtain ⟨l, m1, m2, m3⟩ := target_some hj
          have := ok_down hi hr hs j l m1 m2 0x16 (s.closing ++ [j]) (fun k hk => by simp [hk]) (fun k hk => by
            simp only [List.mem_append, List.mem_singleton] at hk
            rcases hk with hk | hk
            · exact .inl hk
            · exact .inr ⟨hk, hic⟩) (.inr ⟨by simp, hic⟩)
          rw [m3] at this
          exact this
        · rename_i hj
          cases h
          refine ⟨hs.listed, ?_, ?_, hs.upLost, hs.upDone, ?_⟩
          · intro k hk
            simp only [List.mem_append, List.mem_singleton] at hk
            rcases hk with hk | rfl
            · exact hs.exist k hk
            · exact hic
          · intro m l hm hu k hk d hd
            simp only [List.mem_append, List.mem_singleton] at hk
            rcases hk with hk | rfl
            · exact hs.upClose m l hm hu k hk d hd
            · simp only at hd
              rw [hc] at hd; cases hd
              exact fun hh => target_none hj hm hu hh.symm
          · intro x lx hx hu hcx
            rcases hs.down x lx hx hu hcx with d | ⟨d1, ⟨k, d2, d3⟩, d4⟩
            · exact .inl d
            · exact .inr ⟨d1, ⟨k, by simp [d2], d3⟩, d4⟩
      · cases h
    · cases h
  | cleanup i =>
    simp only [step] at h
    split at h
    · rename_i hmem
      split at h
      · rename_i b hb
        cases h
        have hic := hs.exist i hmem
        have hcg := List.getElem?_eq_getElem hic
        generalize s.host.conns[i] = c at hcg
        simp only [Conns.step, hcg] at hb
        have herase : ∀ j ∈ s.closing, (∀ d, s.host.conns[j]? = some d → d.handle ≠ c.handle) → j ∈ s.closing.erase i := by
          intro j hj hd
          have : j ≠ i := fun hx => by subst hx; exact hd c hcg rfl
          exact (List.mem_erase_of_ne this).2 hj
        rcases cleanup_spec (reachable_inv hi.reach) c.handle with ⟨ht, h1⟩ | ⟨i0, d, ht, -, h2⟩
        · rw [h1] at hb; cases hb
          refine ⟨hs.listed, fun j hj => hs.exist j (List.mem_of_mem_erase hj), fun m l hm hu j hj => hs.upClose m l hm hu j (List.mem_of_mem_erase hj), hs.upLost, hs.upDone, ?_⟩
          intro x lx hx hu hcx
          rcases hs.down x lx hx hu hcx with d | ⟨d1, ⟨k, d2, ck, d3, d5⟩, d4⟩
          · exact .inl d
          · refine .inr ⟨d1, ⟨k, herase k d2 (fun d hd => ?_), ck, d3, d5⟩, d4⟩
            rw [d3] at hd; cases hd
            intro hh
            have hg := List.getElem?_eq_getElem d1
            obtain ⟨l0, n1, n2⟩ := hi.handles x _ hg
            simp only at hx
            rw [hx] at n1; cases n1
            have := hs.listed x _ hg (hcx _ hg)
            rw [← n2, ← d5, hh, ht] at this; cases this
        · rw [h2] at hb; cases hb
          refine ok_removed hs hi ht ?_ s.notes (.inl rfl) (s.closing.erase i) (fun j hj => List.mem_of_mem_erase hj) herase hr.isOpen
          intro l hl
          obtain ⟨c0, g1, g2, -⟩ := (reachable_inv hi.reach).listed _ i0 ht
          obtain ⟨l0, n1, n2⟩ := hi.handles i0 c0 g1
          rw [hl] at n1; cases n1
          cases hup : l.up with
          | false => rfl
          | true => exact absurd (by rw [n2, g2]) (hs.upClose i0 l hl hup i hmem c hcg)
      · cases h
    · cases h
  | write i =>
    simp only [step] at h
    split at h
    · split at h
      · cases h
        exact ⟨hs.listed, hs.exist, hs.upClose, hs.upLost, hs.upDone, hs.down⟩
      · cases h
    · cases h

theorem ok_run (smp handler : Bool) (scan : AdvHist.Scan) : ∀ es s, run (init smp handler scan) es = some s → OrderlyHistory (init smp handler scan) es → Ok s := by
  refine runT_ind (P := fun es s => OrderlyHistory (init smp handler scan) es → Ok s) ?_ ?_
  · intro _
    refine ⟨?_, ?_, ?_, ?_, ?_, ?_⟩ <;> simp [init, Conns.init]
  · intro es s e s' hrun ih he ho
    obtain ⟨h1, h2⟩ := rx_run smp handler scan es s hrun
    refine ok_step h1 h2 (ih ?_) (ho es e [] rfl s hrun) he
    intro pre e' post hes t ht
    exact ho pre e' (post ++ [e]) (by rw [hes]; simp) t ht

/-- C189, second part. **If `Close` and the controller do not get in each other's way, data go to another device at most until the host has handled the event about the connection with this device**: what is written on connection `i` goes over its own
link, or nowhere, or to a link whose LE Connection Complete event still waits to be handled. (Without `Close` in the history this is always so.) **Missing, and false of the code**: without the hypothesis, see `write_reaches_wrong_peer`. -/
theorem misdirected_only_until_event_partial (smp handler : Bool) (scan : AdvHist.Scan) (es : List Ev) (s s' : State) (h : run (init smp handler scan) es = some s) (ho : OrderlyHistory (init smp handler scan) es) (i : Nat)
    (hw : step s (.write i) = some s') : ∃ t, s'.sent = s.sent ++ [(i, t)] ∧ (t = none ∨ t = some i ∨ ∃ j, t = some j ∧ Note.made j ∈ s.notes) := by
  obtain ⟨hi, hr⟩ := rx_run smp handler scan es s h
  have hs := ok_run smp handler scan es s h ho
  simp only [step] at hw
  split at hw
  · rename_i c hc
    split at hw
    · rename_i hd
      cases hw
      refine ⟨_, rfl, ?_⟩
      cases ht : target s.links c.handle with
      | none => exact .inl rfl
      | some j =>
        right
        obtain ⟨l, m1, m2, m3⟩ := target_some ht
        by_cases hij : j = i
        · left; rw [hij]
        · right
          refine ⟨j, rfl, (made_iff hi j).2 ⟨?_, (List.getElem?_eq_some_iff.1 m1).1⟩⟩
          apply Classical.byContradiction
          intro hlt
          have hg := List.getElem?_eq_getElem (show j < s.host.conns.length by omega)
          obtain ⟨l0, n1, n2⟩ := hi.handles j _ hg
          rw [m1] at n1; cases n1
          have e1 := hs.listed j _ hg (hs.upDone j l _ m1 m2 hg)
          have e2 := hs.listed i c hc hd
          rw [← n2, m3, e2] at e1
          injection e1 with e1
          exact hij e1.symm
    · cases hw
  · cases hw

/-- A history without `Close` is orderly. -/
theorem orderly_without_close (smp handler : Bool) (scan : AdvHist.Scan) (es : List Ev) (h : ∀ i, Ev.close i ∉ es) : OrderlyHistory (init smp handler scan) es := by
  intro pre e post hes s hs
  have hcl : ∀ es s, run (init smp handler scan) es = some s → (∀ i, Ev.close i ∉ es) → s.closing = [] := by
    refine runT_ind (P := fun (es : List Ev) (s : State) => (∀ i, Ev.close i ∉ es) → s.closing = []) (fun _ => rfl) ?_
    intro es s e s' _ ih he hn
    have ih' := ih (fun i hi => hn i (by simp [hi]))
    cases e with
    | close i => exact absurd (by simp) (hn i)
    | cleanup i => simp only [step, ih'] at he; simp at he
    | connect hd role addr => simp only [step] at he; split at he <;> cases he; exact ih'
    | lose i r =>
      simp only [step] at he
      split at he
      · split at he <;> cases he; exact ih'
      · cases he
    | peerSend i f r =>
      simp only [step] at he
      split at he
      · split at he <;> cases he; exact ih'
      · cases he
    | write i =>
      simp only [step] at he
      split at he
      · split at he <;> cases he; exact ih'
      · cases he
    | handle =>
      simp only [step] at he
      split at he
      · cases he
      · split at he
        · split at he
          · simp only [Option.some.injEq] at he; subst he; exact ih'
          · cases he
        · cases he
      · split at he
        · simp only [Option.some.injEq] at he; subst he; exact ih'
        · cases he
      · split at he
        · simp only [Option.some.injEq] at he; subst he; exact ih'
        · cases he
  cases e with
  | connect hd role addr =>
    intro i hi
    rw [hcl pre s hs (fun j hj => h j (by rw [hes]; simp [hj]))] at hi
    cases hi
  | close i => exact absurd (by rw [hes]; simp) (h i)
  | lose _ _ => trivial
  | peerSend _ _ _ => trivial
  | handle => trivial
  | cleanup _ => trivial
  | write _ => trivial

/-- The exception occurs: a history without `Close` in which the data go to a link the host does not know yet; after the events they do not. -/
theorem misdirected_example : ∃ s, run (init false false AdvHist.initial) [.connect 64 1 (adr 1), .handle, .write 0, .lose 0 0x13, .connect 64 1 (adr 2), .write 0, .handle, .handle, .write 1] = some s ∧
    s.sent = [(0, some 0), (0, some 1), (1, some 1)] ∧ step s (.write 0) = none :=
  ⟨_, rfl, rfl, rfl⟩

/-! ## C192, C193 -/

/-- C192. The full statement: once the host has handled all events and no `Close` is under way, `Disconnected()` has fired exactly for the connections whose links are gone. Proved: if `Close` and the controller do not get in each other's way (in
particular without `Close`). **Missing, and false of the code**: without this, see `write_reaches_wrong_peer` (second part: connection 0 is not announced as closed although its link is gone, connection 1 is although its link exists). -/
theorem disconnected_iff_link_gone_partial (smp handler : Bool) (scan : AdvHist.Scan) (es : List Ev) (s : State) (h : run (init smp handler scan) es = some s) (ho : OrderlyHistory (init smp handler scan) es)
    (hn : s.notes = []) (hc : s.closing = []) : s.host.conns.length = s.links.length ∧
    ∀ (i : Nat) l c, s.links[i]? = some l → s.host.conns[i]? = some c → (c.done = true ↔ l.up = false) := by
  obtain ⟨hi, hr⟩ := rx_run smp handler scan es s h
  have hs := ok_run smp handler scan es s h ho
  refine ⟨?_, ?_⟩
  · have := congrArg List.length hi.queue
    rw [hn] at this
    simp only [pending, List.filterMap_nil, List.length_nil, List.length_range'] at this
    have := hi.le
    omega
  · intro i l c hl hcc
    constructor
    · intro hd
      cases hu : l.up with
      | false => rfl
      | true => rw [hs.upDone i l c hl hu hcc] at hd; cases hd
    · intro hu
      cases hd : c.done with
      | true => rfl
      | false =>
        rcases hs.down i l hl hu (fun c' hc' => by rw [hcc] at hc'; cases hc'; exact hd) with ⟨pre, r, post, d1, -⟩ | ⟨-, ⟨j, d2, -⟩, -⟩
        · rw [hn] at d1; simp at d1
        · rw [hc] at d2; cases d2

/-- C192. Such states are reached from every state: the host can handle all events that wait, and each `Close` can finish. (Stated for one event and one `Close`.) -/
theorem events_can_be_handled (smp handler : Bool) (scan : AdvHist.Scan) (es : List Ev) (s : State) (h : run (init smp handler scan) es = some s) :
    (s.notes ≠ [] → ∃ s', step s .handle = some s' ∧ s'.notes = s.notes.tail ∧ s'.closing = s.closing) ∧ (∀ i ∈ s.closing, ∃ s', step s (.cleanup i) = some s' ∧ s'.notes = s.notes ∧ s'.closing = s.closing.erase i) := by
  obtain ⟨hi, -⟩ := rx_run smp handler scan es s h
  constructor
  · intro hn
    cases hx : s.notes with
    | nil => exact absurd hx hn
    | cons n ns =>
      cases n with
      | made i =>
        have hm := (made_iff hi i).1 (by rw [hx]; simp)
        have hl := List.getElem?_eq_getElem hm.2
        obtain ⟨hsm, hal⟩ := hi.small _ (List.mem_of_getElem? hl)
        have hp := connection_event_creates s.host 0 s.links[i].role 0 s.links[i].handle (by omega) s.links[i].addr [0, 0, 0, 0, 0, 0, 0] (by rw [hal]; decide)
        rw [if_neg (by simp)] at hp
        simp only [step, hx, hl, hp]
        exact ⟨_, rfl, rfl, rfl⟩
      | lost hd r =>
        have hsm := hi.lostSmall hd r (by rw [hx]; simp)
        by_cases hy : r = 0x16 ∨ s.host.table hd = none
        · have := (disconnect_reaches_connection s.host hi.reach 0 r hd (by omega)).1 hy
          simp only [step, hx, this]
          exact ⟨_, rfl, rfl, rfl⟩
        · obtain ⟨h1, h2⟩ := not_or.1 hy
          cases ht : s.host.table hd with
          | none => exact absurd ht h2
          | some i =>
            have := Readers.disconnect_exact (reachable_inv hi.reach) 0 r hd (by omega) h1 ht
            simp only [step, hx, this]
            exact ⟨_, rfl, rfl, rfl⟩
      | data x hd f r =>
        have hsm := hi.dataSmall x hd f r (by rw [hx]; simp)
        obtain ⟨a1, a2⟩ := acl_reaches_connection s.host hi.reach hd f hsm.1 hsm.2 r
        cases ht : s.host.table hd with
        | none => simp only [step, hx, a1 ht]; exact ⟨_, rfl, rfl, rfl⟩
        | some i =>
          obtain ⟨c, -, q2⟩ := a2 i ht
          simp only [step, hx, q2]
          exact ⟨_, rfl, rfl, rfl⟩
  · intro i hm
    simp only [step, if_pos hm, Conns.step]
    cases hc : s.host.conns[i]? with
    | none => exact ⟨_, rfl, rfl, rfl⟩
    | some c =>
      simp only
      rcases cleanup_spec (reachable_inv hi.reach) c.handle with ⟨-, h1⟩ | ⟨i0, d, -, -, h2⟩
      · rw [h1]; exact ⟨_, rfl, rfl, rfl⟩
      · rw [h2]; exact ⟨_, rfl, rfl, rfl⟩

/-- The links of `s'` are those of `s`, except that link `i` may be down. -/
def OnlyEnds (s s' : State) (i : Nat) : Prop := s'.links.length = s.links.length ∧ ∀ (k : Nat) l, s.links[k]? = some l → k ≠ i → s'.links[k]? = some l

/-- C193, the full statement: `Close` of a connection ends its link, if it exists, and no other link. Proved: the link of the connection exists, or its handle has no new owner. **Missing, and false of the code**: if the handle has a new owner, `Close`
ends the link of the other device, see `close_ends_other_link`. -/
theorem close_ends_own_link_partial (smp handler : Bool) (scan : AdvHist.Scan) (es : List Ev) (s s' : State) (h : run (init smp handler scan) es = some s) (i : Nat) (hs : step s (.close i) = some s') :
    (∀ l, s.links[i]? = some l → l.up = true → OnlyEnds s s' i ∧ s'.links[i]? = some { l with up := false }) ∧
    ((∀ (k : Nat) l c, s.links[k]? = some l → s.host.conns[i]? = some c → l.handle = c.handle → l.up = false) → s'.links = s.links) := by
  obtain ⟨hi, -⟩ := rx_run smp handler scan es s h
  simp only [step] at hs
  split at hs
  · rename_i c hc
    split at hs
    · split at hs
      · rename_i j hj
        obtain ⟨lj, m1, m2, m3⟩ := target_some hj
        cases hs
        constructor
        · intro l hl hu
          obtain ⟨l0, n1, n2⟩ := hi.handles i c hc
          rw [hl] at n1; cases n1
          have hji := hi.uniq j i lj l m1 hl m2 hu (by rw [m3, n2])
          subst hji
          refine ⟨⟨takeDown_length _ _, fun k lk hk hne => ?_⟩, takeDown_self hl⟩
          simp only
          unfold takeDown
          rw [hl]
          simp only
          rw [List.getElem?_set_ne hne.symm]
          exact hk
        · intro hno
          have := hno j lj c m1 hc m3
          rw [m2] at this; cases this
      · rename_i hj
        cases hs
        refine ⟨?_, fun _ => rfl⟩
        intro l hl hu
        obtain ⟨l0, n1, n2⟩ := hi.handles i c hc
        rw [hl] at n1; cases n1
        exact absurd n2 (target_none hj hl hu)
    · cases hs
  · cases hs

/-- C193, not in the code (conn.go:515-529): `Close` sends the Disconnect command with the handle of the connection without asking who has it now. Here the link of connection 0 has been lost and its handle given to a link with another device, whose event
waits; `Close` of connection 0 ends the link with the other device; the connection for it, made afterwards, has no link and is never announced as closed. -/
theorem close_ends_other_link : ∃ s, run (init false false AdvHist.initial) [.connect 64 1 (adr 1), .handle, .lose 0 0x13, .connect 64 1 (adr 2), .close 0, .cleanup 0, .handle, .handle, .handle] = some s ∧
    s.links.map (·.up) = [false, false] ∧ s.host.conns.map (·.done) = [true, false] ∧ s.notes = [] ∧ s.closing = [] :=
  ⟨_, rfl, rfl, rfl, rfl, rfl⟩

/-- The hypotheses of `disconnected_iff_link_gone_partial` and `close_ends_own_link_partial` are met: connections that are lost, closed and kept. -/
theorem settled_example : OrderlyHistory (init false false AdvHist.initial) [.connect 64 1 (adr 1), .connect 65 0 (adr 2), .connect 66 0 (adr 3), .handle, .handle, .handle, .lose 0 0x08, .handle, .close 1, .handle, .cleanup 1] ∧
    ∃ s, run (init false false AdvHist.initial) [.connect 64 1 (adr 1), .connect 65 0 (adr 2), .connect 66 0 (adr 3), .handle, .handle, .handle, .lose 0 0x08, .handle, .close 1, .handle, .cleanup 1] = some s ∧
      s.notes = [] ∧ s.closing = [] ∧ s.host.conns.map (·.done) = [true, true, false] ∧ s.links.map (·.up) = [false, false, true] := by
  refine ⟨?_, ⟨_, rfl, rfl, rfl, rfl, rfl⟩⟩
  intro pre e post hes s hs
  iterate 3
    replace hes := append_cons_cases hes
    rcases hes with ⟨rfl, rfl, -⟩ | ⟨p, rfl, hes⟩
    · cases hs; intro i hi; cases hi
  iterate 3
    replace hes := append_cons_cases hes
    rcases hes with ⟨rfl, rfl, -⟩ | ⟨p, rfl, hes⟩
    · trivial
  iterate 2
    replace hes := append_cons_cases hes
    rcases hes with ⟨rfl, rfl, -⟩ | ⟨p, rfl, hes⟩
    · trivial
  replace hes := append_cons_cases hes
  rcases hes with ⟨rfl, rfl, -⟩ | ⟨p, rfl, hes⟩
  · intro c hc
    left
    have : run (init false false AdvHist.initial) [.connect 64 1 (adr 1), .connect 65 0 (adr 2), .connect 66 0 (adr 3), .handle, .handle, .handle, .lose 0 0x08, .handle] = some s := hs
    cases this
    cases hc
    rfl
  iterate 2
    replace hes := append_cons_cases hes
    rcases hes with ⟨rfl, rfl, -⟩ | ⟨p, rfl, hes⟩
    · trivial
  cases p <;> cases hes

end Ble.Links
