import Verif.Props.AttDb
set_option autoImplicit false

/-! # The table after any history of service calls (C167) -/

namespace Ble.Props

open Ble.Att Ble.Spec

variable {α : Type}

/-- The calls that change the services. -/
inductive SvcOp (α : Type) where
  | add (s : Svc α)
  | set (ss : List (Svc α))
  | removeAll

/-- The server after the calls: `dh` are the default services with the application's indication handler, `dflt` those without. -/
def gattAfter (dh dflt : List (Svc α)) (ops : List (SvcOp α)) : Gatt α :=
  ops.foldl (fun g o => match o with | .add s => g.addService s | .set ss => Gatt.setServices dflt ss | .removeAll => Gatt.removeAll dflt) (Gatt.new dh dflt)

/-- Specification: the services that are offered, each with the number of calls since it was given, the one that gave it included. -/
def offered (dh dflt : List (Svc α)) (ops : List (SvcOp α)) : List (Nat × Svc α) :=
  ops.foldl (fun l o => match o with
    | .add s => l.map (fun p => (p.1 + 1, p.2)) ++ [(1, s)]
    | .set ss => (dflt ++ ss).map (fun s => (1, s))
    | .removeAll => dflt.map (fun s => (1, s))) (dh.map fun s => (0, s))

/-- Attributes of a characteristic that has been in `k` tables. -/
def agedCharSize (k : Nat) (c : Char α) : Nat := 2 + c.descs.length + if c.hasNotify || c.hasIndicate then k else 0
/-- Attributes of a service that has been in `k` tables. -/
def agedSvcSize (p : Nat × Svc α) : Nat := 1 + (p.2.chars.map (agedCharSize p.1)).sum

namespace GattHistAux

def withC (k : Nat) (c : Char α) : Char α := if c.hasNotify || c.hasIndicate then { c with descs := c.descs ++ List.replicate k .cccd } else c
def withS (p : Nat × Svc α) : Svc α := { p.2 with chars := p.2.chars.map (withC p.1) }

theorem withC_zero (c : Char α) : withC 0 c = c := by unfold withC; split <;> simp
theorem withS_zero (s : Svc α) : withS (0, s) = s := by
  have : (withC 0 : Char α → Char α) = id := funext withC_zero
  simp [withS, this]

theorem withC_flags (k : Nat) (c : Char α) : (withC k c).hasNotify = c.hasNotify ∧ (withC k c).hasIndicate = c.hasIndicate ∧ (withC k c).prop = c.prop ∧ (withC k c).uuid = c.uuid ∧ (withC k c).v = c.v ∧
    (withC k c).rh = c.rh ∧ (withC k c).wh = c.wh := by
  unfold withC; split <;> simp

theorem attach_withC (k : Nat) (c : Char α) : attachCCCD (withC k c) = withC (k + 1) c := by
  unfold attachCCCD
  rw [(withC_flags k c).1, (withC_flags k c).2.1]
  cases h : (c.hasNotify || c.hasIndicate) <;> simp [withC, h, List.replicate_succ']

theorem attachAll_withS (l : List (Nat × Svc α)) : attachAll (l.map withS) = (l.map fun p => (p.1 + 1, p.2)).map withS := by
  simp only [attachAll, List.map_map]
  apply List.map_congr_left
  intro p _
  simp only [Function.comp, withS, List.map_map]
  congr 1
  apply List.map_congr_left
  intro c _
  simp [attach_withC]

theorem size_withC (k : Nat) (c : Char α) : charSize (withC k c) = agedCharSize (k + 1) c := by
  unfold charSize agedCharSize
  rw [(withC_flags k c).1, (withC_flags k c).2.1]
  cases h : (c.hasNotify || c.hasIndicate) <;> simp [withC, h]; omega

/-- The state and the table. -/
theorem inv (dh dflt : List (Svc α)) (ops : List (SvcOp α)) :
    (gattAfter dh dflt ops).svcs = (offered dh dflt ops).map withS ∧
    (ops ≠ [] → (∀ p ∈ offered dh dflt ops, 1 ≤ p.1) ∧ (gattAfter dh dflt ops).db = newDB ((offered dh dflt ops).map fun p => withS (p.1 - 1, p.2)) 1) := by
  have h0 : (fun s : Svc α => withS (0, s)) = id := funext withS_zero
  suffices H : ∀ (r : List (SvcOp α)), (gattAfter dh dflt r.reverse).svcs = (offered dh dflt r.reverse).map withS ∧
      (r.reverse ≠ [] → (∀ p ∈ offered dh dflt r.reverse, 1 ≤ p.1) ∧ (gattAfter dh dflt r.reverse).db = newDB ((offered dh dflt r.reverse).map fun p => withS (p.1 - 1, p.2)) 1) by
    have := H ops.reverse; simpa using this
  intro r
  induction r with
  | nil =>
    refine ⟨?_, by simp⟩
    simp only [List.reverse_nil, gattAfter, offered, List.foldl_nil, Gatt.new, List.map_map]
    show dh = dh.map fun s => withS (0, s)
    rw [h0]; simp
  | cons o r ih =>
    have hset : ∀ ss : List (Svc α), attachAll ss = (ss.map fun s => (1, s)).map withS ∧ newDB ss 1 = newDB ((ss.map fun s => (1, s)).map fun p => withS (p.1 - 1, p.2)) 1 := by
      intro ss
      have hs : ss = (ss.map fun s => (0, s)).map withS := by
        rw [List.map_map]; show ss = ss.map fun s => withS (0, s); rw [h0]; simp
      constructor
      · conv => lhs; rw [hs]
        rw [attachAll_withS]; simp
      · congr 1
        conv => lhs; rw [hs]
        simp
    simp only [List.reverse_cons, gattAfter, offered, List.foldl_append, List.foldl_cons, List.foldl_nil] at ih ⊢
    cases o with
    | set ss => 
      refine ⟨(hset _).1, fun _ => ⟨?_, (hset _).2⟩⟩
      intro p hp; simp only [List.mem_map] at hp; obtain ⟨s, _, rfl⟩ := hp; simp
    | removeAll => 
      refine ⟨(hset _).1, fun _ => ⟨?_, (hset _).2⟩⟩
      intro p hp; simp only [List.mem_map] at hp; obtain ⟨s, _, rfl⟩ := hp; simp
    | add s =>
      obtain ⟨ih1, _⟩ := ih
      generalize List.foldl (fun g o => match o with | .add s => g.addService s | .set ss => Gatt.setServices dflt ss | .removeAll => Gatt.removeAll dflt) (Gatt.new dh dflt) r.reverse = g at ih1 ⊢
      generalize List.foldl (fun (l : List (Nat × Svc α)) o => match o with
        | .add s => l.map (fun p => (p.1 + 1, p.2)) ++ [(1, s)]
        | .set ss => (dflt ++ ss).map (fun s => (1, s))
        | .removeAll => dflt.map (fun s => (1, s))) (dh.map fun s => (0, s)) r.reverse = l at ih1 ⊢
      have hs : g.svcs ++ [s] = (l ++ [(0, s)]).map withS := by rw [ih1]; simp [withS_zero]
      refine ⟨?_, fun _ => ⟨?_, ?_⟩⟩
      · show attachAll (g.svcs ++ [s]) = _
        rw [hs, attachAll_withS]; simp
      · intro p hp
        simp only [List.mem_append, List.mem_map, List.mem_singleton] at hp
        rcases hp with ⟨q, _, rfl⟩ | rfl <;> simp
      · show newDB (g.svcs ++ [s]) 1 = _
        rw [hs]; simp [Function.comp_def]

theorem size_withS {k : Nat} (hk : 1 ≤ k) (s : Svc α) : svcSize (withS (k - 1, s)) = agedSvcSize (k, s) := by
  simp only [svcSize, agedSvcSize, withS, List.map_map]
  congr 2
  apply List.map_congr_left
  intro c _
  simp only [Function.comp, size_withC]
  rw [Nat.sub_add_cancel hk]

theorem size_all (l : List (Nat × Svc α)) (h : ∀ p ∈ l, 1 ≤ p.1) : dbSize (l.map fun p => withS (p.1 - 1, p.2)) = (l.map agedSvcSize).sum := by
  simp only [dbSize, List.map_map]
  congr 1
  apply List.map_congr_left
  intro p hp
  exact size_withS (h p hp) p.2

end GattHistAux

open GattHistAux

/-- **C167.** A new server offers the default services without the application's handler. -/
theorem table_at_start (dh dflt : List (Svc α)) : (gattAfter dh dflt []).db = newDB dflt 1 := rfl

/-- **C167.** After any calls that leave room in the handle space, the table has one attribute per declaration, value and descriptor and as many CCCDs per notifying characteristic as tables it has been in; handles are 1, 2, 3, … -/
theorem table_size_after (dh dflt : List (Svc α)) (ops : List (SvcOp α)) (hne : ops ≠ []) (hf : ((offered dh dflt ops).map agedSvcSize).sum < 65536) :
    let db := (gattAfter dh dflt ops).db
    db.attrs.length = ((offered dh dflt ops).map agedSvcSize).sum ∧ ∀ i (h : i < db.attrs.length), db.attrs[i].h = i + 1 := by
  obtain ⟨hk, hdb⟩ := (inv dh dflt ops).2 hne
  have hs := size_all _ hk
  intro db
  have := table_handles ((offered dh dflt ops).map fun p => withS (p.1 - 1, p.2)) 1 (by rw [hs]; omega)
  rw [← hdb, hs] at this
  refine ⟨this.1, fun i h => ?_⟩
  rw [this.2 i h, hdb]
  exact Nat.add_comm 1 i

/-- **C167.** Each offered service is declared, in order, directly after the attributes of those before it. -/
theorem service_after (dh dflt : List (Svc α)) (ops : List (SvcOp α)) (hne : ops ≠ []) (hf : ((offered dh dflt ops).map agedSvcSize).sum < 65536)
    {pre post : List (Nat × Svc α)} {k : Nat} {s : Svc α} (ho : offered dh dflt ops = pre ++ (k, s) :: post) :
    let h := 1 + (pre.map agedSvcSize).sum
    ∃ d, (gattAfter dh dflt ops).db.at h = some d ∧ d.h = h ∧ d.typ = put16 0x2800 ∧ d.v = some s.uuid ∧ d.endh = if post = [] then 0xFFFF else h + agedSvcSize (k, s) - 1 := by
  obtain ⟨hk, hdb⟩ := (inv dh dflt ops).2 hne
  rw [ho] at hk hf
  have hs := size_all _ hk
  rw [hdb, ho]
  simp only [List.map_append, List.map_cons] at hs hf ⊢
  have := service_declaration (pre.map fun p => withS (p.1 - 1, p.2)) (post.map fun p => withS (p.1 - 1, p.2)) (withS (k - 1, s)) 1 (by rw [hs]; omega)
  have hpre : svcHandle 1 (pre.map fun p => withS (p.1 - 1, p.2)) = 1 + (pre.map agedSvcSize).sum := by
    rw [svcHandle, size_all _ (fun p hp => hk p (by simp [hp]))]
  rw [hpre, size_withS (hk (k, s) (by simp))] at this
  obtain ⟨d, h1, h2, h3, h4, h5⟩ := this
  exact ⟨d, h1, h2, h3, h4, by simpa using h5⟩

/-- **C167.** Each characteristic of a service that has been in `k` tables is declared at the handle that the sizes say, with its value attribute after it, then its own descriptors, then, if it can notify or indicate, `k` CCCDs that all
read and write the same configuration. -/
theorem characteristic_after (dh dflt : List (Svc α)) (ops : List (SvcOp α)) (hne : ops ≠ []) (hf : ((offered dh dflt ops).map agedSvcSize).sum < 65536)
    {pre post : List (Nat × Svc α)} {k : Nat} {u : Bytes} {cpre cpost : List (Char α)} {c : Char α} (ho : offered dh dflt ops = pre ++ (k, ⟨u, cpre ++ c :: cpost⟩) :: post) :
    let h := 1 + (pre.map agedSvcSize).sum + 1 + (cpre.map (agedCharSize k)).sum
    let db := (gattAfter dh dflt ops).db
    (∃ d v, db.at h = some d ∧ d.typ = put16 0x2803 ∧ d.v = some (c.prop :: put16 (h + 1) ++ c.uuid) ∧ d.endh = h + agedCharSize k c - 1 ∧
      db.at (h + 1) = some v ∧ v.typ = c.uuid ∧ v.v = c.v ∧ v.rh = c.rh.map liftRead ∧ v.wh = c.wh.map liftWrite) ∧
    (∀ i uuid v rh wh, c.descs[i]? = some (.app uuid v rh wh) → ∃ a, db.at (h + 2 + i) = some a ∧ a.typ = uuid ∧ a.v = v ∧ a.rh = rh.map liftRead ∧ a.wh = wh.map liftWrite) ∧
    ((c.hasNotify || c.hasIndicate) = true → ∀ i < k, ∃ a, db.at (h + 2 + c.descs.length + i) = some a ∧ a.typ = put16 0x2902 ∧
      a.rh = some (cccdRead ⟨h, c.prop, c.hasNotify, c.hasIndicate⟩) ∧ a.wh = some (cccdWrite ⟨h, c.prop, c.hasNotify, c.hasIndicate⟩)) := by
  obtain ⟨hk, hdb⟩ := (inv dh dflt ops).2 hne
  rw [ho] at hk hf
  have hs := size_all _ hk
  have hk1 : 1 ≤ k := hk (k, ⟨u, cpre ++ c :: cpost⟩) (by simp)
  rw [hdb, ho]
  simp only [List.map_append, List.map_cons] at hs hf ⊢
  have hw : withS (k - 1, (⟨u, cpre ++ c :: cpost⟩ : Svc α)) = ⟨u, cpre.map (withC (k - 1)) ++ withC (k - 1) c :: cpost.map (withC (k - 1))⟩ := by simp [withS]
  rw [hw] at hs ⊢
  have hfit : 1 + dbSize ((pre.map fun p => withS (p.1 - 1, p.2)) ++ ⟨u, cpre.map (withC (k - 1)) ++ withC (k - 1) c :: cpost.map (withC (k - 1))⟩ :: post.map fun p => withS (p.1 - 1, p.2)) ≤ 65536 := by
    rw [hs]; omega
  have hh : charHandle 1 (pre.map fun p => withS (p.1 - 1, p.2)) (cpre.map (withC (k - 1))) = 1 + (pre.map agedSvcSize).sum + 1 + (cpre.map (agedCharSize k)).sum := by
    rw [charHandle, svcHandle, size_all _ (fun p hp => hk p (by simp [hp])), List.map_map]
    congr 3
    funext c
    simp only [Function.comp, size_withC, Nat.sub_add_cancel hk1]
  obtain ⟨f1, f2, f3, f4, f5, f6, f7⟩ := withC_flags (k - 1) c
  have hch := characteristic_declaration (pre.map fun p => withS (p.1 - 1, p.2)) (post.map fun p => withS (p.1 - 1, p.2)) u (cpre.map (withC (k - 1))) (cpost.map (withC (k - 1))) (withC (k - 1) c) 1 hfit
  have hd := fun i d => descriptor_attributes (pre.map fun p => withS (p.1 - 1, p.2)) (post.map fun p => withS (p.1 - 1, p.2)) u (cpre.map (withC (k - 1))) (cpost.map (withC (k - 1))) (withC (k - 1) c) 1 hfit i d
  simp only [hh, f1, f2, f3, f4, f5, f6, f7, size_withC, Nat.sub_add_cancel hk1] at hch hd
  obtain ⟨d, v, h1, h2, h3, h4, h5, h6, h7, h8, h9, h10, h11⟩ := hch
  have hdescs : (withC (k - 1) c).descs ++ (if c.hasNotify || c.hasIndicate then [Desc.cccd] else []) = c.descs ++ if c.hasNotify || c.hasIndicate then List.replicate k .cccd else [] := by
    unfold withC
    split
    · simp only [List.append_assoc]
      rw [← List.replicate_succ', Nat.sub_add_cancel hk1]
    · simp
  refine ⟨⟨d, v, h1, h3, h4, h5, h6, h8, h9, h10, h11⟩, ?_, ?_⟩
  · intro i uuid v rh wh hi
    have hlt : i < c.descs.length := (List.getElem?_eq_some_iff.1 hi).1
    obtain ⟨a, a1, a2, a3⟩ := hd i (.app uuid v rh wh) (by rw [hdescs, List.getElem?_append_left hlt]; exact hi)
    exact ⟨a, a1, a3⟩
  · intro hn i hi
    obtain ⟨a, a1, a2, a3, a4, a5⟩ := hd (c.descs.length + i) .cccd (by
      rw [hdescs, List.getElem?_append_right (by omega), if_pos hn]
      simp [hi])
    exact ⟨a, by rw [← a1]; congr 1; omega, a3, a5⟩

/-- After two additions the characteristic of the first has two CCCDs, at handles 5 and 6, and the next service begins at 7. -/
theorem example_two_adds : ((gattAfter [] [] (exampleServices.map SvcOp.add)).db.attrs.map fun a => (a.h, a.typ)) =
    [(1, put16 0x2800), (2, put16 0x2803), (3, put16 0x2A37), (4, put16 0x2901), (5, put16 0x2902), (6, put16 0x2902), (7, put16 0x2800), (8, put16 0x2803), (9, put16 0x2A00)] ∧
    (offered [] [] (exampleServices.map SvcOp.add)).map (·.1) = [2, 1] := by
  constructor <;> rfl

end Ble.Props
