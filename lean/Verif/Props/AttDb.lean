import Verif.Att.Lemmas
set_option autoImplicit false

/-!
# The attribute table (C08, C09, C49)
-/

namespace Ble.Props

open Ble.Att Ble.Spec

variable {α σ : Type}

/-! ## C08: handles -/

/-- **C08.** The table has one attribute per declaration, value, descriptor and CCCD, and their handles are consecutive from the base. -/
theorem table_handles (ss : List (Svc α)) (base : Nat) (hf : base + dbSize ss ≤ 65536) :
    (newDB ss base).attrs.length = dbSize ss ∧ Consecutive (newDB ss base) := by
  by_cases hne : ss = []
  · subst hne; exact ⟨rfl, fun i h => by simp [newDB, genSvcs] at h⟩
  · have e := newDB_attrs ss base hf hne
    refine ⟨by rw [e, svcsAt_length], ?_⟩
    intro i h
    have hc := svcsAt_consec ss base
    rw [← e] at hc
    exact Consec_get hc i h

/-- **C08.** So no two attributes share a handle, and no handle is 0 when the base is not. -/
theorem table_handles_unique (ss : List (Svc α)) (base : Nat) (hb : 0 < base) (hf : base + dbSize ss ≤ 65536)
    (i j : Nat) (hi : i < (newDB ss base).attrs.length) (hj : j < (newDB ss base).attrs.length) :
    ((newDB ss base).attrs[i].h = (newDB ss base).attrs[j].h → i = j) ∧
    0 < (newDB ss base).attrs[i].h ∧ (newDB ss base).attrs[i].h ≤ 65535 := by
  obtain ⟨hl, hc⟩ := table_handles ss base hf
  have e : (newDB ss base).base = base := rfl
  have h1 := hc i hi
  have h2 := hc j hj
  rw [e] at h1 h2
  rw [hl] at hi
  refine ⟨fun h => by omega, by omega, by omega⟩

/-- **C08.** A service declaration stands at the handle that follows the attributes of the services before it, carries the service's
UUID and ends its group at the last attribute of the service, or at 0xFFFF for the last service. -/
theorem service_declaration (pre post : List (Svc α)) (s : Svc α) (base : Nat)
    (hf : base + dbSize (pre ++ s :: post) ≤ 65536) :
    ∃ d, (newDB (pre ++ s :: post) base).at (svcHandle base pre) = some d ∧
      d.h = svcHandle base pre ∧ d.typ = put16 0x2800 ∧ d.v = some s.uuid ∧
      d.endh = if post = [] then 0xFFFF else svcHandle base pre + svcSize s - 1 := by
  have e := newDB_attrs _ base hf (by simp)
  obtain ⟨A, hA, hl⟩ := svcsAt_split pre post s base
  rw [hA] at e
  refine ⟨{ h := base + dbSize pre, endh := if post.isEmpty then 0xFFFF else base + dbSize pre + svcSize s - 1,
            typ := primaryServiceUUID, v := some s.uuid }, ?_, rfl, rfl, rfl, ?_⟩
  · apply at_of_get (db := newDB (pre ++ s :: post) base) (i := dbSize pre)
    rw [e, List.append_assoc, List.getElem?_append_right (by omega), hl]
    simp [svcAt]
  · simp [svcHandle]

/-- **C08.** The group of a service is followed directly by the next service: groups partition the table. -/
theorem service_groups_adjacent (pre : List (Svc α)) (s : Svc α) (base : Nat) :
    svcHandle base (pre ++ [s]) = svcHandle base pre + svcSize s ∧ 1 ≤ svcSize s := by
  simp [svcHandle, dbSize, svcSize]; omega

/-- **C08.** Groups of different services do not overlap: an earlier one ends before a later one starts. -/
theorem service_groups_disjoint (pre mid post : List (Svc α)) (s t : Svc α) (base : Nat)
    (hf : base + dbSize (pre ++ s :: mid ++ t :: post) ≤ 65536) :
    ∃ d e, (newDB (pre ++ s :: mid ++ t :: post) base).at (svcHandle base pre) = some d ∧
      (newDB (pre ++ s :: mid ++ t :: post) base).at (svcHandle base (pre ++ s :: mid)) = some e ∧
      d.h ≤ d.endh ∧ d.endh < e.h ∧ e.h ≤ e.endh := by
  have h1 : pre ++ s :: mid ++ t :: post = pre ++ s :: (mid ++ t :: post) := by simp
  have hf1 := hf
  rw [h1] at hf1
  obtain ⟨d, hd, dh, -, -, de⟩ := service_declaration pre (mid ++ t :: post) s base hf1
  obtain ⟨e, he, eh, -, -, ee⟩ := service_declaration (pre ++ s :: mid) post t base hf
  rw [if_neg (by simp)] at de
  refine ⟨d, e, by rw [h1]; exact hd, he, ?_, ?_, ?_⟩
  all_goals simp only [svcHandle, dbSize, svcSize, List.map_append, List.map_cons, List.sum_append, List.sum_cons] at *
  · omega
  · omega
  · split at ee <;> omega

/-- **C08.** A characteristic declaration stands where the sizes say, names the handle of its value attribute, which directly follows it,
and the properties and UUID of the characteristic; its group ends with its last descriptor. The value attribute has the
characteristic's UUID and value. -/
theorem characteristic_declaration (pre post : List (Svc α)) (u : Bytes) (cpre cpost : List (Char α)) (c : Char α) (base : Nat)
    (hf : base + dbSize (pre ++ ⟨u, cpre ++ c :: cpost⟩ :: post) ≤ 65536) :
    let db := newDB (pre ++ ⟨u, cpre ++ c :: cpost⟩ :: post) base
    let h := charHandle base pre cpre
    ∃ d v, db.at h = some d ∧ d.h = h ∧ d.typ = put16 0x2803 ∧ d.v = some (c.prop :: put16 (h + 1) ++ c.uuid) ∧
      d.endh = h + charSize c - 1 ∧
      db.at (h + 1) = some v ∧ v.h = h + 1 ∧ v.typ = c.uuid ∧ v.v = c.v ∧
      v.rh = c.rh.map liftRead ∧ v.wh = c.wh.map liftWrite := by
  intro db h
  have e := newDB_attrs _ base hf (by simp)
  obtain ⟨A, hA, hl⟩ := svcsAt_split pre post ⟨u, cpre ++ c :: cpost⟩ base
  rw [hA] at e
  let d : Attr (CState α) := { h := h, endh := h + charSize c - 1, typ := characteristicUUID, v := some (c.prop :: put16 (h + 1) ++ c.uuid) }
  let v : Attr (CState α) := { h := h + 1, typ := c.uuid, v := c.v, rh := c.rh.map liftRead, wh := c.wh.map liftWrite }
  have key : ∀ k, db.attrs[dbSize pre + 1 + (cpre.map charSize).sum + k]? =
      (charAt c h ++ charsAt cpost (h + charSize c) ++ svcsAt post (base + dbSize pre + svcSize ⟨u, cpre ++ c :: cpost⟩))[k]? := by
    intro k
    show (newDB _ base).attrs[_]? = _
    rw [e]
    simp only [svcAt, charsAt_append, charsAt, List.cons_append, List.append_assoc]
    rw [List.getElem?_append_right (by omega), hl]
    have e1 : dbSize pre + 1 + (cpre.map charSize).sum + k - dbSize pre = ((cpre.map charSize).sum + k) + 1 := by omega
    rw [e1, List.getElem?_cons_succ, List.getElem?_append_right (by rw [charsAt_length]; omega), charsAt_length]
    have e2 : (cpre.map charSize).sum + k - (cpre.map charSize).sum = k := by omega
    rw [e2]
    have e3 : base + dbSize pre + 1 + (cpre.map charSize).sum = h := rfl
    rw [e3]
  have hb : db.base + (dbSize pre + 1 + (cpre.map charSize).sum) = h := by show base + _ = charHandle base pre cpre; simp [charHandle, svcHandle]; omega
  refine ⟨d, v, ?_, rfl, rfl, rfl, rfl, ?_, rfl, rfl, rfl, rfl, rfl⟩
  · rw [← hb]; apply at_of_get
    have := key 0
    simp only [Nat.add_zero] at this
    rw [this]; rfl
  · rw [← hb, Nat.add_assoc]; apply at_of_get
    have := key 1
    rw [this]; rfl

/-- **C08.** The descriptors of a characteristic follow its value in order, the CCCD last. -/
theorem descriptor_attributes (pre post : List (Svc α)) (u : Bytes) (cpre cpost : List (Char α)) (c : Char α) (base : Nat)
    (hf : base + dbSize (pre ++ ⟨u, cpre ++ c :: cpost⟩ :: post) ≤ 65536) (i : Nat) (d : Desc α)
    (hd : (c.descs ++ if c.hasNotify || c.hasIndicate then [Desc.cccd] else [])[i]? = some d) :
    let db := newDB (pre ++ ⟨u, cpre ++ c :: cpost⟩ :: post) base
    let h := charHandle base pre cpre
    ∃ a, db.at (h + 2 + i) = some a ∧ a.h = h + 2 + i ∧
      match d with
      | .app uuid v rh wh => a.typ = uuid ∧ a.v = v ∧ a.rh = rh.map liftRead ∧ a.wh = wh.map liftWrite
      | .cccd => a.typ = put16 0x2902 ∧ a.v = none ∧
          a.rh = some (cccdRead ⟨h, c.prop, c.hasNotify, c.hasIndicate⟩) ∧
          a.wh = some (cccdWrite ⟨h, c.prop, c.hasNotify, c.hasIndicate⟩) := by
  intro db h
  have e := newDB_attrs _ base hf (by simp)
  obtain ⟨A, hA, hl⟩ := svcsAt_split pre post ⟨u, cpre ++ c :: cpost⟩ base
  rw [hA] at e
  have hds : (attachCCCD c).descs = c.descs ++ if c.hasNotify || c.hasIndicate then [Desc.cccd] else [] := by
    unfold attachCCCD; split <;> simp
  rw [← hds] at hd
  obtain ⟨hi, hdd⟩ := List.getElem?_eq_some_iff.1 hd
  refine ⟨genDescAttr (charRef c h) d (h + 2 + i), ?_, genDescAttr_h _ _ _, ?_⟩
  · have hb : h + 2 + i = db.base + (dbSize pre + 1 + (cpre.map charSize).sum + (2 + i)) := by
      show charHandle base pre cpre + 2 + i = base + _
      simp [charHandle, svcHandle]; omega
    rw [hb]; apply at_of_get
    show (newDB _ base).attrs[_]? = _
    rw [e]
    simp only [svcAt, charsAt_append, charsAt, List.cons_append, List.append_assoc]
    rw [List.getElem?_append_right (by omega), hl]
    have e1 : dbSize pre + 1 + (cpre.map charSize).sum + (2 + i) - dbSize pre = ((cpre.map charSize).sum + (2 + i)) + 1 := by omega
    rw [e1, List.getElem?_cons_succ, List.getElem?_append_right (by rw [charsAt_length]; omega), charsAt_length]
    have e2 : (cpre.map charSize).sum + (2 + i) - (cpre.map charSize).sum = i + 1 + 1 := by omega
    rw [e2]
    have e3 : base + dbSize pre + 1 + (cpre.map charSize).sum = h := rfl
    rw [e3]
    simp only [charAt, List.cons_append, List.getElem?_cons_succ]
    rw [List.getElem?_append_left (by rw [descsAt_length]; exact hi), descsAt_get _ _ _ _ hi, hdd, ← hb]
  · cases d <;> simp [genDescAttr, charRef, cccUUID]

/-- Non-trivial case: two services, the first with a notifying characteristic with one descriptor. -/
def exampleServices : List (Svc Unit) :=
  [ { uuid := put16 0x180D, chars := [{ uuid := put16 0x2A37, prop := 0x10, hasNotify := true,
                                        descs := [.app (put16 0x2901) (some [0x41]) none none] }] },
    { uuid := List.replicate 16 7, chars := [{ uuid := put16 0x2A00, v := some [1, 2, 3], prop := 2 }] } ]

example : 1 + dbSize exampleServices ≤ 65536 := by decide
example : (newDB exampleServices 1).attrs.map (fun a => (a.h, a.endh)) =
    [(1, 5), (2, 5), (3, 0), (4, 0), (5, 0), (6, 0xFFFF), (7, 8), (8, 0)] := by decide

/-! ## C09: lookup -/

/-- **C09.** Looking a handle up finds exactly the attribute with that handle. -/
theorem lookup_exact (db : DB σ) (hc : Consecutive db) (h : Nat) :
    (∀ a, db.at h = some a → a ∈ db.attrs ∧ a.h = h) ∧
    (∀ a ∈ db.attrs, a.h = h → db.at h = some a) ∧
    (db.at h = none ↔ ∀ a ∈ db.attrs, a.h ≠ h) := by
  have h2 : ∀ a ∈ db.attrs, a.h = h → db.at h = some a := by
    intro a ha hh
    obtain ⟨i, hi, rfl⟩ := List.getElem_of_mem ha
    rw [← hh, hc i hi]
    exact at_of_get (by simp)
  refine ⟨fun a ha => (at_handle hc ha).symm, h2, ?_⟩
  constructor
  · intro hn a ha hh; rw [h2 a ha hh] at hn; cases hn
  · intro hall
    cases hx : db.at h with
    | none => rfl
    | some a => exact absurd (at_handle hc hx).1 (hall a (at_handle hc hx).2)

/-- **C09.** A handle range gives exactly the attributes inside it, in order; out-of-range ends are harmless. -/
theorem range_exact (db : DB σ) (hc : Consecutive db) (lo hi : Nat) (h : lo ≤ hi) :
    db.subrange lo hi = .ok (db.attrs.filter fun a => lo ≤ a.h && a.h ≤ hi) :=
  subrange_of_le hc (by omega)

/-- **C09.** The server refuses ranges that are reversed or start at 0, with Invalid Handle and the start handle, for each of the four
range requests; so the table is never asked for such a range. `tail` is what follows the range in the request. -/
theorem bad_range_refused (s : Server σ) (op : UInt8) (lo hi : Nat) (hlo : lo < 65536) (hhi : hi < 65536)
    (hbad : lo = 0 ∨ lo > hi) (tail : Bytes)
    (hop : op = 0x04 ∧ tail.length = 0 ∨ op = 0x06 ∧ 2 ≤ tail.length ∨
      (op = 0x08 ∨ op = 0x10) ∧ (tail.length = 2 ∨ tail.length = 16)) :
    handleRequest s (op :: put16 lo ++ put16 hi ++ tail) = .ok (s, some [0x01, op, UInt8.ofNat lo, UInt8.ofNat (lo / 256), 0x01]) := by
  have e1 := le16_put16 lo hlo
  have e2 := le16_put16 hi hhi
  rcases hop with ⟨rfl, ht⟩ | ⟨rfl, ht⟩ | ⟨rfl | rfl, ht⟩
  · simp [handleRequest, handleFindInfo, put16, le16At, e1, e2, ht, hbad, reject, errorRsp, errInvalidHandle]
  · have : ¬ tail.length + 1 + 1 + 1 + 1 + 1 < 7 := by omega
    simp [handleRequest, handleFindByTypeValue, put16, le16At, e1, e2, this, hbad, reject, errorRsp, errInvalidHandle]
  · have : ¬ (tail.length + 1 + 1 + 1 + 1 + 1 ≠ 7 ∧ tail.length + 1 + 1 + 1 + 1 + 1 ≠ 21) := by omega
    simp only [handleRequest, handleReadByType, put16, le16At, List.cons_append, List.nil_append, index_cons_zero, Go.bind_ok,
      List.length_cons, this, index_cons_succ, e1, e2, hbad]
    simp [reject, errorRsp, errInvalidHandle, put16]
    intro h1 h2; omega
  · have : ¬ (tail.length + 1 + 1 + 1 + 1 + 1 ≠ 7 ∧ tail.length + 1 + 1 + 1 + 1 + 1 ≠ 21) := by omega
    simp only [handleRequest, handleReadByGroup, put16, le16At, List.cons_append, List.nil_append, index_cons_zero, Go.bind_ok,
      List.length_cons, this, index_cons_succ, e1, e2, hbad]
    simp [reject, errorRsp, errInvalidHandle, put16]
    intro h1 h2; omega

example : Consecutive (newDB exampleServices 1) := (table_handles _ _ (by decide)).2
example : ((newDB exampleServices 1).subrange 3 6) = .ok (inRange (newDB exampleServices 1) 3 6) :=
  range_exact _ (table_handles _ _ (by decide)).2 _ _ (by decide)

/-! ## C49: rebuilding the table -/

/-- Number of CCCDs of a characteristic in the table: descriptors that `newCCCD` made. -/
def cccdCount (c : Char α) : Nat := (c.descs.filter fun d => match d with | .cccd => true | _ => false).length

/-- **C49, refuted.** Each `AddService` gives every characteristic that can notify or indicate one more CCCD: after `n` calls the
characteristics present from the beginning have `n` of them. -/
theorem addService_duplicates_cccd (s0 : Svc α) (c : Char α) (h0 : s0.chars = [c]) (hn : (c.hasNotify || c.hasIndicate) = true)
    (added : List (Svc α)) (g : Gatt α) (hg : g.svcs = [s0]) :
    ∃ s rest, (added.foldl Gatt.addService g).svcs = s :: rest ∧ ∃ c', s.chars = [c'] ∧
      cccdCount c' = cccdCount c + added.length := by
  suffices H : ∀ (added : List (Svc α)) (g : Gatt α) (c : Char α) (s : Svc α) (rest : List (Svc α)),
      (c.hasNotify || c.hasIndicate) = true → g.svcs = s :: rest → s.chars = [c] →
      ∃ s' rest', (added.foldl Gatt.addService g).svcs = s' :: rest' ∧ ∃ c', s'.chars = [c'] ∧
        cccdCount c' = cccdCount c + added.length from
    H added g c s0 [] hn hg h0
  intro added
  induction added with
  | nil => intro g c s rest _ hg hs; exact ⟨s, rest, hg, c, hs, by simp⟩
  | cons a added ih =>
    intro g c s rest hn hg hs
    obtain ⟨s', rest', h1, c', h2, h3⟩ := ih (g.addService a) (attachCCCD c) { s with chars := s.chars.map attachCCCD }
      (attachAll (rest ++ [a])) (by unfold attachCCCD; rw [if_pos hn]; exact hn)
      (by simp [Gatt.addService, hg, attachAll]) (by simp [hs])
    refine ⟨s', rest', h1, c', h2, ?_⟩
    rw [h3]
    unfold attachCCCD
    rw [if_pos hn]
    simp [cccdCount]
    omega

/-- **C49, part that holds.** Setting all services at once, or removing them, starts from new objects: characteristics given without a
CCCD get exactly one if they can notify or indicate, and none otherwise. -/
theorem setServices_one_cccd_partial (dflt ss : List (Svc α)) (h : ∀ s ∈ dflt ++ ss, ∀ c ∈ s.chars, cccdCount c = 0) :
    ∀ s ∈ (Gatt.setServices dflt ss).svcs, ∀ c ∈ s.chars,
      cccdCount c = if c.hasNotify || c.hasIndicate then 1 else 0 := by
  intro s hs c hc
  simp only [Gatt.setServices, attachAll, List.mem_map] at hs
  obtain ⟨s0, hs0, rfl⟩ := hs
  simp only [List.mem_map] at hc
  obtain ⟨c0, hc0, rfl⟩ := hc
  have := h s0 hs0 c0 hc0
  have e : (attachCCCD c0).hasNotify = c0.hasNotify ∧ (attachCCCD c0).hasIndicate = c0.hasIndicate := by
    unfold attachCCCD; split <;> exact ⟨rfl, rfl⟩
  rw [e.1, e.2]
  unfold attachCCCD
  split
  · simp only [cccdCount, List.filter_append, List.length_append] at this ⊢
    simp [this]
  · exact this

end Ble.Props
