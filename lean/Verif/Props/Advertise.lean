import Verif.Hci.Advertise
import Verif.Props.Adv
set_option autoImplicit false

/-! # C45: what the advertising calls put on the air -/

namespace Ble.Props.AdvertiseAux
open Ble.Advertise Ble.Spec

theorem flags_packet : newPacket [.flags advFlags] = .ok [2, 1, 6] := by decide

/-- Bytes used in the advertising data by the flags and these UUIDs, each in a record of its own. -/
def used (us : List Bytes) : Nat := 3 + (us.map fun u => u.length + 2).sum

theorem uuid_apply (f : Bytes → Field) (hf : f = .allUUID ∨ f = .someUUID) (p u : Bytes) :
    (f u).apply p = (if p.length + (u.length + 2) ≤ 31 then (p ++ fieldBytes (f u), none) else (p, some .notFit)) ∧ (fieldBytes (f u)).length = u.length + 2 := by
  have hlen : (fieldBytes (f u)).length = u.length + 2 := by
    rcases hf with rfl | rfl <;> simp [fieldBytes, fieldRecs, rec_bytes_length]
  refine ⟨?_, hlen⟩
  have := append_all_or_nothing_partial p (f u) (by rcases hf with rfl | rfl <;> trivial) (by rcases hf with rfl | rfl <;> intro i b h <;> cases h)
  rw [this, hlen]

theorem addServices_spec (f : Bytes → Field) (hf : f = .allUUID ∨ f = .someUUID) (us : List Bytes) : ∀ (ad : Bytes), ad.length ≤ 31 →
    ∃ k, k ≤ us.length ∧ addServices f ad us = ad ++ ((us.take k).map f).flatMap fieldBytes ∧
      ad.length + ((us.take k).map fun u => u.length + 2).sum ≤ 31 ∧
      (k = us.length ∨ 31 < ad.length + ((us.take (k + 1)).map fun u => u.length + 2).sum) := by
  induction us with
  | nil => intro ad h; exact ⟨0, by simp, by simp [addServices], by simpa using h, .inl rfl⟩
  | cons u us ih =>
    intro ad h
    obtain ⟨ha, hl⟩ := uuid_apply f hf ad u
    by_cases hfit : ad.length + (u.length + 2) ≤ 31
    · rw [if_pos hfit] at ha
      obtain ⟨k, h1, h2, h3, h4⟩ := ih (ad ++ fieldBytes (f u)) (by rw [List.length_append, hl]; omega)
      refine ⟨k + 1, by simp; omega, ?_, ?_, ?_⟩
      · simp only [addServices, ha, h2]; simp
      · simp only [List.take_succ_cons, List.map_cons, List.sum_cons]
        rw [List.length_append, hl] at h3; omega
      · rcases h4 with h4 | h4
        · exact .inl (by simp [h4])
        · refine .inr ?_
          rw [List.length_append, hl] at h4
          simp only [List.take_succ_cons, List.map_cons, List.sum_cons] at h4 ⊢
          omega
    · rw [if_neg hfit] at ha
      refine ⟨0, by simp, ?_, by simpa using h, .inr ?_⟩
      · simp [addServices, ha]
      · simp; omega

theorem name_apply (p n : Bytes) : (Field.completeName n).apply p = (if p.length + (n.length + 2) ≤ 31 then (p ++ fieldBytes (.completeName n), none) else (p, some .notFit)) ∧
    (Field.shortName n).apply p = (if p.length + (n.length + 2) ≤ 31 then (p ++ fieldBytes (.shortName n), none) else (p, some .notFit)) ∧
    (fieldBytes (.completeName n)).length = n.length + 2 := by
  have h1 := append_all_or_nothing_partial p (.completeName n) trivial (by intro i b h; cases h)
  have h2 := append_all_or_nothing_partial p (.shortName n) trivial (by intro i b h; cases h)
  have l1 : (fieldBytes (.completeName n)).length = n.length + 2 := by simp [fieldBytes, fieldRecs, rec_bytes_length]
  have l2 : (fieldBytes (.shortName n)).length = n.length + 2 := by simp [fieldBytes, fieldRecs, rec_bytes_length]
  rw [l1] at h1; rw [l2] at h2
  exact ⟨h1, h2, l1⟩

/-- The fields of the two packets, for a number `k` of UUIDs. -/
def adFields (f : Bytes → Field) (us : List Bytes) (k : Nat) (name : Bytes) : List Field :=
  .flags advFlags :: (us.take k).map f ++ (if used (us.take k) + (name.length + 2) ≤ 31 then [.completeName name] else [])

def srFields (us : List Bytes) (k : Nat) (name : Bytes) : List Field :=
  if used (us.take k) + (name.length + 2) ≤ 31 then [] else if name.length + 2 ≤ 31 then [.completeName name] else []

theorem fields_length (f : Bytes → Field) (hf : f = .allUUID ∨ f = .someUUID) (us : List Bytes) :
    ((us.map f).flatMap fieldBytes).length = (us.map fun u => u.length + 2).sum := by
  induction us with
  | nil => rfl
  | cons u us ih => simp only [List.map_cons, List.flatMap_cons, List.length_append, ih, (uuid_apply f hf [] u).2, List.sum_cons]

theorem uuidField_cases (n : Nat) (us : List Bytes) : uuidField n us = .allUUID ∨ uuidField n us = .someUUID := by
  unfold uuidField; split <;> simp

theorem nameAndServices_ok (name : Bytes) (us : List Bytes) :
    ∃ k ad sr, nameAndServices name us = .ok (ad, sr) ∧ k ≤ us.length ∧ used (us.take k) ≤ 31 ∧ (k = us.length ∨ 31 < used (us.take (k + 1))) ∧
      newPacket (adFields (uuidField 3 us) us k name) = .ok ad ∧ newPacket (srFields us k name) = .ok sr := by
  have hf := uuidField_cases 3 us
  obtain ⟨k, h1, h2, h3, h4⟩ := addServices_spec (uuidField 3 us) hf us [2, 1, 6] (by simp)
  have hfl : fieldBytes (.flags advFlags) = [2, 1, 6] := by decide
  have hlen : (addServices (uuidField 3 us) [2, 1, 6] us).length = used (us.take k) := by
    rw [h2, List.length_append, fields_length _ hf]; simp [used]
  have hleg : ∀ f ∈ adFields (uuidField 3 us) us k name, fieldLegal f := by
    intro f hm
    simp only [adFields] at hm
    rcases List.mem_append.1 hm with hm | hm
    · rcases List.mem_cons.1 hm with rfl | hm
      · trivial
      · obtain ⟨u, -, rfl⟩ := List.mem_map.1 hm
        rcases hf with hf | hf <;> rw [hf] <;> trivial
    · split at hm <;> simp at hm; subst hm; trivial
  have hu : used (us.take k) ≤ 31 := by simp only [used, List.length_cons, List.length_nil] at h3 ⊢; omega
  obtain ⟨n1, n2, n3⟩ := name_apply (addServices (uuidField 3 us) [2, 1, 6] us) name
  obtain ⟨m1, m2, m3⟩ := name_apply [] name
  rw [hlen] at n1
  simp only [List.length_nil, Nat.zero_add, List.nil_append] at m1 m2
  have hnas : nameAndServices name us = .ok (placeName (addServices (uuidField 3 us) [2, 1, 6] us) name) := by
    simp only [nameAndServices, flags_packet]; rfl
  have hbase : (adFields (uuidField 3 us) us k name).flatMap fieldBytes = addServices (uuidField 3 us) [2, 1, 6] us ++
      (if used (us.take k) + (name.length + 2) ≤ 31 then fieldBytes (.completeName name) else []) := by
    rw [h2]
    simp only [adFields, List.cons_append, List.flatMap_cons, List.flatMap_append, hfl]
    split <;> simp
  by_cases hfit : used (us.take k) + (name.length + 2) ≤ 31
  · rw [if_pos hfit] at n1
    refine ⟨k, _, _, by rw [hnas, placeName, n1], h1, hu, ?_, ?_, ?_⟩
    · rcases h4 with h4 | h4
      · exact .inl h4
      · exact .inr (by simpa [used] using h4)
    · have := newPacket_succeeds _ hleg (by rw [hbase, if_pos hfit, List.length_append, hlen, n3]; omega)
      rw [this, hbase, if_pos hfit]
    · simp [srFields, hfit, newPacket, newPacketFrom]
  · rw [if_neg hfit] at n1
    have had : newPacket (adFields (uuidField 3 us) us k name) = .ok (addServices (uuidField 3 us) [2, 1, 6] us) := by
      have := newPacket_succeeds _ hleg (by rw [hbase, if_neg hfit, List.append_nil, hlen]; omega)
      rw [this, hbase, if_neg hfit, List.append_nil]
    have hk : k = us.length ∨ 31 < used (us.take (k + 1)) := by
      rcases h4 with h4 | h4
      · exact .inl h4
      · exact .inr (by simpa [used] using h4)
    by_cases hs : name.length + 2 ≤ 31
    · rw [if_pos hs] at m1
      refine ⟨k, addServices (uuidField 3 us) [2, 1, 6] us, fieldBytes (.completeName name), by rw [hnas, placeName, n1]; simp only [m1], h1, hu, hk, had, ?_⟩
      have := newPacket_succeeds [.completeName name] (by simp [fieldLegal]) (by simp [m3]; omega)
      simp only [srFields, if_neg hfit, if_pos hs, this]
      simp
    · rw [if_neg hs] at m1 m2
      refine ⟨k, addServices (uuidField 3 us) [2, 1, 6] us, [], by rw [hnas, placeName, n1]; simp only [m1, m2], h1, hu, hk, had, ?_⟩
      simp [srFields, hfit, hs, newPacket, newPacketFrom]

end Ble.Props.AdvertiseAux

namespace Ble.Props
open Ble.Advertise Ble.Spec AdvertiseAux

/-! ## Specification: the advertiser of a controller -/

/-- What a controller broadcasts: its advertising data, its scan response, and whether it advertises. -/
structure Radio where
  ad : Bytes
  sr : Bytes
  on : Bool
deriving DecidableEq, Repr

/-- The effect of a command (Core specification, vol 4 part E, 7.8.7-7.8.9): the first `len` bytes of the 31-byte array are the significant part. -/
def Radio.exec (r : Radio) : Sent → Radio
  | .advData len d => { r with ad := d.take len.toNat }
  | .scanResp len d => { r with sr := d.take len.toNat }
  | .advParams => r
  | .advEnable on => { r with on := on != 0 }

/-- The number of UUIDs, from the front, that fit into the advertising data after the flags, each in a record of its own. -/
def FitCount (us : List Bytes) (k : Nat) : Prop :=
  k ≤ us.length ∧ 3 + ((us.take k).map fun u => u.length + 2).sum ≤ 31 ∧ (k < us.length → 31 < 3 + ((us.take (k + 1)).map fun u => u.length + 2).sum)

/-- Room left in the advertising data after those. -/
def room (us : List Bytes) (k : Nat) : Nat := 31 - (3 + ((us.take k).map fun u => u.length + 2).sum)

/-- There is only one such number. -/
theorem FitCount_unique (us : List Bytes) (j k : Nat) (hj : FitCount us j) (hk : FitCount us k) : j = k := by
  have mono : ∀ a b : Nat, a ≤ b → ((us.take a).map fun u => u.length + 2).sum ≤ ((us.take b).map fun u => u.length + 2).sum := by
    intro a b hab
    have : us.take b = us.take a ++ (us.drop a).take (b - a) := by
      rw [← List.take_append_drop a (us.take b), List.take_take, Nat.min_eq_left hab, List.drop_take]
    rw [this]; simp
  have lt : ∀ a b : Nat, FitCount us a → FitCount us b → ¬ a < b := by
    intro a b ha hb hab
    have h1 := ha.2.2 (by have := hb.1; omega)
    have h2 := mono (a + 1) b (by omega)
    have := hb.2.1
    omega
  have := lt j k hj hk; have := lt k j hk hj; omega

namespace AdvertiseAux

theorem goCopy_take (dst src : Bytes) (hd : dst.length = 31) (hs : src.length ≤ 31) : (goCopy dst src).length = 31 ∧ (goCopy dst src).take src.length = src := by
  unfold goCopy
  have e : src.take dst.length = src := List.take_of_length_le (by omega)
  rw [e]
  exact ⟨by rw [List.length_append, List.length_drop]; omega, List.take_left⟩

theorem publish_ok (s : St) (ad sr : Bytes) (ha : s.advData.length = 31) (hs : s.scanResp.length = 31) (h1 : ad.length ≤ 31) (h2 : sr.length ≤ 31) (r : Radio) :
    (publish s {} ad sr).err = none ∧ (publish s {} ad sr).sent.foldl Radio.exec r = ⟨ad, sr, true⟩ ∧
      (publish s {} ad sr).sent = [.advData (UInt8.ofNat ad.length) (goCopy s.advData ad), .scanResp (UInt8.ofNat sr.length) (goCopy s.scanResp sr), .advParams, .advEnable 1] ∧
      (publish s {} ad sr).st.advData.length = 31 ∧ (publish s {} ad sr).st.scanResp.length = 31 := by
  have e : publish s {} ad sr = ⟨⟨goCopy s.advData ad, goCopy s.scanResp sr⟩,
      [.advData (UInt8.ofNat ad.length) (goCopy s.advData ad), .scanResp (UInt8.ofNat sr.length) (goCopy s.scanResp sr), .advParams, .advEnable 1], none⟩ := by
    unfold publish setAdvertisement
    rw [if_neg (by omega)]
    rfl
  rw [e]
  obtain ⟨a1, a2⟩ := goCopy_take s.advData ad ha h1
  obtain ⟨b1, b2⟩ := goCopy_take s.scanResp sr hs h2
  have c1 : (UInt8.ofNat ad.length).toNat = ad.length := by simp; omega
  have c2 : (UInt8.ofNat sr.length).toNat = sr.length := by simp; omega
  refine ⟨rfl, ?_, rfl, a1, b1⟩
  simp [Radio.exec, c1, c2, a2, b2]

end AdvertiseAux

/-! ## C45 -/

/-- C45: `AdvertiseNameAndServices` on a controller that accepts its commands returns nil and makes it broadcast advertising data of at most 31 bytes that a scanner decodes to the
flags, exactly the UUIDs that fit (the longest prefix of the list, each UUID in a record of its own, in order), and the complete name if there is room for it after them; otherwise the
scan response consists of the complete name if that is at most 29 bytes long. Whatever the controller broadcast before is replaced. -/
theorem adv_name_services (s : St) (ha : s.advData.length = 31) (hs : s.scanResp.length = 31) (r : Radio) (name : Bytes) (us : List Bytes)
    (hu : ∀ u ∈ us, u.length = 2 ∨ u.length = 4 ∨ u.length = 16) :
    ∃ k ad sr, FitCount us k ∧ (advertiseNameAndServices s {} name us).err = none ∧
      (advertiseNameAndServices s {} name us).sent.foldl Radio.exec r = ⟨ad, sr, true⟩ ∧ ad.length ≤ 31 ∧ sr.length ≤ 31 ∧
      (∃ m, adParse ad = .ok m ∧ m.flags = some [6] ∧ getUUIDs m = us.take k ∧ getLocalName m = if name.length + 2 ≤ room us k then name else []) ∧
      (room us k < name.length + 2 → name.length ≤ 29 → ∃ m, adParse sr = .ok m ∧ getLocalName m = name ∧ getUUIDs m = []) ∧
      (name.length + 2 ≤ room us k ∨ 29 < name.length → sr = []) := by
  obtain ⟨k, ad, sr, h0, h1, h2, h3, h4, h5⟩ := nameAndServices_ok name us
  have l1 := newPacket_le_31 _ _ h4
  have l2 := newPacket_le_31 _ _ h5
  have e : advertiseNameAndServices s {} name us = publish s {} ad sr := by simp [advertiseNameAndServices, h0]
  obtain ⟨p1, p2, -, -, -⟩ := publish_ok s ad sr ha hs l1 l2 r
  have hroom : (name.length + 2 ≤ room us k) ↔ used (us.take k) + (name.length + 2) ≤ 31 := by
    simp only [room, used] at h2 ⊢; omega
  have hf := uuidField_cases 3 us
  have hdec : ∀ f ∈ adFields (uuidField 3 us) us k name, Decodable f := by
    intro f hm
    simp only [adFields] at hm
    rcases List.mem_append.1 hm with hm | hm
    · rcases List.mem_cons.1 hm with rfl | hm
      · trivial
      · obtain ⟨u, hmu, rfl⟩ := List.mem_map.1 hm
        have := hu u (List.mem_of_mem_take hmu)
        rcases hf with hf | hf <;> rw [hf] <;> exact this
    · split at hm <;> simp at hm; subst hm; trivial
  have hne : ad ≠ [] := by
    rw [newPacket_bytes _ _ h4]; simp [adFields, fieldBytes, fieldRecs, Rec.bytes]
  have key : ∀ (f : Bytes → Field) (hf : f = .allUUID ∨ f = .someUUID) (l : List Bytes), announcedUUIDs (l.map f) = l ∧ announcedName (l.map f) = [] := by
    intro f hf l
    induction l with
    | nil => exact ⟨rfl, rfl⟩
    | cons a l ih =>
      simp only [announcedUUIDs, announcedName, List.map_cons, List.flatMap_cons] at ih ⊢
      rw [ih.1, ih.2]
      rcases hf with rfl | rfl <;> simp
  have hflags : (meaning ((adFields (uuidField 3 us) us k name).flatMap fieldRecs)).flags = some [6] := by
    simp only [adFields, List.cons_append, List.flatMap_cons]
    have hnone : ∀ l : List Field, (∀ f ∈ l, (∃ u, f = .allUUID u) ∨ (∃ u, f = .someUUID u) ∨ ∃ n, f = .completeName n) → values isFlags (l.flatMap fieldRecs) = [] := by
      intro l hl
      unfold values
      rw [List.map_eq_nil_iff, List.filter_eq_nil_iff]
      intro x hx
      obtain ⟨f, hf, hx⟩ := List.mem_flatMap.1 hx
      rcases hl f hf with ⟨u, rfl⟩ | ⟨u, rfl⟩ | ⟨n, rfl⟩
      · simp only [fieldRecs, List.mem_singleton] at hx; subst hx
        by_cases h2 : u.length = 2 <;> by_cases h4 : u.length = 4 <;> simp [h2, h4, kind, isFlags]
      · simp only [fieldRecs, List.mem_singleton] at hx; subst hx
        by_cases h2 : u.length = 2 <;> by_cases h4 : u.length = 4 <;> simp [h2, h4, kind, isFlags]
      · simp only [fieldRecs, List.mem_singleton] at hx; subst hx
        simp [kind, isFlags]
    have := hnone ((us.take k).map (uuidField 3 us) ++ (if used (us.take k) + (name.length + 2) ≤ 31 then [.completeName name] else [])) (by
      intro f hm
      rcases List.mem_append.1 hm with hm | hm
      · obtain ⟨u, -, rfl⟩ := List.mem_map.1 hm
        rcases hf with hf | hf <;> rw [hf]
        · exact .inl ⟨u, rfl⟩
        · exact .inr (.inl ⟨u, rfl⟩)
      · split at hm <;> simp at hm; exact .inr (.inr ⟨_, hm⟩))
    have e : ∀ a c : List Rec, values isFlags (a ++ c) = values isFlags a ++ values isFlags c := by
      intro a c; simp [values]
    simp only [meaning, e, this]
    decide
  have hfc : FitCount us k := by
    refine ⟨h1, h2, fun hk => ?_⟩
    rcases h3 with h3 | h3
    · omega
    · exact h3
  refine ⟨k, ad, sr, hfc, by rw [e]; exact p1, by rw [e]; exact p2, l1, l2, ?_, ?_, ?_⟩
  · obtain ⟨m, m1, m2⟩ := advertised_uuids _ _ h4 hne hdec
    obtain ⟨m', m1', m3⟩ := advertised_name _ _ h4 hne hdec
    have md := advertised_is_decoded _ _ h4 hne hdec
    rw [m1'] at m1; cases m1
    rw [m1'] at md; cases md
    refine ⟨_, m1', hflags, m2.trans ?_, m3.trans ?_⟩
    · obtain ⟨k1, -⟩ := key _ hf (us.take k)
      simp only [announcedUUIDs, adFields, List.cons_append, List.flatMap_cons, List.flatMap_append] at k1 ⊢
      rw [k1]
      split <;> simp
    · obtain ⟨-, k2⟩ := key _ hf (us.take k)
      simp only [announcedName, adFields, List.cons_append, List.flatMap_cons, List.flatMap_append] at k2 ⊢
      rw [k2]
      by_cases hfit : name.length + 2 ≤ room us k
      · rw [if_pos hfit, if_pos (hroom.1 hfit)]; simp
      · rw [if_neg hfit, if_neg (fun h => hfit (hroom.2 h))]; simp
  · intro hn hl
    have hsf : srFields us k name = [.completeName name] := by
      simp only [srFields]
      rw [if_neg (fun h => by have := hroom.2 h; omega), if_pos (by omega)]
    rw [hsf] at h5
    have hne : sr ≠ [] := by rw [newPacket_bytes _ _ h5]; simp [fieldBytes, fieldRecs, Rec.bytes]
    obtain ⟨m, m1, m2⟩ := advertised_name _ _ h5 hne (by simp [Decodable])
    obtain ⟨m', m1', m3⟩ := advertised_uuids _ _ h5 hne (by simp [Decodable])
    rw [m1'] at m1; cases m1
    exact ⟨_, m1', m2.trans (by simp [announcedName]), m3.trans (by simp [announcedUUIDs])⟩
  · intro hor
    have hsf : srFields us k name = [] := by
      simp only [srFields]
      rcases hor with hor | hor
      · rw [if_pos (hroom.1 hor)]
      · rw [if_neg (fun h => by have := hroom.2 h; have : room us k ≤ 31 := by (simp only [room]; omega)
                                omega), if_neg (by omega)]
    rw [hsf] at h5
    simpa [newPacket, newPacketFrom] using h5.symm

/-- The hypotheses and the interesting branch: eight 16-bit UUIDs and a name that goes into the scan response. -/
example : FitCount (List.replicate 8 [0x0D, 0x18]) 7 ∧ room (List.replicate 8 [0x0D, 0x18]) 7 = 0 := by
  refine ⟨⟨by simp, by decide, fun _ => by decide⟩, by decide⟩

/-- The list type of the records is chosen from the size the UUIDs would have in a single record, although each gets a record of its own … -/
theorem adv_list_type (name : Bytes) (us : List Bytes) (k : Nat) (hk : FitCount us k) : ∃ ad sr rest, nameAndServices name us = .ok (ad, sr) ∧
    ad = [2, 1, 6] ++ (us.take k).flatMap (fun u => fieldBytes (if 5 + (us.map List.length).sum ≤ 31 then .allUUID u else .someUUID u)) ++ rest := by
  obtain ⟨k', ad, sr, h0, h1, h2, h3, h4, h5⟩ := nameAndServices_ok name us
  have hfc : FitCount us k' := by
    refine ⟨h1, h2, fun hk => ?_⟩
    rcases h3 with h3 | h3
    · omega
    · exact h3
  cases FitCount_unique us k k' hk hfc
  have hfl : fieldBytes (.flags advFlags) = [2, 1, 6] := by decide
  refine ⟨ad, sr, (if used (us.take k) + (name.length + 2) ≤ 31 then [Field.completeName name] else []).flatMap fieldBytes, h0, ?_⟩
  rw [newPacket_bytes _ _ h4]
  simp only [adFields, List.cons_append, List.flatMap_cons, List.flatMap_append, hfl, List.append_assoc, List.flatMap_map]
  refine congrArg (fun x : Bytes => [2, 1, 6] ++ (x ++ _)) ?_
  apply flatMap_congr'
  intro u _
  have hm : maxEIR = 31 := rfl
  simp only [uuidField, hm]
  by_cases h : 5 + (us.map List.length).sum ≤ 31
  · rw [if_pos h, if_neg (by omega)]
  · rw [if_neg h, if_pos (by omega)]

/-- … so with eight to thirteen 16-bit UUIDs only the first seven are announced, in records that claim to be the complete list (type 0x03). -/
theorem adv_incomplete_list_marked_complete (name : Bytes) (us : List Bytes) (hu : ∀ u ∈ us, u.length = 2) (h8 : 8 ≤ us.length) (h13 : us.length ≤ 13) :
    ∃ ad sr rest, nameAndServices name us = .ok (ad, sr) ∧ ad = [2, 1, 6] ++ (us.take 7).flatMap (fun u => [3, 0x03] ++ u) ++ rest := by
  have sums : ∀ l : List Bytes, (∀ u ∈ l, u.length = 2) → (l.map fun u => u.length + 2).sum = 4 * l.length ∧ (l.map List.length).sum = 2 * l.length := by
    intro l
    induction l with
    | nil => intro _; exact ⟨rfl, rfl⟩
    | cons a l ih =>
      intro h
      obtain ⟨i1, i2⟩ := ih (fun u hu => h u (by simp [hu]))
      have := h a (by simp)
      simp only [List.map_cons, List.sum_cons, List.length_cons, i1, i2]
      omega
  have hfc : FitCount us 7 := by
    have t7 := (sums (us.take 7) (fun u h => hu u (List.mem_of_mem_take h))).1
    have t8 := (sums (us.take 8) (fun u h => hu u (List.mem_of_mem_take h))).1
    rw [List.length_take] at t7 t8
    refine ⟨by omega, ?_, fun _ => ?_⟩
    · omega
    · rw [show 7 + 1 = 8 from rfl]; omega
  obtain ⟨ad, sr, rest, h1, h2⟩ := adv_list_type name us 7 hfc
  refine ⟨ad, sr, rest, h1, h2.trans ?_⟩
  have hall := (sums us hu).2
  congr 2
  apply flatMap_congr'
  intro u h
  have := hu u (List.mem_of_mem_take h)
  rw [if_pos (by omega)]
  simp [fieldBytes, fieldRecs, Rec.bytes, this]

/-- A UUID that does not fit hides the ones after it, even those that would fit: a 128-bit UUID, another one, a 16-bit one. -/
theorem adv_later_uuid_hidden (u v w : Bytes) (hu : u.length = 16) (hv : v.length = 16) (hw : w.length = 2) :
    FitCount [u, v, w] 1 ∧ 3 + (u.length + 2) + (w.length + 2) ≤ 31 := by
  refine ⟨⟨by simp, by simp [hu], fun _ => by simp [hu, hv]⟩, by omega⟩

/-- The calls hide a failure of the controller to take the data: they return nil, but advertising is not started. -/
theorem adv_error_hidden (s : St) (c : Ctl) (name : Bytes) (us : List Bytes) (md : Option Bytes) (f : Field) (h : c.advData ≠ none ∨ c.scanResp ≠ none)
    (hf : ∃ b, newPacket [f] = .ok b) :
    ∀ o ∈ [advertiseNameAndServices s c name us, advertiseAdv s c name us md, advertiseField s c f],
      o.err = none ∧ ∀ x ∈ o.sent, x ≠ .advEnable 1 ∧ x ≠ .advParams := by
  have key : ∀ ad sr, (publish s c ad sr).err = none ∧ ∀ x ∈ (publish s c ad sr).sent, x ≠ .advEnable 1 ∧ x ≠ .advParams := by
    intro ad sr
    unfold publish setAdvertisement
    by_cases hl : ad.length > 31 ∨ sr.length > 31
    · rw [if_pos hl]; simp
    · rw [if_neg hl]
      cases h1 : c.advData with
      | some e => simp
      | none =>
        cases h2 : c.scanResp with
        | some e => simp
        | none => simp [h1, h2] at h
  obtain ⟨k, ad, sr, h0, -⟩ := nameAndServices_ok name us
  obtain ⟨b, hb⟩ := hf
  intro o ho
  simp only [List.mem_cons, List.not_mem_nil, or_false] at ho
  rcases ho with rfl | rfl | rfl
  · simp only [advertiseNameAndServices, h0]; exact key _ _
  · simp only [advertiseAdv, h0]; exact key _ _
  · simp only [advertiseField, hb]; exact key _ _

/-- With a controller that takes the data, the calls return what enabling returned, and `advEnable 1` is sent exactly if the parameters were accepted. -/
theorem adv_enable_result (s : St) (c : Ctl) (name : Bytes) (us : List Bytes) (h1 : c.advData = none) (h2 : c.scanResp = none) :
    ((advertiseNameAndServices s c name us).err = none ↔ c.advParams = none ∧ c.advEnable = none) ∧
      (Sent.advEnable 1 ∈ (advertiseNameAndServices s c name us).sent ↔ c.advParams = none) := by
  obtain ⟨k, ad, sr, h0, -, -, -, h4, h5⟩ := nameAndServices_ok name us
  have l1 := newPacket_le_31 _ _ h4
  have l2 := newPacket_le_31 _ _ h5
  simp only [advertiseNameAndServices, h0, publish, setAdvertisement]
  rw [if_neg (by omega)]
  simp only [h1, h2, enable]
  cases h3 : c.advParams with
  | some e => simp
  | none => cases h4 : c.advEnable <;> simp

/-- `AdvertiseMfgData`, `AdvertiseServiceData16`, `AdvertiseIBeaconData` and `AdvertiseIBeacon`: exactly if the field fits into 31 bytes (and an iBeacon UUID has 16 bytes) the controller is
made to broadcast that field, with an empty scan response; otherwise an error is returned, nothing is sent and nothing changes. -/
theorem adv_field (s : St) (ha : s.advData.length = 31) (hs : s.scanResp.length = 31) (r : Radio) (f : Field) :
    (fieldLegal f ∧ (fieldBytes f).length ≤ 31 → (advertiseField s {} f).err = none ∧ (advertiseField s {} f).sent.foldl Radio.exec r = ⟨fieldBytes f, [], true⟩) ∧
      (¬ (fieldLegal f ∧ (fieldBytes f).length ≤ 31) → (∃ e, (advertiseField s {} f).err = some (.packet e)) ∧ (advertiseField s {} f).sent = [] ∧ (advertiseField s {} f).st = s) := by
  constructor
  · rintro ⟨h1, h2⟩
    have hn := newPacket_succeeds [f] (by simpa using h1) (by simpa using h2)
    simp only [List.flatMap_cons, List.flatMap_nil, List.append_nil] at hn
    simp only [advertiseField, hn]
    obtain ⟨p1, p2, -⟩ := publish_ok s (fieldBytes f) [] ha hs h2 (by simp) r
    exact ⟨p1, p2⟩
  · intro hno
    have hcase : ∃ e, newPacket [f] = .err e := by
      simp only [newPacket, newPacketFrom]
      cases hh : f.apply [] with
      | mk p e =>
        cases e with
        | some e => exact ⟨e, by simp⟩
        | none =>
          exfalso
          have hok : newPacket [f] = .ok p := by simp [newPacket, newPacketFrom, hh]
          have hb := newPacket_bytes _ _ hok
          have hl := newPacket_le_31 _ _ hok
          simp only [List.flatMap_cons, List.flatMap_nil, List.append_nil] at hb
          refine hno ⟨?_, by rw [← hb]; exact hl⟩
          cases f with
          | iBeacon u a b c =>
            refine Classical.byContradiction fun hne => ?_
            have := iBeacon_bad_uuid u a b c hne
            rw [hok] at this
            cases this
          | _ => trivial
    obtain ⟨e, he⟩ := hcase
    simp only [advertiseField, he]
    exact ⟨⟨e, rfl⟩, by trivial, by trivial⟩

/-- `AdvertiseAdv` adds the manufacturer data, with company identifier 1337 = 0x0539, to the advertising data if it fits there, else to the scan response if it fits there, else drops it; the
rest is as with `AdvertiseNameAndServices`. -/
theorem adv_adv (s : St) (ha : s.advData.length = 31) (hs : s.scanResp.length = 31) (r : Radio) (name : Bytes) (us : List Bytes) (md : Option Bytes) :
    ∃ ad sr, nameAndServices name us = .ok (ad, sr) ∧ (advertiseAdv s {} name us md).err = none ∧
      (advertiseAdv s {} name us md).sent.foldl Radio.exec r = (match md with
        | none => ⟨ad, sr, true⟩
        | some d =>
          if ad.length + (d.length + 4) ≤ 31 then ⟨ad ++ [UInt8.ofNat (d.length + 3), 0xFF, 0x39, 0x05] ++ d, sr, true⟩
          else if sr.length + (d.length + 4) ≤ 31 then ⟨ad, sr ++ [UInt8.ofNat (d.length + 3), 0xFF, 0x39, 0x05] ++ d, true⟩
          else ⟨ad, sr, true⟩) := by
  obtain ⟨k, ad, sr, h0, -, -, -, h4, h5⟩ := nameAndServices_ok name us
  have l1 := newPacket_le_31 _ _ h4
  have l2 := newPacket_le_31 _ _ h5
  refine ⟨ad, sr, h0, ?_⟩
  simp only [advertiseAdv, h0]
  cases md with
  | none => exact ⟨(publish_ok s ad sr ha hs l1 l2 r).1, (publish_ok s ad sr ha hs l1 l2 r).2.1⟩
  | some d =>
    have hb : fieldBytes (.manufacturerData 1337 d) = [UInt8.ofNat (d.length + 3), 0xFF, 0x39, 0x05] ++ d := by
      have e1 : UInt8.ofNat 1337 = 0x39 := by decide
      have e2 : UInt8.ofNat (1337 / 256) = 0x05 := by decide
      simp only [fieldBytes, fieldRecs, Rec.bytes, e1, e2, List.flatMap_cons, List.flatMap_nil, List.append_nil, List.length_append, List.length_cons, List.length_nil]
      rw [show 0 + 1 + 1 + d.length + 1 = d.length + 3 by omega]
      rfl
    have hbl : (fieldBytes (.manufacturerData 1337 d)).length = d.length + 4 := by rw [hb]; simp
    have key : ∀ p, (Field.manufacturerData 1337 d).apply p = if p.length + (d.length + 4) ≤ 31 then (p ++ fieldBytes (.manufacturerData 1337 d), none) else (p, some .notFit) := by
      intro p
      rw [append_all_or_nothing_partial p (.manufacturerData 1337 d) trivial (by intro i b h; cases h), hbl]
    simp only [placeMfg, key]
    by_cases f1 : ad.length + (d.length + 4) ≤ 31
    · rw [if_pos f1, if_pos f1]
      have := publish_ok s (ad ++ fieldBytes (.manufacturerData 1337 d)) sr ha hs (by rw [List.length_append, hbl]; exact f1) l2 r
      refine ⟨this.1, this.2.1.trans ?_⟩
      rw [hb]; simp
    · rw [if_neg f1, if_neg f1]
      by_cases f2 : sr.length + (d.length + 4) ≤ 31
      · rw [if_pos f2, if_pos f2]
        have := publish_ok s ad (sr ++ fieldBytes (.manufacturerData 1337 d)) ha hs l1 (by rw [List.length_append, hbl]; exact f2) r
        refine ⟨this.1, this.2.1.trans ?_⟩
        rw [hb]; simp
      · rw [if_neg f2, if_neg f2]
        exact ⟨(publish_ok s ad sr ha hs l1 l2 r).1, (publish_ok s ad sr ha hs l1 l2 r).2.1⟩

/-- The 31-byte arrays of a new device meet the hypotheses, and every call keeps them 31 bytes long. -/
theorem adv_arrays (s : St) (c : Ctl) (ha : s.advData.length = 31) (hs : s.scanResp.length = 31) (ad sr : Bytes) :
    (publish s c ad sr).st.advData.length = 31 ∧ (publish s c ad sr).st.scanResp.length = 31 := by
  unfold publish setAdvertisement enable
  by_cases hl : ad.length > 31 ∨ sr.length > 31
  · rw [if_pos hl]; exact ⟨ha, hs⟩
  · rw [if_neg hl]
    have a := (goCopy_take s.advData ad ha (by omega)).1
    have b := (goCopy_take s.scanResp sr hs (by omega)).1
    cases c.advData <;> cases c.scanResp <;> cases c.advParams <;> simp [a, b, ha, hs]

example : (advertiseNameAndServices ⟨List.replicate 31 0, List.replicate 31 0⟩ {} [0x47, 0x6F] [[0x0D, 0x18], [0x0F, 0x18]]).sent.foldl Radio.exec ⟨[], [], false⟩ =
    ⟨[2, 1, 6, 3, 3, 0x0D, 0x18, 3, 3, 0x0F, 0x18, 3, 9, 0x47, 0x6F], [], true⟩ := by decide

end Ble.Props
