import Verif.Props.Discovery
set_option autoImplicit false

/-!
# The ATT server: Find By Type Value (C178)
-/

namespace Ble.FindType

open Ble.Att Ble.Client Ble.Spec Ble.Props

variable {α σ : Type}

/-! ## Specification -/

/-- The request of a peer that looks for attributes of type `typ` with value `value` from `lo` to `hi`. -/
def findReq (lo hi typ : Nat) (value : Bytes) : Bytes := rangeReq 0x06 lo hi (put16 typ ++ value)

/-- The attributes of type `typ` from `lo` to `hi`, in the order of the table. -/
def ofType (db : DB σ) (lo hi typ : Nat) : List (Attr σ) := (inRange db lo hi).filter fun a => a.typ == put16 typ

/-- Those of them before the first one whose value the application computes. -/
def fixedRun (l : List (Attr σ)) : List (Attr σ) := l.takeWhile fun a => a.v.isSome

/-- Those with the value looked for. -/
def hits (l : List (Attr σ)) (value : Bytes) : List (Attr σ) := l.filter fun a => a.v == some value

/-- An attribute in the answer: its handle and the end of its group. -/
def entry (a : Attr σ) : Bytes := put16 a.h ++ put16 a.endh

/-- A service in the answer. -/
def svcRange (i : SvcInfo) : Bytes := put16 i.handle ++ put16 i.endHandle

/-- No characteristic and no descriptor of the application poses as a service declaration. -/
def NoPoser (ss : List (Svc α)) : Prop :=
  ∀ s ∈ ss, ∀ c ∈ s.chars, c.uuid ≠ put16 0x2800 ∧ ∀ d ∈ c.descs, descUUID d ≠ put16 0x2800

/-! ## The loop -/

theorem loop_eq (cap : Nat) (typ value t : Bytes) (s : Server σ) : ∀ (as : List (Attr σ)) (buf : Bytes), buf.length ≤ cap →
    findByTypeValueLoop cap typ value (0x06 :: t) s as buf =
      .ok (s, if (as.filter fun a => a.typ == typ).all (fun a => a.v.isSome) ∨
            (cap - buf.length) / 4 < (hits (fixedRun (as.filter fun a => a.typ == typ)) value).length
          then some (buf ++ ((hits (fixedRun (as.filter fun a => a.typ == typ)) value).take ((cap - buf.length) / 4)).flatMap entry) else none)
  | [], buf, _ => by simp [findByTypeValueLoop, hits, fixedRun]
  | a :: as, buf, hb => by
    rw [findByTypeValueLoop]
    by_cases ht : a.typ = typ
    · rw [if_neg (by simpa using ht)]
      have hf : (a :: as).filter (fun a => a.typ == typ) = a :: as.filter fun a => a.typ == typ := by
        rw [List.filter_cons_of_pos (by simpa using ht)]
      rw [hf]
      cases hv : a.v with
      | none =>
        simp only [handleATT_other _ _ _ _ _ (Or.inl rfl), Go.bind_ok]
        rw [if_pos (Or.inl (by decide))]
        simp [hits, fixedRun, hv]
      | some v =>
        have hr : fixedRun (a :: as.filter fun a => a.typ == typ) = a :: fixedRun (as.filter fun a => a.typ == typ) := by
          unfold fixedRun; rw [List.takeWhile_cons_of_pos (by simp [hv])]
        rw [hr]
        simp only [List.all_cons, hv, Option.isSome_some, Bool.true_and]
        by_cases he : v = value
        · have hh : hits (a :: fixedRun (as.filter fun a => a.typ == typ)) value = a :: hits (fixedRun (as.filter fun a => a.typ == typ)) value := by
            unfold hits; rw [List.filter_cons_of_pos (by simp [hv, he])]
          rw [hh, if_neg (by simpa using he)]
          split
          · rename_i hc
            have : (cap - buf.length) / 4 = 0 := by omega
            rw [this, if_pos (Or.inr (by simp))]
            simp
          · rename_i hc
            have ih := loop_eq cap typ value t s as (buf ++ put16 a.h ++ put16 a.endh) (by simp only [List.length_append, put16_length]; omega)
            rw [ih]
            have e : (cap - (buf ++ put16 a.h ++ put16 a.endh).length) / 4 + 1 = (cap - buf.length) / 4 := by
              simp only [List.length_append, put16_length]; omega
            rw [← e]
            generalize (cap - (buf ++ put16 a.h ++ put16 a.endh).length) / 4 = k
            simp only [List.length_cons, Nat.add_lt_add_iff_right, List.take_succ_cons, List.flatMap_cons, entry, List.append_assoc]
        · have hh : hits (a :: fixedRun (as.filter fun a => a.typ == typ)) value = hits (fixedRun (as.filter fun a => a.typ == typ)) value := by
            unfold hits; rw [List.filter_cons_of_neg (by simp [hv, he])]
          rw [hh, if_pos he]
          exact loop_eq cap typ value t s as buf hb
    · rw [if_pos ht]
      have hf : (a :: as).filter (fun a => a.typ == typ) = as.filter fun a => a.typ == typ := by
        rw [List.filter_cons_of_neg (by simpa using ht)]
      rw [hf]
      exact loop_eq cap typ value t s as buf hb

/-! ## The answer -/

/-- **C178.** The answer to Find By Type Value, for every table, range, type, value and MTU: the handles and group ends of the attributes of this type with
this value, in order, as many as fit; Attribute Not Found if there are none; and Invalid Handle if the search comes to an attribute of the type whose value the application
computes (it is not asked). The server does not change. -/
theorem find_by_type_value (s : Server σ) (hm : 23 ≤ s.mtu) (hc : Consecutive s.db) (lo hi typ : Nat) (value : Bytes) (h0 : 0 < lo) (h1 : lo ≤ hi) (h2 : hi < 65536)
    (ht : typ < 65536) :
    handleRequest s (findReq lo hi typ value) = .ok (s, some
      (let found := hits (fixedRun (ofType s.db lo hi typ)) value
       if (∃ a ∈ ofType s.db lo hi typ, a.v = none) ∧ found.length ≤ (s.mtu - 1) / 4 then errorRsp 0x06 lo 0x01
       else if found = [] then errorRsp 0x06 lo 0x0A
       else 0x07 :: (found.take ((s.mtu - 1) / 4)).flatMap entry)) := by
  show handleFindByTypeValue s (rangeReq 0x06 lo hi (put16 typ ++ value)) = _
  unfold handleFindByTypeValue
  have e5 : le16At (ε := Empty) (rangeReq 0x06 lo hi (put16 typ ++ value)) 5 = .ok typ := by
    simp [rangeReq, le16At, put16, le16_put16 typ ht]
  have e7 : sliceFrom (ε := Empty) (rangeReq 0x06 lo hi (put16 typ ++ value)) 7 = .ok value := by
    rw [sliceFrom_of_le (by simp [rangeReq]; omega)]; rfl
  have e1 : le16At (ε := Empty) (rangeReq 0x06 lo hi (put16 typ ++ value)) 1 = .ok lo := le16At_put16 _ _ (by omega) _
  have e3 : le16At (ε := Empty) (rangeReq 0x06 lo hi (put16 typ ++ value)) 3 = .ok hi := le16At_put16_3 _ _ _ h2 _
  have e0 : index (ε := Empty) (rangeReq 0x06 lo hi (put16 typ ++ value)) 0 = .ok 0x06 := rfl
  rw [e0, e1, e3, e5, e7]
  simp only [Go.bind_ok]
  rw [if_neg (by simp [rangeReq]; omega), if_neg (by omega), subrange_of_le hc (by omega)]
  simp only [Go.bind_ok]
  have key := loop_eq (s.mtu - 1) (put16 typ) value (put16 lo ++ (put16 hi ++ (put16 typ ++ value))) s (inRange s.db lo hi) [] (Nat.zero_le _)
  simp only [List.length_nil, Nat.sub_zero, List.nil_append] at key
  have e : rangeReq 0x06 lo hi (put16 typ ++ value) = 0x06 :: (put16 lo ++ (put16 hi ++ (put16 typ ++ value))) := rfl
  rw [e, key]
  simp only [Go.bind_ok]
  show _ = Go.ok (s, some (if (∃ a ∈ ofType s.db lo hi typ, a.v = none) ∧ (hits (fixedRun (ofType s.db lo hi typ)) value).length ≤ (s.mtu - 1) / 4 then errorRsp 0x06 lo 0x01
    else if hits (fixedRun (ofType s.db lo hi typ)) value = [] then errorRsp 0x06 lo 0x0A
    else 0x07 :: ((hits (fixedRun (ofType s.db lo hi typ)) value).take ((s.mtu - 1) / 4)).flatMap entry))
  have eo : ((inRange s.db lo hi).filter fun a => a.typ == put16 typ) = ofType s.db lo hi typ := rfl
  rw [eo]
  generalize ofType s.db lo hi typ = l
  have hall : (l.all (fun a => a.v.isSome) = true) ↔ ¬ ∃ a ∈ l, a.v = none := by
    simp [Option.isSome_iff_ne_none]
  have hk : 5 ≤ (s.mtu - 1) / 4 := by omega
  generalize (s.mtu - 1) / 4 = k at *
  generalize hits (fixedRun l) value = f
  by_cases hx : (∃ a ∈ l, a.v = none) ∧ f.length ≤ k
  · rw [if_pos hx, if_neg]
    · rfl
    · intro h
      rcases h with h | h
      · exact hall.1 h hx.1
      · omega
  · rw [if_neg hx, if_pos]
    · simp only
      cases f with
      | nil => rw [List.take_nil, if_pos (by rfl), if_pos rfl]; rfl
      | cons a f =>
        rw [if_neg, if_neg (by simp)]
        · rfl
        · obtain ⟨k', rfl⟩ : ∃ k', k = k' + 1 := ⟨k - 1, by omega⟩
          simp [entry]
    · by_cases hy : ∃ a ∈ l, a.v = none
      · exact Or.inr (Nat.lt_of_not_le fun h => hx ⟨hy, h⟩)
      · exact Or.inl (hall.2 hy)

/-- A request that is too short, or whose range is bad, is refused. -/
theorem find_by_type_value_refused (s : Server σ) (b : Bytes) (h : b.length < 6) : handleRequest s (0x06 :: b) = .ok (s, some (errorRsp 0x06 0 0x04)) := by
  show handleFindByTypeValue s (0x06 :: b) = _
  unfold handleFindByTypeValue
  simp only [index_cons_zero, Go.bind_ok]
  rw [if_pos (by simp; omega)]
  rfl

/-! ## Discovery of services by UUID -/

private theorem filter_nil {β : Type} {p : β → Bool} : ∀ {l : List β}, (∀ a ∈ l, p a = false) → l.filter p = []
  | [], _ => rfl
  | a :: l, h => by rw [List.filter_cons_of_neg (by simp [h a]), filter_nil fun b hb => h b (List.mem_cons_of_mem _ hb)]

private theorem descs_other (r : CharRef) : ∀ (ds : List (Desc α)) (h : Nat), (∀ d ∈ ds, descUUID d ≠ put16 0x2800) →
    ∀ a ∈ descsAt r ds h, (a.typ == put16 0x2800) = false
  | [], _, _, a, ha => by cases ha
  | d :: ds, h, hd, a, ha => by
    rw [descsAt] at ha
    rcases List.mem_cons.1 ha with rfl | ha
    · have := hd d (by simp)
      cases d with
      | app u v rh wh => simpa [genDescAttr, descUUID] using this
      | cccd => simp [genDescAttr, cccUUID]; decide
    · exact descs_other r ds (h + 1) (fun d hd' => hd d (List.mem_cons_of_mem _ hd')) a ha

private theorem chars_other : ∀ (cs : List (Char α)) (h : Nat), (∀ c ∈ cs, c.uuid ≠ put16 0x2800 ∧ ∀ d ∈ c.descs, descUUID d ≠ put16 0x2800) →
    ∀ a ∈ charsAt cs h, (a.typ == put16 0x2800) = false
  | [], _, _, a, ha => by cases ha
  | c :: cs, h, hc, a, ha => by
    rw [charsAt] at ha
    rcases List.mem_append.1 ha with ha | ha
    · unfold charAt at ha
      rcases List.mem_cons.1 ha with rfl | ha
      · simp [characteristicUUID]; decide
      rcases List.mem_cons.1 ha with rfl | ha
      · simpa using (hc c (by simp)).1
      · refine descs_other _ _ _ ?_ a ha
        intro d hd
        unfold attachCCCD at hd
        split at hd
        · rcases List.mem_append.1 hd with hd | hd
          · exact (hc c (by simp)).2 d hd
          · simp only [List.mem_singleton] at hd
            subst hd
            simp [descUUID]; decide
        · exact (hc c (by simp)).2 d hd
    · exact chars_other cs _ (fun c h => hc c (List.mem_cons_of_mem _ h)) a ha

/-- The declaration of a service. -/
private def declOf (i : SvcInfo) : Attr (CState α) := { h := i.handle, endh := i.endHandle, typ := primaryServiceUUID, v := some i.uuid }

private theorem svcs_decls : ∀ (ss : List (Svc α)) (h : Nat), NoPoser ss →
    ((svcsAt ss h).filter fun a => a.typ == put16 0x2800) = (svcInfos ss h).map declOf
  | [], _, _ => rfl
  | s :: ss, h, hp => by
    have ih := svcs_decls ss (h + svcSize s) fun t ht => hp t (List.mem_cons_of_mem _ ht)
    rw [svcsAt, svcAt, List.filter_append, ih, List.filter_cons_of_pos (by rfl), filter_nil (chars_other s.chars (h + 1) (hp s (by simp)))]
    rfl

/-- **C178, services.** A peer that looks for the primary services with a UUID (as centrals do that know what they want) is told the first and last handle of every
service with this UUID in its range, as many as fit, or Attribute Not Found. -/
theorem find_services_by_uuid (ss : List (Svc α)) (hf : 1 + dbSize ss ≤ 65536) (hp : NoPoser ss) (srv : Server (CState α)) (hdb : srv.db = newDB ss 1)
    (hm : 23 ≤ srv.mtu) (lo hi : Nat) (uuid : Bytes) (h0 : 0 < lo) (h1 : lo ≤ hi) (h2 : hi < 65536) :
    handleRequest srv (findReq lo hi 0x2800 uuid) = .ok (srv, some
      (let found := (svcInfos ss 1).filter fun i => i.uuid == uuid && (lo ≤ i.handle && i.handle ≤ hi)
       if found = [] then errorRsp 0x06 lo 0x0A else 0x07 :: (found.take ((srv.mtu - 1) / 4)).flatMap svcRange)) := by
  have hc : Consecutive srv.db := by rw [hdb]; exact (table_handles _ _ hf).2
  rw [find_by_type_value srv hm hc lo hi 0x2800 uuid h0 h1 h2 (by decide)]
  have hat : srv.db.attrs = svcsAt ss 1 := by
    rw [hdb]
    cases ss with
    | nil => rfl
    | cons s ss => exact newDB_attrs _ _ hf (by simp)
  have ho : ofType srv.db lo hi 0x2800 = ((svcInfos ss 1).filter fun i => lo ≤ i.handle && i.handle ≤ hi).map declOf := by
    unfold ofType inRange
    rw [hat, List.filter_filter, ← List.filter_filter, List.filter_filter]
    have : ((svcsAt ss 1).filter fun a => (a.typ == put16 0x2800) && (decide (lo ≤ a.h) && decide (a.h ≤ hi))) =
        ((svcsAt ss 1).filter fun a => a.typ == put16 0x2800).filter fun a => decide (lo ≤ a.h) && decide (a.h ≤ hi) := by
      rw [List.filter_filter]
      congr 1
      funext a
      rw [Bool.and_comm]
    rw [this, svcs_decls ss 1 hp, List.filter_map]
    rfl
  have hr : fixedRun (ofType srv.db lo hi 0x2800) = ofType srv.db lo hi 0x2800 := by
    rw [ho]
    unfold fixedRun
    generalize ((svcInfos ss 1).filter fun i => lo ≤ i.handle && i.handle ≤ hi) = l
    induction l with
    | nil => rfl
    | cons i l ih => rw [List.map_cons, List.takeWhile_cons_of_pos (by rfl), ih]
  have hn : ¬ ∃ a ∈ ofType srv.db lo hi 0x2800, a.v = none := by
    rw [ho]
    rintro ⟨a, ha, hv⟩
    obtain ⟨i, -, rfl⟩ := List.mem_map.1 ha
    cases hv
  simp only
  rw [if_neg (fun h => hn h.1), hr, ho]
  have hh : hits (((svcInfos ss 1).filter fun i => lo ≤ i.handle && i.handle ≤ hi).map (declOf (α := α))) uuid =
      ((svcInfos ss 1).filter fun i => i.uuid == uuid && (lo ≤ i.handle && i.handle ≤ hi)).map declOf := by
    unfold hits
    rw [List.filter_map, List.filter_filter]
    congr 2
  rw [hh]
  generalize ((svcInfos ss 1).filter fun i => i.uuid == uuid && (lo ≤ i.handle && i.handle ≤ hi)) = l
  cases l with
  | nil => rfl
  | cons i l =>
    rw [if_neg (by simp), if_neg (by simp), ← List.map_take, List.flatMap_map]
    rfl

/-! ## Examples -/

/-- Three services, two of them with the same UUID. -/
def threeSvcs : List (Svc Unit) := [⟨[0x0F, 0x18], []⟩, ⟨[0x0D, 0x18], []⟩, ⟨[0x0F, 0x18], []⟩]

/-- Non-vacuity: both are found, with their ranges. -/
theorem find_example : NoPoser threeSvcs ∧ 1 + dbSize threeSvcs ≤ 65536 ∧
    (∀ srv : Server (CState Unit), srv.db = newDB threeSvcs 1 → srv.mtu = 23 →
      handleRequest srv (findReq 1 0xFFFF 0x2800 [0x0F, 0x18]) = .ok (srv, some [0x07, 1, 0, 1, 0, 3, 0, 0xFF, 0xFF])) := by
  have hp : NoPoser threeSvcs := by simp [NoPoser, threeSvcs]
  refine ⟨hp, by decide, ?_⟩
  intro srv hdb hm
  rw [find_services_by_uuid threeSvcs (by decide) hp srv hdb (by omega) 1 0xFFFF _ (by decide) (by decide) (by decide), hm]
  rfl

end Ble.FindType
