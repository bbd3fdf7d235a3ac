import Verif.Uuid.Lemmas
import Verif.Adv.Model
import Verif.Adv.Spec
set_option autoImplicit false

namespace Ble
open Spec

/-- The map a list of records means, in the parser's representation. -/
def meaning (rs : List Rec) : AdvMap where
  flags := concatenated (values isFlags rs)
  services := uuidList uuidSize rs
  solicited := uuidList solSize rs
  serviceData := if hasServiceData rs then some (serviceValues rs) else none
  localName := concatenated (values isName rs)
  txpwr := concatenated (values isTx rs)
  mfgdata := mfgData (values isMfg rs)

theorem kind_uuids_size {t : UInt8} {n : Nat} (h : kind t = .uuids n) : 0 < n := by
  unfold kind at h; grind (splits := 40)
theorem kind_sol_size {t : UInt8} {n : Nat} (h : kind t = .solicited n) : 0 < n := by
  unfold kind at h; grind (splits := 40)
theorem kind_svc_size {t : UInt8} {n : Nat} (h : kind t = .serviceData n) : 0 < n := by
  unfold kind at h; grind (splits := 40)

/-- The decode table implements the assigned numbers. -/
theorem pduDecode_kind (t : UInt8) : pduDecode t =
    match kind t with
    | .flags => some ⟨0, 1, 0, .flags⟩
    | .uuids n => some ⟨n, n, 0, .services⟩
    | .solicited n => some ⟨n, n, 0, .solicited⟩
    | .serviceData n => some ⟨0, n, n, .serviceData⟩
    | .name => some ⟨0, 1, 0, .localName⟩
    | .txPower => some ⟨0, 1, 0, .txpwr⟩
    | .mfg => some ⟨0, 1, 0, .mfgdata⟩
    | .other => none := by
  unfold pduDecode kind
  grind (splits := 60)

theorem range_map_succ {α : Type} (k : Nat) (f : Nat → α) :
    (List.range (k + 1)).map f = f 0 :: (List.range k).map (fun i => f (i + 1)) := by
  rw [List.range_succ_eq_map, List.map_cons, List.map_map]; rfl

theorem getArrayLoop_eq (n : Nat) (hn : 0 < n) (d : Bytes) (h : d.length % n = 0) :
    getArrayLoop n d = pieces n d := by
  induction hk : d.length / n generalizing d with
  | zero =>
    have : d.length = 0 := by
      have := Nat.div_add_mod d.length n; rw [hk, h] at this; simpa using this.symm
    have : d = [] := List.length_eq_zero_iff.1 this
    subst this
    simp [getArrayLoop, pieces]
  | succ k ih =>
    have e := Nat.div_add_mod d.length n
    rw [hk, h] at e
    have hlen : d.length = n * k + n := by rw [← e]; simp [Nat.mul_succ]
    have hne : d ≠ [] := by intro hh; subst hh; simp at hlen; omega
    rw [getArrayLoop, dif_neg (by simp [hne]; omega)]
    have hd : (d.drop n).length = n * k := by simp; omega
    rw [ih (d.drop n) (by rw [hd]; simp) (by rw [hd]; exact Nat.mul_div_cancel_left k hn)]
    unfold pieces
    rw [hk, hd, Nat.mul_div_cancel_left k hn, range_map_succ]
    simp only [Nat.zero_mul, List.drop_zero, List.cons.injEq, true_and]
    apply List.map_congr_left
    intro i _
    rw [List.drop_drop]
    congr 2
    rw [Nat.succ_mul]; omega

theorem values_append (p : Kind → Bool) (rs : List Rec) (r : Rec) :
    values p (rs ++ [r]) = values p rs ++ (if p (kind r.typ) && !r.data.isEmpty then [r.data] else []) := by
  unfold values
  rw [List.filter_append, List.map_append]
  congr 1
  by_cases h : (p (kind r.typ) && !r.data.isEmpty) = true <;> simp [List.filter_cons, h]

theorem concatenated_append (vs : List Bytes) (v : Bytes) :
    concatenated (vs ++ [v]) = some ((concatenated vs).getD [] ++ v) := by
  unfold concatenated
  cases vs <;> simp

theorem concatenated_none {vs : List Bytes} : concatenated vs = none ↔ vs = [] := by
  unfold concatenated; cases vs <;> simp

theorem mfgData_none {vs : List Bytes} : mfgData vs = none ↔ vs = [] := by
  cases vs <;> simp [mfgData]

theorem uuidList_append (size : Kind → Option Nat) (rs : List Rec) (r : Rec) :
    uuidList size (rs ++ [r]) =
      if (size (kind r.typ)).isSome && !r.data.isEmpty then
        some ((uuidList size rs).getD [] ++ pieces ((size (kind r.typ)).getD 0) r.data)
      else uuidList size rs := by
  unfold uuidList
  simp only [List.filter_append]
  by_cases h : ((size (kind r.typ)).isSome && !r.data.isEmpty) = true
  · rw [if_pos h]
    simp only [List.filter_cons, h, if_true, List.filter_nil]
    cases hf : rs.filter (fun r => (size (kind r.typ)).isSome && !r.data.isEmpty) <;> simp
  · rw [if_neg h]
    simp [List.filter_cons, h]

theorem serviceValues_append (rs : List Rec) (r : Rec) (k : Text) :
    serviceValues (rs ++ [r]) k = serviceValues rs k ++
      (match svcElemSize (kind r.typ) with
       | some n => if r.data ≠ [] ∧ uuidString (r.data.take n) = k then [r.data.drop n] else []
       | none => []) := by
  unfold serviceValues
  rw [List.filterMap_append]
  congr 1
  cases hs : svcElemSize (kind r.typ) with
  | none => simp [hs]
  | some n =>
    by_cases hc : r.data ≠ [] ∧ uuidString (r.data.take n) = k
    · simp [hs, hc]
    · simp [hs, hc]

theorem hasServiceData_append (rs : List Rec) (r : Rec) :
    hasServiceData (rs ++ [r]) = (hasServiceData rs || ((svcElemSize (kind r.typ)).isSome && !r.data.isEmpty)) := by
  unfold hasServiceData; rw [List.any_append]; simp

theorem serviceValues_of_not_has (rs : List Rec) (h : hasServiceData rs = false) (k : Text) :
    serviceValues rs k = [] := by
  unfold serviceValues hasServiceData at *
  rw [List.filterMap_eq_nil_iff]
  intro r hr
  have := (List.any_eq_false.1 h) r hr
  cases hs : svcElemSize (kind r.typ) with
  | none => simp
  | some n =>
    have he : r.data = [] := by simpa [hs] using this
    simp [he]

/-- The mfg entry of the parser after one more manufacturer record. -/
theorem mfgData_append (vs : List Bytes) (v : Bytes) :
    mfgData (vs ++ [v]) = match mfgData vs with
      | none => some v
      | some d => some (d ++ v.drop 2) := by
  cases vs <;> simp [mfgData]

/-- One record, when the map so far is the meaning of the records so far. -/
theorem adRecord_meaning (rs : List Rec) (r : Rec) (hl : r.data.length ≤ 254) :
    (r.WellFormed → ¬ (isMfg (kind r.typ) = true ∧ values isMfg rs ≠ [] ∧ r.data.length = 1) →
      adRecord (meaning rs) r.typ r.data = .ok (meaning (rs ++ [r]))) ∧
    (¬ r.WellFormed → ∃ e, adRecord (meaning rs) r.typ r.data = .err e) ∧
    ((isMfg (kind r.typ) = true ∧ values isMfg rs ≠ [] ∧ r.data.length = 1) →
      adRecord (meaning rs) r.typ r.data = .panic) := by
  have wf : r.WellFormed ↔ (r.data = [] ∨
    match kind r.typ with
    | .uuids n => r.data.length % n = 0
    | .solicited n => r.data.length % n = 0
    | .serviceData n => n ≤ r.data.length
    | _ => True) := ⟨fun h => h.2, fun h => ⟨hl, h⟩⟩
  unfold adRecord
  rw [pduDecode_kind]
  by_cases hne : r.data = []
  · have hm : meaning (rs ++ [r]) = meaning rs := by
      unfold meaning
      simp only [values_append, uuidList_append, hasServiceData_append, hne]
      have : serviceValues (rs ++ [r]) = serviceValues rs := by
        funext k; rw [serviceValues_append]; cases svcElemSize (kind r.typ) <;> simp [hne]
      simp [this]
    refine ⟨fun _ _ => ?_, fun h => absurd (wf.2 (Or.inl hne)) h, fun h => by simp [hne] at h⟩
    rw [hm]
    cases hk : kind r.typ <;> simp [hne]
  · have hpos : r.data.length ≠ 0 := fun h => hne (List.length_eq_zero_iff.1 h)
    have hie : r.data.isEmpty = false := by simpa using hne
    rw [wf]
    cases hk : kind r.typ with
    | other =>
      have hm : meaning (rs ++ [r]) = meaning rs := by
        unfold meaning
        have : serviceValues (rs ++ [r]) = serviceValues rs := by
          funext k; rw [serviceValues_append]; simp [hk, svcElemSize]
        simp [values_append, uuidList_append, hasServiceData_append, hk, isFlags, isName, isTx, isMfg, uuidSize, solSize,
          svcElemSize, this]
      simp [hm, isMfg]
    | flags =>
      have hm : meaning (rs ++ [r]) = { meaning rs with flags := some ((concatenated (values isFlags rs)).getD [] ++ r.data) } := by
        unfold meaning
        have : serviceValues (rs ++ [r]) = serviceValues rs := by
          funext k; rw [serviceValues_append]; simp [hk, svcElemSize]
        simp [values_append, uuidList_append, hasServiceData_append, hk, isFlags, isName, isTx, isMfg, uuidSize, solSize,
          svcElemSize, this, hie, concatenated_append]
      have h1 : ¬ (1 > r.data.length) := by omega
      simp only [isMfg, if_neg h1, if_neg hpos]
      refine ⟨fun _ _ => ?_, by simp, by simp⟩
      rw [hm]
      simp only [meaning, writeOrAppend]
      cases concatenated (values isFlags rs) <;> simp [Go.bind]
    | name =>
      have hm : meaning (rs ++ [r]) = { meaning rs with localName := some ((concatenated (values isName rs)).getD [] ++ r.data) } := by
        unfold meaning
        have : serviceValues (rs ++ [r]) = serviceValues rs := by
          funext k; rw [serviceValues_append]; simp [hk, svcElemSize]
        simp [values_append, uuidList_append, hasServiceData_append, hk, isFlags, isName, isTx, isMfg, uuidSize, solSize,
          svcElemSize, this, hie, concatenated_append]
      have h1 : ¬ (1 > r.data.length) := by omega
      simp only [isMfg, if_neg h1, if_neg hpos]
      refine ⟨fun _ _ => ?_, by simp, by simp⟩
      rw [hm]
      simp only [meaning, writeOrAppend]
      cases concatenated (values isName rs) <;> simp [Go.bind]
    | txPower =>
      have hm : meaning (rs ++ [r]) = { meaning rs with txpwr := some ((concatenated (values isTx rs)).getD [] ++ r.data) } := by
        unfold meaning
        have : serviceValues (rs ++ [r]) = serviceValues rs := by
          funext k; rw [serviceValues_append]; simp [hk, svcElemSize]
        simp [values_append, uuidList_append, hasServiceData_append, hk, isFlags, isName, isTx, isMfg, uuidSize, solSize,
          svcElemSize, this, hie, concatenated_append]
      have h1 : ¬ (1 > r.data.length) := by omega
      simp only [isMfg, if_neg h1, if_neg hpos]
      refine ⟨fun _ _ => ?_, by simp, by simp⟩
      rw [hm]
      simp only [meaning, writeOrAppend]
      cases concatenated (values isTx rs) <;> simp [Go.bind]
    | mfg =>
      have hm : meaning (rs ++ [r]) = { meaning rs with mfgdata := mfgData (values isMfg rs ++ [r.data]) } := by
        unfold meaning
        have : serviceValues (rs ++ [r]) = serviceValues rs := by
          funext k; rw [serviceValues_append]; simp [hk, svcElemSize]
        simp [values_append, uuidList_append, hasServiceData_append, hk, isFlags, isName, isTx, isMfg, uuidSize, solSize,
          svcElemSize, this, hie]
      have h1 : ¬ (1 > r.data.length) := by omega
      simp only [isMfg, if_neg h1, if_neg hpos, true_and]
      refine ⟨fun _ hno => ?_, by simp, fun hyes => ?_⟩
      · rw [hm, mfgData_append]
        simp only [meaning, writeOrAppend]
        cases hmm : mfgData (values isMfg rs) with
        | none => simp [Go.bind]
        | some d =>
          have : values isMfg rs ≠ [] := fun h => by rw [mfgData_none.2 h] at hmm; simp at hmm
          have h2 : 2 ≤ r.data.length := by
            by_cases h3 : r.data.length = 1
            · exact absurd ⟨this, h3⟩ hno
            · omega
          simp [Go.bind, sliceFrom_of_le h2]
      · simp only [meaning, writeOrAppend]
        cases hmm : mfgData (values isMfg rs) with
        | none => exact absurd (mfgData_none.1 hmm) hyes.1
        | some d =>
          have : ¬ 2 ≤ r.data.length := by omega
          simp [Go.bind, sliceFrom, this]
    | uuids n =>
      have hn := kind_uuids_size hk
      have hm : meaning (rs ++ [r]) = { meaning rs with services := some ((uuidList uuidSize rs).getD [] ++ pieces n r.data) } := by
        unfold meaning
        have : serviceValues (rs ++ [r]) = serviceValues rs := by
          funext k; rw [serviceValues_append]; simp [hk, svcElemSize]
        simp [values_append, uuidList_append, hasServiceData_append, hk, isFlags, isName, isTx, isMfg, uuidSize, solSize,
          svcElemSize, this, hie]
      simp only [isMfg, if_neg hpos, hne, false_or]
      refine ⟨fun h _ => ?_, fun h => ?_, by simp⟩
      · have hge : ¬ n > r.data.length := by
          intro hc; rw [Nat.mod_eq_of_lt hc] at h; exact hpos h
        have hdiv : ¬ (r.data.length % n ≠ 0 ∨ r.data.length / n = 0) := by
          rintro (h' | h')
          · exact h' h
          · have := Nat.div_add_mod r.data.length n; rw [h, h'] at this; simp at this; exact hpos this.symm
        rw [hm, if_neg hge, if_pos hn, getArray, if_neg (by omega), if_neg hpos, if_neg hdiv, getArrayLoop_eq n hn _ h]
        simp only [meaning, appendList]
        cases uuidList uuidSize rs <;> simp
      · by_cases hge : n > r.data.length
        · rw [if_pos hge]; exact ⟨_, rfl⟩
        · rw [if_neg hge, if_pos hn, getArray, if_neg (by omega), if_neg hpos, if_pos (Or.inl h)]; exact ⟨_, rfl⟩
    | solicited n =>
      have hn := kind_sol_size hk
      have hm : meaning (rs ++ [r]) = { meaning rs with solicited := some ((uuidList solSize rs).getD [] ++ pieces n r.data) } := by
        unfold meaning
        have : serviceValues (rs ++ [r]) = serviceValues rs := by
          funext k; rw [serviceValues_append]; simp [hk, svcElemSize]
        simp [values_append, uuidList_append, hasServiceData_append, hk, isFlags, isName, isTx, isMfg, uuidSize, solSize,
          svcElemSize, this, hie]
      simp only [isMfg, if_neg hpos, hne, false_or]
      refine ⟨fun h _ => ?_, fun h => ?_, by simp⟩
      · have hge : ¬ n > r.data.length := by
          intro hc; rw [Nat.mod_eq_of_lt hc] at h; exact hpos h
        have hdiv : ¬ (r.data.length % n ≠ 0 ∨ r.data.length / n = 0) := by
          rintro (h' | h')
          · exact h' h
          · have := Nat.div_add_mod r.data.length n; rw [h, h'] at this; simp at this; exact hpos this.symm
        rw [hm, if_neg hge, if_pos hn, getArray, if_neg (by omega), if_neg hpos, if_neg hdiv, getArrayLoop_eq n hn _ h]
        simp only [meaning, appendList]
        cases uuidList solSize rs <;> simp
      · by_cases hge : n > r.data.length
        · rw [if_pos hge]; exact ⟨_, rfl⟩
        · rw [if_neg hge, if_pos hn, getArray, if_neg (by omega), if_neg hpos, if_pos (Or.inl h)]; exact ⟨_, rfl⟩
    | serviceData n =>
      have hn := kind_svc_size hk
      simp only [isMfg, if_neg hpos, hne, false_or]
      refine ⟨fun h _ => ?_, fun h => ?_, by simp⟩
      · have hge : ¬ n > r.data.length := by omega
        have hm : meaning (rs ++ [r]) = { meaning rs with serviceData := some (serviceValues (rs ++ [r])) } := by
          unfold meaning
          simp [values_append, uuidList_append, hasServiceData_append, hk, isFlags, isName, isTx, isMfg, uuidSize, solSize,
            svcElemSize, hie]
        rw [hm, if_neg hge, if_neg (by omega), if_pos hn, slice_of_le (Nat.zero_le _) h, sliceFrom_of_le h]
        simp only [List.drop_zero, Go.ok.injEq]
        congr 1
        unfold addServiceData
        simp only [Option.some.injEq]
        funext k
        rw [serviceValues_append]
        simp only [hk, svcElemSize]
        have e : (meaning rs).serviceData.getD (fun _ => []) k = serviceValues rs k := by
          simp only [meaning]
          cases hh : hasServiceData rs
          · simp [serviceValues_of_not_has rs hh]
          · simp
        rw [e]
        by_cases hkk : k = uuidString (r.data.take n)
        · simp [hkk, hne]
        · rw [if_neg hkk, if_neg (by intro h'; exact hkk h'.2.symm)]; simp
      · rw [if_pos (by omega)]; exact ⟨_, rfl⟩

theorem writeOrAppend_ne_err (o : Option Bytes) (b : Bool) (d : Bytes) (e : AdErr) : writeOrAppend o b d ≠ .err e := by
  unfold writeOrAppend sliceFrom
  cases o with
  | none => simp
  | some v =>
    cases b
    · simp
    · by_cases h : 2 ≤ d.length <;> simp [h]

theorem bind_ne_err {α β : Type} (x : Go AdErr α) (f : α → Go AdErr β) (e : AdErr) (hx : x ≠ .err e)
    (hf : ∀ a, f a ≠ .err e) : x.bind f ≠ .err e := by
  cases x with
  | ok a => exact hf a
  | err e' => simpa [Go.bind] using hx
  | panic => simp [Go.bind]

theorem adRecord_ne_empty (m : AdvMap) (t : UInt8) (b : Bytes) : adRecord m t b ≠ .err .emptyPdu := by
  unfold adRecord
  cases pduDecode t with
  | none => simp
  | some dec =>
    simp only
    split
    · simp
    · split
      · simp
      · split
        · have : getArray dec.arrayElementSz b ≠ .err .emptyPdu := by
            unfold getArray; split <;> (try split) <;> (try split) <;> simp
          cases hg : getArray dec.arrayElementSz b with
          | ok arr => cases dec.key <;> simp
          | err e => rw [hg] at this; simpa using this
          | panic => simp
        · split
          · split <;> simp
          · cases dec.key <;> first | simp; done | exact bind_ne_err _ _ _ (writeOrAppend_ne_err _ _ _ _) (by simp)

/-- Applying records one after another. -/
def foldRecs (m : AdvMap) : List Rec → Go AdErr AdvMap
  | [] => .ok m
  | r :: rs =>
    match adRecord m r.typ r.data with
    | .ok m' => foldRecs m' rs
    | .err e => .err e
    | .panic => .panic

theorem foldRecs_append (m : AdvMap) (rs : List Rec) (r : Rec) :
    foldRecs m (rs ++ [r]) = match foldRecs m rs with
      | .ok m' => adRecord m' r.typ r.data
      | .err e => .err e
      | .panic => .panic := by
  induction rs generalizing m with
  | nil => simp [foldRecs]; cases adRecord m r.typ r.data <;> rfl
  | cons a as ih =>
    simp only [List.cons_append, foldRecs]
    cases adRecord m a.typ a.data with
    | ok m' => exact ih m'
    | err e => rfl
    | panic => rfl

theorem shortExtra_append (rs : List Rec) (r : Rec) :
    ShortExtraMfg (rs ++ [r]) ↔ ShortExtraMfg rs ∨
      (isMfg (kind r.typ) = true ∧ values isMfg rs ≠ [] ∧ r.data.length = 1) := by
  unfold ShortExtraMfg
  rw [values_append]
  by_cases h : (isMfg (kind r.typ) && !r.data.isEmpty) = true
  · rw [if_pos h]
    simp only [Bool.and_eq_true, Bool.not_eq_true', List.isEmpty_eq_false_iff] at h
    have hpos : r.data.length ≠ 0 := fun h' => h.2 (List.length_eq_zero_iff.1 h')
    cases hv : values isMfg rs with
    | nil => simp
    | cons a as =>
      simp only [List.cons_append, List.tail_cons, List.mem_append, List.mem_singleton, h.1, true_and, ne_eq, reduceCtorEq,
        not_false_eq_true]
      constructor
      · rintro ⟨v, hv | rfl, hl⟩
        · exact Or.inl ⟨v, hv, hl⟩
        · right; omega
      · rintro (⟨v, hv, hl⟩ | h')
        · exact ⟨v, Or.inl hv, hl⟩
        · exact ⟨r.data, Or.inr rfl, by omega⟩
  · rw [if_neg h]
    simp only [List.append_nil]
    constructor
    · exact Or.inl
    · rintro (h' | ⟨h1, h2, h3⟩)
      · exact h'
      · exfalso; apply h; simp only [h1, Bool.true_and, Bool.not_eq_true', List.isEmpty_eq_false_iff]
        intro h4; rw [h4] at h3; simp at h3

theorem list_snoc_induction {α : Type} {P : List α → Prop} (nil : P []) (snoc : ∀ l a, P l → P (l ++ [a])) :
    ∀ l, P l := by
  intro l
  rw [← List.reverse_reverse l]
  induction l.reverse with
  | nil => exact nil
  | cons a as ih => rw [List.reverse_cons]; exact snoc _ _ ih

theorem meaning_nil : meaning [] = {} := by
  simp [meaning, values, uuidList, hasServiceData, concatenated, mfgData]

/-- All three outcomes of applying records from the empty map. -/
theorem foldRecs_spec (rs : List Rec) (hl : ∀ r ∈ rs, r.data.length ≤ 254) :
    ((∀ r ∈ rs, r.WellFormed) → ¬ ShortExtraMfg rs → foldRecs {} rs = .ok (meaning rs)) ∧
    (∀ m, foldRecs {} rs = .ok m → (∀ r ∈ rs, r.WellFormed) ∧ ¬ ShortExtraMfg rs ∧ m = meaning rs) := by
  induction rs using list_snoc_induction with
  | nil => simp [foldRecs, meaning_nil, ShortExtraMfg, values]
  | snoc rs r ih =>
    have ih := ih (fun x hx => hl x (by simp [hx]))
    have hr := adRecord_meaning rs r (hl r (by simp))
    rw [foldRecs_append, shortExtra_append]
    constructor
    · intro hw hs
      rw [ih.1 (fun x hx => hw x (by simp [hx])) (fun h => hs (Or.inl h))]
      exact hr.1 (hw r (by simp)) (fun h => hs (Or.inr h))
    · intro m hm
      cases hf : foldRecs {} rs with
      | err e => rw [hf] at hm; simp at hm
      | panic => rw [hf] at hm; simp at hm
      | ok m' =>
        obtain ⟨h1, h2, h3⟩ := ih.2 m' hf
        rw [hf] at hm
        simp only at hm
        subst h3
        by_cases hb : isMfg (kind r.typ) = true ∧ values isMfg rs ≠ [] ∧ r.data.length = 1
        · rw [hr.2.2 hb] at hm; simp at hm
        · by_cases hw : r.WellFormed
          · rw [hr.1 hw hb] at hm
            refine ⟨?_, ?_, ?_⟩
            · intro x hx
              rcases List.mem_append.1 hx with hx | hx
              · exact h1 x hx
              · simp at hx; subst hx; exact hw
            · rintro (h | h)
              · exact h2 h
              · exact hb h
            · simpa using hm.symm
          · obtain ⟨e, he⟩ := hr.2.1 hw
            rw [he] at hm; simp at hm

theorem rec_bytes_length (r : Rec) : r.bytes.length = r.data.length + 2 := by simp [Rec.bytes]

/-- The loop at a record. -/
theorem adParseLoop_rec (pre : Bytes) (r : Rec) (rest : Bytes) (m : AdvMap) (hl : r.data.length ≤ 254) :
    adParseLoop (pre ++ (r.bytes ++ rest)) pre.length m =
      match adRecord m r.typ r.data with
      | .ok m' => adParseLoop (pre ++ (r.bytes ++ rest)) (pre.length + r.bytes.length) m'
      | .err e => .err (e, m)
      | .panic => .panic := by
  rw [adParseLoop]
  have hlen : (pre ++ (r.bytes ++ rest)).length = pre.length + (r.data.length + 2) + rest.length := by
    simp [rec_bytes_length]; omega
  have h : pre.length + 1 < (pre ++ (r.bytes ++ rest)).length := by omega
  rw [dif_pos h]
  have g0 : (pre ++ (r.bytes ++ rest))[pre.length]'(by omega) = UInt8.ofNat (r.data.length + 1) := by
    simp [Rec.bytes]
  have g1 : (pre ++ (r.bytes ++ rest))[pre.length + 1]'h = r.typ := by
    rw [List.getElem_append_right (by omega)]; simp [Rec.bytes]
  simp only [g0, g1]
  have hn : (UInt8.ofNat (r.data.length + 1)).toNat = r.data.length + 1 := by
    rw [UInt8.toNat_ofNat']; omega
  rw [hn, if_neg (by omega), if_neg (by omega), slice_of_le (by omega) (by omega)]
  have hs : ((pre ++ (r.bytes ++ rest)).take (pre.length + 2 + (r.data.length + 1) - 1)).drop (pre.length + 2) = r.data := by
    have : pre.length + 2 + (r.data.length + 1) - 1 = pre.length + (2 + r.data.length) := by omega
    rw [this, List.take_length_add_append, List.drop_length_add_append, Rec.bytes]
    simp [List.take_append, Nat.add_comm 2]
  simp only [hs]
  have : pre.length + (r.data.length + 1) + 1 = pre.length + r.bytes.length := by rw [rec_bytes_length]; omega
  rw [this]
  cases adRecord m r.typ r.data <;> rfl

theorem adParseLoop_recs (rs : List Rec) (hl : ∀ r ∈ rs, r.data.length ≤ 254) (rest : Bytes) :
    ∀ (pre : Bytes) (m m' : AdvMap), foldRecs m rs = .ok m' →
    adParseLoop (pre ++ (rs.flatMap Rec.bytes ++ rest)) pre.length m =
      adParseLoop (pre ++ (rs.flatMap Rec.bytes ++ rest)) (pre.length + (rs.flatMap Rec.bytes).length) m' := by
  induction rs with
  | nil => intro pre m m' h; simp [foldRecs] at h; simp [h]
  | cons r rs ih =>
    intro pre m m' h
    simp only [foldRecs] at h
    cases hr : adRecord m r.typ r.data with
    | err e => rw [hr] at h; simp at h
    | panic => rw [hr] at h; simp at h
    | ok m1 =>
      rw [hr] at h
      have e : pre ++ ((r :: rs).flatMap Rec.bytes ++ rest) = pre ++ (r.bytes ++ (rs.flatMap Rec.bytes ++ rest)) := by simp
      rw [e, adParseLoop_rec pre r _ m (hl r (by simp)), hr]
      have e2 : pre ++ (r.bytes ++ (rs.flatMap Rec.bytes ++ rest)) = (pre ++ r.bytes) ++ (rs.flatMap Rec.bytes ++ rest) := by simp
      have := ih (fun x hx => hl x (by simp [hx])) (pre ++ r.bytes) m1 m' h
      simp only [e2]
      rw [List.length_append] at this
      rw [this]
      congr 1
      simp; omega

/-- Decomposition of a suffix that passes the two framing checks into a record and a rest. -/
theorem split_record (pdu : Bytes) (i : Nat) (h : i + 1 < pdu.length) (hl : ¬ pdu[i].toNat < 1)
    (hi : ¬ i + pdu[i].toNat ≥ pdu.length) :
    ∃ r : Rec, r.typ = pdu[i+1] ∧ r.data = (pdu.take (i + 2 + pdu[i].toNat - 1)).drop (i + 2) ∧ r.data.length ≤ 254 ∧
      pdu.drop i = r.bytes ++ pdu.drop (i + pdu[i].toNat + 1) := by
  have hb := pdu[i].toNat_lt
  refine ⟨⟨pdu[i+1], (pdu.take (i + 2 + pdu[i].toNat - 1)).drop (i + 2)⟩, rfl, rfl, ?_, ?_⟩
  · simp; omega
  · rw [List.drop_eq_getElem_cons (by omega), List.drop_eq_getElem_cons h]
    have hlen : ((pdu.take (i + 2 + pdu[i].toNat - 1)).drop (i + 2)).length = pdu[i].toNat - 1 := by simp; omega
    unfold Rec.bytes
    simp only [hlen]
    have : pdu[i].toNat - 1 + 1 = pdu[i].toNat := by omega
    rw [this]
    simp only [UInt8.ofNat_toNat, List.cons_append, List.cons.injEq, true_and]
    have e : i + pdu[i].toNat + 1 = i + 2 + pdu[i].toNat - 1 := by omega
    rw [e]
    have := List.take_append_drop (i + 2 + pdu[i].toNat - 1) pdu
    have h2 : (pdu.take (i + 2 + pdu[i].toNat - 1) ++ pdu.drop (i + 2 + pdu[i].toNat - 1)).drop (i + 2) = pdu.drop (i + 2) := by
      rw [this]
    rw [List.drop_append_of_le_length (by simp; omega)] at h2
    exact h2.symm

/-- Why the parser refuses what is left after the records it accepted, and with which error. -/
inductive Refused : AdErr → Bytes → AdvMap → Prop
  | zeroLength (t : UInt8) (rest : Bytes) (m : AdvMap) : Refused .badLength (0 :: t :: rest) m
  | overlong (l t : UInt8) (rest : Bytes) (m : AdvMap) (h1 : 1 ≤ l.toNat) (h2 : rest.length + 1 < l.toNat) :
      Refused .overflow (l :: t :: rest) m
  | badRecord (e : AdErr) (r : Rec) (rest : Bytes) (m : AdvMap) (hl : r.data.length ≤ 254)
      (h : adRecord m r.typ r.data = .err e) : Refused e (r.bytes ++ rest) m

/-- What the loop's outcome says about the bytes from index `i` on. -/
def LoopOutcome (suffix : Bytes) (m : AdvMap) : Go (AdErr × AdvMap) AdvMap → Prop
  | .ok m' => ∃ (rs : List Rec) (tail : Bytes), suffix = rs.flatMap Rec.bytes ++ tail ∧ tail.length ≤ 1 ∧ (∀ r ∈ rs, r.data.length ≤ 254) ∧
      foldRecs m rs = .ok m'
  | .err (e, m') => ∃ (rs : List Rec) (rest : Bytes), suffix = rs.flatMap Rec.bytes ++ rest ∧ (∀ r ∈ rs, r.data.length ≤ 254) ∧
      foldRecs m rs = .ok m' ∧ Refused e rest m'
  | .panic => ∃ (rs : List Rec) (r : Rec) (rest : Bytes) (m' : AdvMap), suffix = rs.flatMap Rec.bytes ++ (r.bytes ++ rest) ∧ (∀ r ∈ rs, r.data.length ≤ 254) ∧
      r.data.length ≤ 254 ∧ foldRecs m rs = .ok m' ∧ adRecord m' r.typ r.data = .panic

theorem LoopOutcome_cons (r : Rec) (hl : r.data.length ≤ 254) (suffix : Bytes) (m m' : AdvMap)
    (h : adRecord m r.typ r.data = .ok m') (o : Go (AdErr × AdvMap) AdvMap) (ho : LoopOutcome suffix m' o) :
    LoopOutcome (r.bytes ++ suffix) m o := by
  have hfold : ∀ rs, foldRecs m (r :: rs) = foldRecs m' rs := fun rs => by simp [foldRecs, h]
  have hall : ∀ rs : List Rec, (∀ x ∈ rs, x.data.length ≤ 254) → ∀ x ∈ r :: rs, x.data.length ≤ 254 := by
    intro rs h x hx
    rcases List.mem_cons.1 hx with rfl | hx
    · exact hl
    · exact h x hx
  cases o with
  | ok a =>
    obtain ⟨rs, tail, h1, h2, h3, h4⟩ := ho
    exact ⟨r :: rs, tail, by simp [h1], h2, hall rs h3, by rw [hfold, h4]⟩
  | err e =>
    obtain ⟨rs, rest, h1, h2, h3, h4⟩ := ho
    exact ⟨r :: rs, rest, by simp [h1], hall rs h2, by rw [hfold, h3], h4⟩
  | panic =>
    obtain ⟨rs, r', rest, m2, h1, h2, h3, h4, h5⟩ := ho
    exact ⟨r :: rs, r', rest, m2, by simp [h1], hall rs h2, h3, by rw [hfold, h4], h5⟩

theorem adParseLoop_outcome (pdu : Bytes) (i : Nat) (m : AdvMap) :
    LoopOutcome (pdu.drop i) m (adParseLoop pdu i m) := by
  fun_induction adParseLoop pdu i m with
  | case1 i m h length hl =>
    have hz : pdu[i] = 0 := by
      apply UInt8.toNat_inj.1; simp; omega
    refine ⟨[], pdu.drop i, by simp, by simp, rfl, ?_⟩
    rw [List.drop_eq_getElem_cons (by omega), List.drop_eq_getElem_cons h, hz]
    exact .zeroLength _ _ _
  | case2 i m h length hl ho =>
    refine ⟨[], pdu.drop i, by simp, by simp, rfl, ?_⟩
    rw [List.drop_eq_getElem_cons (by omega), List.drop_eq_getElem_cons h]
    refine .overlong _ _ _ _ (by omega) (by simp; omega)
  | case3 i m h length typ hl ho bytes hs m' hm ih =>
    obtain ⟨r, h1, h2, h3, h4⟩ := split_record pdu i h hl ho
    rw [slice_of_le (by omega) (by omega)] at hs
    have : bytes = r.data := by rw [h2]; simpa using hs.symm
    subst this
    rw [h4]
    exact LoopOutcome_cons r h3 _ m m' (by rw [h1]; exact hm) _ ih
  | case4 i m h length typ hl ho bytes hs e hm =>
    obtain ⟨r, h1, h2, h3, h4⟩ := split_record pdu i h hl ho
    rw [slice_of_le (by omega) (by omega)] at hs
    have : bytes = r.data := by rw [h2]; simpa using hs.symm
    subst this
    refine ⟨[], pdu.drop i, by simp, by simp, rfl, ?_⟩
    rw [h4]
    exact .badRecord _ _ _ _ h3 (by rw [h1]; exact hm)
  | case5 i m h length typ hl ho bytes hs hm =>
    obtain ⟨r, h1, h2, h3, h4⟩ := split_record pdu i h hl ho
    rw [slice_of_le (by omega) (by omega)] at hs
    have : bytes = r.data := by rw [h2]; simpa using hs.symm
    subst this
    exact ⟨[], r, _, m, by simpa using h4, by simp, h3, rfl, by rw [h1]; exact hm⟩
  | case6 i m h length hl ho hno =>
    exact absurd (slice_of_le (b := pdu) (lo := i + 2) (hi := i + 2 + pdu[i].toNat - 1) (by omega) (by omega)) (hno _)
  | case7 i m h =>
    refine ⟨[], pdu.drop i, by simp, by simp; omega, by simp, rfl⟩

theorem rec_bytes_append_inj (r s : Rec) (x y : Bytes) (hr : r.data.length ≤ 254) (hs : s.data.length ≤ 254)
    (h : r.bytes ++ x = s.bytes ++ y) : r = s ∧ x = y := by
  unfold Rec.bytes at h
  simp only [List.cons_append, List.cons.injEq] at h
  obtain ⟨h1, h2, h3⟩ := h
  have h1' := congrArg UInt8.toNat h1
  rw [UInt8.toNat_ofNat', UInt8.toNat_ofNat'] at h1'
  have hlen : r.data.length = s.data.length := by omega
  have := List.append_inj h3 hlen
  refine ⟨?_, this.2⟩
  cases r; cases s; simp_all

/-- A packet has at most one decomposition into records with a tail that is not itself a record start. -/
theorem recs_unique : ∀ (rs ss : List Rec) (x y : Bytes), (∀ r ∈ rs, r.data.length ≤ 254) → (∀ r ∈ ss, r.data.length ≤ 254) →
    x.length ≤ 1 → y.length ≤ 1 → rs.flatMap Rec.bytes ++ x = ss.flatMap Rec.bytes ++ y → rs = ss ∧ x = y := by
  intro rs
  induction rs with
  | nil =>
    intro ss x y _ _ hx _ h
    cases ss with
    | nil => exact ⟨rfl, by simpa using h⟩
    | cons s ss =>
      have := congrArg List.length h
      simp [rec_bytes_length] at this; omega
  | cons r rs ih =>
    intro ss x y hr hs hx hy h
    cases ss with
    | nil =>
      have := congrArg List.length h
      simp [rec_bytes_length] at this; omega
    | cons s ss =>
      simp only [List.flatMap_cons, List.append_assoc] at h
      obtain ⟨h1, h2⟩ := rec_bytes_append_inj r s _ _ (hr r (by simp)) (hs s (by simp)) h
      obtain ⟨h3, h4⟩ := ih ss x y (fun z hz => hr z (by simp [hz])) (fun z hz => hs z (by simp [hz])) hx hy h2
      exact ⟨by rw [h1, h3], h4⟩

end Ble
