import Verif.Att.Spec
set_option autoImplicit false

namespace Ble.Att

open Ble.Spec

variable {α σ : Type}

/-! ## Attribute table without wrap-around -/

/-- Descriptor attributes, plain arithmetic. -/
def descsAt (r : CharRef) : List (Desc α) → Nat → List (Attr (CState α))
  | [], _ => []
  | d :: ds, h => genDescAttr r d h :: descsAt r ds (h + 1)

theorem descsAt_length (r : CharRef) (ds : List (Desc α)) (h : Nat) : (descsAt r ds h).length = ds.length := by
  induction ds generalizing h with
  | nil => rfl
  | cons d ds ih => simp [descsAt, ih]

theorem descsAt_get (r : CharRef) (ds : List (Desc α)) (h i : Nat) (hi : i < ds.length) :
    (descsAt r ds h)[i]? = some (genDescAttr r ds[i] (h + i)) := by
  induction ds generalizing h i with
  | nil => simp at hi
  | cons d ds ih =>
    cases i with
    | zero => simp [descsAt]
    | succ i => simp only [descsAt, List.getElem?_cons_succ, List.getElem_cons_succ]
                rw [ih (h + 1) i (by simpa using hi)]
                congr 2; omega

theorem genDescs_eq (r : CharRef) (ds : List (Desc α)) (h : Nat) (hf : h + ds.length ≤ 65536) :
    genDescs r ds (h % 65536) = ((h + ds.length) % 65536, descsAt r ds h) := by
  induction ds generalizing h with
  | nil => simp [genDescs, descsAt]
  | cons d ds ih =>
    have e : add16 (h % 65536) 1 = (h + 1) % 65536 := by simp [add16]
    have hlt : h % 65536 = h := by simp at hf; omega
    simp only [List.length_cons] at hf
    rw [genDescs, e, ih (h + 1) (by omega)]
    simp only [descsAt, List.length_cons, hlt]
    congr 2; omega

def charRef (c : Char α) (h : Nat) : CharRef := ⟨h, c.prop, c.hasNotify, c.hasIndicate⟩

/-- Attributes of a characteristic, plain arithmetic. -/
def charAt (c : Char α) (h : Nat) : List (Attr (CState α)) :=
  { h := h, endh := h + charSize c - 1, typ := characteristicUUID, v := some (c.prop :: put16 (h + 1) ++ c.uuid) } ::
  { h := h + 1, typ := c.uuid, v := c.v, rh := c.rh.map liftRead, wh := c.wh.map liftWrite } ::
  descsAt (charRef c h) (attachCCCD c).descs (h + 2)

theorem attachCCCD_length (c : Char α) : (attachCCCD c).descs.length + 2 = charSize c := by
  unfold attachCCCD charSize; split <;> simp_all <;> omega

theorem charAt_length (c : Char α) (h : Nat) : (charAt c h).length = charSize c := by
  have := attachCCCD_length c
  simp [charAt, descsAt_length]; omega

theorem genCharAttr_eq (c : Char α) (h : Nat) (hf : h + charSize c ≤ 65536) :
    genCharAttr c (h % 65536) = ((h + charSize c) % 65536, charAt c h) := by
  have hl := attachCCCD_length c
  have hlt : h % 65536 = h := by omega
  have e : add16 h 2 = (h + 2) % 65536 := by simp [add16]
  have e1 : add16 h 1 = h + 1 := by simp only [add16]; omega
  have hs : h + 2 + (attachCCCD c).descs.length = h + charSize c := by omega
  simp only [genCharAttr, hlt, e]
  rw [genDescs_eq _ _ (h + 2) (by omega), hs, e1]
  have hp : pred16 ((h + charSize c) % 65536) = h + charSize c - 1 := by simp only [pred16]; omega
  simp only [charAt, hp, charRef]

/-- Attributes of a list of characteristics, plain arithmetic. -/
def charsAt : List (Char α) → Nat → List (Attr (CState α))
  | [], _ => []
  | c :: cs, h => charAt c h ++ charsAt cs (h + charSize c)

theorem charsAt_length (cs : List (Char α)) (h : Nat) : (charsAt cs h).length = (cs.map charSize).sum := by
  induction cs generalizing h with
  | nil => rfl
  | cons c cs ih => simp [charsAt, charAt_length, ih]

theorem charsAt_append (cs ds : List (Char α)) (h : Nat) :
    charsAt (cs ++ ds) h = charsAt cs h ++ charsAt ds (h + (cs.map charSize).sum) := by
  induction cs generalizing h with
  | nil => simp [charsAt]
  | cons c cs ih => simp [charsAt, ih, Nat.add_assoc]

theorem genChars_eq (cs : List (Char α)) (h : Nat) (hf : h + (cs.map charSize).sum ≤ 65536) :
    genChars cs (h % 65536) = ((h + (cs.map charSize).sum) % 65536, charsAt cs h) := by
  induction cs generalizing h with
  | nil => simp [genChars, charsAt]
  | cons c cs ih =>
    simp only [List.map_cons, List.sum_cons] at hf
    simp only [genChars]
    rw [genCharAttr_eq c h (by omega)]
    simp only []
    rw [ih (h + charSize c) (by omega)]
    simp only [charsAt, List.map_cons, List.sum_cons]
    congr 2; omega

/-- Attributes of a service, plain arithmetic. -/
def svcAt (s : Svc α) (h : Nat) (last : Bool) : List (Attr (CState α)) :=
  { h := h, endh := if last then 0xFFFF else h + svcSize s - 1, typ := primaryServiceUUID, v := some s.uuid } ::
  charsAt s.chars (h + 1)

theorem svcAt_length (s : Svc α) (h : Nat) (l : Bool) : (svcAt s h l).length = svcSize s := by
  simp [svcAt, svcSize, charsAt_length]; omega

theorem genSvcAttr_eq (s : Svc α) (h : Nat) (l : Bool) (hf : h + svcSize s ≤ 65536) :
    genSvcAttr s (h % 65536) l = ((h + svcSize s) % 65536, svcAt s h l) := by
  have hs : h + 1 + (s.chars.map charSize).sum = h + svcSize s := by unfold svcSize; omega
  have e : add16 (h % 65536) 1 = (h + 1) % 65536 := by simp [add16]
  have h1 : 1 ≤ svcSize s := by unfold svcSize; omega
  have hlt : h % 65536 = h := by omega
  simp only [genSvcAttr, e]
  rw [genChars_eq _ (h + 1) (by omega), hs]
  have hp : pred16 ((h + svcSize s) % 65536) = h + svcSize s - 1 := by simp only [pred16]; omega
  simp only [svcAt, hp, hlt]

/-- Attributes of a list of services, plain arithmetic. -/
def svcsAt : List (Svc α) → Nat → List (Attr (CState α))
  | [], _ => []
  | s :: ss, h => svcAt s h ss.isEmpty ++ svcsAt ss (h + svcSize s)

theorem genSvcs_eq (ss : List (Svc α)) (h : Nat) (hf : h + dbSize ss ≤ 65536) :
    genSvcs ss (h % 65536) = svcsAt ss h := by
  induction ss generalizing h with
  | nil => rfl
  | cons s ss ih =>
    simp only [dbSize, List.map_cons, List.sum_cons] at hf
    simp only [genSvcs]
    rw [genSvcAttr_eq s h _ (by omega)]
    simp only []
    rw [ih (h + svcSize s) (by simp only [dbSize]; omega)]
    rfl

theorem svcsAt_length (ss : List (Svc α)) (h : Nat) : (svcsAt ss h).length = dbSize ss := by
  induction ss generalizing h with
  | nil => rfl
  | cons s ss ih => simp [svcsAt, svcAt_length, ih, dbSize]

theorem svcsAt_split (pre post : List (Svc α)) (s : Svc α) (h : Nat) :
    ∃ A, svcsAt (pre ++ s :: post) h =
      A ++ svcAt s (h + dbSize pre) post.isEmpty ++ svcsAt post (h + dbSize pre + svcSize s) ∧ A.length = dbSize pre := by
  induction pre generalizing h with
  | nil => exact ⟨[], by simp [svcsAt, dbSize], by simp [dbSize]⟩
  | cons p pre ih =>
    obtain ⟨A, hA, hl⟩ := ih (h + svcSize p)
    refine ⟨svcAt p h (pre ++ s :: post).isEmpty ++ A, ?_, ?_⟩
    · simp only [List.cons_append, svcsAt, hA, dbSize, List.map_cons, List.sum_cons, ← Nat.add_assoc, List.append_assoc]
    · simp [svcAt_length, hl, dbSize]

theorem newDB_attrs (ss : List (Svc α)) (base : Nat) (hf : base + dbSize ss ≤ 65536) (hne : ss ≠ []) :
    (newDB ss base).attrs = svcsAt ss base := by
  have : base % 65536 = base := by
    cases ss with
    | nil => exact absurd rfl hne
    | cons s ss => simp [dbSize, svcSize] at hf; omega
  simpa [newDB, this] using genSvcs_eq ss base hf

/-- Consecutiveness of a list of attributes. -/
def Consec : List (Attr σ) → Nat → Prop
  | [], _ => True
  | a :: as, h => a.h = h ∧ Consec as (h + 1)

theorem Consec_append (as bs : List (Attr σ)) (h : Nat) :
    Consec (as ++ bs) h ↔ Consec as h ∧ Consec bs (h + as.length) := by
  induction as generalizing h with
  | nil => simp [Consec]
  | cons a as ih => simp [Consec, ih, and_assoc, Nat.add_assoc, Nat.add_comm 1]

theorem Consec_get {as : List (Attr σ)} {h : Nat} (hc : Consec as h) (i : Nat) (hi : i < as.length) :
    as[i].h = h + i := by
  induction as generalizing h i with
  | nil => simp at hi
  | cons a as ih =>
    cases i with
    | zero => exact hc.1
    | succ i => have := ih hc.2 i (by simpa using hi); simp only [List.getElem_cons_succ]; omega

theorem genDescAttr_h (r : CharRef) (d : Desc α) (h : Nat) : (genDescAttr r d h).h = h := by cases d <;> rfl

theorem descsAt_consec (r : CharRef) (ds : List (Desc α)) (h : Nat) : Consec (descsAt r ds h) h := by
  induction ds generalizing h with
  | nil => trivial
  | cons d ds ih => exact ⟨genDescAttr_h r d h, ih (h + 1)⟩

theorem charAt_consec (c : Char α) (h : Nat) : Consec (charAt c h) h :=
  ⟨rfl, rfl, descsAt_consec _ _ _⟩

theorem charsAt_consec (cs : List (Char α)) (h : Nat) : Consec (charsAt cs h) h := by
  induction cs generalizing h with
  | nil => trivial
  | cons c cs ih => rw [charsAt, Consec_append, charAt_length]; exact ⟨charAt_consec c h, ih _⟩

theorem svcsAt_consec (ss : List (Svc α)) (h : Nat) : Consec (svcsAt ss h) h := by
  induction ss generalizing h with
  | nil => trivial
  | cons s ss ih =>
    rw [svcsAt, Consec_append, svcAt_length]
    exact ⟨⟨rfl, charsAt_consec _ _⟩, ih _⟩

/-! ## Lookup -/

theorem at_of_get {db : DB σ} {i : Nat} {a : Attr σ} (h : db.attrs[i]? = some a) : db.at (db.base + i) = some a := by
  have hi := (List.getElem?_eq_some_iff.1 h).1
  have h1 : ¬ db.base + i < db.base := by omega
  have h2 : ¬ db.base + i ≥ db.base + db.attrs.length := by omega
  unfold DB.at DB.idx
  rw [if_neg h1, if_neg h2]
  simp [h]

theorem at_eq (db : DB σ) (h : Nat) : db.at h = if h < db.base then none else db.attrs[h - db.base]? := by
  unfold DB.at DB.idx
  split <;> rename_i e
  · split at e
    · cases e
    · split at e
      · cases e
      · cases e; rw [if_neg (by assumption)]
  · split at e
    · simp [*]
    · split at e
      · rw [if_neg (by assumption)]; symm; rw [List.getElem?_eq_none_iff]; omega
      · exact absurd rfl (e _)

theorem at_handle {db : DB σ} (hc : Consecutive db) {h : Nat} {a : Attr σ} (ha : db.at h = some a) :
    a.h = h ∧ a ∈ db.attrs := by
  rw [at_eq] at ha
  split at ha
  · cases ha
  · obtain ⟨hi, rfl⟩ := List.getElem?_eq_some_iff.1 ha
    exact ⟨by rw [hc]; omega, List.getElem_mem hi⟩

theorem filter_consec (as : List (Attr σ)) (b lo hi : Nat) (hc : Consec as b) :
    as.filter (fun a => lo ≤ a.h && a.h ≤ hi) = (as.take (hi + 1 - b)).drop (lo - b) := by
  induction as generalizing b with
  | nil => simp
  | cons a as ih =>
    obtain ⟨h1, h2⟩ := hc
    by_cases hb : hi < b
    · have e : hi + 1 - b = 0 := by omega
      simp only [e, List.take_zero, List.drop_nil]
      rw [List.filter_eq_nil_iff]
      intro x hx
      obtain ⟨i, hi', rfl⟩ := List.getElem_of_mem hx
      have := Consec_get (as := a :: as) (h := b) ⟨h1, h2⟩ i hi'
      simp only [Bool.and_eq_true, decide_eq_true_eq]; omega
    · have e : hi + 1 - b = (hi + 1 - (b + 1)) + 1 := by omega
      rw [List.filter_cons, ih (b + 1) h2, e, List.take_succ_cons]
      by_cases hl : lo ≤ b
      · have e1 : lo - b = 0 := by omega
        have e2 : lo - (b + 1) = 0 := by omega
        rw [if_pos (by simp only [Bool.and_eq_true, decide_eq_true_eq]; omega), e1, e2]; simp
      · have e1 : lo - b = (lo - (b + 1)) + 1 := by omega
        rw [if_neg (by simp only [Bool.and_eq_true, decide_eq_true_eq]; omega), e1]; simp

theorem consec_of_consecutive {db : DB σ} (hc : Consecutive db) : Consec db.attrs db.base := by
  have : ∀ (as : List (Attr σ)) b, (∀ i (h : i < as.length), as[i].h = b + i) → Consec as b := by
    intro as
    induction as with
    | nil => intro b _; trivial
    | cons a as ih =>
      intro b h
      refine ⟨h 0 (by simp), ih (b + 1) ?_⟩
      intro i hi
      have := h (i + 1) (by simpa using hi)
      simp only [List.getElem_cons_succ] at this
      omega
  exact this _ _ hc

theorem subrange_of_le {db : DB σ} (hc : Consecutive db) {lo hi : Nat} (h : lo ≤ hi + 1) :
    db.subrange lo hi = .ok (inRange db lo hi) := by
  unfold inRange
  rw [filter_consec _ _ _ _ (consec_of_consecutive hc)]
  unfold DB.subrange DB.idx
  by_cases h1 : lo < db.base <;> by_cases h2 : lo ≥ db.base + db.attrs.length <;>
  by_cases h3 : hi + 1 < db.base <;> by_cases h4 : hi + 1 ≥ db.base + db.attrs.length <;>
    simp only [h1, h2, h3, h4, if_true, if_false] <;> try omega
  · have e : hi + 1 - db.base = 0 := by omega
    simp [e]
  · rw [if_pos (by omega)]
    have e : lo - db.base = 0 := by omega
    rw [e, List.take_of_length_le (by omega), List.take_of_length_le (by omega)]
  · rw [if_pos (by omega)]
    have e : lo - db.base = 0 := by omega
    rw [e]
  · rw [List.drop_eq_nil_of_le]; simp only [List.length_take]; omega
  · rw [if_pos (by omega), List.take_of_length_le (by omega), List.take_of_length_le (by omega)]
  · rw [if_pos (by omega)]

end Ble.Att
