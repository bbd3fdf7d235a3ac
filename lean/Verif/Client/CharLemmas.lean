import Verif.Client.Lemmas
set_option autoImplicit false

namespace Ble.Client

open Ble.Att Ble.Spec Ble.Props

variable {α σ : Type}

/-- The attributes of a stretch of the table, when the asked range is exactly that stretch or goes on past the end of the table. -/
theorem inRange_block (db : DB σ) (hc : Consecutive db) (A B C : List (Attr σ)) (hd : db.attrs = A ++ (B ++ C)) (lo hi : Nat)
    (hlo : lo = db.base + A.length) (hhi : hi + 1 = lo + B.length ∨ (C = [] ∧ lo + B.length ≤ hi + 1)) :
    inRange db lo hi = B := by
  unfold inRange
  rw [filter_consec _ _ _ _ (consec_of_consecutive hc), hd]
  rcases hhi with h | ⟨rfl, h⟩
  · rw [← List.append_assoc, List.take_append_of_le_length (by simp only [List.length_append]; omega),
      List.take_of_length_le (by simp only [List.length_append]; omega), show lo - db.base = A.length by omega, List.drop_left]
  · rw [List.append_nil, List.take_of_length_le (by simp only [List.length_append]; omega),
      show lo - db.base = A.length by omega, List.drop_left]

/-- Sum of the sizes of characteristics. -/
def charsSize (cs : List (Char α)) : Nat := (cs.map charSize).sum

theorem charsSize_cons (c : Char α) (cs : List (Char α)) : charsSize (c :: cs) = charSize c + charsSize cs := by simp [charsSize]
theorem charsSize_append (cs ds : List (Char α)) : charsSize (cs ++ ds) = charsSize cs + charsSize ds := by simp [charsSize]

theorem charSize_pos (c : Char α) : 2 ≤ charSize c := by unfold charSize; omega

/-- Declarations of characteristics, in table order. -/
def charDecls : List (Char α) → Nat → List (Attr (CState α))
  | [], _ => []
  | c :: cs, h => { h := h, endh := h + charSize c - 1, typ := characteristicUUID, v := some (c.prop :: put16 (h + 1) ++ c.uuid) } ::
      charDecls cs (h + charSize c)

theorem attachCCCD_descs (c : Char α) : (attachCCCD c).descs = allDescs c := by
  unfold attachCCCD allDescs; split <;> simp

theorem genDescAttr_typ (r : CharRef) (d : Desc α) (h : Nat) : (genDescAttr r d h).typ = descUUID d := by cases d <;> rfl

theorem descsAt_no_decl (r : CharRef) (ds : List (Desc α)) (h : Nat) (hd : ∀ d ∈ ds, descUUID d ≠ put16 0x2803) :
    (descsAt r ds h).filter (fun a => a.typ == put16 0x2803) = [] := by
  induction ds generalizing h with
  | nil => rfl
  | cons d ds ih =>
    rw [descsAt, List.filter_cons_of_neg (by rw [genDescAttr_typ]; simp [hd d (by simp)])]
    exact ih _ (fun x hx => hd x (by simp [hx]))

/-- What is asked of the characteristics of a service. -/
def CharsOk (cs : List (Char α)) : Prop :=
  ∀ c ∈ cs, UuidOk c.uuid ∧ c.uuid ≠ put16 0x2803 ∧ ∀ d ∈ c.descs, UuidOk (descUUID d) ∧ descUUID d ≠ put16 0x2803

theorem allDescs_ok {c : Char α} (h : ∀ d ∈ c.descs, UuidOk (descUUID d) ∧ descUUID d ≠ put16 0x2803) :
    ∀ d ∈ allDescs c, UuidOk (descUUID d) ∧ descUUID d ≠ put16 0x2803 := by
  intro d hd
  unfold allDescs at hd
  rcases List.mem_append.1 hd with hd | hd
  · exact h d hd
  · split at hd
    · rw [List.mem_singleton] at hd; subst hd
      exact ⟨.inl rfl, by simp [descUUID, put16]⟩
    · simp at hd

theorem charsAt_filter (cs : List (Char α)) (h : Nat) (hc : CharsOk cs) :
    (charsAt cs h).filter (fun a => a.typ == put16 0x2803) = charDecls cs h := by
  induction cs generalizing h with
  | nil => rfl
  | cons c cs ih =>
    have h1 := hc c (by simp)
    simp only [charsAt, charAt, List.cons_append]
    rw [List.filter_cons_of_pos (by simp [characteristicUUID]),
      List.filter_cons_of_neg (by simp only [beq_iff_eq]; exact h1.2.1), List.filter_append, descsAt_no_decl, List.nil_append, ih _ (fun x hx => hc x (by simp [hx]))]
    · rfl
    · intro d hd
      rw [attachCCCD_descs] at hd
      exact (allDescs_ok h1.2.2 d hd).2

/-- A characteristic in a Read By Type Response. -/
def charEntries : List (Char α) → Nat → Bytes
  | [], _ => []
  | c :: cs, h => put16 h ++ (c.prop :: (put16 (h + 1) ++ c.uuid)) ++ charEntries cs (h + charSize c)

theorem charDecls_static (cs : List (Char α)) (h : Nat) : ∀ a ∈ charDecls cs h, a.v ≠ none := by
  induction cs generalizing h with
  | nil => simp [charDecls]
  | cons c cs ih =>
    intro a ha
    rcases List.mem_cons.1 ha with rfl | ha
    · simp
    · exact ih _ a ha

theorem charDecls_takeWhile (cs : List (Char α)) (h L k : Nat) :
    ∃ n, n ≤ cs.length ∧ (∀ c ∈ cs.take n, 5 + c.uuid.length = L) ∧
      (((charDecls cs h).takeWhile fun b => 2 + (sval b).length == L).take k).flatMap (fun b => put16 b.h ++ sval b) =
        charEntries (cs.take n) h := by
  induction cs generalizing h k with
  | nil => exact ⟨0, Nat.le_refl _, by simp, by simp [charDecls, charEntries]⟩
  | cons c cs ih =>
    cases k with
    | zero => exact ⟨0, Nat.zero_le _, by simp, by simp [charEntries]⟩
    | succ k =>
      by_cases hl : 5 + c.uuid.length = L
      · obtain ⟨n, h1, h2, h3⟩ := ih (h + charSize c) k
        refine ⟨n + 1, by simp; omega, ?_, ?_⟩
        · intro x hx
          rw [List.take_succ_cons] at hx
          rcases List.mem_cons.1 hx with rfl | hx
          · exact hl
          · exact h2 x hx
        · rw [charDecls, List.takeWhile_cons_of_pos (by simp [sval]; omega), List.take_succ_cons, List.flatMap_cons, h3, List.take_succ_cons,
            charEntries]
          simp [sval]
      · refine ⟨0, Nat.zero_le _, by simp, ?_⟩
        rw [charDecls, List.takeWhile_cons_of_neg (by simp [sval]; omega)]
        simp [charEntries]

/-- Where the client asks next: after the value handle of the last characteristic of the list. -/
def lastStart (start : Nat) : List (Char α) → Nat → Nat
  | [], _ => start
  | c :: cs, h => lastStart (h + 2) cs (h + charSize c)

theorem lastStart_concat (start : Nat) (cs : List (Char α)) (c : Char α) (h : Nat) :
    lastStart start (cs ++ [c]) h = h + charsSize cs + 2 := by
  induction cs generalizing start h with
  | nil => rfl
  | cons d cs ih => rw [List.cons_append, lastStart, ih, charsSize_cons]; omega

theorem charInfos_length (E : Nat) (cs : List (Char α)) (h : Nat) : (charInfos E cs h).length = cs.length := by
  induction cs generalizing h with
  | nil => rfl
  | cons c cs ih => simp [charInfos, ih]

/-- Adding one characteristic closes the one before it. -/
theorem charInfos_concat (E : Nat) (cs : List (Char α)) (c : Char α) (h0 : Nat) (hb : h0 + charsSize cs + 1 < 65536) :
    closeLast (charInfos E cs h0) (h0 + charsSize cs) ++ [⟨c.uuid, c.prop, h0 + charsSize cs, h0 + charsSize cs + 1, E⟩] =
      charInfos E (cs ++ [c]) h0 := by
  induction cs generalizing h0 with
  | nil => simp [charInfos, closeLast, charsSize]
  | cons d cs ih =>
    have hd := charSize_pos d
    rw [charsSize_cons] at hb ⊢
    have e : h0 + (charSize d + charsSize cs) = h0 + charSize d + charsSize cs := by omega
    rw [e]
    cases cs with
    | nil =>
      simp only [charInfos, List.cons_append, List.nil_append, closeLast, List.isEmpty_nil, List.isEmpty_cons]
      simp only [charsSize, List.map_nil, List.sum_nil, Nat.add_zero] at hb ⊢
      have hp : pred16 (h0 + charSize d) = h0 + charSize d - 1 := by simp only [pred16]; omega
      simp [hp]
    | cons f cs =>
      have := ih (h0 + charSize d) (by omega)
      have h1 : charInfos E (d :: (f :: cs)) h0 = ⟨d.uuid, d.prop, h0, h0 + 1, h0 + charSize d - 1⟩ :: charInfos E (f :: cs) (h0 + charSize d) := rfl
      have h2 : charInfos E (d :: (f :: cs) ++ [c]) h0 =
        ⟨d.uuid, d.prop, h0, h0 + 1, h0 + charSize d - 1⟩ :: charInfos E (f :: cs ++ [c]) (h0 + charSize d) := rfl
      rw [h2, ← this, h1]
      simp only [closeLast, List.length_cons, charInfos_length]
      simp

theorem charLoop_entries (E L : Nat) (cs cpre : List (Char α)) (h0 start : Nat) (hL : ∀ c ∈ cs, 5 + c.uuid.length = L)
    (hb : h0 + charsSize cpre + charsSize cs < 65536) :
    charLoop E L (charEntries cs (h0 + charsSize cpre)) start (charInfos E cpre h0) =
      .ok (lastStart start cs (h0 + charsSize cpre), charInfos E (cpre ++ cs) h0) := by
  induction cs generalizing cpre start with
  | nil => rw [charEntries, charLoop, List.append_nil]; rfl
  | cons c cs ih =>
    have hl := hL c (by simp)
    have hcs := charSize_pos c
    rw [charsSize_cons] at hb
    have ih' := fun start => ih (cpre ++ [c]) start (fun x hx => hL x (by simp [hx])) (by
      rw [charsSize_append, charsSize_cons]; simp only [charsSize, List.map_nil, List.sum_nil] at hb ⊢; omega)
    have hnext : h0 + charsSize (cpre ++ [c]) = h0 + charsSize cpre + charSize c := by
      rw [charsSize_append, charsSize_cons]; simp only [charsSize, List.map_nil, List.sum_nil]; omega
    rw [hnext] at ih'
    generalize hh : h0 + charsSize cpre = h at *
    rw [charEntries]
    have hcons : ∃ x xs, put16 h ++ (c.prop :: (put16 (h + 1) ++ c.uuid)) ++ charEntries cs (h + charSize c) = x :: xs := ⟨_, _, rfl⟩
    obtain ⟨x, xs, hx⟩ := hcons
    have hl' : (put16 h ++ (c.prop :: (put16 (h + 1) ++ c.uuid))).length = L := by
      simp only [List.length_append, List.length_cons, put16_length]; omega
    have ht : (x :: xs).take L = put16 h ++ (c.prop :: (put16 (h + 1) ++ c.uuid)) := by rw [← hx, ← hl', List.take_left]
    have hd : (x :: xs).drop L = charEntries cs (h + charSize c) := by rw [← hx, ← hl', List.drop_left]
    have hlen : L ≤ (x :: xs).length := by rw [← hx]; simp only [List.length_append, ← hl']; omega
    have e0 : le16At (ε := CErr) (x :: xs) 0 = .ok h := by
      rw [← hx]; simp only [List.append_assoc]; exact le16At_entry0 _ (by omega) _
    have e2 : index (ε := CErr) (x :: xs) 2 = .ok c.prop := by rw [← hx]; rfl
    have e3 : le16At (ε := CErr) (x :: xs) 3 = .ok (h + 1) := by
      rw [← hx]
      have := le16_put16 (h + 1) (by omega)
      simp only [le16At, put16, List.cons_append, List.nil_append, index_cons_succ, index_cons_zero, Go.bind_ok, this, Go.pure_def]
    have hu : (put16 h ++ (c.prop :: (put16 (h + 1) ++ c.uuid))).drop 5 = c.uuid := by simp [put16]
    rw [hx, charLoop, if_neg (by omega), e0, e2, e3]
    simp only [Go.bind_ok, ht, hd, hu]
    have ha : add16 (h + 1) 1 = h + 2 := by simp only [add16]; omega
    have hci := charInfos_concat E cpre c h0 (by omega)
    rw [hh] at hci
    rw [hci, ha, ih', List.append_assoc]
    rfl

/-! ## Descriptors -/

/-- Descriptors in a Find Information Response. -/
def descEntries : List (Desc α) → Nat → Bytes
  | [], _ => []
  | d :: ds, h => put16 h ++ descUUID d ++ descEntries ds (h + 1)

theorem descsAt_take_entries (r : CharRef) (ds : List (Desc α)) (h n : Nat) :
    ((descsAt r ds h).take n).flatMap (fun b => put16 b.h ++ b.typ) = descEntries (ds.take n) h := by
  induction ds generalizing h n with
  | nil => simp [descsAt, descEntries]
  | cons d ds ih =>
    cases n with
    | zero => simp [descEntries]
    | succ n => simp [descsAt, descEntries, ih, genDescAttr_h, genDescAttr_typ]

theorem descLoop_entries (L : Nat) (ds : List (Desc α)) (h start : Nat) (acc : List DescInfo) (hL : ∀ d ∈ ds, (descUUID d).length = L)
    (hb : h + ds.length < 65536) :
    descLoop (2 + L) (descEntries ds h) start acc = .ok (if ds = [] then start else h + ds.length, acc ++ descInfos ds h) := by
  induction ds generalizing h start acc with
  | nil => rw [descEntries, descLoop]; simp [descInfos]
  | cons d ds ih =>
    have hl := hL d (by simp)
    simp only [List.length_cons] at hb
    rw [descEntries]
    have hcons : ∃ x xs, put16 h ++ descUUID d ++ descEntries ds (h + 1) = x :: xs := ⟨_, _, rfl⟩
    obtain ⟨x, xs, hx⟩ := hcons
    have hl' : (put16 h ++ descUUID d).length = 2 + L := by simp [hl]
    have ht : (x :: xs).take (2 + L) = put16 h ++ descUUID d := by rw [← hx, ← hl', List.take_left]
    have hd : (x :: xs).drop (2 + L) = descEntries ds (h + 1) := by rw [← hx, ← hl', List.drop_left]
    have hlen : 2 + L ≤ (x :: xs).length := by rw [← hx, ← hl']; simp only [List.length_append]; omega
    have e0 : le16At (ε := CErr) (x :: xs) 0 = .ok h := by
      rw [← hx]; simp only [List.append_assoc]; exact le16At_entry0 _ (by omega) _
    have hu : (put16 h ++ descUUID d).drop 2 = descUUID d := by simp [put16]
    rw [hx, descLoop, if_neg (by omega), e0]
    simp only [Go.bind_ok, ht, hd, hu]
    have ha : add16 h 1 = h + 1 := by simp only [add16]; omega
    rw [ha, ih _ _ _ (fun x hx => hL x (by simp [hx])) (by omega)]
    simp only [descInfos, List.append_assoc, List.singleton_append, List.length_cons]
    congr 2
    rw [if_neg (List.cons_ne_nil _ _)]
    by_cases e : ds = []
    · rw [if_pos e, e]; simp
    · rw [if_neg e]; omega

end Ble.Client
