import Verif.Att.Registry
set_option autoImplicit false

/-! # C69: changing the services of a server -/

namespace Ble.Props

open Ble.Registry

/-! ## Specification -/

/-- In table `t` (as discovered by a client) the attribute `e` has handle `h`. -/
def HasHandle (t : List Entry) (e : Entry) (h : Nat) : Prop := 1 ≤ h ∧ t[h - 1]? = some e

/-- The application's services after these calls: those added since the last `SetServices` or `RemoveAllServices`, after those set. -/
def appSvcs (ops : List Op) : List (List Nat) :=
  ops.foldl (fun acc op => match op with
    | .create _ _ => acc
    | .add s => acc ++ [s]
    | .set ss => ss
    | .removeAll => []) []

/-- The application only uses characteristics that it has made (`ids`) and not those of the default services, which it cannot name. `n`: the next identity. -/
def Valid : Nat → List Nat → List Op → Prop
  | _, _, [] => True
  | n, ids, .create _ _ :: ops => Valid (n + 1) (n :: ids) ops
  | n, ids, .add svc :: ops => (∀ c ∈ svc, c ∈ ids) ∧ Valid n ids ops
  | n, ids, .set ss :: ops => (∀ s ∈ ss, ∀ c ∈ s, c ∈ ids) ∧ Valid (n + 7) ids ops
  | n, ids, .removeAll :: ops => Valid (n + 7) ids ops

/-- The services declared in a table, in order. -/
def declared (t : List Entry) : List (List Nat) := t.filterMap fun | .svc cs => some cs | _ => none

/-- The characteristics declared in a table, in order. -/
def values (t : List Entry) : List Nat := t.filterMap fun | .value c => some c | _ => none

/-- The calls that build a table. -/
def builds : Op → Bool
  | .create _ _ => false
  | _ => true

namespace RegistryAux

/-- Entries of a characteristic with `D c` descriptors. -/
def charEntries (D : Nat → Nat) (c : Nat) : List Entry := .decl c :: .value c :: (List.range (D c)).map (.desc c)
def svcEntries (D : Nat → Nat) (s : List Nat) : List Entry := .svc s :: s.flatMap (charEntries D)

/-- Number of descriptors after building. -/
def descsAfter (H : Heap) (c : Nat) : Nat := (H c).descs + if (H c).notifies then 1 else 0

theorem genChars_spec (cs : List Nat) (hn : cs.Nodup) (H : Heap) (h : Nat) :
    let r := genChars H cs h
    r.2.2 = cs.flatMap (charEntries (descsAfter H)) ∧ r.2.1 = h + r.2.2.length ∧ (∀ d, d ∉ cs → r.1 d = H d) ∧
    (∀ d, (r.1 d).notifies = (H d).notifies ∧ (r.1 d).custom = (H d).custom) ∧
    (∀ d ∈ cs, (r.1 d).descs = descsAfter H d) ∧
    ∀ i d, (r.2.2[i]? = some (.value d) → (r.1 d).valueHandle = (h + i) % 65536) ∧ (r.2.2[i]? = some (.decl d) → (r.1 d).handle = (h + i) % 65536) := by
  induction cs generalizing H h with
  | nil => simp [genChars]
  | cons c cs ih =>
    obtain ⟨hc, hn⟩ := List.nodup_cons.1 hn
    have hlen : (genChar H c h).2.2 = charEntries (descsAfter H) c := rfl
    obtain ⟨i1, i2, i3, i4, i5, i6⟩ := ih hn (genChar H c h).1 (genChar H c h).2.1
    have hD : ∀ d ∈ cs, descsAfter (genChar H c h).1 d = descsAfter H d := by
      intro d hd
      have : d ≠ c := fun h => hc (h ▸ hd)
      simp [descsAfter, genChar, Heap.upd, this]
    have hfm : cs.flatMap (charEntries (descsAfter (genChar H c h).1)) = cs.flatMap (charEntries (descsAfter H)) := by
      simp only [List.flatMap]
      congr 1
      exact List.map_congr_left fun d hd => by simp [charEntries, hD d hd]
    have hlen2 : (genChar H c h).2.1 = h + (charEntries (descsAfter H) c).length := by simp [genChar, charEntries, descsAfter]; omega
    have hnc : ∀ (i : Nat), (genChars (genChar H c h).1 cs (genChar H c h).2.1).2.2[i]? ≠ some (.value c) ∧ (genChars (genChar H c h).1 cs (genChar H c h).2.1).2.2[i]? ≠ some (.decl c) := by
      intro i
      rw [i1, hfm]
      constructor <;>
      · intro hi
        have := List.mem_of_getElem? hi
        simp [charEntries] at this
        exact hc this
    simp only [genChars]
    refine ⟨by rw [i1, hfm, hlen]; simp, by rw [i2, hlen2, hlen]; simp; omega, ?_, ?_, ?_, ?_⟩
    · intro d hd
      simp only [List.mem_cons, not_or] at hd
      rw [i3 d hd.2]
      simp [genChar, Heap.upd, hd.1]
    · intro d
      rw [(i4 d).1, (i4 d).2]
      simp only [genChar, Heap.upd]
      split <;> simp_all
    · intro d hd
      rcases List.mem_cons.1 hd with rfl | hd
      · rw [i3 _ hc]
        simp [genChar, Heap.upd, descsAfter]
      · rw [i5 d hd, hD d hd]
    · intro i d
      rw [hlen]
      by_cases hi : i < (charEntries (descsAfter H) c).length
      · rw [List.getElem?_append_left hi]
        constructor
        · intro he
          have hdi : d = c ∧ i = 1 := by
            match i with
            | 0 => simp [charEntries] at he
            | 1 => simp [charEntries] at he; exact ⟨he.symm, rfl⟩
            | i + 2 =>
              simp [charEntries] at he
          obtain ⟨rfl, rfl⟩ := hdi
          rw [i3 _ hc]
          simp [genChar, Heap.upd]
        · intro he
          have hdi : d = c ∧ i = 0 := by
            match i with
            | 0 => simp [charEntries] at he; exact ⟨he.symm, rfl⟩
            | 1 => simp [charEntries] at he
            | i + 2 => simp [charEntries] at he
          obtain ⟨rfl, rfl⟩ := hdi
          rw [i3 _ hc]
          simp [genChar, Heap.upd]
      · rw [List.getElem?_append_right (by omega)]
        obtain ⟨a, b⟩ := i6 (i - (charEntries (descsAfter H) c).length) d
        rw [hlen2] at a b
        have e : h + (charEntries (descsAfter H) c).length + (i - (charEntries (descsAfter H) c).length) = h + i := by omega
        rw [e] at a b
        rw [hlen2]
        exact ⟨a, b⟩

theorem genSvcs_spec (ss : List (List Nat)) (hn : ss.flatten.Nodup) (H : Heap) (h : Nat) :
    let r := genSvcs H ss h
    r.2.2 = ss.flatMap (svcEntries (descsAfter H)) ∧ r.2.1 = h + r.2.2.length ∧ (∀ d, d ∉ ss.flatten → r.1 d = H d) ∧
    (∀ d, (r.1 d).notifies = (H d).notifies ∧ (r.1 d).custom = (H d).custom) ∧
    (∀ d ∈ ss.flatten, (r.1 d).descs = descsAfter H d) ∧
    ∀ i d, (r.2.2[i]? = some (.value d) → (r.1 d).valueHandle = (h + i) % 65536) ∧ (r.2.2[i]? = some (.decl d) → (r.1 d).handle = (h + i) % 65536) := by
  induction ss generalizing H h with
  | nil => simp [genSvcs]
  | cons s ss ih =>
    rw [List.flatten_cons, List.nodup_append] at hn
    obtain ⟨hs, hn, hdis⟩ := hn
    have hdis' : ∀ d ∈ s, d ∉ ss.flatten := fun d h1 h2 => hdis d h1 d h2 rfl
    have hdis2 : ∀ d ∈ ss.flatten, d ∉ s := fun d h1 h2 => hdis d h2 d h1 rfl
    obtain ⟨c1, c2, c3, c4, c5, c6⟩ := genChars_spec s hs H (h + 1)
    obtain ⟨i1, i2, i3, i4, i5, i6⟩ := ih hn (genChars H s (h + 1)).1 (genChars H s (h + 1)).2.1
    have hD : ∀ d ∈ ss.flatten, descsAfter (genChars H s (h + 1)).1 d = descsAfter H d := by
      intro d hd
      simp [descsAfter, c3 d (hdis2 d hd)]
    have hfm : ss.flatMap (svcEntries (descsAfter (genChars H s (h + 1)).1)) = ss.flatMap (svcEntries (descsAfter H)) := by
      simp only [List.flatMap]
      congr 1
      refine List.map_congr_left fun t ht => ?_
      simp only [svcEntries]
      congr 1
      simp only [List.flatMap]
      congr 1
      exact List.map_congr_left fun d hd => by simp [charEntries, hD d (List.mem_flatten.2 ⟨t, ht, hd⟩)]
    simp only [genSvcs]
    refine ⟨by rw [i1, hfm, c1]; simp [svcEntries], by rw [i2, c2]; simp; omega, ?_, ?_, ?_, ?_⟩
    · intro d hd
      simp only [List.flatten_cons, List.mem_append, not_or] at hd
      rw [i3 d hd.2, c3 d hd.1]
    · intro d
      exact ⟨(i4 d).1.trans (c4 d).1, (i4 d).2.trans (c4 d).2⟩
    · intro d hd
      simp only [List.flatten_cons, List.mem_append] at hd
      rcases hd with hd | hd
      · rw [i3 d (hdis' d hd), c5 d hd]
      · rw [i5 d hd, hD d hd]
    · intro i d
      match i with
      | 0 => simp
      | i + 1 =>
        simp only [List.cons_append, List.getElem?_cons_succ]
        by_cases hi : i < (genChars H s (h + 1)).2.2.length
        · rw [List.getElem?_append_left hi]
          obtain ⟨a, b⟩ := c6 i d
          have e : h + 1 + i = h + (i + 1) := by omega
          have hm : (genChars H s (h + 1)).2.2[i]? = some (.value d) ∨ (genChars H s (h + 1)).2.2[i]? = some (.decl d) → d ∈ s := by
            intro hi
            rcases hi with hi | hi <;> have := List.mem_of_getElem? hi <;> rw [c1] at this <;> simp [charEntries] at this <;> exact this
          constructor
          · intro he
            rw [i3 d (hdis' d (hm (.inl he))), a he, e]
          · intro he
            rw [i3 d (hdis' d (hm (.inr he))), b he, e]
        · rw [List.getElem?_append_right (by omega)]
          obtain ⟨a, b⟩ := i6 (i - (genChars H s (h + 1)).2.2.length) d
          have e : (genChars H s (h + 1)).2.1 + (i - (genChars H s (h + 1)).2.2.length) = h + (i + 1) := by rw [c2]; omega
          rw [e] at a b
          exact ⟨a, b⟩

theorem charEntries_len (D : Nat → Nat) (c : Nat) : (charEntries D c).length = D c + 2 := by simp [charEntries]

theorem shift_chars (D D' : Nat → Nat) (N : Nat → Bool) (cs : List Nat) (hD : ∀ d ∈ cs, D' d = D d + if N d then 1 else 0) (i c : Nat) (h : (cs.flatMap (charEntries D))[i]? = some (.value c)) :
    ∃ p q, cs = p ++ c :: q ∧ (cs.flatMap (charEntries D'))[i + p.countP N]? = some (.value c) := by
  induction cs generalizing i with
  | nil => simp at h
  | cons x cs ih =>
    simp only [List.flatMap_cons] at h ⊢
    by_cases hi : i < (charEntries D x).length
    · rw [List.getElem?_append_left hi] at h
      have hxi : x = c ∧ i = 1 := by
        match i with
        | 0 => simp [charEntries] at h
        | 1 => simp [charEntries] at h; exact ⟨h, rfl⟩
        | i + 2 => simp [charEntries] at h
      obtain ⟨rfl, rfl⟩ := hxi
      exact ⟨[], cs, by simp, by simp [charEntries]⟩
    · rw [List.getElem?_append_right (by omega)] at h
      obtain ⟨p, q, he, hr⟩ := ih (fun d hd => hD d (by simp [hd])) _ h
      refine ⟨x :: p, q, by simp [he], ?_⟩
      have hx := hD x (by simp)
      simp only [charEntries_len] at hi hr
      rw [List.countP_cons, List.getElem?_append_right (by rw [charEntries_len, hx]; split <;> omega), charEntries_len, hx, ← hr]
      congr 1
      split <;> omega

theorem flatMap_len (D D' : Nat → Nat) (N : Nat → Bool) (cs : List Nat) (hD : ∀ d ∈ cs, D' d = D d + if N d then 1 else 0) :
    (cs.flatMap (charEntries D')).length = (cs.flatMap (charEntries D)).length + cs.countP N := by
  induction cs with
  | nil => rfl
  | cons x cs ih =>
    have := ih (fun d hd => hD d (by simp [hd]))
    have hx := hD x (by simp)
    simp only [List.flatMap_cons, List.length_append, charEntries_len, List.countP_cons, this, hx]
    omega

theorem shift_svcs (D D' : Nat → Nat) (N : Nat → Bool) (ss : List (List Nat)) (hD : ∀ d ∈ ss.flatten, D' d = D d + if N d then 1 else 0) (i c : Nat) (h : (ss.flatMap (svcEntries D))[i]? = some (.value c)) :
    ∃ p q, ss.flatten = p ++ c :: q ∧ (ss.flatMap (svcEntries D'))[i + p.countP N]? = some (.value c) := by
  induction ss generalizing i with
  | nil => simp at h
  | cons s ss ih =>
    have hDs : ∀ d ∈ s, D' d = D d + if N d then 1 else 0 := fun d hd => hD d (by simp [hd])
    have hDr : ∀ d ∈ ss.flatten, D' d = D d + if N d then 1 else 0 := fun d hd => hD d (by
      rw [List.flatten_cons, List.mem_append]; exact .inr hd)
    have hl := flatMap_len D D' N s hDs
    simp only [List.flatMap_cons, svcEntries] at h ⊢
    match i with
    | 0 => simp at h
    | i + 1 =>
      simp only [List.cons_append, List.getElem?_cons_succ] at h
      by_cases hi : i < (s.flatMap (charEntries D)).length
      · rw [List.getElem?_append_left hi] at h
        obtain ⟨p, q, he, hr⟩ := shift_chars D D' N s hDs i c h
        refine ⟨p, q ++ ss.flatten, by simp [he], ?_⟩
        have hlt := (List.getElem?_eq_some_iff.1 hr).1
        have e : i + 1 + p.countP N = (i + p.countP N) + 1 := by omega
        rw [e, List.cons_append, List.getElem?_cons_succ, List.getElem?_append_left hlt]
        exact hr
      · rw [List.getElem?_append_right (by omega)] at h
        obtain ⟨p, q, he, hr⟩ := ih hDr _ h
        refine ⟨s ++ p, q, by simp [he], ?_⟩
        have e : i + 1 + (s ++ p).countP N = (i + s.countP N + p.countP N) + 1 := by rw [List.countP_append]; omega
        rw [e, List.cons_append, List.getElem?_cons_succ, List.getElem?_append_right (by omega), ← hr]
        congr 1
        omega

theorem values_svc (D : Nat → Nat) (s : List Nat) : values (svcEntries D s) = s := by
  simp only [values, svcEntries, List.filterMap_cons]
  induction s with
  | nil => rfl
  | cons c cs ih => simp [charEntries, ih]

theorem values_flatMap (D : Nat → Nat) (ss : List (List Nat)) : values (ss.flatMap (svcEntries D)) = ss.flatten := by
  induction ss with
  | nil => rfl
  | cons s ss ih =>
    have := values_svc D s
    simp only [values] at *
    rw [List.flatMap_cons, List.filterMap_append, ih, List.flatten_cons, this]

theorem declared_svc (D : Nat → Nat) (s : List Nat) : declared (svcEntries D s) = [s] := by
  have h : ∀ cs : List Nat, declared (cs.flatMap (charEntries D)) = [] := by
    intro cs
    simp only [declared]
    induction cs with
    | nil => rfl
    | cons c cs ih => simp [charEntries, ih]
  have := h s
  simp only [declared, svcEntries, List.filterMap_cons] at *
  rw [this]

theorem declared_flatMap (D : Nat → Nat) (ss : List (List Nat)) : declared (ss.flatMap (svcEntries D)) = ss := by
  induction ss with
  | nil => rfl
  | cons s ss ih =>
    have := declared_svc D s
    simp only [declared] at *
    rw [List.flatMap_cons, List.filterMap_append, ih, this]
    rfl

theorem unique_of_values {c : Nat} (l : List Entry) : (values l).Nodup → ∀ i j : Nat, l[i]? = some (Entry.value c) → l[j]? = some (Entry.value c) → i = j := by
  induction l with
  | nil => simp
  | cons x l ih =>
    intro hn i j hi hj
    have ihn : (values l).Nodup := by
      simp only [values, List.filterMap_cons] at hn
      split at hn
      · exact hn
      · exact (List.nodup_cons.1 hn).2
    have hx : x = Entry.value c → ∀ k : Nat, l[k]? ≠ some (Entry.value c) := by
      intro hx k hk
      subst hx
      simp only [values, List.filterMap_cons, List.nodup_cons] at hn
      exact hn.1 (List.mem_filterMap.2 ⟨_, List.mem_of_getElem? hk, rfl⟩)
    match i, j with
    | 0, 0 => rfl
    | 0, j + 1 => simp at hi hj; exact absurd hj (hx hi j)
    | i + 1, 0 => simp at hi hj; exact absurd hi (hx hj i)
    | i + 1, j + 1 => simp at hi hj; exact congrArg (· + 1) (ih ihn i j hi hj)

/-- A value occurs once in a table of distinct characteristics. -/
theorem value_unique {H : Heap} {ss : List (List Nat)} (hn : ss.flatten.Nodup) {i j c : Nat} (hi : (genSvcs H ss 1).2.2[i]? = some (.value c)) (hj : (genSvcs H ss 1).2.2[j]? = some (.value c)) : i = j := by
  obtain ⟨h1, -⟩ := genSvcs_spec ss hn H 1
  exact unique_of_values _ (by rw [h1, values_flatMap]; exact hn) i j hi hj

theorem split_unique {c : Nat} {p q p' q' : List Nat} (he : p ++ c :: q = p' ++ c :: q') (hnc : c ∉ p) (hnc' : c ∉ p') : p = p' := by
  induction p generalizing p' with
  | nil =>
    cases p' with
    | nil => rfl
    | cons x p' => simp at he; simp [he.1] at hnc'
  | cons y p ih =>
    cases p' with
    | nil => simp at he; simp [he.1] at hnc
    | cons x p' =>
      simp at he hnc hnc'
      rw [he.1, ih he.2 hnc.2 hnc'.2]

theorem step_build (s : Srv) (op : Op) (hb : builds op = true) : ∃ H, (s.step op).heap = (genSvcs H (s.step op).svcs 1).1 ∧ (s.step op).table = (genSvcs H (s.step op).svcs 1).2.2 := by
  cases op with
  | create => simp [builds] at hb
  | add svc => exact ⟨s.heap, rfl, rfl⟩
  | set ss => exact ⟨(s.defaults false).1.heap, by simp only [Srv.step, Srv.build]; constructor <;> trivial⟩
  | removeAll => exact ⟨(s.defaults false).1.heap, by simp only [Srv.step, Srv.build]; constructor <;> trivial⟩

theorem add_build (s : Srv) (svc : List Nat) : (s.step (.add svc)).heap = (genSvcs s.heap (s.svcs ++ [svc]) 1).1 ∧ (s.step (.add svc)).table = (genSvcs s.heap (s.svcs ++ [svc]) 1).2.2 := ⟨rfl, rfl⟩

theorem genChars_gen (cs : List Nat) (H : Heap) (h : Nat) : (∀ d, ((genChars H cs h).1 d).notifies = (H d).notifies ∧ ((genChars H cs h).1 d).custom = (H d).custom) ∧ values (genChars H cs h).2.2 = cs ∧ declared (genChars H cs h).2.2 = [] := by
  induction cs generalizing H h with
  | nil => simp [genChars, values, declared]
  | cons c cs ih =>
    obtain ⟨i1, i2, i3⟩ := ih (genChar H c h).1 (genChar H c h).2.1
    refine ⟨fun d => ?_, ?_, ?_⟩
    · simp only [genChars]
      rw [(i1 d).1, (i1 d).2]
      simp only [genChar, Heap.upd]
      split <;> simp_all
    · simp only [genChars, values, List.filterMap_append] at *
      rw [i2]
      simp [genChar]
    · simp only [genChars, declared, List.filterMap_append] at *
      rw [i3]
      simp [genChar]

theorem genSvcs_gen (ss : List (List Nat)) (H : Heap) (h : Nat) : (∀ d, ((genSvcs H ss h).1 d).notifies = (H d).notifies ∧ ((genSvcs H ss h).1 d).custom = (H d).custom) ∧ values (genSvcs H ss h).2.2 = ss.flatten ∧ declared (genSvcs H ss h).2.2 = ss := by
  induction ss generalizing H h with
  | nil => simp [genSvcs, values, declared]
  | cons s ss ih =>
    obtain ⟨i1, i2, i3⟩ := ih (genChars H s (h + 1)).1 (genChars H s (h + 1)).2.1
    obtain ⟨j1, j2, j3⟩ := genChars_gen s H (h + 1)
    refine ⟨fun d => ?_, ?_, ?_⟩
    · simp only [genSvcs]
      exact ⟨(i1 d).1.trans (j1 d).1, (i1 d).2.trans (j1 d).2⟩
    · simp only [genSvcs, values, List.filterMap_append, List.filterMap_cons, List.cons_append] at *
      rw [i2, j2, List.flatten_cons]
    · simp only [genSvcs, declared, List.filterMap_append, List.filterMap_cons, List.cons_append] at *
      rw [i3, j3]
      rfl

/-- The default services whose characteristics begin at `m`. -/
def dflt (m : Nat) : List (List Nat) := [[m, m + 1, m + 2, m + 3, m + 4, m + 5], [m + 6]]

/-- The table is the one of the current services. -/
def Consistent (s : Srv) : Prop := ∃ H, s.table = (genSvcs H s.svcs 1).2.2 ∧ ∀ d ∈ s.svcs.flatten, s.heap d = (genSvcs H s.svcs 1).1 d

/-- The state of a server that the application uses as documented. `m`: the first of the default characteristics; `cu`: Service Changed has the application's handler; `b`: a table has been built since the beginning. -/
structure Inv (ids : List Nat) (m : Nat) (app : List (List Nat)) (cu b : Bool) (s : Srv) : Prop where
  svcs : s.svcs = dflt m ++ app
  next : m + 7 ≤ s.next
  next2 : 14 ≤ s.next
  known : ∀ c ∈ ids, c < s.next ∧ (c < m ∨ m + 7 ≤ c) ∧ (s.heap c).custom = false
  used : ∀ c ∈ app.flatten, c ∈ ids
  changed : (s.heap (m + 6)).notifies = true
  custom : (s.heap (m + 6)).custom = cu
  plain : ∀ c, m ≤ c → c < m + 6 → (s.heap c).custom = false
  built : b = true → Consistent s
  unbuilt : b = false → values s.table = [7, 8, 9, 10, 11, 12, 13] ∧ declared s.table = dflt 7 ∧ app = [] ∧ ∀ c, 7 ≤ c → c < 14 → (s.heap c).custom = false

theorem build_consistent (s : Srv) : Consistent s.build := ⟨s.heap, rfl, fun _ _ => rfl⟩

theorem build_flags (s : Srv) (d : Nat) : (s.build.heap d).notifies = (s.heap d).notifies ∧ (s.build.heap d).custom = (s.heap d).custom := (genSvcs_gen s.svcs s.heap 1).1 d

theorem inv_new (cu : Bool) : Inv [] 0 [] cu false (Srv.new cu) := by
  have h1 : ∀ c, c < 6 → ((Srv.new cu).heap c).custom = false := by cases cu <;> decide
  have h2 : ∀ c, c < 7 → ((Srv.new cu).heap (7 + c)).custom = false := by cases cu <;> decide
  refine ⟨rfl, by cases cu <;> decide, by cases cu <;> decide, by simp, by simp, by cases cu <;> decide, by cases cu <;> decide, fun c _ hc => h1 c (by omega), by simp, fun _ => ⟨by cases cu <;> decide, by cases cu <;> decide, rfl, fun c ha hb => ?_⟩⟩
  have := h2 (c - 7) (by omega)
  rwa [Nat.add_sub_cancel' ha] at this

/-- The application's services after one more call. -/
def appStep (acc : List (List Nat)) : Op → List (List Nat)
  | .create _ _ => acc
  | .add s => acc ++ [s]
  | .set ss => ss
  | .removeAll => []

def resets : Op → Bool
  | .set _ | .removeAll => true
  | _ => false

theorem inv_reset {ids : List Nat} {m : Nat} {app : List (List Nat)} {cu b : Bool} {s : Srv} (h : Inv ids m app cu b s) (ss : List (List Nat)) (hss : ∀ c ∈ ss.flatten, c ∈ ids) :
    Inv ids s.next ss false true (Srv.build { (s.defaults false).1 with svcs := (s.defaults false).2 ++ ss }) := by
  have hf := build_flags { (s.defaults false).1 with svcs := (s.defaults false).2 ++ ss }
  have h14 := h.next2
  refine ⟨rfl, ?_, ?_, ?_, hss, ?_, ?_, ?_, fun _ => build_consistent _, by simp⟩
  · simp [Srv.build, Srv.defaults]
  · simp only [Srv.build, Srv.defaults]; omega
  · intro c hc
    obtain ⟨a, _, d⟩ := h.known c hc
    refine ⟨by simp only [Srv.build, Srv.defaults]; omega, .inl a, ?_⟩
    rw [(hf c).2]
    simp [Srv.defaults, a, d]
  · rw [(hf _).1]; simp [Srv.defaults, show ¬ s.next + 6 < s.next by omega]
  · rw [(hf _).2]; simp [Srv.defaults, show ¬ s.next + 6 < s.next by omega]
  · intro c h1 h2
    rw [(hf c).2]
    have : ¬ c < s.next := by omega
    simp [Srv.defaults, this, h2]

theorem inv_run {ops : List Op} {n : Nat} {ids : List Nat} {m : Nat} {app : List (List Nat)} {cu b : Bool} {s : Srv} (h : Inv ids m app cu b s) (hn : s.next = n) (hv : Valid n ids ops) :
    ∃ ids' m', Inv ids' m' (ops.foldl appStep app) (cu && !ops.any resets) (b || ops.any builds) (s.run ops) := by
  induction ops generalizing n ids m app cu b s with
  | nil => exact ⟨ids, m, by simpa [Srv.run] using h⟩
  | cons op ops ih =>
    cases op with
    | create nt ds =>
      have hne : ∀ c, c < s.next → c ≠ s.next := fun c hc => by omega
      have hup : ∀ c, c < s.next → (s.step (.create nt ds)).heap c = s.heap c := fun c hc => by simp [Srv.step, Heap.upd, hne c hc]
      have hx := h.next
      have h14 := h.next2
      have hin : Inv (n :: ids) m app cu b (s.step (.create nt ds)) := by
        refine ⟨h.svcs, by simp only [Srv.step]; omega, by simp only [Srv.step]; omega, ?_, fun c hc => by simp [h.used c hc], ?_, ?_, ?_, ?_, ?_⟩
        · intro c hc
          rcases List.mem_cons.1 hc with rfl | hc
          · refine ⟨by simp [Srv.step, hn], by omega, ?_⟩
            simp [Srv.step, Heap.upd, hn]
          · obtain ⟨a, b, d⟩ := h.known c hc
            exact ⟨by simp only [Srv.step]; omega, b, by rw [hup c a]; exact d⟩
        · rw [hup _ (by omega)]; exact h.changed
        · rw [hup _ (by omega)]; exact h.custom
        · intro c h1 h2; rw [hup _ (by omega)]; exact h.plain c h1 h2
        · intro hb
          obtain ⟨H, e1, e2⟩ := h.built hb
          refine ⟨H, e1, fun d hd => ?_⟩
          refine Eq.trans (hup d ?_) (e2 d hd)
          have hd' : d ∈ s.svcs.flatten := hd
          rw [h.svcs, List.flatten_append, List.mem_append] at hd'
          rcases hd' with hd' | hd'
          · simp [dflt] at hd'; omega
          · exact (h.known d (h.used d hd')).1
        · intro hb
          obtain ⟨e1, e2, e3, e4⟩ := h.unbuilt hb
          exact ⟨e1, e2, e3, fun c h1 h2 => by rw [hup c (by omega)]; exact e4 c h1 h2⟩
      obtain ⟨ids', m', hr⟩ := ih (n := n + 1) hin (by simp [Srv.step, hn]) hv
      exact ⟨ids', m', by simpa [Srv.run, appStep, resets, builds] using hr⟩
    | add svc =>
      obtain ⟨hsv, hv⟩ := hv
      have hf := build_flags { s with svcs := s.svcs ++ [svc] }
      have hin : Inv ids m (app ++ [svc]) cu true (s.step (.add svc)) := by
        refine ⟨?_, h.next, h.next2, fun c hc => ?_, ?_, ?_, ?_, ?_, fun _ => build_consistent _, by simp⟩
        · simp [Srv.step, Srv.build, h.svcs]
        · obtain ⟨a, b, d⟩ := h.known c hc
          exact ⟨a, b, by rw [show ((s.step (.add svc)).heap c).custom = _ from (hf c).2]; exact d⟩
        · intro c hc
          simp only [List.flatten_append, List.mem_append, List.flatten_cons, List.flatten_nil, List.append_nil] at hc
          exact hc.elim (h.used c) (hsv c)
        · rw [show ((s.step (.add svc)).heap _).notifies = _ from (hf _).1]; exact h.changed
        · rw [show ((s.step (.add svc)).heap _).custom = _ from (hf _).2]; exact h.custom
        · intro c h1 h2; rw [show ((s.step (.add svc)).heap _).custom = _ from (hf _).2]; exact h.plain c h1 h2
      obtain ⟨ids', m', hr⟩ := ih (n := n) hin hn hv
      exact ⟨ids', m', by simpa [Srv.run, appStep, resets, builds] using hr⟩
    | set ss =>
      obtain ⟨hsv, hv⟩ := hv
      have hin := inv_reset h ss (by
        intro c hc
        obtain ⟨t, ht, hct⟩ := List.mem_flatten.1 hc
        exact hsv t ht c hct)
      obtain ⟨ids', m', hr⟩ := ih (n := n + 7) hin (by simp [Srv.build, Srv.defaults, hn]) hv
      exact ⟨ids', m', by simpa [Srv.run, Srv.step, appStep, resets, builds] using hr⟩
    | removeAll =>
      have hin := inv_reset h [] (by simp)
      obtain ⟨ids', m', hr⟩ := ih (n := n + 7) hin (by simp [Srv.build, Srv.defaults, hn]) hv
      exact ⟨ids', m', by simpa [Srv.run, Srv.step, appStep, resets, builds] using hr⟩

theorem appSvcs_eq (ops : List Op) : appSvcs ops = ops.foldl appStep [] := by
  unfold appSvcs
  congr 1

theorem reach {cu : Bool} {ops : List Op} (hv : Valid 14 [] ops) : ∃ ids m, Inv ids m (appSvcs ops) (cu && !ops.any resets) (ops.any builds) ((Srv.new cu).run ops) := by
  rw [appSvcs_eq]
  simpa using inv_run (inv_new cu) (n := 14) rfl hv

theorem inv_nodup {ids : List Nat} {m : Nat} {app : List (List Nat)} {cu b : Bool} {s : Srv} (h : Inv ids m app cu b s) (ha : app.flatten.Nodup) : s.svcs.flatten.Nodup := by
  rw [h.svcs, List.flatten_append]
  refine List.nodup_append.2 ⟨by simp [dflt], ha, ?_⟩
  intro a ha' c hc he
  subst he
  have := (h.known a (h.used a hc)).2.1
  simp [dflt] at ha'
  omega

end RegistryAux

open RegistryAux

/-! ## What the table declares -/

/-- After any sequence of calls the table declares the two default services, and then exactly the services of the application, in the order in which they were given. -/
theorem services_listed {custom : Bool} {ops : List Op} (hv : Valid 14 [] ops) : ∃ gap gatt, declared ((Srv.new custom).run ops).table = [gap, gatt] ++ appSvcs ops ∧ gap.length = 6 ∧ gatt.length = 1 := by
  obtain ⟨ids, m, h⟩ := reach (cu := custom) hv
  cases hb : ops.any builds with
  | true =>
    obtain ⟨H, e1, -⟩ := h.built hb
    refine ⟨[m, m + 1, m + 2, m + 3, m + 4, m + 5], [m + 6], ?_, rfl, rfl⟩
    rw [e1, (genSvcs_gen _ _ _).2.2, h.svcs]
    rfl
  | false =>
    obtain ⟨-, e2, e3, -⟩ := h.unbuilt hb
    exact ⟨[7, 8, 9, 10, 11, 12], [13], by rw [e2, e3]; rfl, rfl, rfl⟩

/-- The indication handler given to `NewServerWithNameAndHandler` serves a characteristic of the table if and only if a service has been added, and no services have been set or removed: neither a new server nor one whose services were set at once ever calls it. -/
theorem custom_handler_served {custom : Bool} {ops : List Op} (hv : Valid 14 [] ops) :
    (∃ c, .value c ∈ ((Srv.new custom).run ops).table ∧ (((Srv.new custom).run ops).heap c).custom = true) ↔
    custom = true ∧ (∃ svc, .add svc ∈ ops) ∧ .removeAll ∉ ops ∧ ∀ ss, .set ss ∉ ops := by
  obtain ⟨ids, m, h⟩ := reach (cu := custom) hv
  have hmem : ∀ (t : List Entry) (c : Nat), .value c ∈ t ↔ c ∈ values t := by
    intro t c
    simp only [values, List.mem_filterMap]
    constructor
    · intro h; exact ⟨_, h, rfl⟩
    · rintro ⟨x, hx, he⟩
      split at he <;> simp_all
  have hres : ops.any resets = false ↔ Op.removeAll ∉ ops ∧ ∀ ss, Op.set ss ∉ ops := by
    rw [List.any_eq_false]
    constructor
    · intro h1
      exact ⟨fun h2 => by simpa [resets] using h1 _ h2, fun ss h2 => by simpa [resets] using h1 _ h2⟩
    · intro ⟨h1, h2⟩ x hx
      cases x with
      | set ss => exact absurd hx (h2 ss)
      | removeAll => exact absurd hx h1
      | _ => simp [resets]
  have hadd : ops.any resets = false → (ops.any builds = true ↔ ∃ svc, Op.add svc ∈ ops) := by
    intro h1
    obtain ⟨h2, h3⟩ := hres.1 h1
    rw [List.any_eq_true]
    constructor
    · rintro ⟨x, hx, he⟩
      cases x with
      | create => simp [builds] at he
      | add svc => exact ⟨svc, hx⟩
      | set ss => exact absurd hx (h3 ss)
      | removeAll => exact absurd hx h2
    · rintro ⟨svc, hs⟩
      exact ⟨_, hs, rfl⟩
  rw [← hres]
  constructor
  · rintro ⟨c, hc, hcu⟩
    rw [hmem] at hc
    cases hb : ops.any builds with
    | false =>
      obtain ⟨e1, -, -, e4⟩ := h.unbuilt hb
      rw [e1] at hc
      have : 7 ≤ c ∧ c < 14 := by simp at hc; omega
      simp [e4 c this.1 this.2] at hcu
    | true =>
      obtain ⟨H, e1, -⟩ := h.built hb
      rw [e1, (genSvcs_gen _ _ _).2.1, h.svcs, List.flatten_append, List.mem_append] at hc
      have hc6 : c = m + 6 := by
        rcases hc with hc | hc
        · apply Classical.byContradiction
          intro hne
          have : m ≤ c ∧ c < m + 6 := by simp [dflt] at hc; omega
          simp [h.plain c this.1 this.2] at hcu
        · simp [(h.known c (h.used c hc)).2.2] at hcu
      subst hc6
      rw [h.custom] at hcu
      simp only [Bool.and_eq_true, Bool.not_eq_true'] at hcu
      exact ⟨hcu.1, (hadd hcu.2).1 hb, hcu.2⟩
  · rintro ⟨h1, h2, h3⟩
    have hb := (hadd h3).2 h2
    obtain ⟨H, e1, -⟩ := h.built hb
    refine ⟨m + 6, ?_, ?_⟩
    · rw [hmem, e1, (genSvcs_gen _ _ _).2.1, h.svcs]
      simp [dflt]
    · rw [h.custom]; simp [h1, h3]

/-! ## Connections made after the last change -/

/-- Once a call has built a table, no characteristic of the application being used twice, the handle that a notification of a characteristic carries, and the key of its subscription, are its handles in the current table: a connection accepted now is served correctly. -/
theorem notify_handle_current {custom : Bool} {ops : List Op} (hv : Valid 14 [] ops) (hb : ops.any builds = true) (hn : (appSvcs ops).flatten.Nodup) {c h : Nat} (hh : h < 65536) :
    let s := (Srv.new custom).run ops
    (HasHandle s.table (.value c) h → s.notifyHandle c = h) ∧ (HasHandle s.table (.decl c) h → s.subKey c = h) := by
  obtain ⟨ids, m, hi⟩ := reach (cu := custom) hv
  obtain ⟨H, h1, h2⟩ := hi.built hb
  have hnd := inv_nodup hi hn
  obtain ⟨g1, -, -, -, -, g⟩ := genSvcs_spec _ hnd H 1
  simp only [HasHandle, Srv.notifyHandle, Srv.subKey]
  obtain ⟨a, b⟩ := g (h - 1) c
  have hmem : ∀ e, (e = Entry.value c ∨ e = Entry.decl c) → ((Srv.new custom).run ops).table[h - 1]? = some e → c ∈ ((Srv.new custom).run ops).svcs.flatten := by
    intro e he hm
    have := List.mem_of_getElem? hm
    rw [h1, g1, List.mem_flatMap] at this
    obtain ⟨t, ht, hc⟩ := this
    refine List.mem_flatten.2 ⟨t, ht, ?_⟩
    rcases he with rfl | rfl <;> simpa [svcEntries, charEntries] using hc
  constructor
  · intro ⟨p, q⟩
    rw [h2 c (hmem _ (.inl rfl) q)]
    rw [h1] at q
    rw [a q, Nat.add_sub_cancel' p]
    omega
  · intro ⟨p, q⟩
    rw [h2 c (hmem _ (.inr rfl) q)]
    rw [h1] at q
    rw [b q, Nat.add_sub_cancel' p]
    omega

/-- **C69, the part that holds.** Missing: connections accepted before the table was changed (`notify_wrong_after_add`: false). -/
theorem notify_handle_current_partial {custom : Bool} {ops : List Op} (hv : Valid 14 [] ops) (hb : ops.any builds = true) (hn : (appSvcs ops).flatten.Nodup) {c h : Nat} (hh : h < 65536) :
    let s := (Srv.new custom).run ops
    (HasHandle s.table (.value c) h → s.notifyHandle c = h) ∧ (HasHandle s.table (.decl c) h → s.subKey c = h) :=
  notify_handle_current hv hb hn hh

/-! ## Connections made before -/

namespace RegistryAux

theorem run_append (s : Srv) (a b : List Op) : s.run (a ++ b) = (s.run a).run b := by
  induction a generalizing s with
  | nil => rfl
  | cons x a ih => simp [Srv.run, ih]

theorem valid_left {n : Nat} {ids : List Nat} {a b : List Op} (h : Valid n ids (a ++ b)) : Valid n ids a := by
  induction a generalizing n ids with
  | nil => trivial
  | cons x a ih =>
    cases x <;> simp only [List.cons_append, Valid] at h ⊢
    · exact ih h
    · exact ⟨h.1, ih h.2⟩
    · exact ⟨h.1, ih h.2⟩
    · exact ih h

theorem appSvcs_add (ops : List Op) (svc : List Nat) : appSvcs (ops ++ [.add svc]) = appSvcs ops ++ [svc] := by simp [appSvcs]

end RegistryAux

/-- What `AddService` does to the characteristics that are already there: the value of each moves up by the number of characteristics before it that notify or indicate, because each of them is given one more descriptor. -/
theorem addService_moves {custom : Bool} {ops : List Op} {svc : List Nat} (hv : Valid 14 [] (ops ++ [.add svc])) (hb : ops.any builds = true) (hn : (appSvcs (ops ++ [.add svc])).flatten.Nodup) {p q : List Nat} {c h : Nat}
    (hp : values ((Srv.new custom).run ops).table = p ++ c :: q) (hh : HasHandle ((Srv.new custom).run ops).table (.value c) h) :
    HasHandle ((Srv.new custom).run (ops ++ [.add svc])).table (.value c) (h + p.countP fun d => (((Srv.new custom).run ops).heap d).notifies) := by
  obtain ⟨ids, m, hi⟩ := reach (cu := custom) (valid_left hv)
  obtain ⟨ids', m', hi'⟩ := reach (cu := custom) hv
  have hnd' := inv_nodup hi' hn
  rw [appSvcs_add, List.flatten_append] at hn
  have hnd := inv_nodup hi (List.nodup_append.1 hn).1
  obtain ⟨H, h1, h2⟩ := hi.built hb
  rw [h1, (genSvcs_gen _ _ _).2.1] at hp
  rw [run_append] at hnd' ⊢
  simp only [Srv.run] at hnd' ⊢
  generalize (Srv.new custom).run ops = s at *
  obtain ⟨g1, -, -, g4, g5, -⟩ := genSvcs_spec _ hnd H 1
  obtain ⟨k1, -⟩ := genSvcs_spec (s.svcs ++ [svc]) hnd' s.heap 1
  obtain ⟨hh1, hh2⟩ := hh
  rw [h1, g1] at hh2
  have hD : ∀ d ∈ s.svcs.flatten, descsAfter s.heap d = descsAfter H d + if (s.heap d).notifies then 1 else 0 := by
    intro d hd
    have := g5 d hd
    rw [← h2 d hd] at this
    simp [descsAfter, this]
  obtain ⟨p', q', he, hr⟩ := shift_svcs _ _ _ _ hD _ _ hh2
  have hpp : p' = p := by
    rw [hp] at he hnd
    have hnc : c ∉ p := fun hc => (List.nodup_append.1 hnd).2.2 c hc c (by simp) rfl
    have hnc' : c ∉ p' := by
      rw [he] at hnd
      exact fun hc => (List.nodup_append.1 hnd).2.2 c hc c (by simp) rfl
    exact (split_unique he hnc hnc').symm
  subst hpp
  refine ⟨by omega, ?_⟩
  rw [(add_build _ _).2, k1, List.flatMap_append]
  have e : h + p'.countP (fun d => (s.heap d).notifies) - 1 = h - 1 + p'.countP (fun d => (s.heap d).notifies) := by omega
  rw [e, List.getElem?_append_left (List.getElem?_eq_some_iff.1 hr).1]
  exact hr

/-- A client that connected before an `AddService` is told of every characteristic of the application under a wrong handle afterwards: in the table that this client discovered the characteristic has some handle `h`, and the handle that its notifications now carry is greater, and is not that of this characteristic. -/
theorem notify_wrong_after_add {custom : Bool} {ops : List Op} {svc : List Nat} (hv : Valid 14 [] (ops ++ [.add svc])) (hb : ops.any builds = true) (hn : (appSvcs (ops ++ [.add svc])).flatten.Nodup)
    (hfit : ((Srv.new custom).run (ops ++ [.add svc])).table.length < 65536) {c : Nat} (hc : c ∈ (appSvcs ops).flatten) :
    ∃ h, HasHandle ((Srv.new custom).run ops).table (.value c) h ∧ h < ((Srv.new custom).run (ops ++ [.add svc])).notifyHandle c ∧
      ¬ HasHandle ((Srv.new custom).run ops).table (.value c) (((Srv.new custom).run (ops ++ [.add svc])).notifyHandle c) := by
  obtain ⟨ids, m, hi⟩ := reach (cu := custom) (valid_left hv)
  obtain ⟨H, h1, -⟩ := hi.built hb
  have hnd := inv_nodup hi (by rw [appSvcs_add, List.flatten_append] at hn; exact (List.nodup_append.1 hn).1)
  have hvals : values ((Srv.new custom).run ops).table = (dflt m ++ appSvcs ops).flatten := by rw [h1, (genSvcs_gen _ _ _).2.1, hi.svcs]
  obtain ⟨p, q, hpq⟩ := List.append_of_mem hc
  have hsplit : values ((Srv.new custom).run ops).table = ((dflt m).flatten ++ p) ++ c :: q := by
    rw [hvals, List.flatten_append, hpq]; simp
  have hmem : Entry.value c ∈ ((Srv.new custom).run ops).table := by
    have : c ∈ values ((Srv.new custom).run ops).table := by rw [hsplit]; simp
    simp only [values, List.mem_filterMap] at this
    obtain ⟨x, hx, he⟩ := this
    split at he <;> simp_all
  obtain ⟨i, hi1, hi2⟩ := List.getElem_of_mem hmem
  have hh : HasHandle ((Srv.new custom).run ops).table (.value c) (i + 1) := ⟨by omega, by simp [hi1, hi2]⟩
  have hmv := addService_moves hv hb hn hsplit hh
  have hk : 1 ≤ ((dflt m).flatten ++ p).countP fun d => (((Srv.new custom).run ops).heap d).notifies := by
    refine List.countP_pos_iff.2 ⟨m + 6, by simp [dflt], hi.changed⟩
  have hlt := (List.getElem?_eq_some_iff.1 hmv.2).1
  have hcur := (notify_handle_current (custom := custom) hv (by simp [List.any_append, hb]) hn (by omega)).1 hmv
  refine ⟨i + 1, hh, by rw [hcur]; omega, ?_⟩
  rw [hcur]
  intro hbad
  have e1 := hh.2
  have e2 := hbad.2
  rw [h1] at e1 e2
  have := value_unique hnd e1 e2
  omega

/-! ## Examples -/

/-- Two services, the second added after a client has connected: notifications of the first characteristic, discovered with handle 20, now carry handle 21, which this client knows as its CCCD. -/
theorem notify_wrong_example :
    let ops : List Op := [.create true 0, .add [14], .create false 0]
    Valid 14 [] (ops ++ [.add [15]]) ∧ ops.any builds = true ∧ (appSvcs (ops ++ [.add [15]])).flatten.Nodup ∧ ((Srv.new false).run (ops ++ [.add [15]])).table.length = 26 ∧
    HasHandle ((Srv.new false).run ops).table (.value 14) 20 ∧ ((Srv.new false).run (ops ++ [.add [15]])).notifyHandle 14 = 21 ∧ HasHandle ((Srv.new false).run ops).table (.desc 14 0) 21 := by
  refine ⟨by simp [Valid], by decide, by decide, by decide, ⟨by decide, by decide⟩, by decide, ⟨by decide, by decide⟩⟩

end Ble.Props
