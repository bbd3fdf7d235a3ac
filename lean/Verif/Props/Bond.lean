import Verif.Store.Bond
import Verif.Uuid.Lemmas
set_option autoImplicit false

/-!
# The bond store (C43), its behaviour under failures and crashes (C57)
-/

namespace Ble.Props

open Ble.Store

/-! ## Specification -/

/-- What an application that made these calls expects to be stored for an address of 12 characters: what it saved last, unless it deleted it since. -/
def storedBond (addr : Text) : Option Bond → List Op → Option Bond
  | acc, [] => acc
  | acc, .save a (some b) :: os => storedBond addr (if a = addr then some b else acc) os
  | acc, .delete a :: os => storedBond addr (if a = addr then none else acc) os
  | acc, _ :: os => storedBond addr acc os

/-- The application saves no bond with an empty key. -/
def KeysNotEmpty (os : List Op) : Prop := ∀ a b, Op.save a (some b) ∈ os → b.ltk ≠ []

namespace BondAux

theorem getLE16_put (n : UInt16) : getLE16 (putLE16 n) = some n := by
  simp only [putLE16, getLE16]
  congr 1
  apply UInt16.toNat_inj.1
  have := n.toNat_lt
  simp only [UInt16.toNat_ofNat', UInt8.toNat_ofNat']
  omega

theorem getLE64_put (n : UInt64) : getLE64 (putLE64 n) = some n := by
  simp only [putLE64, getLE64]
  congr 1
  apply UInt64.toNat_inj.1
  have := n.toNat_lt
  simp only [UInt64.toNat_ofNat', UInt8.toNat_ofNat']
  omega

theorem createBondInfo_createBondData (b : Bond) (h : b.ltk ≠ []) : createBondInfo (createBondData b) = .ok b := by
  unfold createBondInfo createBondData
  simp only [hexDecode_hexEncode, getLE16_put, getLE64_put]
  rw [if_neg (by simpa using h)]

theorem createBondInfo_empty (b : Bond) (h : b.ltk = []) : createBondInfo (createBondData b) = .err () := by
  unfold createBondInfo createBondData
  simp only [hexDecode_hexEncode, h]
  rfl

/-- The map that a readable file holds. -/
def view (J : Json BondData) (f : File) : Option (List (Text × BondData)) := (loadBonds J Env.fine f).2

theorem load_fine (J : Json BondData) (f : File) : loadBonds J Env.fine f = (some (f.getD []), view J f) := by
  unfold view loadBonds
  cases f with
  | none => simp [Env.fine]
  | some b =>
    simp only [Env.fine, if_true, Option.getD_some]
    split
    · cases J.dec b with
      | none => rfl
      | some o => cases o <;> rfl
    · rfl

theorem view_some (J : Json BondData) (f : File) : view J (some (f.getD [])) = view J f := by
  cases f <;> rfl

theorem view_enc (J : Json BondData) (m : List (Text × BondData)) : ∃ m', view J (some (J.enc m)) = some m' ∧ ∀ k, m'.lookup k = m.lookup k := by
  obtain ⟨m', h1, h2⟩ := J.roundtrip m
  refine ⟨m', ?_, h2⟩
  unfold view loadBonds
  have : (J.enc m).length > 0 := List.length_pos_iff.2 (J.nonempty m)
  simp [Env.fine, this, h1]

theorem any_lookup (m : List (Text × BondData)) (a : Text) : (m.any fun x => x.1 = a) = (m.lookup a).isSome := by
  induction m with
  | nil => rfl
  | cons e m ih =>
    obtain ⟨k, v⟩ := e
    rw [List.any_cons, List.lookup_cons, ih]
    by_cases h : k = a
    · subst h; simp
    · rw [beq_eq_false_iff_ne.2 (Ne.symm h)]; simp [h]

/-- The file holds this map of bonds for addresses of the right length, and nothing that does not decode. -/
def Holds (J : Json BondData) (f : File) (g : Text → Option Bond) : Prop :=
  ∃ m, view J f = some m ∧ ∀ a, (g a = none ∧ m.lookup a = none) ∨ ∃ d b, g a = some b ∧ m.lookup a = some d ∧ createBondInfo d = .ok b ∧ strLen a = 12

theorem holds_none (J : Json BondData) : Holds J none (fun _ => none) := ⟨[], rfl, fun _ => Or.inl ⟨rfl, rfl⟩⟩

theorem holds_some {J : Json BondData} {f : File} {g : Text → Option Bond} (h : Holds J f g) : Holds J (some (f.getD [])) g := by
  obtain ⟨m, h1, h2⟩ := h
  exact ⟨m, (view_some J f).trans h1, h2⟩

/-- The effect of one call on the map. -/
def after (g : Text → Option Bond) : Op → Text → Option Bond
  | .save a (some b) => fun x => if x = a ∧ strLen a = 12 then some b else g x
  | .delete a => fun x => if x = a then none else g x
  | _ => g

theorem holds_put {J : Json BondData} {f : File} {g : Text → Option Bond} {m : List (Text × BondData)} (hm : view J f = some m)
    (h : ∀ a, (g a = none ∧ m.lookup a = none) ∨ ∃ d b, g a = some b ∧ m.lookup a = some d ∧ createBondInfo d = .ok b ∧ strLen a = 12)
    (a : Text) (b : Bond) (ha : strLen a = 12) (hb : b.ltk ≠ []) : Holds J (some (J.enc (put m a (createBondData b)))) (after g (.save a (some b))) := by
  obtain ⟨m', h1, h2⟩ := view_enc J (put m a (createBondData b))
  refine ⟨m', h1, fun x => ?_⟩
  rw [h2, lookup_put]
  simp only [after]
  by_cases hx : x = a
  · subst hx
    right
    exact ⟨createBondData b, b, by simp [ha], by simp, createBondInfo_createBondData b hb, ha⟩
  · rw [if_neg hx, if_neg (fun hh => hx hh.1)]
    exact h x

theorem holds_del {J : Json BondData} {g : Text → Option Bond} {m : List (Text × BondData)}
    (h : ∀ a, (g a = none ∧ m.lookup a = none) ∨ ∃ d b, g a = some b ∧ m.lookup a = some d ∧ createBondInfo d = .ok b ∧ strLen a = 12)
    (a : Text) : Holds J (some (J.enc (del m a))) (after g (.delete a)) := by
  obtain ⟨m', h1, h2⟩ := view_enc J (del m a)
  refine ⟨m', h1, fun x => ?_⟩
  rw [h2, lookup_del]
  simp only [after]
  by_cases hx : x = a
  · simp [hx]
  · rw [if_neg hx, if_neg hx]
    exact h x

theorem call_exists {J : Json BondData} {f : File} {g : Text → Option Bond} (h : Holds J f g) (a : Text) :
    Holds J (existsBond J Env.fine f a).1 g ∧ (existsBond J Env.fine f a).2 = (g a).isSome := by
  obtain ⟨m, h1, h2⟩ := id h
  unfold existsBond
  by_cases ha : strLen a = 12
  · rw [if_neg (by simp [ha]), load_fine, h1]
    refine ⟨holds_some h, ?_⟩
    simp only
    rw [any_lookup]
    rcases h2 a with ⟨h3, h4⟩ | ⟨d, b, h3, h4, _⟩ <;> rw [h3, h4] <;> rfl
  · rw [if_pos ha]
    refine ⟨h, ?_⟩
    rcases h2 a with ⟨h3, _⟩ | ⟨d, b, _, _, _, h6⟩
    · rw [h3]; rfl
    · exact absurd h6 ha

theorem call_find {J : Json BondData} {f : File} {g : Text → Option Bond} (h : Holds J f g) (a : Text) :
    Holds J (findBond J Env.fine f a).1 g ∧ (findBond J Env.fine f a).2 = (match g a with | some b => .ok b | none => .err ()) := by
  obtain ⟨m, h1, h2⟩ := id h
  unfold findBond
  by_cases ha : strLen a = 12
  · rw [if_neg (by simp [ha]), load_fine, h1]
    simp only
    rcases h2 a with ⟨h3, h4⟩ | ⟨d, b, h3, h4, h5, _⟩
    · rw [h3, h4]; exact ⟨holds_some h, rfl⟩
    · rw [h3, h4]
      simp only [h5]
      exact ⟨holds_some h, by simp⟩
  · rw [if_pos ha]
    refine ⟨h, ?_⟩
    rcases h2 a with ⟨h3, _⟩ | ⟨d, b, _, _, _, h6⟩
    · rw [h3]
    · exact absurd h6 ha

theorem call_save {J : Json BondData} {f : File} {g : Text → Option Bond} (h : Holds J f g) (a : Text) (b : Option Bond) (hb : ∀ x, b = some x → x.ltk ≠ []) :
    Holds J (saveBond J Env.fine f a b).1 (after g (.save a b)) ∧ (saveBond J Env.fine f a b).2 = (if strLen a = 12 ∧ b.isSome then .ok () else .err ()) := by
  obtain ⟨m, h1, h2⟩ := id h
  unfold saveBond
  by_cases ha : strLen a = 12
  · rw [if_neg (by simp [ha])]
    cases b with
    | none => exact ⟨h, by simp⟩
    | some b =>
      simp only [load_fine, h1]
      simp only [Env.fine, writeFile]
      exact ⟨holds_put h1 h2 a b ha (hb b rfl), by simp [ha]⟩
  · rw [if_pos ha, if_neg (by simp [ha])]
    refine ⟨?_, rfl⟩
    cases b with
    | none => exact h
    | some b =>
      have : after g (.save a (some b)) = g := by
        funext x; simp [after, ha]
      rw [this]; exact h

theorem call_delete {J : Json BondData} {f : File} {g : Text → Option Bond} (h : Holds J f g) (a : Text) :
    Holds J (deleteBond J Env.fine f a).1 (after g (.delete a)) ∧ (deleteBond J Env.fine f a).2 = (if (g a).isSome then .ok () else .err ()) := by
  obtain ⟨m, h1, h2⟩ := id h
  unfold deleteBond
  simp only [load_fine, h1]
  rcases h2 a with ⟨h3, h4⟩ | ⟨d, b, h3, h4, h5, _⟩
  · rw [h4]
    refine ⟨?_, by simp [h3]⟩
    have : after g (.delete a) = g := by
      funext x
      simp only [after]
      split
      · rename_i hx; rw [hx, h3]
      · rfl
    rw [this]; exact holds_some h
  · rw [h4]
    simp only [Env.fine, writeFile]
    exact ⟨holds_del h2 a, by simp [h3]⟩

theorem call_holds {J : Json BondData} {f : File} {g : Text → Option Bond} (h : Holds J f g) (o : Op) (ho : ∀ a b, o = .save a (some b) → b.ltk ≠ []) :
    Holds J (call J Env.fine f o).1 (after g o) := by
  cases o with
  | exists_ a => exact (call_exists h a).1
  | find a => exact (call_find h a).1
  | save a b => exact (call_save h a b (fun x hx => ho a x (by rw [hx]))).1
  | delete a => exact (call_delete h a).1

theorem calls_holds (J : Json BondData) : ∀ (os : List Op) (f : File) (g : Text → Option Bond), Holds J f g → KeysNotEmpty os →
    ∃ g', Holds J (calls J f (os.map fun o => (Env.fine, o))).1 g' ∧ ∀ a, strLen a = 12 → g' a = storedBond a (g a) os := by
  intro os
  induction os with
  | nil => intro f g h _; exact ⟨g, h, fun _ _ => rfl⟩
  | cons o os ih =>
    intro f g h hk
    obtain ⟨g', h1, h2⟩ := ih _ _ (call_holds h o (fun a b hab => hk a b (by simp [hab]))) (fun a b hab => hk a b (by simp [hab]))
    refine ⟨g', h1, fun a ha => ?_⟩
    rw [h2 a ha]
    cases o with
    | exists_ _ => rfl
    | find _ => rfl
    | save x b =>
      cases b with
      | none => rfl
      | some b =>
        simp only [after, storedBond]
        by_cases hx : a = x
        · subst hx; simp [ha]
        · rw [if_neg (fun hh => hx hh.1), if_neg (Ne.symm hx)]
    | delete x =>
      simp only [after, storedBond]
      by_cases hx : a = x
      · subst hx; simp
      · rw [if_neg hx, if_neg (Ne.symm hx)]

end BondAux

open BondAux

/-- C43. After every history of calls on a new store without file errors, for every address of 12 characters: `Find` returns the bond that was saved last and not deleted since, key, diversifier, random value
and flag, or an error if there is none; `Exists` and the result of `Delete` agree with it. -/
theorem bond_store_is_map (J : Json BondData) (os : List Op) (hk : KeysNotEmpty os) (addr : Text) (ha : strLen addr = 12) :
    let f := (calls J none (os.map fun o => (Env.fine, o))).1
    (findBond J Env.fine f addr).2 = (match storedBond addr none os with | some b => .ok b | none => .err ()) ∧
    (existsBond J Env.fine f addr).2 = (storedBond addr none os).isSome ∧
    (deleteBond J Env.fine f addr).2 = (if (storedBond addr none os).isSome then .ok () else .err ()) := by
  intro f
  obtain ⟨g, h1, h2⟩ := calls_holds J os none _ (holds_none J) hk
  rw [← h2 addr ha]
  exact ⟨(call_find h1 addr).2, (call_exists h1 addr).2, (call_delete h1 addr).2⟩

/-- **C43, the part that holds.** Missing: bonds with an empty key (`bond_empty_key`: false). -/
theorem bond_store_is_map_partial (J : Json BondData) (os : List Op) (hk : KeysNotEmpty os) (addr : Text) (ha : strLen addr = 12) :
    let f := (calls J none (os.map fun o => (Env.fine, o))).1
    (findBond J Env.fine f addr).2 = (match storedBond addr none os with | some b => .ok b | none => .err ()) ∧
    (existsBond J Env.fine f addr).2 = (storedBond addr none os).isSome ∧
    (deleteBond J Env.fine f addr).2 = (if (storedBond addr none os).isSome then .ok () else .err ()) :=
  bond_store_is_map J os hk addr ha

/-- C43. `Save` succeeds exactly for an address of 12 characters and a bond; other addresses are refused by `Find` and never exist. -/
theorem bond_save_result (J : Json BondData) (os : List Op) (hk : KeysNotEmpty os) (addr : Text) (b : Option Bond) :
    let f := (calls J none (os.map fun o => (Env.fine, o))).1
    (saveBond J Env.fine f addr b).2 = (if strLen addr = 12 ∧ b.isSome then .ok () else .err ()) ∧
    (strLen addr ≠ 12 → (findBond J Env.fine f addr).2 = .err () ∧ (existsBond J Env.fine f addr).2 = false) := by
  intro f
  obtain ⟨m, h1, _⟩ := (calls_holds J os none _ (holds_none J) hk).choose_spec.1
  have h1 : view J f = some m := h1
  constructor
  · unfold saveBond
    by_cases ha : strLen addr = 12
    · rw [if_neg (by simp [ha])]
      cases b with
      | none => simp
      | some b => simp only [load_fine, h1]; simp [Env.fine, writeFile, ha]
    · rw [if_pos ha, if_neg (by simp [ha])]
  · intro ha
    simp [findBond, existsBond, ha]

/-- C43, the exception: a bond with an empty key exists until it is looked for; `Find` reports an error and removes it. -/
theorem bond_empty_key (J : Json BondData) (os : List Op) (hk : KeysNotEmpty os) (addr : Text) (ha : strLen addr = 12) (b : Bond) (hb : b.ltk = []) :
    let f := (calls J none ((os ++ [Op.save addr (some b)]).map fun o => (Env.fine, o))).1
    (existsBond J Env.fine f addr).2 = true ∧ (findBond J Env.fine f addr).2 = .err () ∧ (existsBond J Env.fine (findBond J Env.fine f addr).1 addr).2 = false := by
  have hcalls : ∀ (os : List Op) (f : File) (o : Op), (calls J f ((os ++ [o]).map fun o => (Env.fine, o))).1 = (call J Env.fine (calls J f (os.map fun o => (Env.fine, o))).1 o).1 := by
    intro os
    induction os with
    | nil => intro f o; rfl
    | cons x os ih => intro f o; exact ih _ _
  obtain ⟨g, ⟨m, h1, h2⟩, _⟩ := calls_holds J os none _ (holds_none J) hk
  intro f
  have hf : f = some (J.enc (put m addr (createBondData b))) := by
    show (calls J none ((os ++ [Op.save addr (some b)]).map fun o => (Env.fine, o))).1 = _
    rw [hcalls]
    simp only [call, saveBond, ha, load_fine, h1]
    simp [Env.fine, writeFile]
  obtain ⟨m', h3, h4⟩ := view_enc J (put m addr (createBondData b))
  obtain ⟨m'', h5, h6⟩ := view_enc J (del m' addr)
  rw [hf]
  have e1 : (findBond J Env.fine (some (J.enc (put m addr (createBondData b)))) addr) = (some (J.enc (del m' addr)), .err ()) := by
    unfold findBond
    rw [if_neg (by simp [ha]), load_fine, h3]
    simp only [h4, lookup_put, if_true, createBondInfo_empty b hb]
    simp [Env.fine, writeFile]
  refine ⟨?_, by rw [e1], ?_⟩
  · unfold existsBond
    rw [if_neg (by simp [ha]), load_fine, h3]
    simp only
    rw [any_lookup, h4, lookup_put]
    simp
  · rw [e1]
    unfold existsBond
    rw [if_neg (by simp [ha]), load_fine, h5]
    simp only
    rw [any_lookup, h6, lookup_del]
    simp

/-- C43, a file changed by another program: `Find` crashes the program exactly when the entry's key is good and its diversifier or random value is hexadecimal but too short. -/
theorem bond_find_crashes_iff (J : Json BondData) (f : File) (addr : Text) : (findBond J Env.fine f addr).2 = .panic ↔
    strLen addr = 12 ∧ ∃ m d k e r, view J f = some m ∧ m.lookup addr = some d ∧ hexDecode d.longTermKey = some k ∧ k ≠ [] ∧ hexDecode d.encryptionDiversifier = some e ∧
      hexDecode d.randomValue = some r ∧ (e.length < 2 ∨ r.length < 8) := by
  have g16 : ∀ e : Bytes, getLE16 e = none ↔ e.length < 2 := by
    intro e
    match e with
    | [] => simp [getLE16]
    | [_] => simp [getLE16]
    | _ :: _ :: _ => simp [getLE16]
  have g64 : ∀ e : Bytes, getLE64 e = none ↔ e.length < 8 := by
    intro e
    match e with
    | [] => simp [getLE64]
    | [_] => simp [getLE64]
    | [_, _] => simp [getLE64]
    | [_, _, _] => simp [getLE64]
    | [_, _, _, _] => simp [getLE64]
    | [_, _, _, _, _] => simp [getLE64]
    | [_, _, _, _, _, _] => simp [getLE64]
    | [_, _, _, _, _, _, _] => simp [getLE64]
    | _ :: _ :: _ :: _ :: _ :: _ :: _ :: _ :: _ => simp [getLE64]
  have hinfo : ∀ d, createBondInfo d = .panic ↔ ∃ k e r, hexDecode d.longTermKey = some k ∧ k ≠ [] ∧ hexDecode d.encryptionDiversifier = some e ∧
      hexDecode d.randomValue = some r ∧ (e.length < 2 ∨ r.length < 8) := by
    intro d
    unfold createBondInfo
    cases h1 : hexDecode d.longTermKey with
    | none => simp
    | some k =>
      simp only
      by_cases hk : k.length = 0
      · rw [if_pos hk]
        have : k = [] := by simpa using hk
        subst this; simp
      · rw [if_neg hk]
        have hk' : k ≠ [] := by simpa using hk
        cases h2 : hexDecode d.encryptionDiversifier with
        | none => simp
        | some e =>
          simp only
          cases h3 : hexDecode d.randomValue with
          | none => simp
          | some r =>
            simp only
            cases h4 : getLE16 e with
            | none => simp only [true_iff]; exact ⟨k, e, r, rfl, hk', rfl, rfl, Or.inl ((g16 e).1 h4)⟩
            | some x =>
              simp only
              cases h5 : getLE64 r with
              | none => simp only [true_iff]; exact ⟨k, e, r, rfl, hk', rfl, rfl, Or.inr ((g64 r).1 h5)⟩
              | some y =>
                simp only [reduceCtorEq, false_iff]
                rintro ⟨k', e', r', _, _, he, hr, hc⟩
                obtain rfl := Option.some.inj he
                obtain rfl := Option.some.inj hr
                rcases hc with hc | hc
                · have := (g16 e).2 hc; rw [h4] at this; simp at this
                · have := (g64 r).2 hc; rw [h5] at this; simp at this
  unfold findBond
  by_cases ha : strLen addr = 12
  · rw [if_neg (by simp [ha]), load_fine]
    cases hv : view J f with
    | none => simp
    | some m =>
      simp only
      cases hl : m.lookup addr with
      | none =>
        simp only [reduceCtorEq, false_iff]
        rintro ⟨_, m', d, _, _, _, h1, h2, _⟩
        obtain rfl := Option.some.inj h1
        rw [hl] at h2; simp at h2
      | some d =>
        simp only
        refine Iff.trans (b := createBondInfo d = .panic) ?_ ?_
        · cases createBondInfo d <;> simp
        rw [hinfo]
        constructor
        · rintro ⟨k, e, r, h⟩
          exact ⟨ha, m, d, k, e, r, rfl, hl, h⟩
        · rintro ⟨_, m', d', k, e, r, h1, h2, h⟩
          obtain rfl := Option.some.inj h1
          rw [hl] at h2
          obtain rfl := Option.some.inj h2
          exact ⟨k, e, r, h⟩
  · rw [if_pos ha]; simp [ha]

/-! ## Failures and crashes -/

/-- The call reports failure. -/
def Fails : Res → Prop
  | .bool b => b = false
  | .bond r => r = .err ()
  | .done r => r = .err ()

/-- `Find` of every address of 12 characters, and `Exists`, say what they said before. -/
def SameBonds (J : Json BondData) (f f' : File) : Prop :=
  ∀ a, (findBond J Env.fine f a).2 = (findBond J Env.fine f' a).2 ∧ (existsBond J Env.fine f a).2 = (existsBond J Env.fine f' a).2

namespace BondAux

theorem same_of_view {J : Json BondData} {f f' : File} (h : view J f = view J f') : SameBonds J f f' := by
  intro a
  unfold findBond existsBond
  simp only [load_fine, h]
  constructor
  · split
    · rfl
    · cases view J f' with
      | none => rfl
      | some m =>
        simp only
        cases m.lookup a with
        | none => rfl
        | some d => simp only; cases createBondInfo d <;> rfl
  · split
    · rfl
    · cases view J f' <;> rfl

/-- Loading, in general: the file's bonds stay, and what is loaded is what is there. -/
theorem load_gen (J : Json BondData) (e : Env) (f : File) : view J (loadBonds J e f).1 = view J f ∧
    ((loadBonds J e f).2 = none ∨ (loadBonds J e f).2 = view J f) ∧ (e.read = false ∨ f = none ∧ e.create = false → (loadBonds J e f).2 = none) ∧
    (e.read = true → e.create = true → loadBonds J e f = (some (f.getD []), view J f)) := by
  cases f with
  | none =>
    cases hc : e.create <;> cases hr : e.read <;> simp [loadBonds, hc, hr, view, Env.fine]
  | some b =>
    cases hr : e.read
    · simp [loadBonds, hr]
    · have : loadBonds J e (some b) = loadBonds J Env.fine (some b) := by simp [loadBonds, hr, Env.fine]
      rw [this, load_fine]
      simp [view_some]

theorem torn_view (J : Json BondData) (m : List (Text × BondData)) (n : Nat) :
    view J (some ((J.enc m).take n)) = if n = 0 then some [] else if n < (J.enc m).length then none else view J (some (J.enc m)) := by
  have hpos : 0 < (J.enc m).length := List.length_pos_iff.2 (J.nonempty m)
  by_cases h0 : n = 0
  · subst h0; simp [view, loadBonds, Env.fine]
  · rw [if_neg h0]
    by_cases hn : n < (J.enc m).length
    · rw [if_pos hn]
      unfold view loadBonds
      have : ((J.enc m).take n).length > 0 := by rw [List.length_take]; omega
      simp only [Env.fine, if_true, this, J.cut m n hn]
    · rw [if_neg hn, List.take_of_length_le (by omega)]

end BondAux

/-- C57. A call that fails otherwise than in the middle of a write changes no bond, and `Save` and `Delete` then say that they failed. Missing: failures in the middle of a write (`bond_crash_loses`: false). -/
theorem bond_clean_failure_partial (J : Json BondData) (e : Env) (f : File) (o : Op) (he : e.read = false ∨ f = none ∧ e.create = false ∨ e.write = .refused) :
    SameBonds J (call J e f o).1 f ∧ (∀ a b, o = .save a b → Fails (call J e f o).2) ∧ (∀ a, o = .delete a → Fails (call J e f o).2) := by
  obtain ⟨l1, l2, l3, _⟩ := load_gen J e f
  have key : (loadBonds J e f).2 = none ∨ e.write = .refused := by
    rcases he with h | h | h
    · exact Or.inl (l3 (Or.inl h))
    · exact Or.inl (l3 (Or.inr h))
    · exact Or.inr h
  cases hl : loadBonds J e f with
  | mk f' om =>
    rw [hl] at l1 key
    simp only at l1 key
    have hs := same_of_view l1
    have hrefl : SameBonds J f f := fun _ => ⟨rfl, rfl⟩
    cases o with
    | exists_ a =>
      refine ⟨?_, by simp, by simp⟩
      simp only [call, existsBond, hl]
      split
      · exact hrefl
      · cases om <;> exact hs
    | find a =>
      refine ⟨?_, by simp, by simp⟩
      simp only [call, findBond, hl]
      split
      · exact hrefl
      · cases om with
        | none => exact hs
        | some m =>
          simp only
          have hw : e.write = .refused := by simpa using key
          cases m.lookup a with
          | none => exact hs
          | some d =>
            simp only
            cases createBondInfo d with
            | ok b => exact hs
            | err u => simp only [hw, writeFile]; exact hs
            | panic => exact hs
    | save a b =>
      have : (saveBond J e f a b).2 = .err () ∧ SameBonds J (saveBond J e f a b).1 f := by
        simp only [saveBond, hl]
        split
        · exact ⟨rfl, hrefl⟩
        · cases b with
          | none => exact ⟨rfl, hrefl⟩
          | some b =>
            cases om with
            | none => exact ⟨rfl, hs⟩
            | some m =>
              have hw : e.write = .refused := by simpa using key
              simp only [hw, writeFile]
              exact ⟨trivial, hs⟩
      exact ⟨this.2, fun _ _ _ => this.1, by simp⟩
    | delete a =>
      have : (deleteBond J e f a).2 = .err () ∧ SameBonds J (deleteBond J e f a).1 f := by
        simp only [deleteBond, hl]
        cases om with
        | none => exact ⟨rfl, hs⟩
        | some m =>
          have hw : e.write = .refused := by simpa using key
          simp only
          cases m.lookup a with
          | none => exact ⟨rfl, hs⟩
          | some d => simp only [hw, writeFile]; exact ⟨trivial, hs⟩
      exact ⟨this.2, by simp, fun _ _ => this.1⟩

/-- C57. An unreadable file is final: whatever calls follow, with whatever luck, every one fails and the file stays as it is. There is no call that repairs it. -/
theorem bond_unreadable_for_ever (J : Json BondData) (f : File) (hf : view J f = none) (os : List (Env × Op)) :
    (calls J f os).1 = f ∧ ∀ r ∈ (calls J f os).2, Fails r := by
  have hb : ∃ b, f = some b ∧ b.length > 0 ∧ J.dec b = none := by
    cases f with
    | none => simp [view, loadBonds, Env.fine] at hf
    | some b =>
      refine ⟨b, rfl, ?_⟩
      simp only [view, loadBonds, Env.fine, if_true] at hf
      split at hf
      · rename_i hl
        refine ⟨hl, ?_⟩
        cases hd : J.dec b with
        | none => rfl
        | some o => rw [hd] at hf; cases o <;> simp at hf
      · simp at hf
  obtain ⟨b, rfl, hl, hd⟩ := hb
  have hload : ∀ e, loadBonds J e (some b) = (some b, none) := by
    intro e
    simp only [loadBonds, hl, if_true, hd]
    split <;> rfl
  have hcall : ∀ e o, (call J e (some b) o).1 = some b ∧ Fails (call J e (some b) o).2 := by
    intro e o
    cases o with
    | exists_ a => simp only [call, existsBond, hload]; split <;> exact ⟨rfl, rfl⟩
    | find a => simp only [call, findBond, hload]; split <;> exact ⟨rfl, rfl⟩
    | save a x =>
      simp only [call, saveBond, hload]
      split
      · exact ⟨rfl, rfl⟩
      · cases x <;> exact ⟨rfl, rfl⟩
    | delete a => simp only [call, deleteBond, hload]; exact ⟨trivial, rfl⟩
  induction os with
  | nil => exact ⟨rfl, by simp [calls]⟩
  | cons x os ih =>
    obtain ⟨e, o⟩ := x
    simp only [calls]
    rw [(hcall e o).1]
    refine ⟨ih.1, fun r hr => ?_⟩
    rcases List.mem_cons.1 hr with rfl | hr
    · exact (hcall e o).2
    · exact ih.2 r hr

/-- C57. What an interruption of `Save` in the middle of the write leaves, for every point of interruption: nothing (all bonds are lost), or a store that never works again, or, if all was written, the new bonds. -/
theorem bond_torn_save (J : Json BondData) (os : List Op) (hk : KeysNotEmpty os) (addr : Text) (ha : strLen addr = 12) (b : Bond) (n : Nat) :
    let f := (calls J none (os.map fun o => (Env.fine, o))).1
    let f' := (saveBond J ⟨true, true, .torn n⟩ f addr (some b)).1
    (n = 0 → ∀ a, (findBond J Env.fine f' a).2 = .err () ∧ (existsBond J Env.fine f' a).2 = false) ∧
    (0 < n → (∀ os : List (Env × Op), ∀ r ∈ (calls J f' os).2, Fails r) ∨ SameBonds J f' (saveBond J Env.fine f addr (some b)).1) := by
  intro f
  obtain ⟨m, h1, _⟩ := (calls_holds J os none _ (holds_none J) hk).choose_spec.1
  have h1 : view J f = some m := h1
  have e1 : (saveBond J ⟨true, true, .torn n⟩ f addr (some b)).1 = some ((J.enc (put m addr (createBondData b))).take n) := by
    simp only [saveBond, ha, (load_gen J ⟨true, true, .torn n⟩ f).2.2.2 rfl rfl, h1]
    simp [writeFile]
  have e2 : (saveBond J Env.fine f addr (some b)).1 = some (J.enc (put m addr (createBondData b))) := by
    simp only [saveBond, ha, load_fine, h1]
    simp [Env.fine, writeFile]
  intro f'
  have hf' : f' = some ((J.enc (put m addr (createBondData b))).take n) := e1
  have ht := torn_view J (put m addr (createBondData b)) n
  rw [← hf'] at ht
  rw [e2]
  refine ⟨?_, ?_⟩
  · intro h0
    rw [if_pos h0] at ht
    have : SameBonds J f' none := same_of_view ht
    intro a
    rw [(this a).1, (this a).2]
    have hv : view J none = some [] := rfl
    constructor
    · unfold findBond
      simp only [load_fine, hv]
      split <;> rfl
    · unfold existsBond
      simp only [load_fine, hv]
      split <;> rfl
  · intro h0
    rw [if_neg (by omega)] at ht
    split at ht
    · exact Or.inl (fun os => (bond_unreadable_for_ever J f' ht os).2)
    · exact Or.inr (same_of_view ht)

/-- C57, negative: a crash while one bond is saved can lose the bonds of other peers. For every bond saved and every other address there is a point of interruption after which the first is gone, and one after which
the store never works again. -/
theorem bond_crash_loses (J : Json BondData) (addr other : Text) (ha : strLen addr = 12) (ho : strLen other = 12) (b c : Bond) (hb : b.ltk ≠ []) :
    let f := (calls J none [(Env.fine, .save addr (some b))]).1
    (findBond J Env.fine f addr).2 = .ok b ∧
    (findBond J Env.fine (saveBond J ⟨true, true, .torn 0⟩ f other (some c)).1 addr).2 = .err () ∧
    ∀ os : List (Env × Op), ∀ r ∈ (calls J (saveBond J ⟨true, true, .torn 1⟩ f other (some c)).1 os).2, Fails r := by
  have e0 : (calls J none [(Env.fine, .save addr (some b))]).1 = some (J.enc (put [] addr (createBondData b))) := by
    simp only [calls, call, saveBond, ha, load_fine, show view J none = some [] from rfl]
    simp [Env.fine, writeFile]
  intro f
  have hf : f = some (J.enc (put [] addr (createBondData b))) := e0
  obtain ⟨m, h1, h2⟩ := view_enc J (put [] addr (createBondData b))
  rw [← hf] at h1
  have e1 : ∀ n, (saveBond J ⟨true, true, .torn n⟩ f other (some c)).1 = some ((J.enc (put m other (createBondData c))).take n) := by
    intro n
    simp only [saveBond, ho, (load_gen J ⟨true, true, .torn n⟩ f).2.2.2 rfl rfl, h1]
    simp [writeFile]
  refine ⟨?_, ?_, ?_⟩
  · simp only [findBond, ha, load_fine, h1, h2, lookup_put]
    simp [createBondInfo_createBondData b hb]
  · rw [e1]
    simp [findBond, ha, loadBonds, Env.fine]
  · rw [e1]
    intro os
    refine (bond_unreadable_for_ever J _ ?_ os).2
    rw [torn_view, if_neg (by omega), if_pos (by have := J.braces (put m other (createBondData c)); omega)]

end Ble.Props
