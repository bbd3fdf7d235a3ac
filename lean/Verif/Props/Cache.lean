import Verif.Store.Cache
set_option autoImplicit false

/-!
# The profile cache (C44), and its behaviour under failures and crashes (C57)
-/

namespace Ble.Props

open Ble.Store

/-- What an application expects to be cached for an address: the first profile stored, or the last one stored with `replace`, since the cache was last cleared. -/
def storedProfile {α : Type} (mac : Text) : Option α → List (CacheOp α) → Option α
  | acc, [] => acc
  | acc, .store a (some p) replace :: os => storedProfile mac (if a = mac ∧ (acc = none ∨ replace = true) then some p else acc) os
  | acc, .store _ none _ :: os => storedProfile mac acc os
  | acc, .load _ :: os => storedProfile mac acc os
  | _, .clear :: os => storedProfile mac none os

namespace CacheAux

variable {α : Type} {J : Json α}

/-- The file holds this map. -/
def CHolds (J : Json α) (f : File) (g : Text → Option α) : Prop := ∃ m, loadExisting J CacheEnv.fine f = some (some m) ∧ ∀ a, m.lookup a = g a

theorem cholds_none : CHolds J none (fun _ => none) := ⟨[], rfl, fun _ => rfl⟩

theorem load_enc (m : List (Text × α)) : ∃ m', loadExisting J CacheEnv.fine (some (J.enc m)) = some (some m') ∧ ∀ k, m'.lookup k = m.lookup k := by
  obtain ⟨m', h1, h2⟩ := J.roundtrip m
  exact ⟨m', by simp [loadExisting, CacheEnv.fine, h1], h2⟩

theorem store_holds {f : File} {g : Text → Option α} (h : CHolds J f g) (a : Text) (p : Option α) (r : Bool) :
    CHolds J (cacheStore J CacheEnv.fine f a p r).1 (fun x => match p with | some p => if a = x ∧ (g x = none ∨ r = true) then some p else g x | none => g x) ∧
    (cacheStore J CacheEnv.fine f a p r).2 = (if p.isSome ∧ (g a = none ∨ r = true) then .ok () else .err ()) := by
  obtain ⟨m, h1, h2⟩ := id h
  simp only [cacheStore, h1, Option.getD_some, h2]
  by_cases hc : (g a).isSome && !r
  · rw [if_pos hc]
    simp only [Bool.and_eq_true, Bool.not_eq_true'] at hc
    obtain ⟨v, hv⟩ := Option.isSome_iff_exists.1 hc.1
    constructor
    · have : (fun x => match p with | some p => if a = x ∧ (g x = none ∨ r = true) then some p else g x | none => g x) = g := by
        funext x
        cases p with
        | none => rfl
        | some p =>
          simp only
          rw [if_neg]
          rintro ⟨rfl, hh⟩
          simp [hv, hc.2] at hh
      rw [this]; exact h
    · rw [if_neg]
      rintro ⟨_, hh⟩
      simp [hv, hc.2] at hh
  · rw [if_neg hc]
    have hc' : g a = none ∨ r = true := by
      cases hg : g a <;> cases r <;> simp_all
    cases p with
    | none => exact ⟨h, by simp⟩
    | some p =>
      simp only [CacheEnv.fine, writeFile]
      refine ⟨?_, by simp [hc']⟩
      obtain ⟨m', h3, h4⟩ := load_enc (J := J) (put m a p)
      refine ⟨m', h3, fun x => ?_⟩
      rw [h4, lookup_put, h2]
      by_cases hx : x = a
      · subst hx; simp [hc']
      · simp only
        rw [if_neg hx, if_neg (fun hh => hx hh.1.symm)]

theorem clear_holds (f : File) : CHolds J (cacheClear CacheEnv.fine f).1 (fun _ => none) := by
  cases f with
  | none => exact cholds_none
  | some b => exact cholds_none

theorem calls_cholds (J : Json α) : ∀ (os : List (CacheOp α)) (f : File) (g : Text → Option α), CHolds J f g →
    CHolds J (cacheCalls J f (os.map fun o => (CacheEnv.fine, o))) (fun a => storedProfile a (g a) os) := by
  intro os
  induction os with
  | nil => intro f g h; exact h
  | cons o os ih =>
    intro f g h
    simp only [List.map_cons, cacheCalls]
    cases o with
    | store a p r =>
      have := ih _ _ (store_holds h a p r).1
      cases p with
      | none => exact this
      | some p => exact this
    | load a => exact ih f g h
    | clear => exact ih _ _ (clear_holds f)

theorem load_result {f : File} {g : Text → Option α} (h : CHolds J f g) (a : Text) : cacheLoad J CacheEnv.fine f a = (match g a with | some p => .ok p | none => .err ()) := by
  obtain ⟨m, h1, h2⟩ := h
  simp only [cacheLoad, h1, Option.getD_some, h2]
  cases g a <;> rfl

end CacheAux

open CacheAux

variable {α : Type}

/-- C44. After every history of calls on a new cache without file errors, for every address: `Load` returns what is expected to be cached, or an error if nothing is; `Store` succeeds exactly if nothing is cached for
the address or `replace` is set (and the profile can be written as JSON), and `Store` never crashes. -/
theorem cache_is_map (J : Json α) (os : List (CacheOp α)) (mac : Text) (p : Option α) (replace : Bool) :
    let f := cacheCalls J none (os.map fun o => (CacheEnv.fine, o))
    cacheLoad J CacheEnv.fine f mac = (match storedProfile mac none os with | some p => .ok p | none => .err ()) ∧
    (cacheStore J CacheEnv.fine f mac p replace).2 = (if p.isSome ∧ (storedProfile mac none os = none ∨ replace = true) then .ok () else .err ()) := by
  intro f
  have h := calls_cholds J os none _ cholds_none
  exact ⟨load_result h mac, (store_holds h mac p replace).2⟩

/-- C44. What `storedProfile` says in terms of single calls: `Load` after a successful `Store` returns the stored profile, also after calls for other addresses. -/
theorem cache_load_after_store (J : Json α) (os : List (CacheOp α)) (mac other : Text) (p q : α) (r r' : Bool) (hne : other ≠ mac)
    (hok : (cacheStore J CacheEnv.fine (cacheCalls J none (os.map fun o => (CacheEnv.fine, o))) mac (some p) r).2 = .ok ()) :
    cacheLoad J CacheEnv.fine (cacheCalls J none ((os ++ [CacheOp.store mac (some p) r, CacheOp.store other (some q) r', CacheOp.load mac]).map fun o => (CacheEnv.fine, o))) mac = .ok p := by
  have hsnoc : ∀ (os ps : List (CacheOp α)) (acc : Option α), storedProfile mac acc (os ++ ps) = storedProfile mac (storedProfile mac acc os) ps := by
    intro os
    induction os with
    | nil => intro ps acc; rfl
    | cons o os ih =>
      intro ps acc
      cases o with
      | store a p r => cases p <;> simp only [List.cons_append, storedProfile, ih]
      | load a => simp only [List.cons_append, storedProfile, ih]
      | clear => simp only [List.cons_append, storedProfile, ih]
  rw [(cache_is_map J _ mac none false).1, hsnoc]
  rw [(cache_is_map J os mac (some p) r).2] at hok
  have hc : storedProfile mac none os = none ∨ r = true := by
    refine Classical.byContradiction fun hh => ?_
    rw [if_neg (fun h => hh h.2)] at hok
    simp at hok
  simp only [storedProfile, hc, hne, true_and, false_and, if_true, if_false]

/-- C44. Storing without `replace` over a cached profile is an error and changes nothing. -/
theorem cache_no_overwrite (J : Json α) (os : List (CacheOp α)) (mac : Text) (p : α) (q : Option α) (h : storedProfile mac none os = some p) :
    let f := cacheCalls J none (os.map fun o => (CacheEnv.fine, o))
    cacheStore J CacheEnv.fine f mac q false = (f, .err ()) := by
  intro f
  obtain ⟨m, h1, h2⟩ := calls_cholds J os none _ cholds_none
  have h1 : loadExisting J CacheEnv.fine f = some (some m) := h1
  simp only [cacheStore, h1, Option.getD_some, h2, h]
  rfl

/-- C57, the cache: an interruption in the middle of a write leaves all new profiles (if everything was written), or a file with which every `Load` and `Store` fails, whatever the file system does; no profile is read wrongly or silently missing.
`Clear` then makes the cache work again. -/
theorem cache_torn (J : Json α) (os : List (CacheOp α)) (mac : Text) (p : α) (replace : Bool) (hrep : storedProfile mac none os = none ∨ replace = true) (n : Nat) :
    let f := cacheCalls J none (os.map fun o => (CacheEnv.fine, o))
    let f' := (cacheStore J ⟨true, .torn n, true⟩ f mac (some p) replace).1
    (f' = (cacheStore J CacheEnv.fine f mac (some p) replace).1 ∨
      ∀ e a q r, cacheLoad J e f' a = .err () ∧ cacheStore J e f' a q r = (f', .err ())) ∧
    (cacheClear CacheEnv.fine f').2 = .ok () ∧ ∀ (q : α), (cacheStore J CacheEnv.fine (cacheClear CacheEnv.fine f').1 mac (some q) false).2 = .ok () := by
  intro f
  obtain ⟨m, h1, h2⟩ := calls_cholds J os none _ cholds_none
  have h1 : loadExisting J CacheEnv.fine f = some (some m) := h1
  have h1' : loadExisting J ⟨true, .torn n, true⟩ f = some (some m) := h1
  have hcond : ¬ (((m.lookup mac).isSome && !replace) = true) := by
    rw [h2 mac]
    rcases hrep with h | h
    · simp only [h]; simp
    · rw [h]; simp
  have e1 : (cacheStore J ⟨true, .torn n, true⟩ f mac (some p) replace).1 = some ((J.enc (put m mac p)).take n) := by
    simp only [cacheStore, h1', Option.getD_some, if_neg hcond, writeFile]
  have e2 : (cacheStore J CacheEnv.fine f mac (some p) replace).1 = some (J.enc (put m mac p)) := by
    simp only [cacheStore, h1, Option.getD_some, if_neg hcond]
    simp [CacheEnv.fine, writeFile]
  simp only [e1, e2]
  refine ⟨?_, rfl, fun q => ?_⟩
  · by_cases hn : n < (J.enc (put m mac p)).length
    · right
      intro e a q r
      have : loadExisting J e (some ((J.enc (put m mac p)).take n)) = none := by
        simp [loadExisting, J.cut _ n hn]
      simp [cacheLoad, cacheStore, this]
    · left
      rw [List.take_of_length_le (by omega)]
  · simp [cacheClear, CacheEnv.fine, cacheStore, loadExisting, writeFile]

/-- A file with the text `null`, which this program never writes, makes `Store` crash. -/
theorem cache_null_crashes (J : Json α) (b : Bytes) (h : J.dec b = some none) (mac : Text) (p : Option α) (replace : Bool) :
    (cacheStore J CacheEnv.fine (some b) mac p replace).2 = .panic := by
  simp [cacheStore, loadExisting, CacheEnv.fine, h]

/-- C44, C58, the result of `Clear`: it is nil exactly when there was a file and the system removed it, and then no profile is found any more; after an error the file is as before. -/
theorem cache_clear_result {α : Type} (J : Json α) (e : CacheEnv) (f : File) :
    ((cacheClear e f).2 = .ok () ∧ f.isSome = true ∧ e.remove = true ∧ (cacheClear e f).1 = none ∧ ∀ e' mac, cacheLoad J e' (cacheClear e f).1 mac = .err ()) ∨
    ((cacheClear e f).2 = .err () ∧ (f = none ∨ e.remove = false) ∧ (cacheClear e f).1 = f) := by
  cases f with
  | none => right; exact ⟨rfl, .inl rfl, rfl⟩
  | some b =>
    cases h : e.remove with
    | true =>
      left
      refine ⟨by simp [cacheClear, h], rfl, rfl, by simp [cacheClear, h], fun e' mac => ?_⟩
      simp [cacheClear, h, cacheLoad, loadExisting]
    | false => right; exact ⟨by simp [cacheClear, h], .inr rfl, by simp [cacheClear, h]⟩

end Ble.Props
