import Verif.Props.Bond
set_option autoImplicit false

/-!
# The bond store in all histories with failures and crashes (C168)
-/

namespace Ble.Props

open Ble.Store BondAux

/-- The store works during a call. -/
def Works (e : Env) : Prop := e.read = true ∧ e.write = .done

/-- The call is about this address and changes its bond. -/
def Touches (addr : Text) : Op → Prop
  | .save a (some _) => a = addr
  | .delete a => a = addr
  | _ => False

namespace BondFailAux

theorem calls_append (J : Json BondData) (f : File) (as bs : List (Env × Op)) : (calls J f (as ++ bs)).1 = (calls J (calls J f as).1 bs).1 := by
  induction as generalizing f with
  | nil => rfl
  | cons x as ih => obtain ⟨e, o⟩ := x; simp only [List.cons_append, calls]; exact ih _

/-- What is loaded. -/
theorem load_cases {J : Json BondData} {f : File} {m : List (Text × BondData)} (e : Env) (hv : view J f = some m) :
    (loadBonds J e f).1 ≠ none ∧ (loadBonds J e f).2 = some m ∨ (loadBonds J e f).2 = none ∧ (e.read = false ∨ f = none ∧ e.create = false) := by
  cases f with
  | none =>
    cases hc : e.create <;> cases hr : e.read <;> simp [loadBonds, hc, hr, view, Env.fine] at hv ⊢
    exact hv
  | some b =>
    cases hr : e.read
    · simp [loadBonds, hr]
    · left
      have : loadBonds J e (some b) = loadBonds J Env.fine (some b) := by simp [loadBonds, hr, Env.fine]
      rw [this, load_fine]
      exact ⟨by simp, hv⟩

/-- What becomes of a write. -/
theorem write_cases {J : Json BondData} {g g' : Text → Option Bond} {f : File} {m : List (Text × BondData)} (w : Write) (hf : Holds J f g) (hg : Holds J (some (J.enc m)) g') :
    (Holds J (writeFile w f (J.enc m)).1 g' ∧ (w = .done ∨ ∃ n, w = .torn n)) ∨ (Holds J (writeFile w f (J.enc m)).1 g ∧ w = .refused) ∨
    (Holds J (writeFile w f (J.enc m)).1 (fun _ => none) ∧ w = .torn 0) ∨ (view J (writeFile w f (J.enc m)).1 = none ∧ ∃ n, 0 < n ∧ w = .torn n) := by
  cases w with
  | done => exact .inl ⟨hg, .inl rfl⟩
  | refused => exact .inr (.inl ⟨hf, rfl⟩)
  | torn n =>
    have ht := torn_view J m n
    by_cases h0 : n = 0
    · subst h0
      rw [if_pos rfl] at ht
      exact .inr (.inr (.inl ⟨⟨[], ht, fun _ => .inl ⟨rfl, rfl⟩⟩, rfl⟩))
    · rw [if_neg h0] at ht
      split at ht
      · exact .inr (.inr (.inr ⟨ht, n, by omega, rfl⟩))
      · refine .inl ⟨?_, .inr ⟨n, rfl⟩⟩
        obtain ⟨m', h1, h2⟩ := hg
        exact ⟨m', ht.trans h1, h2⟩

theorem writeFile_ne (w : Write) {f : File} (h : f ≠ none) (out : Bytes) : (writeFile w f out).1 ≠ none := by
  cases w <;> simp [writeFile, h]

theorem load_ne {J : Json BondData} (e : Env) {f : File} (h : f ≠ none) : (loadBonds J e f).1 ≠ none := by
  cases f with
  | none => exact absurd rfl h
  | some b =>
    simp only [loadBonds]
    split
    · split
      · split <;> simp
      · simp
    · simp

theorem call_ne {J : Json BondData} (e : Env) {f : File} (h : f ≠ none) (o : Op) : (call J e f o).1 ≠ none := by
  have hl := load_ne (J := J) e h
  cases o with
  | exists_ a =>
    simp only [call, existsBond]
    split
    · exact h
    · cases hx : loadBonds J e f with
      | mk f' om => rw [hx] at hl; cases om <;> exact hl
  | find a =>
    simp only [call, findBond]
    split
    · exact h
    · cases hx : loadBonds J e f with
      | mk f' om =>
        rw [hx] at hl
        cases om with
        | none => exact hl
        | some m =>
          simp only
          cases m.lookup a with
          | none => exact hl
          | some d => simp only; cases createBondInfo d <;> first | exact hl | exact writeFile_ne _ hl _
  | save a b =>
    simp only [call, saveBond]
    split
    · exact h
    · cases b with
      | none => exact h
      | some b =>
        cases hx : loadBonds J e f with
        | mk f' om =>
          rw [hx] at hl
          cases om with
          | none => exact hl
          | some m =>
            simp only
            have := writeFile_ne e.write hl (J.enc (put m a (createBondData b)))
            cases hw : writeFile e.write f' (J.enc (put m a (createBondData b))) with
            | mk f'' ok => rw [hw] at this; cases ok <;> exact this
  | delete a =>
    simp only [call, deleteBond]
    cases hx : loadBonds J e f with
    | mk f' om =>
      rw [hx] at hl
      cases om with
      | none => exact hl
      | some m =>
        simp only
        cases m.lookup a with
        | none => exact hl
        | some d =>
          simp only
          have := writeFile_ne e.write hl (J.enc (del m a))
          cases hw : writeFile e.write f' (J.enc (del m a)) with
          | mk f'' ok => rw [hw] at this; cases ok <;> exact this

theorem holds_view {J : Json BondData} {f f' : File} {g : Text → Option Bond} (h : Holds J f g) (hv : view J f' = view J f) : Holds J f' g := by
  obtain ⟨m, h1, h2⟩ := h
  exact ⟨m, hv.trans h1, h2⟩

/-- The four things that can happen to the file in a call. -/
theorem call_any {J : Json BondData} {f : File} {g : Text → Option Bond} (h : Holds J f g) (e : Env) (o : Op) (ho : ∀ a b, o = .save a (some b) → b.ltk ≠ []) :
    (Holds J (call J e f o).1 (after g o)) ∨ (Holds J (call J e f o).1 g ∧ (e.read = false ∨ (f = none ∧ e.create = false) ∨ e.write = .refused)) ∨
    (Holds J (call J e f o).1 (fun _ => none) ∧ e.write = .torn 0 ∧ ∃ a, Touches a o) ∨ (view J (call J e f o).1 = none ∧ (∃ n, 0 < n ∧ e.write = .torn n) ∧ ∃ a, Touches a o) := by
  obtain ⟨m, hv, hm⟩ := id h
  have hl := load_cases (J := J) e hv
  have hl' : Holds J (loadBonds J e f).1 g := holds_view h (load_gen J e f).1
  cases hx : loadBonds J e f with
  | mk f' om =>
    rw [hx] at hl hl'
    simp only at hl hl'
    cases o with
    | exists_ a =>
      left
      simp only [call, existsBond, hx, after]
      split
      · exact h
      · cases om <;> exact hl'
    | find a =>
      left
      simp only [call, findBond, hx, after]
      split
      · exact h
      · cases om with
        | none => exact hl'
        | some m' =>
          simp only
          have hmm : m' = m := by
            rcases hl with ⟨_, hl⟩ | ⟨hl, _⟩
            · exact Option.some.inj hl
            · simp at hl
          rw [hmm]
          rcases hm a with ⟨_, h2⟩ | ⟨d, b, _, h2, h3, _⟩
          · rw [h2]; exact hl'
          · rw [h2]; simp only [h3]; exact hl'
    | save a b =>
      simp only [call, saveBond, hx]
      by_cases ha : strLen a = 12
      · rw [if_neg (by simp [ha])]
        cases b with
        | none => exact .inl h
        | some b =>
          simp only
          rcases hl with ⟨hne, hl⟩ | ⟨hl, hf⟩
          · subst hl
            simp only
            have := write_cases e.write hl' (holds_put hv hm a b ha (ho a b rfl))
            cases hw : writeFile e.write f' (J.enc (put m a (createBondData b))) with
            | mk f'' ok =>
              rw [hw] at this
              cases ok <;> rcases this with t | t | t | t <;>
                first | exact .inl t.1 | exact .inr (.inl ⟨t.1, .inr (.inr t.2)⟩) | exact .inr (.inr (.inl ⟨t.1, t.2, a, rfl⟩)) | exact .inr (.inr (.inr ⟨t.1, t.2, a, rfl⟩))
          · subst hl
            exact .inr (.inl ⟨hl', hf.imp id .inl⟩)
      · rw [if_pos ha]
        left
        have : after g (.save a b) = g := by
          cases b with
          | none => rfl
          | some b => funext x; simp [after, ha]
        rw [this]; exact h
    | delete a =>
      simp only [call, deleteBond, hx]
      rcases hl with ⟨hne, hl⟩ | ⟨hl, hf⟩
      · subst hl
        simp only
        cases hk : m.lookup a with
        | none =>
          left
          have : after g (.delete a) = g := by
            funext x
            simp only [after]
            split
            · rename_i hxa
              rcases hm a with ⟨h1, _⟩ | ⟨d, b, _, h2, _⟩
              · rw [hxa]; exact h1.symm
              · rw [hk] at h2; simp at h2
            · rfl
          rw [this]; exact hl'
        | some d =>
          simp only
          have := write_cases e.write hl' (holds_del (J := J) hm a)
          cases hw : writeFile e.write f' (J.enc (del m a)) with
          | mk f'' ok =>
            rw [hw] at this
            cases ok <;> rcases this with t | t | t | t <;>
              first | exact .inl t.1 | exact .inr (.inl ⟨t.1, .inr (.inr t.2)⟩) | exact .inr (.inr (.inl ⟨t.1, t.2, a, rfl⟩)) | exact .inr (.inr (.inr ⟨t.1, t.2, a, rfl⟩))
      · subst hl
        exact .inr (.inl ⟨hl', hf.imp id .inl⟩)

/-- What `Find` returns, if it returns a bond. -/
theorem find_any {J : Json BondData} {f : File} {g : Text → Option Bond} (h : Holds J f g) (e : Env) (a : Text) :
    (∀ b, (findBond J e f a).2 = .ok b → g a = some b) ∧ (e.read = true → f ≠ none → ∀ b, g a = some b → (findBond J e f a).2 = .ok b) := by
  obtain ⟨m, hv, hm⟩ := id h
  have hl := load_cases (J := J) e hv
  cases hx : loadBonds J e f with
  | mk f' om =>
    rw [hx] at hl
    simp only at hl
    simp only [findBond, hx]
    constructor
    · intro b hb
      split at hb
      · simp at hb
      · rcases hl with ⟨_, hl⟩ | ⟨hl, _⟩
        · subst hl
          simp only at hb
          rcases hm a with ⟨_, h2⟩ | ⟨d, b', h1, h2, h3, _⟩
          · rw [h2] at hb; simp at hb
          · rw [h2] at hb; simp only [h3] at hb
            rw [h1]; simpa using hb
        · subst hl; simp at hb
    · intro hr hf b hb
      rcases hm a with ⟨h1, _⟩ | ⟨d, b', h1, h2, h3, h4⟩
      · rw [hb] at h1; simp at h1
      · rw [if_neg (by simp [h4])]
        rcases hl with ⟨_, hl⟩ | ⟨_, hl⟩
        · subst hl
          simp only [h2, h3]
          rw [hb] at h1; rw [Option.some.inj h1]
        · rcases hl with hl | ⟨hl, _⟩
          · rw [hr] at hl; simp at hl
          · exact absurd hl hf

theorem unreadable_find {J : Json BondData} {f : File} (h : view J f = none) (e : Env) (a : Text) (b : Bond) : (findBond J e f a).2 ≠ .ok b := by
  have := (bond_unreadable_for_ever J f h [(e, .find a)]).2 (.bond (findBond J e f a).2) (by simp [calls, call])
  simp only [Fails] at this
  rw [this]; simp

/-- Where a bond in the store comes from. -/
def Origin (os : List (Env × Op)) (a : Text) (b : Bond) : Prop :=
  ∃ pre e post, os = pre ++ (e, .save a (some b)) :: post ∧ ∀ x ∈ post, Works x.1 → ¬ Touches a x.2

theorem origin_snoc {os : List (Env × Op)} {a : Text} {b : Bond} (h : Origin os a b) (x : Env × Op) (hx : Works x.1 → ¬ Touches a x.2) : Origin (os ++ [x]) a b := by
  obtain ⟨pre, e, post, h1, h2⟩ := h
  refine ⟨pre, e, post ++ [x], by simp [h1], ?_⟩
  intro y hy
  rcases List.mem_append.1 hy with hy | hy
  · exact h2 y hy
  · rw [List.mem_singleton.1 hy]; exact hx

theorem inv (J : Json BondData) (r : List (Env × Op)) (hk : KeysNotEmpty (r.map Prod.snd)) :
    view J (calls J none r.reverse).1 = none ∨ ∃ g, Holds J (calls J none r.reverse).1 g ∧ (∀ a b, g a = some b → Origin r.reverse a b) ∧ ((calls J none r.reverse).1 = none → ∀ a, g a = none) := by
  induction r with
  | nil => exact .inr ⟨_, holds_none J, by simp, by simp⟩
  | cons x r ih =>
    have ih := ih (fun a b h => hk a b (by simp only [List.map_cons, List.mem_cons]; exact .inr h))
    obtain ⟨e, o⟩ := x
    have ho : ∀ a b, o = .save a (some b) → b.ltk ≠ [] := fun a b h => hk a b (by simp [h])
    rw [List.reverse_cons, calls_append]
    show view J (call J e (calls J none r.reverse).1 o).1 = none ∨ _
    have hshow : (calls J (calls J none r.reverse).1 [(e, o)]).1 = (call J e (calls J none r.reverse).1 o).1 := rfl
    rw [hshow]
    generalize (calls J none r.reverse).1 = f at *
    rcases ih with hf | ⟨g, hg, horig, hnone⟩
    · left
      have := (bond_unreadable_for_ever J f hf [(e, o)]).1
      simp only [calls] at this
      rw [this]; exact hf
    · have hgnone : f = none → g = fun _ => none := fun h => funext (hnone h)
      have stay : ∀ (g' : Text → Option Bond), (∀ a b, g' a = some b → Origin (r.reverse ++ [(e, o)]) a b) → Holds J (call J e f o).1 g' →
          view J (call J e f o).1 = none ∨ ∃ g, Holds J (call J e f o).1 g ∧ (∀ a b, g a = some b → Origin (r.reverse ++ [(e, o)]) a b) ∧ ((call J e f o).1 = none → ∀ a, g a = none) := by
        intro g' ho' hh
        refine .inr ⟨g', hh, ho', fun hn a => ?_⟩
        obtain ⟨m, h1, h2⟩ := hh
        rw [hn] at h1
        have : m = [] := by simpa [view, loadBonds, Env.fine] using h1.symm
        rcases h2 a with ⟨h3, _⟩ | ⟨d, b, _, h3, _⟩
        · exact h3
        · rw [this] at h3; simp at h3
      rcases call_any hg e o ho with hh | ⟨hh, hw⟩ | ⟨hh, _⟩ | ⟨hh, _⟩
      · refine stay _ ?_ hh
        intro a b hab
        cases o with
        | exists_ _ => exact origin_snoc (horig a b hab) _ (by simp [Touches])
        | find _ => exact origin_snoc (horig a b hab) _ (by simp [Touches])
        | save c bo =>
          cases bo with
          | none => exact origin_snoc (horig a b hab) _ (by simp [Touches])
          | some b' =>
            simp only [after] at hab
            split at hab
            · rename_i hc
              refine ⟨r.reverse, e, [], ?_, by simp⟩
              rw [hc.1, ← Option.some.inj hab]
            · rename_i hc
              by_cases hac : a = c
              · exfalso
                subst hac
                obtain ⟨m, _, hm⟩ := hg
                rcases hm a with ⟨h1, _⟩ | ⟨_, _, _, _, _, h4⟩
                · rw [hab] at h1; simp at h1
                · exact hc ⟨rfl, h4⟩
              · exact origin_snoc (horig a b hab) _ (fun _ => by simp only [Touches]; exact fun h => hac h.symm)
        | delete c =>
          simp only [after] at hab
          split at hab
          · simp at hab
          · rename_i hac
            exact origin_snoc (horig a b hab) _ (fun _ => by simp only [Touches]; exact fun h => hac h.symm)
      · refine stay g ?_ hh
        intro a b hab
        refine origin_snoc (horig a b hab) _ (fun hwk => ?_)
        exfalso
        rcases hw with hw | ⟨hw, _⟩ | hw
        · have := hwk.1; rw [hw] at this; simp at this
        · rw [hgnone hw] at hab; simp at hab
        · have := hwk.2; rw [hw] at this; simp at this
      · exact stay _ (by simp) hh
      · exact .inl hh

end BondFailAux

open BondFailAux

/-- **C168.** Whatever fails and wherever calls are interrupted: a bond that `Find` returns was saved for this address, by a call of `Save` (that may have been interrupted) after which no call that worked has saved or deleted a bond of this
address. Never the bond of another peer, never an older one, never a mixture. -/
theorem bond_found_was_saved (J : Json BondData) (os : List (Env × Op)) (hk : KeysNotEmpty (os.map Prod.snd)) (e : Env) (addr : Text) (b : Bond)
    (hf : (findBond J e (calls J none os).1 addr).2 = .ok b) :
    ∃ pre es post, os = pre ++ (es, .save addr (some b)) :: post ∧ ∀ x ∈ post, Works x.1 → ¬ Touches addr x.2 := by
  have h := inv J os.reverse (by intro a b h; exact hk a b (by simpa using h))
  rw [List.reverse_reverse] at h
  rcases h with h | ⟨g, hg, ho, _⟩
  · exact absurd hf (unreadable_find h e addr b)
  · exact ho addr b ((find_any hg e addr).1 b hf)

/-- **C168.** A bond stays: after a `Save` that returned nil, in a history with any failures, `Find` returns the bond whenever the file can be read, until the next `Save` or `Delete` of the address, provided no write was interrupted in
the middle since. -/
theorem bond_durable (J : Json BondData) (pre post : List (Env × Op)) (es e : Env) (addr : Text) (b : Bond) (hk : KeysNotEmpty ((pre ++ (es, Op.save addr (some b)) :: post).map Prod.snd))
    (hs : (saveBond J es (calls J none pre).1 addr (some b)).2 = .ok ()) (hp : ∀ x ∈ post, ¬ Touches addr x.2 ∧ ∀ n, x.1.write ≠ .torn n) (hr : e.read = true) :
    (findBond J e (calls J none (pre ++ (es, .save addr (some b)) :: post)).1 addr).2 = .ok b := by
  have hpre := inv J pre.reverse (by intro a b h; exact hk a b (by simp only [List.map_append, List.mem_append]; exact .inl (by simpa using h)))
  rw [List.reverse_reverse] at hpre
  have hkb : b.ltk ≠ [] := hk addr b (by simp)
  rw [calls_append]
  show (findBond J e (calls J (call J es (calls J none pre).1 (.save addr (some b))).1 post).1 addr).2 = _
  generalize (calls J none pre).1 = f at *
  have hsave : ∃ g, Holds J (call J es f (.save addr (some b))).1 g ∧ g addr = some b ∧ (call J es f (.save addr (some b))).1 ≠ none := by
    rcases hpre with h | ⟨g, hg, _, _⟩
    · have := (bond_unreadable_for_ever J f h [(es, .save addr (some b))]).2 (.done (saveBond J es f addr (some b)).2) (by simp [calls, call])
      simp only [Fails] at this
      rw [this] at hs; simp at hs
    · obtain ⟨m, hv, hm⟩ := id hg
      have hl := load_cases (J := J) es hv
      simp only [call]
      simp only [saveBond] at hs ⊢
      split at hs
      · simp at hs
      · rename_i ha
        have ha : strLen addr = 12 := by omega
        cases hx : loadBonds J es f with
        | mk f' om =>
          rw [hx] at hl hs
          simp only at hl hs
          rcases hl with ⟨_, hl⟩ | ⟨hl, _⟩
          · subst hl
            simp only at hs
            cases hw : es.write with
            | done =>
              rw [if_neg (by simp [ha])]
              simp only [writeFile]
              exact ⟨_, holds_put hv hm addr b ha hkb, by simp [after, ha], by simp⟩
            | refused => rw [hw] at hs; simp [writeFile] at hs
            | torn n => rw [hw] at hs; simp [writeFile] at hs
          · subst hl; simp at hs
  generalize (call J es f (.save addr (some b))).1 = f1 at *
  obtain ⟨g, hg, hgb, hne⟩ := hsave
  have hkp : KeysNotEmpty (post.map Prod.snd) := fun a b h => hk a b (by simp only [List.map_append, List.map_cons, List.mem_append, List.mem_cons]; exact .inr (.inr h))
  clear hk hs hpre
  have main : ∀ (post : List (Env × Op)) (f1 : File) (g : Text → Option Bond), Holds J f1 g → g addr = some b → f1 ≠ none → (∀ x ∈ post, ¬ Touches addr x.2 ∧ ∀ n, x.1.write ≠ .torn n) → KeysNotEmpty (post.map Prod.snd) →
      (findBond J e (calls J f1 post).1 addr).2 = .ok b := by
    intro post
    induction post with
    | nil => intro f1 g hg hgb hne _ _; exact (find_any hg e addr).2 hr hne b hgb
    | cons x post ih =>
      intro f1 g hg hgb hne hp hk
      obtain ⟨e', o⟩ := x
      have hx := hp (e', o) (by simp)
      simp only [calls]
      have ho : ∀ a b, o = .save a (some b) → b.ltk ≠ [] := fun a b h => hk a b (by simp [h])
      have step : ∃ g', Holds J (call J e' f1 o).1 g' ∧ g' addr = some b := by
        rcases call_any hg e' o ho with hh | ⟨hh, _⟩ | ⟨_, hh, _⟩ | ⟨_, ⟨n, _, hh⟩, _⟩
        · refine ⟨_, hh, ?_⟩
          cases o with
          | exists_ _ => exact hgb
          | find _ => exact hgb
          | save c bo =>
            cases bo with
            | none => exact hgb
            | some b' =>
              simp only [after]
              rw [if_neg]
              · exact hgb
              · intro hh; exact hx.1 (show c = addr from hh.1.symm)
          | delete c =>
            simp only [after]
            rw [if_neg]
            · exact hgb
            · intro hh; exact hx.1 (show c = addr from hh.symm)
        · exact ⟨g, hh, hgb⟩
        · exact absurd hh (hx.2 0)
        · exact absurd hh (hx.2 n)
      obtain ⟨g', h1, h2⟩ := step
      exact ih _ g' h1 h2 (call_ne e' hne o) (fun y hy => hp y (by simp [hy])) (fun a b h => hk a b (by simp only [List.map_cons, List.mem_cons]; exact .inr h))
  exact main post f1 g hg hgb hne hp hkp

/-- **C168.** Exactly what a call can do to the bonds, in every history: what it would do without failures; nothing, and then because the file could not be read or made, or the write was refused; and if a write is interrupted in the middle,
which only calls of `Save` and `Delete` can be, it may leave no bond at all (nothing was written after the truncation) or a store that never works again (a part was written). -/
theorem bond_call_outcomes (J : Json BondData) (os : List (Env × Op)) (hk : KeysNotEmpty (os.map Prod.snd)) (e : Env) (o : Op) (ho : ∀ a b, o = .save a (some b) → b.ltk ≠ []) :
    let f := (calls J none os).1
    let f' := (call J e f o).1
    (∀ a, (findBond J Env.fine f' a).2 = (findBond J Env.fine (call J Env.fine f o).1 a).2) ∨
    ((∀ a, (findBond J Env.fine f' a).2 = (findBond J Env.fine f a).2) ∧ (e.read = false ∨ (f = none ∧ e.create = false) ∨ e.write = .refused)) ∨
    ((∀ a, (findBond J Env.fine f' a).2 = .err ()) ∧ e.write = .torn 0 ∧ ∃ a, Touches a o) ∨
    ((∀ os', ∀ r ∈ (calls J f' os').2, Fails r) ∧ (∃ n, 0 < n ∧ e.write = .torn n) ∧ ∃ a, Touches a o) := by
  intro f f'
  have h := inv J os.reverse (by intro a b h; exact hk a b (by simpa using h))
  rw [List.reverse_reverse] at h
  have same : ∀ {f1 f2 : File} {g : Text → Option Bond}, Holds J f1 g → Holds J f2 g → ∀ a, (findBond J Env.fine f1 a).2 = (findBond J Env.fine f2 a).2 :=
    fun h1 h2 a => (call_find h1 a).2.trans (call_find h2 a).2.symm
  rcases h with h | ⟨g, hg, _⟩
  · left
    intro a
    have h1 := (bond_unreadable_for_ever J f h [(e, o)]).1
    have h2 := (bond_unreadable_for_ever J f h [(Env.fine, o)]).1
    simp only [calls] at h1 h2
    show (findBond J Env.fine (call J e f o).1 a).2 = _
    rw [h1, h2]
  · have hg : Holds J f g := hg
    rcases call_any hg e o ho with hh | ⟨hh, hw⟩ | ⟨hh, hw⟩ | ⟨hh, hw⟩
    · exact .inl (same hh (call_holds hg o ho))
    · exact .inr (.inl ⟨same hh hg, hw⟩)
    · refine .inr (.inr (.inl ⟨fun a => ?_, hw⟩))
      have := (call_find hh a).2
      simpa using this
    · exact .inr (.inr (.inr ⟨fun os' => (bond_unreadable_for_ever J _ hh os').2, hw⟩))

/-- The hypotheses are met: a bond is saved, another `Save` is refused by the file system, a third one cannot read, and the first bond is still found. -/
theorem example_durable (J : Json BondData) (addr other : Text) (ha : strLen addr = 12) (hne : other ≠ addr) (b c : Bond) (hb : b.ltk ≠ []) (hc : c.ltk ≠ []) :
    (findBond J Env.fine (calls J none [(Env.fine, .save addr (some b)), (⟨true, true, .refused⟩, .save other (some c)), (⟨true, false, .done⟩, .save other (some c))]).1 addr).2 = .ok b := by
  apply bond_durable J [] _ Env.fine Env.fine addr b
  · intro a x hx
    simp at hx
    rcases hx with ⟨_, rfl⟩ | ⟨_, rfl⟩ <;> assumption
  · simp [saveBond, ha, calls, loadBonds, Env.fine, writeFile]
  · intro x hx
    simp at hx
    rcases hx with rfl | rfl <;> exact ⟨hne, by simp⟩
  · rfl

end Ble.Props
