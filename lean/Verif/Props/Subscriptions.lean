import Verif.Client.SubSpec
set_option autoImplicit false

/-!
# Subscriptions and dispatch of values (C26, C27)
-/

namespace Ble.Props

open Ble.Client Ble.Spec

/-- Between the client's map and the meaning of the history. -/
structure SubInv (cccd : Nat → Nat) (a : Active) (w : World) : Prop where
  gone : ∀ vh, w.subs vh = none → ∀ i, a vh i = none
  here : ∀ vh s, w.subs vh = some s → s.cccdh = cccd vh ∧ s.nHandler = a vh false ∧ s.iHandler = a vh true ∧ s.ccc = cccBits a vh
  peer : ∀ vh, w.failed (cccd vh) = false → w.peer (cccd vh) = cccBits a vh

theorem cccBits_flag (a : Active) (vh : Nat) (ind : Bool) : (cccBits a vh &&& cccFlag ind = 0) ↔ a vh ind = none := by
  unfold cccBits cccFlag
  cases ind <;> cases h1 : a vh false <;> cases h2 : a vh true <;> simp <;> decide

theorem cccBits_congr {a b : Active} {vh : Nat} (h : ∀ i, a vh i = b vh i) : cccBits a vh = cccBits b vh := by
  unfold cccBits; rw [h false, h true]

theorem cccBits_none {a : Active} {vh : Nat} (h : ∀ i, a vh i = none) : cccBits a vh = 0 := by
  unfold cccBits; rw [h false, h true]; rfl

theorem cccBits_on (a : Active) (vh : Nat) (ind : Bool) (h : Nat) : cccBits (a.set vh ind (some h)) vh = cccBits a vh ||| cccFlag ind := by
  unfold cccBits cccFlag Active.set
  cases ind <;> cases h1 : a vh false <;> cases h2 : a vh true <;> simp [h1, h2] <;> decide

theorem cccBits_off (a : Active) (vh : Nat) (ind : Bool) : cccBits (a.set vh ind none) vh = cccBits a vh &&& ~~~cccFlag ind := by
  unfold cccBits cccFlag Active.set
  cases ind <;> cases h1 : a vh false <;> cases h2 : a vh true <;> simp [h1, h2] <;> decide

theorem setActive_other {a : Active} {vh k : Nat} {ind : Bool} {h : Option Nat} (hk : k ≠ vh) (i : Bool) : a.set vh ind h k i = a k i := by
  simp [Active.set, hk]

/-- The state of a characteristic as the map has it, with the default of a missing entry. -/
theorem subInv_entry {cccd : Nat → Nat} {a : Active} {w : World} (hi : SubInv cccd a w) (vh : Nat) :
    let s := (w.subs vh).getD { cccdh := cccd vh }
    s.cccdh = cccd vh ∧ s.nHandler = a vh false ∧ s.iHandler = a vh true ∧ s.ccc = cccBits a vh := by
  cases h : w.subs vh with
  | some s => simpa [h] using hi.here vh s h
  | none =>
    have := hi.gone vh h
    simp only [Option.getD_none]
    rw [this false, this true, cccBits_none this]
    simp

/-- Nothing but the characteristic `vh` changes, and that in the stated way. -/
theorem subInv_update {cccd : Nat → Nat} (hinj : ∀ x y, cccd x = cccd y → x = y) {a a' : Active} {w : World} (hi : SubInv cccd a w) (vh : Nat)
    (hother : ∀ k, k ≠ vh → ∀ i, a' k i = a k i) (o : Option Sub) (wr : Option (UInt16 × WriteEnd))
    (hgone : o = none → ∀ i, a' vh i = none)
    (hhere : ∀ s, o = some s → s.cccdh = cccd vh ∧ s.nHandler = a' vh false ∧ s.iHandler = a' vh true ∧ s.ccc = cccBits a' vh)
    (hno : wr = none → ∀ i, a' vh i = a vh i) (hwr : ∀ v, wr = some (v, .ok) → v = cccBits a' vh) :
    SubInv cccd a' (World.writeOpt { w with subs := w.subs.set vh o } (wr.map fun x => (cccd vh, x.1)) ((wr.map Prod.snd).getD .ok)) := by
  have hsubs : (World.writeOpt { w with subs := w.subs.set vh o } (wr.map fun x => (cccd vh, x.1)) ((wr.map Prod.snd).getD .ok)).subs =
      w.subs.set vh o := by cases wr <;> rfl
  refine ⟨?_, ?_, ?_⟩
  · rw [hsubs]
    intro k hk i
    by_cases h : k = vh
    · subst h; simp only [Subs.set, if_true] at hk; exact hgone hk i
    · simp only [Subs.set, if_neg h] at hk; rw [hother k h]; exact hi.gone k hk i
  · rw [hsubs]
    intro k s hk
    by_cases h : k = vh
    · subst h; simp only [Subs.set, if_true] at hk; exact hhere s hk
    · simp only [Subs.set, if_neg h] at hk
      rw [hother k h, hother k h, cccBits_congr (hother k h)]; exact hi.here k s hk
  · intro k hk
    cases wr with
    | none =>
      have : ∀ i, a' k i = a k i := by
        by_cases h : k = vh
        · subst h; exact hno rfl
        · exact hother k h
      rw [cccBits_congr this]
      exact hi.peer k hk
    | some x =>
      obtain ⟨v, e⟩ := x
      simp only [World.writeOpt, Option.map_some, World.write, Option.getD_some] at hk ⊢
      by_cases h : k = vh
      · subst h
        rw [if_pos rfl] at hk
        have he : e = .ok := by simpa using hk
        subst he
        rw [if_pos ⟨rfl, by simp⟩]
        exact hwr v rfl
      · have hne : cccd k ≠ cccd vh := fun hh => h (hinj _ _ hh)
        rw [if_neg hne] at hk
        rw [if_neg (fun hh => hne hh.1), cccBits_congr (hother k h)]
        exact hi.peer k hk

theorem set_set (m : Subs) (vh : Nat) (x y : Option Sub) : (m.set vh x).set vh y = m.set vh y := by
  funext k; simp only [Subs.set]; split <;> rfl

/-- The four cases of `setHandlers`. -/
theorem setHandlers_on (m : Subs) (cccdh vh : Nat) (ind : Bool) (h : Nat) (ok : Bool) (s : Sub) (hs : (m vh).getD { cccdh := cccdh } = s)
    (hz : s.ccc &&& cccFlag ind = 0) :
    setHandlers m cccdh vh ind (some h) ok =
      (m.set vh (if ok then some { s with ccc := s.ccc ||| cccFlag ind, nHandler := (if ind then s.nHandler else some h),
                                          iHandler := (if ind then some h else s.iHandler) } else none),
       some (s.cccdh, s.ccc ||| cccFlag ind)) := by
  simp only [setHandlers, hs]
  rw [if_neg (not_not_intro hz), set_set]
  cases ind <;> rfl

theorem setHandlers_off (m : Subs) (cccdh vh : Nat) (ind : Bool) (ok : Bool) (s : Sub) (hs : (m vh).getD { cccdh := cccdh } = s)
    (hz : s.ccc &&& cccFlag ind ≠ 0) :
    setHandlers m cccdh vh ind none ok =
      (m.set vh (if ok then some { s with ccc := s.ccc &&& ~~~cccFlag ind, nHandler := (if ind then s.nHandler else none),
                                          iHandler := (if ind then none else s.iHandler) } else none),
       some (s.cccdh, s.ccc &&& ~~~cccFlag ind)) := by
  simp only [setHandlers, hs]
  rw [if_neg hz, set_set]
  cases ind <;> rfl

theorem setHandlers_keep (m : Subs) (cccdh vh : Nat) (ind : Bool) (h : Option Nat) (ok : Bool) (s : Sub) (hs : (m vh).getD { cccdh := cccdh } = s)
    (hz : h.isSome = true ↔ s.ccc &&& cccFlag ind ≠ 0) :
    setHandlers m cccdh vh ind h ok = (m.set vh (some s), none) := by
  simp only [setHandlers, hs]
  cases h with
  | none => simp only; rw [if_pos (Decidable.not_not.1 (fun hh => by simpa using hz.2 hh))]
  | some x => simp only; rw [if_pos (hz.1 rfl)]

theorem drop_other {a : Active} {vh k : Nat} (h : k ≠ vh) (i : Bool) : a.drop vh k i = a k i := by simp [Active.drop, h]
theorem drop_self (a : Active) (vh : Nat) (i : Bool) : a.drop vh vh i = none := by simp [Active.drop]

theorem foldl_write_peer (l : List (Nat × UInt16)) (e : WriteEnd) (w : World) (k : Nat) :
    (l.foldl (fun w x => w.write x.1 x.2 e) w).subs = w.subs ∧
    ((∀ x ∈ l, x.1 ≠ k) → (l.foldl (fun w x => w.write x.1 x.2 e) w).peer k = w.peer k ∧
      (l.foldl (fun w x => w.write x.1 x.2 e) w).failed k = w.failed k) ∧
    ((∀ x ∈ l, x.2 = 0) → (∃ x ∈ l, x.1 = k) → (l.foldl (fun w x => w.write x.1 x.2 e) w).failed k = (e != .ok) ∧
      (e = .ok → (l.foldl (fun w x => w.write x.1 x.2 e) w).peer k = 0)) := by
  induction l generalizing w with
  | nil => simp
  | cons y ys ih =>
    simp only [List.foldl_cons]
    obtain ⟨h1, h2, h3⟩ := ih (w.write y.1 y.2 e)
    refine ⟨h1, ?_, ?_⟩
    · intro h
      obtain ⟨h4, h5⟩ := h2 (fun x hx => h x (List.mem_cons_of_mem _ hx))
      have hy := h y (by simp)
      rw [h4, h5]
      simp only [World.write]
      rw [if_neg (fun hh => hy hh.1.symm), if_neg (fun hh => hy hh.symm)]
      exact ⟨rfl, rfl⟩
    · intro hz hex
      by_cases hin : ∃ x ∈ ys, x.1 = k
      · exact h3 (fun x hx => hz x (List.mem_cons_of_mem _ hx)) hin
      · have hyk : y.1 = k := by
          obtain ⟨x, hx, hxk⟩ := hex
          rcases List.mem_cons.1 hx with rfl | hx
          · exact hxk
          · exact absurd ⟨x, hx, hxk⟩ hin
        obtain ⟨h4, h5⟩ := h2 (fun x hx hh => hin ⟨x, hx, hh⟩)
        rw [h4, h5]
        simp only [World.write, hyk, if_true, true_and]
        intro he
        rw [if_pos (by simp [he])]
        exact hz y (by simp)

theorem clearSubs_writes {cccd : Nat → Nat} {a : Active} {w : World} (hi : SubInv cccd a w) (l : List Nat)
    (hl : ∀ vh ∈ l, (w.subs vh).isSome) :
    (l.filterMap fun vh => (w.subs vh).map fun s => (s.cccdh, (0 : UInt16))) = l.map fun vh => (cccd vh, 0) := by
  induction l with
  | nil => rfl
  | cons x xs ih =>
    obtain ⟨s, hs⟩ := Option.isSome_iff_exists.1 (hl x (by simp))
    rw [List.filterMap_cons, hs]
    simp only [Option.map_some, List.map_cons]
    rw [(hi.here x s hs).1, ih (fun v hv => hl v (List.mem_cons_of_mem _ hv))]

theorem subInv_step {cccd : Nat → Nat} (hinj : ∀ x y, cccd x = cccd y → x = y) {a : Active} {w w' : World} (hi : SubInv cccd a w) {op : SubOp}
    (h : w.step cccd op = some w') : SubInv cccd (a.step op) w' := by
  cases op with
  | subscribe vh ind hd e =>
    obtain ⟨e1, e2, e3, e4⟩ := subInv_entry hi vh
    simp only [World.step, Option.some.injEq] at h
    generalize hs : ((w.subs vh).getD { cccdh := cccd vh }) = s at e1 e2 e3 e4
    by_cases hf : a vh ind = none
    · have ha : a.step (.subscribe vh ind hd e) = if e = .ok then a.set vh ind (some hd) else a.drop vh := by simp [Active.step, hf]
      rw [setHandlers_on _ _ _ _ _ _ s hs (by rw [e4]; exact (cccBits_flag a vh ind).2 hf), e4, e1] at h
      subst h
      rw [ha]
      by_cases he : e = .ok
      · subst he
        simp only [beq_self_eq_true, if_true]
        refine subInv_update hinj hi vh (fun k hk i => setActive_other hk i) _ (some (cccBits a vh ||| cccFlag ind, .ok)) (by simp) ?_ (by simp) ?_
        · intro s' hs'
          injection hs' with hs'
          subst hs'
          rw [cccBits_on]
          refine ⟨rfl, ?_, ?_, rfl⟩
          · cases ind <;> simp [Active.set, e2]
          · cases ind <;> simp [Active.set, e3]
        · intro v hv
          simp only [Option.some.injEq, Prod.mk.injEq, and_true] at hv
          rw [cccBits_on, hv]
      · have heb : (e == WriteEnd.ok) = false := by simpa using he
        simp only [heb, Bool.false_eq_true, if_false, if_neg he]
        exact subInv_update hinj hi vh (fun k hk i => drop_other hk i) none (some (cccBits a vh ||| cccFlag ind, e)) (fun _ i => drop_self a vh i)
          (by simp) (by simp) (by intro v hv; simp only [Option.some.injEq, Prod.mk.injEq] at hv; exact absurd hv.2 he)
    · have ha : a.step (.subscribe vh ind hd e) = a := by
        obtain ⟨x, hx⟩ := Option.ne_none_iff_exists'.1 hf
        simp [Active.step, hx]
      rw [setHandlers_keep _ _ _ _ _ _ s hs (by rw [e4]; simp [cccBits_flag, hf])] at h
      subst h
      rw [ha]
      exact subInv_update hinj hi vh (fun _ _ _ => rfl) _ none (by simp)
        (by intro s' hs'; injection hs' with hs'; subst hs'; exact ⟨e1, e2, e3, e4⟩) (fun _ _ => rfl) (by simp)
  | unsubscribe vh ind e =>
    obtain ⟨e1, e2, e3, e4⟩ := subInv_entry hi vh
    simp only [World.step, Option.some.injEq] at h
    generalize hs : ((w.subs vh).getD { cccdh := cccd vh }) = s at e1 e2 e3 e4
    by_cases hf : a vh ind = none
    · have ha : a.step (.unsubscribe vh ind e) = a := by simp [Active.step, hf]
      rw [setHandlers_keep _ _ _ _ _ _ s hs (by rw [e4]; simp [cccBits_flag, hf])] at h
      subst h
      rw [ha]
      exact subInv_update hinj hi vh (fun _ _ _ => rfl) _ none (by simp)
        (by intro s' hs'; injection hs' with hs'; subst hs'; exact ⟨e1, e2, e3, e4⟩) (fun _ _ => rfl) (by simp)
    · have ha : a.step (.unsubscribe vh ind e) = if e = .ok then a.set vh ind none else a.drop vh := by simp [Active.step, hf]
      rw [setHandlers_off _ _ _ _ _ s hs (by rw [e4]; exact fun hh => hf ((cccBits_flag a vh ind).1 hh)), e4, e1] at h
      subst h
      rw [ha]
      by_cases he : e = .ok
      · subst he
        simp only [beq_self_eq_true, if_true]
        refine subInv_update hinj hi vh (fun k hk i => setActive_other hk i) _ (some (cccBits a vh &&& ~~~cccFlag ind, .ok)) (by simp) ?_ (by simp) ?_
        · intro s' hs'
          injection hs' with hs'
          subst hs'
          rw [cccBits_off]
          refine ⟨rfl, ?_, ?_, rfl⟩
          · cases ind <;> simp [Active.set, e2]
          · cases ind <;> simp [Active.set, e3]
        · intro v hv
          simp only [Option.some.injEq, Prod.mk.injEq, and_true] at hv
          rw [cccBits_off, hv]
      · have heb : (e == WriteEnd.ok) = false := by simpa using he
        simp only [heb, Bool.false_eq_true, if_false, if_neg he]
        exact subInv_update hinj hi vh (fun k hk i => drop_other hk i) none (some (cccBits a vh &&& ~~~cccFlag ind, e)) (fun _ i => drop_self a vh i)
          (by simp) (by simp) (by intro v hv; simp only [Option.some.injEq, Prod.mk.injEq] at hv; exact absurd hv.2 he)
  | clear done failed =>
    simp only [World.step] at h
    split at h
    · rename_i hv
      obtain ⟨hnd, hkeys, hfe⟩ := hv
      injection h with h
      have hw := clearSubs_writes hi _ hkeys
      simp only [clearSubs, hw, List.map_append] at h
      have ht : (List.map (fun vh => (cccd vh, (0 : UInt16))) done ++ List.map (fun vh => (cccd vh, 0)) (failed.map Prod.fst).toList).take done.length =
          done.map fun vh => (cccd vh, 0) := by rw [List.take_left' (by simp)]
      have hd : (List.map (fun vh => (cccd vh, (0 : UInt16))) done ++ List.map (fun vh => (cccd vh, 0)) (failed.map Prod.fst).toList).drop done.length =
          (failed.map Prod.fst).toList.map fun vh => (cccd vh, 0) := by rw [List.drop_left' (by simp)]
      rw [ht, hd] at h
      -- the state after the successful writes
      let w1 : World := (done.map fun vh => (cccd vh, (0 : UInt16))).foldl (fun w x => w.write x.1 x.2 .ok)
        { w with subs := fun k => if k ∈ done then none else w.subs k }
      have hi1 : SubInv cccd (a.step (.clear done failed)) w1 := by
        have hsubs : w1.subs = fun k => if k ∈ done then none else w.subs k := (foldl_write_peer _ _ _ 0).1
        refine ⟨?_, ?_, ?_⟩
        · rw [hsubs]
          intro k hk i
          simp only [Active.step]
          replace hk : (if k ∈ done then none else w.subs k) = none := hk
          by_cases hkd : k ∈ done
          · rw [if_pos hkd]
          · rw [if_neg hkd]; rw [if_neg hkd] at hk; exact hi.gone k hk i
        · rw [hsubs]
          intro k s hk
          replace hk : (if k ∈ done then none else w.subs k) = some s := hk
          by_cases hkd : k ∈ done
          · rw [if_pos hkd] at hk; cases hk
          · rw [if_neg hkd] at hk
            have : ∀ i, a.step (.clear done failed) k i = a k i := fun i => by simp [Active.step, hkd]
            rw [this, this, cccBits_congr this]; exact hi.here k s hk
        · intro k hk
          by_cases hkd : k ∈ done
          · have h0 : ∀ i, a.step (.clear done failed) k i = none := fun i => by simp [Active.step, hkd]
            rw [cccBits_none h0]
            exact (((foldl_write_peer _ .ok _ (cccd k)).2.2 (by simp) ⟨(cccd k, 0), List.mem_map.2 ⟨k, hkd, rfl⟩, rfl⟩).2 rfl)
          · have hno : ∀ x ∈ done.map (fun vh => (cccd vh, (0 : UInt16))), x.1 ≠ cccd k := by
              intro x hx hh
              obtain ⟨v, hv, rfl⟩ := List.mem_map.1 hx
              exact hkd (hinj _ _ hh ▸ hv)
            obtain ⟨h1, h2⟩ := (foldl_write_peer _ .ok { w with subs := fun k => if k ∈ done then none else w.subs k } (cccd k)).2.1 hno
            have : ∀ i, a.step (.clear done failed) k i = a k i := fun i => by simp [Active.step, hkd]
            rw [cccBits_congr this]
            show w1.peer (cccd k) = _
            rw [show w1.peer (cccd k) = w.peer (cccd k) from h1]
            exact hi.peer k (by rw [← h2]; exact hk)
      cases failed with
      | none => simp only at h; subst h; exact hi1
      | some f =>
        obtain ⟨vh, e⟩ := f
        have hne : e ≠ .ok := hfe _ rfl
        simp only [Option.map_some, Option.toList_some, List.map_cons, List.map_nil, List.foldl_cons, List.foldl_nil] at h
        subst h
        refine ⟨hi1.gone, hi1.here, ?_⟩
        intro k hk
        simp only [World.write] at hk ⊢
        by_cases hkk : cccd k = cccd vh
        · rw [if_pos hkk] at hk
          exact absurd (by simpa using hk) hne
        · rw [if_neg hkk] at hk
          rw [if_neg (fun hh => hkk hh.1)]
          exact hi1.peer k hk
    · cases h
  | value pdu =>
    simp only [World.step] at h
    split at h
    · rename_i m o hm
      injection h with h; subst h
      show SubInv cccd a _
      have hsame : ∀ k, m k = w.subs k ∨ ∃ s, w.subs k = some s ∧ m k = some { s with id := s.id + 1 } := by
        unfold handleNotification at hm
        obtain ⟨vh, h1, h2⟩ := Go.bind_eq_ok.1 hm
        cases hs : w.subs vh with
        | none => rw [hs] at h2; cases h2; exact fun k => .inl rfl
        | some s =>
          rw [hs] at h2
          obtain ⟨op, h3, h4⟩ := Go.bind_eq_ok.1 h2
          obtain ⟨nd, h5, h6⟩ := Go.bind_eq_ok.1 h4
          have hmm : m = w.subs.set vh (some { s with id := s.id + 1 }) := by
            simp only at h6
            generalize (if op = 0x1D then s.iHandler else none) = x at h6
            cases x with
            | some y => cases h6; rfl
            | none =>
              simp only at h6
              generalize s.nHandler = x at h6
              cases x <;> cases h6 <;> rfl
          intro k
          rw [hmm]
          simp only [Subs.set]
          by_cases hk : k = vh
          · subst hk; rw [if_pos rfl]; exact .inr ⟨s, hs, rfl⟩
          · rw [if_neg hk]; exact .inl rfl
      refine ⟨?_, ?_, hi.peer⟩
      · intro k hk
        rcases hsame k with h | ⟨s, h1, h2⟩
        · exact hi.gone k (by rw [← h]; exact hk)
        · replace hk : m k = none := hk
          rw [h2] at hk; cases hk
      · intro k s' hk
        rcases hsame k with h | ⟨s, h1, h2⟩
        · exact hi.here k s' (by rw [← h]; exact hk)
        · replace hk : m k = some s' := hk
          rw [h2] at hk; injection hk with hk; subst hk
          exact hi.here k s h1
    · cases h

theorem subInv_run {cccd : Nat → Nat} (hinj : ∀ x y, cccd x = cccd y → x = y) {a : Active} {w w' : World} (hi : SubInv cccd a w) (ops : List SubOp)
    (h : w.run cccd ops = some w') : SubInv cccd (ops.foldl Active.step a) w' := by
  induction ops generalizing a w with
  | nil => cases h; exact hi
  | cons o os ih =>
    simp only [World.run] at h
    cases hs : w.step cccd o with
    | none => rw [hs] at h; cases h
    | some w1 => rw [hs] at h; exact ih (subInv_step hinj hi hs) h

theorem subInv_init (cccd : Nat → Nat) : SubInv cccd (fun _ _ => none) {} :=
  ⟨fun _ _ _ => rfl, by simp, fun vh _ => by simp [cccBits]⟩

/-- **C26 (partial).** After any history of calls on a connection whose CCCDs started at 0, the peer's CCCD of every characteristic holds exactly the
bits of the active subscriptions, unless the last write to it failed. (Then it may not: `failed_subscribe_leaves_peer_on`.) -/
theorem cccd_matches_subscriptions_partial (cccd : Nat → Nat) (hinj : ∀ x y, cccd x = cccd y → x = y) (ops : List SubOp) (w : World)
    (h : World.run cccd {} ops = some w) (vh : Nat) (hf : w.failed (cccd vh) = false) :
    w.peer (cccd vh) = cccBits (activeAfter ops) vh :=
  (subInv_run hinj (subInv_init cccd) ops h).peer vh hf

/-- A history without failing writes. -/
def AllOk (ops : List SubOp) : Prop := ∀ o ∈ ops, match o with
  | .subscribe _ _ _ e => e = .ok
  | .unsubscribe _ _ e => e = .ok
  | .clear _ f => f = none
  | .value _ => True

theorem writeOpt_ok_failed {w : World} {o : Option (Nat × UInt16)} {e : WriteEnd} (he : e = .ok) (k : Nat) (h : w.failed k = false) :
    (w.writeOpt o e).failed k = false := by
  subst he
  cases o with
  | none => exact h
  | some x => simp only [World.writeOpt, World.write]; split <;> simp [h]

/-- **C26 when no write fails.** -/
theorem cccd_matches_subscriptions (cccd : Nat → Nat) (hinj : ∀ x y, cccd x = cccd y → x = y) (ops : List SubOp) (hok : AllOk ops) (w : World)
    (h : World.run cccd {} ops = some w) (vh : Nat) : w.peer (cccd vh) = cccBits (activeAfter ops) vh := by
  apply cccd_matches_subscriptions_partial cccd hinj ops w h vh
  have main : ∀ (ops : List SubOp) (w0 : World), AllOk ops → (∀ k, w0.failed k = false) → ∀ w, w0.run cccd ops = some w → ∀ k, w.failed k = false := by
    intro ops
    induction ops with
    | nil => intro w0 _ h0 w hw; cases hw; exact h0
    | cons o os ih =>
      intro w0 hok h0 w hw
      simp only [World.run] at hw
      cases hs : w0.step cccd o with
      | none => rw [hs] at hw; cases hw
      | some w1 =>
        rw [hs] at hw
        refine ih w1 (fun x hx => hok x (List.mem_cons_of_mem _ hx)) ?_ w hw
        have ho := hok o (by simp)
        intro k
        cases o with
        | subscribe v i hd e =>
          simp only [World.step, Option.some.injEq] at hs; subst hs
          exact writeOpt_ok_failed ho k (h0 k)
        | unsubscribe v i e =>
          simp only [World.step, Option.some.injEq] at hs; subst hs
          exact writeOpt_ok_failed ho k (h0 k)
        | clear d f =>
          simp only [] at ho
          subst ho
          simp only [World.step] at hs
          split at hs
          · injection hs with hs; subst hs
            have : ∀ (l : List (Nat × UInt16)) (w : World), w.failed k = false → (l.foldl (fun w x => w.write x.1 x.2 .ok) w).failed k = false := by
              intro l
              induction l with
              | nil => intro w hw; exact hw
              | cons y ys ihl => intro w hw; exact ihl _ (by simp only [World.write]; split <;> simp [hw])
            exact this _ _ (h0 k)
          · cases hs
        | value p =>
          simp only [World.step] at hs
          split at hs
          · injection hs with hs; subst hs; exact h0 k
          · cases hs
  exact main ops {} hok (fun _ => rfl) w h (cccd vh)

/-- **C27.** After any history, an incoming value goes to the handler that is subscribed for its handle: an indication to the indication handler, or
to the notification handler if there is no other; a notification to the notification handler. With no such handler it is dropped. In no case is
another handler called. -/
theorem value_goes_to_subscriber (cccd : Nat → Nat) (hinj : ∀ x y, cccd x = cccd y → x = y) (ops : List SubOp) (w : World)
    (h : World.run cccd {} ops = some w) (op lo hi : UInt8) (data : Bytes) :
    ∃ m' o, handleNotification w.subs (op :: lo :: hi :: data) = .ok (m', o) ∧
      o.map (fun c => (c.1, c.2.2)) =
        ((if op = 0x1D then activeAfter ops (le16 lo hi) true else none) <|> activeAfter ops (le16 lo hi) false).map fun hd => (hd, data) := by
  have hi' := subInv_run hinj (subInv_init cccd) ops h
  unfold handleNotification
  have e1 : le16At (ε := Empty) (op :: lo :: hi :: data) 1 = .ok (le16 lo hi) := rfl
  rw [e1]
  simp only [Go.bind_ok]
  cases hs : w.subs (le16 lo hi) with
  | none =>
    have := hi'.gone _ hs
    rw [show activeAfter ops (le16 lo hi) true = none from this true, show activeAfter ops (le16 lo hi) false = none from this false]
    refine ⟨_, _, rfl, ?_⟩
    split <;> rfl
  | some s =>
    obtain ⟨-, h2, h3, -⟩ := hi'.here _ _ hs
    rw [show activeAfter ops (le16 lo hi) true = s.iHandler from h3.symm, show activeAfter ops (le16 lo hi) false = s.nHandler from h2.symm]
    simp only [index_cons_zero, Go.bind_ok]
    rw [sliceFrom_of_le (by simp)]
    simp only [Go.bind_ok, List.drop_succ_cons, List.drop_zero, Go.pure_def]
    by_cases h1d : op = 0x1D
    · simp only [if_pos h1d]
      cases s.iHandler <;> cases s.nHandler <;> exact ⟨_, _, rfl, rfl⟩
    · simp only [if_neg h1d]
      cases s.nHandler <;> exact ⟨_, _, rfl, rfl⟩

/-- `HandleNotification` panics exactly on a value PDU shorter than three bytes, whatever the subscriptions: the peer can crash the client. -/
theorem handleNotification_panics_iff (m : Subs) (b : Bytes) : handleNotification m b = .panic ↔ b.length < 3 := by
  match b with
  | [] => simp [handleNotification, le16At]
  | [x] => simp [handleNotification, le16At]
  | [x, y] => simp [handleNotification, le16At]
  | op :: lo :: hi :: data =>
    simp only [List.length_cons]
    constructor
    · intro h
      exfalso
      unfold handleNotification at h
      have e1 : le16At (ε := Empty) (op :: lo :: hi :: data) 1 = .ok (le16 lo hi) := rfl
      rw [e1] at h
      simp only [Go.bind_ok] at h
      cases hs : m (le16 lo hi) with
      | none => rw [hs] at h; cases h
      | some s =>
        rw [hs] at h
        simp only [index_cons_zero, Go.bind_ok] at h
        rw [sliceFrom_of_le (by simp)] at h
        simp only [Go.bind_ok, Go.pure_def] at h
        generalize (if op = 0x1D then s.iHandler else none) = x at h
        cases x with
        | some y => cases h
        | none =>
          simp only at h
          generalize s.nHandler = x at h
          cases x <;> cases h
    · intro h; omega

/-! ### Refutations and examples -/

/-- **C26, refuted with a failing write.** A refused `Subscribe` for indications forgets the notification handler, but the peer's CCCD still says
notify: the peer goes on sending values that are dropped. -/
theorem failed_subscribe_leaves_peer_on : ∃ ops w, World.run (· + 1) {} ops = some w ∧ w.peer 4 = 1 ∧ cccBits (activeAfter ops) 3 = 0 ∧
    ∃ m, handleNotification w.subs [0x1B, 3, 0, 7] = .ok (m, none) :=
  ⟨[.subscribe 3 false 10 .ok, .subscribe 3 true 11 .refused], _, rfl, rfl, rfl, _, rfl⟩

/-- A second `Subscribe` succeeds without an effect: values still go to the first handler. -/
theorem resubscribe_keeps_first_handler (cccd : Nat → Nat) (hinj : ∀ x y, cccd x = cccd y → x = y) (ops : List SubOp) (w : World)
    (h : World.run cccd {} ops = some w) (vh : Nat) (ind : Bool) (old new : Nat) (ha : activeAfter ops vh ind = some old) (e : WriteEnd) :
    (setHandlers w.subs (cccd vh) vh ind (some new) (e == .ok)).2 = none ∧
    activeAfter (ops ++ [.subscribe vh ind new e]) vh ind = some old := by
  have hi := subInv_run hinj (subInv_init cccd) ops h
  obtain ⟨-, -, -, e4⟩ := subInv_entry hi vh
  constructor
  · simp only [setHandlers, e4]
    rw [if_pos]
    intro hh
    have := (cccBits_flag _ vh ind).1 hh
    rw [show List.foldl Active.step (fun _ _ => none) ops = activeAfter ops from rfl, ha] at this
    cases this
  · simp only [activeAfter, List.foldl_append, List.foldl_cons, List.foldl_nil, Active.step]
    rw [show List.foldl Active.step (fun _ _ => none) ops = activeAfter ops from rfl, ha]
    simpa using ha

/-- A history with both kinds, a re-subscription, an unsubscription and a clear meets the hypotheses. -/
theorem example_subscription_history : ∃ w, World.run (· + 1) {} [.subscribe 3 false 10 .ok, .subscribe 3 true 11 .ok, .subscribe 7 true 12 .ok, .value [0x1B, 3, 0, 7],
    .unsubscribe 3 false .ok, .subscribe 3 true 13 .ok] = some w ∧ w.peer 4 = 2 ∧ w.peer 8 = 2 ∧
    (match handleNotification w.subs [0x1D, 3, 0, 9] with | .ok (_, o) => o | _ => none) = some (11, 1, [9]) := ⟨_, rfl, rfl, rfl, rfl⟩

example : ∃ w, World.run (· + 1) {} [.subscribe 3 false 10 .ok, .subscribe 7 true 12 .ok, .clear [7, 3] none] = some w ∧ w.peer 4 = 0 ∧
    w.peer 8 = 0 := ⟨_, rfl, rfl, rfl⟩

end Ble.Props
