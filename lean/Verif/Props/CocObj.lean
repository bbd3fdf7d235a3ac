import Verif.Hci.CocObj
import Verif.Props.Coc
set_option autoImplicit false

/-!
# C203: the object of a credit-based channel stands for that channel
-/

namespace Ble.CocObj

open Ble.Coc Ble.Props.CocSpec

/-! ## Specification -/

/-- The channel an object was made for, if it is open: local identifiers are given out once (C37). -/
def chan (w : World) (o : Obj) : Option Chan := w.h.st.chans.find? fun c => c.localCID = o.loc

/-! ## The invariant -/

structure Inv (w : World) : Prop where
  table : Ble.Props.CocSpec.Inv w.h
  locs : (w.objs.map (·.loc)).Nodup
  known : ∀ o ∈ w.objs, o.loc ∈ w.h.ids ∧ o.loc ∉ w.h.opening
  own : ∀ c ∈ w.h.st.chans, ∃ o ∈ w.objs, o.loc = c.localCID ∧ o.rem = c.remoteCID ∧ o.mtu = c.mtu ∧ o.mps = c.mps

theorem inv_init : Inv World.init := ⟨Inv_init, by simp [World.init], by simp [World.init], by simp [World.init, Hist.init, Coc.init]⟩

/-- What is in the table after a step was there, or is new. -/
theorem step_chans (h : Hist) (a : Act) (c : Chan) (hc : c ∈ (Coc.step h a).st.chans) :
    (∃ d ∈ h.st.chans, d.localCID = c.localCID ∧ d.remoteCID = c.remoteCID ∧ d.mtu = c.mtu ∧ d.mps = c.mps) ∨
    (∃ l d n mtu mps, a = .answer l (.accepted d n mtu mps) ∧ l ∈ h.opening ∧ (addChannel h.st l (.accepted d n mtu mps)).2 = true ∧ c = ⟨l, d, n, mtu, mps, false⟩) := by
  have hset : ∀ (r n : Nat), c ∈ (setCredits h.st r n).chans → ∃ d ∈ h.st.chans, d.localCID = c.localCID ∧ d.remoteCID = c.remoteCID ∧ d.mtu = c.mtu ∧ d.mps = c.mps := by
    intro r n hm
    obtain ⟨d, hd, e⟩ := List.mem_map.1 hm
    refine ⟨d, hd, ?_⟩
    split at e <;> (subst e; exact ⟨rfl, rfl, rfl, rfl⟩)
  have hput : ∀ (x : Chan) (b : Bool), x ∈ h.st.chans → c ∈ (h.st.chans.map fun d => if d.remoteCID = x.remoteCID then { x with sub := b } else d) →
      ∃ d ∈ h.st.chans, d.localCID = c.localCID ∧ d.remoteCID = c.remoteCID ∧ d.mtu = c.mtu ∧ d.mps = c.mps := by
    intro x b hx hm
    obtain ⟨d, hd, e⟩ := List.mem_map.1 hm
    split at e
    · subst e; exact ⟨x, hx, rfl, rfl, rfl, rfl⟩
    · subst e; exact ⟨d, hd, rfl, rfl, rfl, rfl⟩
  cases a with
  | reserve =>
    left
    simp only [Coc.step, nextSourceCID] at hc
    split at hc
    · exact ⟨c, hc, rfl, rfl, rfl, rfl⟩
    · next e =>
      split at e
      · cases e
      · obtain ⟨_, rfl⟩ := Prod.mk.inj (Option.some.inj e)
        exact ⟨c, hc, rfl, rfl, rfl, rfl⟩
  | answer l a =>
    simp only [Coc.step] at hc
    split at hc
    · next hl =>
      cases a with
      | noAnswer => left; exact ⟨c, hc, rfl, rfl, rfl, rfl⟩
      | refused => left; exact ⟨c, hc, rfl, rfl, rfl, rfl⟩
      | accepted d n mtu mps =>
        simp only [addChannel] at hc
        cases hf : find h.st d with
        | some x => rw [hf] at hc; left; exact ⟨c, hc, rfl, rfl, rfl, rfl⟩
        | none =>
          rw [hf] at hc
          simp only [List.mem_append, List.mem_singleton] at hc
          rcases hc with hc | hc
          · left; exact ⟨c, hc, rfl, rfl, rfl, rfl⟩
          · right; exact ⟨l, d, n, mtu, mps, rfl, hl, by simp [addChannel, hf], hc⟩
    · left; exact ⟨c, hc, rfl, rfl, rfl, rfl⟩
  | closeChan r => left; exact ⟨c, (List.mem_filter.1 hc).1, rfl, rfl, rfl, rfl⟩
  | grant r n =>
    left
    simp only [Coc.step] at hc
    cases hi : increment h.st r n with
    | none => rw [hi] at hc; exact ⟨c, hc, rfl, rfl, rfl, rfl⟩
    | some s =>
      rw [hi] at hc
      unfold increment at hi
      split at hi
      · cases hi
      · split at hi
        · cases hi
        · obtain rfl := Option.some.inj hi; exact hset _ _ hc
  | take r =>
    left
    simp only [Coc.step] at hc
    cases hi : decrement h.st r 1 with
    | none => rw [hi] at hc; exact ⟨c, hc, rfl, rfl, rfl, rfl⟩
    | some s =>
      rw [hi] at hc
      unfold decrement at hi
      split at hi
      · cases hi
      · split at hi
        · cases hi
        · obtain rfl := Option.some.inj hi; exact hset _ _ hc
  | write r =>
    left
    simp only [Coc.step] at hc
    split at hc <;> exact ⟨c, hc, rfl, rfl, rfl, rfl⟩
  | subscribe l =>
    left
    simp only [Coc.step] at hc
    cases hi : Coc.subscribe h.st l with
    | none => rw [hi] at hc; exact ⟨c, hc, rfl, rfl, rfl, rfl⟩
    | some s =>
      rw [hi] at hc
      unfold Coc.subscribe at hi
      split at hi
      · cases hi
      · next x hx =>
        split at hi
        · cases hi
        · obtain rfl := Option.some.inj hi
          exact hput x true (List.mem_of_find?_eq_some hx) hc
  | unsubscribe l =>
    left
    simp only [Coc.step] at hc
    cases hi : Coc.unsubscribe h.st l with
    | none => rw [hi] at hc; exact ⟨c, hc, rfl, rfl, rfl, rfl⟩
    | some s =>
      rw [hi] at hc
      unfold Coc.unsubscribe at hi
      split at hi
      · cases hi
      · next x hx =>
        obtain rfl := Option.some.inj hi
        exact hput x false (List.mem_of_find?_eq_some hx) hc

/-- Identifiers stay given out, and those that wait for an answer are the old ones or new. -/
theorem step_ids (h : Hist) (hi : Ble.Props.CocSpec.Inv h) (a : Act) (l : Nat) (hl : l ∈ h.ids) :
    l ∈ (Coc.step h a).ids ∧ (l ∉ h.opening → l ∉ (Coc.step h a).opening) := by
  cases a with
  | reserve =>
    have hn := Inv_step hi .reserve
    have hnd : (Coc.step h .reserve).ids.Nodup := by rw [hn.ids]; exact List.nodup_range' ..
    simp only [Coc.step] at hnd ⊢
    cases hr : nextSourceCID h.st with
    | none => exact ⟨hl, id⟩
    | some x =>
      obtain ⟨k, s⟩ := x
      rw [hr] at hnd
      simp only at hnd
      refine ⟨List.mem_append_left _ hl, fun ho hm => ?_⟩
      rcases List.mem_append.1 hm with hm | hm
      · exact ho hm
      · rw [List.mem_singleton] at hm
        subst hm
        exact (List.nodup_append.1 hnd).2.2 l hl l (List.mem_singleton.2 rfl) rfl
  | answer k a =>
    simp only [Coc.step]
    split
    · exact ⟨hl, fun ho hm => ho (List.mem_of_mem_erase hm)⟩
    · exact ⟨hl, id⟩
  | closeChan r => exact ⟨hl, id⟩
  | grant r n => simp only [Coc.step]; split <;> exact ⟨hl, id⟩
  | take r => simp only [Coc.step]; split <;> exact ⟨hl, id⟩
  | write r => simp only [Coc.step]; split <;> exact ⟨hl, id⟩
  | subscribe r => simp only [Coc.step]; split <;> exact ⟨hl, id⟩
  | unsubscribe r => simp only [Coc.step]; split <;> exact ⟨hl, id⟩

theorem made_mem {h : Hist} {op : Op} {o : Obj} (hm : o ∈ made h op) : ∃ d n mtu mps, op = .answer o.loc (.accepted d n mtu mps) ∧ o = ⟨o.loc, d, mtu, mps⟩ ∧ o.loc ∈ h.opening ∧ made h op = [o] := by
  cases op with
  | answer l a =>
    cases a with
    | accepted d n mtu mps =>
      simp only [made] at hm ⊢
      split at hm
      · next hh =>
        rw [List.mem_singleton] at hm
        subst hm
        exact ⟨d, n, mtu, mps, rfl, rfl, hh.1, by rw [if_pos hh]⟩
      · cases hm
    | noAnswer => cases hm
    | refused => cases hm
  | _ => cases hm

theorem inv_step {w w' : World} {op : Op} (hi : Inv w) (hs : step w op = some w') : Inv w' := by
  unfold step at hs
  split at hs
  · obtain rfl := Option.some.inj hs
    have ht := Inv_step hi.table (act op)
    refine ⟨ht, ?_, ?_, ?_⟩
    · show ((w.objs ++ made w.h op).map (·.loc)).Nodup
      cases hm : made w.h op with
      | nil => simpa using hi.locs
      | cons o os =>
        obtain ⟨d, n, mtu, mps, _, _, h3, h4⟩ := made_mem (h := w.h) (op := op) (o := o) (by rw [hm]; exact List.mem_cons_self ..)
        rw [hm] at h4
        rw [h4, List.map_append, List.map_cons, List.map_nil, List.nodup_append]
        refine ⟨hi.locs, by simp, ?_⟩
        intro a ha b hb
        obtain ⟨o', ho', rfl⟩ := List.mem_map.1 ha
        rw [List.mem_singleton] at hb
        subst hb
        intro e
        exact (hi.known o' ho').2 (e ▸ h3)
    · intro o ho
      rcases List.mem_append.1 (show o ∈ w.objs ++ made w.h op from ho) with ho | ho
      · obtain ⟨h1, h2⟩ := hi.known o ho
        obtain ⟨g1, g2⟩ := step_ids w.h hi.table (act op) o.loc h1
        exact ⟨g1, g2 h2⟩
      · obtain ⟨d, n, mtu, mps, h1, h2, h3, _⟩ := made_mem ho
        have hk : o.loc ∈ w.h.ids := hi.table.known _ (List.mem_append_right _ h3)
        refine ⟨(step_ids w.h hi.table (act op) o.loc hk).1, ?_⟩
        show o.loc ∉ (Coc.step w.h (act op)).opening
        rw [h1]
        simp only [act, Coc.step]
        rw [if_pos h3]
        intro hm
        have hnd : w.h.opening.Nodup := (List.nodup_append.1 hi.table.locals).2.1
        exact (List.Nodup.not_mem_erase hnd) hm
    · intro c hc
      rcases step_chans w.h (act op) c hc with ⟨d, hd, e1, e2, e3, e4⟩ | ⟨l, d, n, mtu, mps, h1, h2, h3, h4⟩
      · obtain ⟨o, ho, f1, f2, f3, f4⟩ := hi.own d hd
        exact ⟨o, List.mem_append_left _ ho, f1.trans e1, f2.trans e2, f3.trans e3, f4.trans e4⟩
      · have hop : op = .answer l (.accepted d n mtu mps) := by
          cases op <;> simp only [act] at h1 <;> cases h1 <;> rfl
        refine ⟨⟨l, d, mtu, mps⟩, List.mem_append_right _ ?_, by rw [h4], by rw [h4], by rw [h4], by rw [h4]⟩
        rw [hop]
        simp only [made]
        rw [if_pos ⟨h2, h3⟩]
        exact List.mem_singleton.2 rfl
  · cases hs

theorem inv_run {w w' : World} {ops : List Op} (hi : Inv w) (hr : run w ops = some w') : Inv w' := by
  induction ops generalizing w with
  | nil => obtain rfl := Option.some.inj hr; exact hi
  | cons op ops ih =>
    obtain ⟨t, ht, hr⟩ := Option.bind_eq_some_iff.1 hr
    exact ih (inv_step hi ht) hr

theorem obj_eq {w : World} (hi : Inv w) {o p : Obj} (ho : o ∈ w.objs) (hp : p ∈ w.objs) (e : o.loc = p.loc) : o = p := by
  have := hi.locs
  revert this ho hp
  generalize w.objs = l
  induction l with
  | nil => intro h; cases h
  | cons x xs ih =>
    intro h1 h2 hn
    rw [List.map_cons, List.nodup_cons] at hn
    rcases List.mem_cons.1 h1 with rfl | k1 <;> rcases List.mem_cons.1 h2 with rfl | k2
    · rfl
    · exact absurd (show o.loc ∈ xs.map (·.loc) from List.mem_map.2 ⟨p, k2, e.symm⟩) hn.1
    · exact absurd (show p.loc ∈ xs.map (·.loc) from List.mem_map.2 ⟨o, k1, e⟩) hn.1
    · exact ih k1 k2 hn.2

theorem chan_mem {w : World} {o : Obj} {c : Chan} (h : chan w o = some c) : c ∈ w.h.st.chans ∧ c.localCID = o.loc :=
  ⟨List.mem_of_find?_eq_some h, by simpa using List.find?_some h⟩

theorem chan_rem {w : World} (hi : Inv w) {o : Obj} (ho : o ∈ w.objs) {c : Chan} (h : chan w o = some c) : c.remoteCID = o.rem := by
  obtain ⟨h1, h2⟩ := chan_mem h
  obtain ⟨p, hp, e1, e2, _⟩ := hi.own c h1
  rw [obj_eq hi ho hp (h2.symm.trans e1.symm), e2]

/-- The entry with the object's remote identifier is the object's channel, if that is open. -/
theorem find_own {w : World} (hi : Inv w) {o : Obj} (ho : o ∈ w.objs) {c : Chan} (h : chan w o = some c) : find w.h.st o.rem = some c := by
  obtain ⟨h1, _⟩ := chan_mem h
  have hr := chan_rem hi ho h
  unfold find
  cases hf : w.h.st.chans.find? (fun c => decide (c.remoteCID = o.rem)) with
  | none =>
    rw [List.find?_eq_none] at hf
    exact absurd hr (by simpa using hf c h1)
  | some d =>
    have := List.mem_of_find?_eq_some hf
    have e : d.remoteCID = o.rem := by simpa using List.find?_some hf
    rw [unique_of_nodup hi.table.remotes this h1 (e.trans hr.symm)]

theorem chan_of_mem {w : World} (hi : Inv w) {o : Obj} {c : Chan} (h1 : c ∈ w.h.st.chans) (h2 : c.localCID = o.loc) : chan w o = some c := by
  unfold chan
  cases hf : w.h.st.chans.find? (fun c => decide (c.localCID = o.loc)) with
  | none =>
    rw [List.find?_eq_none] at hf
    exact absurd h2 (by simpa using hf c h1)
  | some d =>
    have hd := List.mem_of_find?_eq_some hf
    have e : d.localCID = o.loc := by simpa using List.find?_some hf
    have hn := (List.nodup_append.1 hi.table.locals).1
    have : ∀ (cs : List Chan), (cs.map (·.localCID)).Nodup → c ∈ cs → d ∈ cs → d = c := by
      intro cs
      induction cs with
      | nil => intro _ h; cases h
      | cons x xs ih =>
        intro hn h3 h4
        rw [List.map_cons, List.nodup_cons] at hn
        rcases List.mem_cons.1 h3 with rfl | k3 <;> rcases List.mem_cons.1 h4 with rfl | k4
        · rfl
        · exact absurd (show c.localCID ∈ xs.map (·.localCID) from List.mem_map.2 ⟨d, k4, e.trans h2.symm⟩) hn.1
        · exact absurd (show d.localCID ∈ xs.map (·.localCID) from List.mem_map.2 ⟨c, k3, h2.trans e.symm⟩) hn.1
        · exact ih hn.2 k3 k4
    rw [this _ hn h1 hd]

/-- Looking up a local identifier after the entries were changed but not their identifiers. -/
theorem find_map_loc (cs : List Chan) (f : Chan → Chan) (hf : ∀ c ∈ cs, (f c).localCID = c.localCID) (l : Nat) :
    (cs.map f).find? (fun c => c.localCID = l) = (cs.find? fun c => c.localCID = l).map f := by
  induction cs with
  | nil => rfl
  | cons x xs ih =>
    have h1 := hf x (List.mem_cons_self ..)
    have h2 := ih fun c hc => hf c (List.mem_cons_of_mem _ hc)
    simp only [List.map_cons, List.find?_cons, h1]
    split
    · rfl
    · exact h2

theorem find_filter_loc (cs : List Chan) (p : Chan → Bool) (l : Nat) (h : ∀ c ∈ cs, c.localCID = l → p c = true) :
    (cs.filter p).find? (fun c => c.localCID = l) = cs.find? fun c => c.localCID = l := by
  induction cs with
  | nil => rfl
  | cons x xs ih =>
    have h2 := ih fun c hc => h c (List.mem_cons_of_mem _ hc)
    by_cases hx : x.localCID = l
    · have := h x (List.mem_cons_self ..) hx
      simp [List.filter_cons, this, hx]
    · by_cases hp : p x = true
      · simp only [List.filter_cons, hp, if_true, List.find?_cons, hx, decide_false]
        exact h2
      · simp only [List.filter_cons, hp, if_false, List.find?_cons, hx, decide_false, Bool.false_eq_true]
        exact h2


/-! ## Effects of a call on the table, seen through the local identifiers -/

theorem remove_find (s : St) (r l : Nat) (h : ∀ c ∈ s.chans, c.localCID = l → c.remoteCID ≠ r) :
    (closeChan s r).chans.find? (fun c => c.localCID = l) = s.chans.find? fun c => c.localCID = l :=
  find_filter_loc _ _ _ fun c hc e => by simpa using h c hc e

/-- What a call does to the channel it acts on. -/
def effect (op : Op) (c : Chan) : Option Chan :=
  match op with
  | .close _ => none
  | .credit _ => some { c with credits := c.credits - 1 }
  | .subscribe _ => some { c with sub := true }
  | .unsubscribe _ => some { c with sub := false }
  | _ => some c

theorem step_eq {w w' : World} {op : Op} (hs : step w op = some w') : (∀ o, target op = some o → o ∈ w.objs) ∧ w'.h = Coc.step w.h (act op) ∧ w'.objs = w.objs ++ made w.h op := by
  unfold step at hs
  split at hs
  · next h => obtain rfl := Option.some.inj hs; exact ⟨h, rfl, rfl⟩
  · cases hs

/-- The replacement of one entry, by remote identifier. -/
theorem map_put {w : World} (hi : Inv w) {c : Chan} (hc : c ∈ w.h.st.chans) (c' : Chan) (hl : c'.localCID = c.localCID) (o : Obj) :
    (w.h.st.chans.map fun d => if d.remoteCID = c.remoteCID then c' else d).find? (fun d => d.localCID = o.loc) =
      if c.localCID = o.loc then some c' else chan w o := by
  have heq : ∀ d ∈ w.h.st.chans, d.remoteCID = c.remoteCID → d = c := fun d hd e => unique_of_nodup hi.table.remotes hd hc e
  rw [find_map_loc _ _ (fun d hd => by
    split
    · next e => rw [heq d hd e, hl]
    · rfl)]
  show (chan w o).map _ = _
  by_cases e : c.localCID = o.loc
  · rw [chan_of_mem hi hc e, if_pos e]
    simp
  · rw [if_neg e]
    cases hx : chan w o with
    | none => rfl
    | some x =>
      obtain ⟨h1, h2⟩ := chan_mem hx
      simp only [Option.map_some]
      rw [if_neg]
      intro e'
      rw [heq x h1 e'] at h2
      exact e h2

/-- A call that looks up by remote identifier, when the entry it finds is `c`. -/
theorem acts_remote {w w' : World} (hi : Inv w) {op : Op} {o : Obj} (hop : op = .close o ∨ op = .credit o) (hs : step w op = some w') {c : Chan} (hf : find w.h.st o.rem = some c) (p : Obj) :
    chan w' p = if succeeds w.h.st op = true ∧ c.localCID = p.loc then effect op c else chan w p := by
  obtain ⟨_, h1, _⟩ := step_eq hs
  have hc : c ∈ w.h.st.chans := List.mem_of_find?_eq_some hf
  have hr : c.remoteCID = o.rem := by simpa using List.find?_some hf
  have hw : chan w' p = (Coc.step w.h (act op)).st.chans.find? fun c => c.localCID = p.loc := by unfold chan; rw [h1]
  rw [hw]
  rcases hop with rfl | rfl
  · simp only [act, Coc.step, succeeds, hf, Option.isSome_some, true_and, effect]
    by_cases e : c.localCID = p.loc
    · rw [if_pos e]
      rw [List.find?_eq_none]
      intro d hd
      obtain ⟨hd, hn⟩ := List.mem_filter.1 hd
      intro e'
      have hx := chan_of_mem hi hd (o := p) (by simpa using e')
      rw [chan_of_mem hi hc e] at hx
      obtain rfl := Option.some.inj hx
      simp [hr] at hn
    · rw [if_neg e]
      refine remove_find _ _ _ fun d hd e' hr' => e ?_
      rw [← unique_of_nodup hi.table.remotes hd hc (hr'.trans hr.symm), e']
  · have hm : (setCredits w.h.st o.rem (c.credits - 1)).chans = w.h.st.chans.map fun d => if d.remoteCID = c.remoteCID then { c with credits := c.credits - 1 } else d := by
      unfold setCredits
      simp only
      apply List.map_congr_left
      intro d hd
      rw [hr]
      split
      · next e => rw [unique_of_nodup hi.table.remotes hd hc (e.trans hr.symm), hr]
      · rfl
    simp only [act, Coc.step, succeeds, decrement, hf]
    by_cases h : 1 > c.credits
    · simp [h, chan]
    · rw [if_neg h]
      simp only [Option.isSome_some, true_and, effect]
      rw [hm]
      exact map_put hi hc { c with credits := c.credits - 1 } rfl p

/-- A call that looks up by local identifier. -/
theorem acts_local {w w' : World} (hi : Inv w) {op : Op} {o : Obj} (hop : op = .subscribe o ∨ op = .unsubscribe o) (hs : step w op = some w') {c : Chan} (hf : chan w o = some c) (p : Obj) :
    chan w' p = if succeeds w.h.st op = true ∧ c.localCID = p.loc then effect op c else chan w p := by
  obtain ⟨_, h1, _⟩ := step_eq hs
  obtain ⟨hc, hl⟩ := chan_mem hf
  have hk : lookupLocal w.h.st o.loc = some c := hf
  have hw : chan w' p = (Coc.step w.h (act op)).st.chans.find? fun c => c.localCID = p.loc := by unfold chan; rw [h1]
  rw [hw]
  rcases hop with rfl | rfl
  · simp only [act, Coc.step, succeeds, Coc.subscribe, hk]
    by_cases hsub : c.sub = true
    · simp [hsub, chan]
    · rw [if_neg hsub]
      simp only [Option.isSome_some, true_and, effect]
      exact map_put hi hc { c with sub := true } rfl p
  · simp only [act, Coc.step, succeeds, Coc.unsubscribe, hk, Option.isSome_some, true_and, effect]
    exact map_put hi hc { c with sub := false } rfl p

/-! ## Theorems -/

/-- **C203** Objects made by different calls of `Open` have different local identifiers, and every open channel has its object, whose `Info` gives the identifiers and sizes of that channel. -/
theorem objects_distinct (ops : List Op) (w : World) (hr : run World.init ops = some w) :
    (∀ o ∈ w.objs, ∀ p ∈ w.objs, o.loc = p.loc → o = p) ∧
    (∀ c ∈ w.h.st.chans, ∃ o ∈ w.objs, chan w o = some c ∧ o = ⟨c.localCID, c.remoteCID, c.mtu, c.mps⟩) := by
  have hi := inv_run inv_init hr
  refine ⟨fun o ho p hp e => obj_eq hi ho hp e, fun c hc => ?_⟩
  obtain ⟨o, ho, e1, e2, e3, e4⟩ := hi.own c hc
  exact ⟨o, ho, chan_of_mem hi hc e1.symm, by cases o; simp_all⟩

/-- **C203** `Subscribe` and `Unsubscribe` of an object: they fail, and change nothing, when the object's channel is closed (or, for `Subscribe`, already subscribed to); otherwise they change that channel and no other. -/
theorem subscription_own (ops : List Op) (w : World) (hr : run World.init ops = some w) (o : Obj) (op : Op) (hop : op = .subscribe o ∨ op = .unsubscribe o) (w' : World) (hs : step w op = some w') :
    (succeeds w.h.st op = true ↔ ∃ c, chan w o = some c ∧ (op = .subscribe o → c.sub = false)) ∧
    (∀ p ∈ w.objs, chan w' p = if p = o ∧ succeeds w.h.st op = true then (chan w o).bind (effect op) else chan w p) := by
  have hi := inv_run inv_init hr
  have ho : o ∈ w.objs := (step_eq hs).1 o (by rcases hop with rfl | rfl <;> rfl)
  cases hc : chan w o with
  | some c =>
    constructor
    · have hk : lookupLocal w.h.st o.loc = some c := hc
      rcases hop with rfl | rfl
      · simp only [succeeds, Coc.subscribe, hk]
        cases hb : c.sub <;> simp [hb]
      · simp [succeeds, Coc.unsubscribe, hk]
    · intro p hp
      rw [acts_local hi hop hs hc p]
      have hl := (chan_mem hc).2
      by_cases e : p = o
      · subst e
        rw [hl]
        by_cases hsu : succeeds w.h.st op = true
        · simp [hsu]
        · simp [hsu, hc]
      · have : c.localCID ≠ p.loc := fun e' => e (obj_eq hi hp ho (e'.symm.trans hl))
        simp [e, this]
  | none =>
    have hk : lookupLocal w.h.st o.loc = none := hc
    have hns : succeeds w.h.st op = false := by
      rcases hop with rfl | rfl
      · simp [succeeds, Coc.subscribe, hk]
      · simp [succeeds, Coc.unsubscribe, hk]
    refine ⟨by simp [hns], fun p hp => ?_⟩
    rw [hns]
    obtain ⟨_, h1, _⟩ := step_eq hs
    simp only [Bool.false_eq_true, and_false, if_false]
    unfold chan
    rw [h1]
    rcases hop with rfl | rfl
    · simp [act, Coc.step, Coc.subscribe, hk]
    · simp [act, Coc.step, Coc.unsubscribe, hk]

/-- **C203** `Close` and `Send` of an object whose channel is open: `Close` succeeds; `Send` gets a credit exactly if that channel has one; the object's channel is closed, has one credit less, and no other object's channel changes.
Missing: nothing of this holds once the object's channel is closed (`stale_object`, `old_object_acts_on_new_channel`). -/
theorem open_object_own_partial (ops : List Op) (w : World) (hr : run World.init ops = some w) (o : Obj) (op : Op) (hop : op = .close o ∨ op = .credit o) (w' : World) (hs : step w op = some w')
    (c : Chan) (hc : chan w o = some c) :
    (succeeds w.h.st op = true ↔ op = .close o ∨ 0 < c.credits) ∧
    (∀ p ∈ w.objs, chan w' p = if p = o ∧ succeeds w.h.st op = true then effect op c else chan w p) := by
  have hi := inv_run inv_init hr
  have ho : o ∈ w.objs := (step_eq hs).1 o (by rcases hop with rfl | rfl <;> rfl)
  have hf := find_own hi ho hc
  constructor
  · rcases hop with rfl | rfl
    · simp [succeeds, hf]
    · simp only [succeeds, decrement, hf, reduceCtorEq, false_or]
      by_cases h : 1 > c.credits
      · simp [h]; omega
      · simp [h]; omega
  · intro p hp
    rw [acts_remote hi hop hs hf p]
    have hl := (chan_mem hc).2
    by_cases e : p = o
    · subst e; simp [hl]
    · have : c.localCID ≠ p.loc := fun e' => e (obj_eq hi hp ho (e'.symm.trans hl))
      simp [e, this]

/-- **C203** `Close` and `Send` of an object whose channel is closed, exactly: they fail as they should if no open channel has the remote identifier the object remembers; otherwise they act on the channel of another object. -/
theorem stale_object (ops : List Op) (w : World) (hr : run World.init ops = some w) (o : Obj) (op : Op) (hop : op = .close o ∨ op = .credit o) (w' : World) (hs : step w op = some w')
    (hc : chan w o = none) :
    ((∀ c ∈ w.h.st.chans, c.remoteCID ≠ o.rem) → succeeds w.h.st op = false ∧ ∀ p ∈ w.objs, chan w' p = chan w p) ∧
    (∀ c ∈ w.h.st.chans, c.remoteCID = o.rem → ∃ q ∈ w.objs, q ≠ o ∧ q.rem = o.rem ∧ chan w q = some c ∧
      (succeeds w.h.st op = true ↔ op = .close o ∨ 0 < c.credits) ∧
      (succeeds w.h.st op = true → chan w' q = effect op c) ∧
      ∀ p ∈ w.objs, p ≠ q → chan w' p = chan w p) := by
  have hi := inv_run inv_init hr
  constructor
  · intro hno
    have hf : find w.h.st o.rem = none := by
      unfold find
      rw [List.find?_eq_none]
      intro c hc
      simpa using hno c hc
    have hns : succeeds w.h.st op = false := by
      rcases hop with rfl | rfl
      · simp [succeeds, hf]
      · simp [succeeds, decrement, hf]
    refine ⟨hns, fun p hp => ?_⟩
    obtain ⟨_, h1, _⟩ := step_eq hs
    unfold chan
    rw [h1]
    rcases hop with rfl | rfl
    · simp only [act, Coc.step]
      refine remove_find _ _ _ fun d hd _ e => ?_
      exact hno d hd e
    · simp [act, Coc.step, decrement, hf]
  · intro c hm hrem
    have hf : find w.h.st o.rem = some c := by
      cases hf : find w.h.st o.rem with
      | none =>
        unfold find at hf
        rw [List.find?_eq_none] at hf
        exact absurd hrem (by simpa using hf c hm)
      | some d =>
        have h2 : d.remoteCID = o.rem := by simpa using List.find?_some hf
        rw [unique_of_nodup hi.table.remotes (List.mem_of_find?_eq_some hf) hm (h2.trans hrem.symm)]
    obtain ⟨q, hq, e1, e2, _⟩ := hi.own c hm
    have hcq : chan w q = some c := chan_of_mem hi hm e1.symm
    have hqo : q ≠ o := by
      intro e
      rw [← e, hcq] at hc
      cases hc
    refine ⟨q, hq, hqo, e2.trans hrem, hcq, ?_, ?_, ?_⟩
    · rcases hop with rfl | rfl
      · simp [succeeds, hf]
      · simp only [succeeds, decrement, hf, reduceCtorEq, false_or]
        by_cases h : 1 > c.credits
        · simp [h]; omega
        · simp [h]; omega
    · intro hsu
      rw [acts_remote hi hop hs hf q, if_pos ⟨hsu, e1.symm⟩]
    · intro p hp hne
      rw [acts_remote hi hop hs hf p, if_neg]
      intro ⟨_, e⟩
      exact hne (obj_eq hi hp hq (e.symm.trans e1.symm))

/-- A first channel (peer's identifier 0x50, two credits) is opened and closed; the peer uses its identifier again for a second one. -/
def reuse : List Op := [.reserve, .answer 0x40 (.accepted 0x50 2 100 50), .close ⟨0x40, 0x50, 100, 50⟩, .reserve, .answer 0x41 (.accepted 0x50 5 200 60)]

def oldObj : Obj := ⟨0x40, 0x50, 100, 50⟩
def newObj : Obj := ⟨0x41, 0x50, 200, 60⟩

/-- Two open channels: the hypotheses of the theorems above are met. -/
theorem two_channels_example : ∃ w, run World.init [.reserve, .reserve, .answer 0x41 (.accepted 0x60 3 80 40), .answer 0x40 (.accepted 0x50 2 100 50)] = some w ∧
    oldObj ∈ w.objs ∧ chan w oldObj = some ⟨0x40, 0x50, 2, 100, 50, false⟩ ∧ chan w ⟨0x41, 0x60, 80, 40⟩ = some ⟨0x41, 0x60, 3, 80, 40, false⟩ ∧
    (∃ w', step w (.close oldObj) = some w' ∧ chan w' oldObj = none ∧ chan w' ⟨0x41, 0x60, 80, 40⟩ = some ⟨0x41, 0x60, 3, 80, 40, false⟩) ∧
    (∃ w', step w (.subscribe oldObj) = some w' ∧ chan w' oldObj = some ⟨0x40, 0x50, 2, 100, 50, true⟩) :=
  ⟨_, rfl, by decide, by decide, by decide, ⟨_, rfl, by decide, by decide⟩, ⟨_, rfl, by decide⟩⟩

/-- **C203 is false without the restriction**: after `Close` and a new `Open` in which the peer uses its identifier again, `Close` of the old object closes the new channel, and `Send` of the old object takes the credits of the new channel. -/
theorem old_object_acts_on_new_channel : ∃ w, run World.init reuse = some w ∧ oldObj ∈ w.objs ∧ newObj ∈ w.objs ∧ chan w oldObj = none ∧ chan w newObj = some ⟨0x41, 0x50, 5, 200, 60, false⟩ ∧
    (∃ w', step w (.close oldObj) = some w' ∧ succeeds w.h.st (.close oldObj) = true ∧ chan w' newObj = none) ∧
    (∃ w', step w (.credit oldObj) = some w' ∧ succeeds w.h.st (.credit oldObj) = true ∧ chan w' newObj = some ⟨0x41, 0x50, 4, 200, 60, false⟩) ∧
    (∃ w', step w (.subscribe oldObj) = some w' ∧ succeeds w.h.st (.subscribe oldObj) = false) :=
  ⟨_, rfl, by decide, by decide, by decide, by decide, ⟨_, rfl, by decide, by decide⟩, ⟨_, rfl, by decide, by decide⟩, ⟨_, rfl, by decide⟩⟩

end Ble.CocObj
