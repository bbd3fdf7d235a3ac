import Verif.Hci.Coc
import Verif.Hci.L2capSpec
set_option autoImplicit false

/-!
# C36, C37, C38: LE credit-based channels
-/

namespace Ble.Props

open Ble.Coc Ble.L2capSpec

namespace CocSpec

/-- The peer's messages carry 16-bit credit counts. -/
def ActOk : Act → Prop
  | .answer _ (.accepted _ c _ _) => c < 65536
  | .grant _ n => n < 65536
  | _ => True

/-- `infos` are the information payloads of the K-frames of one SDU [Core, Vol 3, Part A, 3.4]: the first starts with the SDU length, the others do not; all carry data and none is longer
than the MPS. -/
def IsSegmentation (mps : Nat) (sdu : Bytes) (infos : List Bytes) : Prop :=
  ∃ first rest, infos = (put16 sdu.length ++ first) :: rest ∧ first ++ rest.flatten = sdu ∧ sdu.length < 65536 ∧ (∀ p ∈ rest, p ≠ []) ∧
    ∀ p ∈ infos, p.length ≤ mps

/-! ## Lemmas -/

theorem upd_same (f : Nat → Nat) (i v : Nat) : upd f i v i = v := by simp [upd]
theorem upd_other (f : Nat → Nat) {i j : Nat} (v : Nat) (h : j ≠ i) : upd f i v j = f j := by simp [upd, h]

theorem find_map {cs : List Chan} (f : Chan → Chan) (hf : ∀ c, (f c).remoteCID = c.remoteCID) (r : Nat) :
    (cs.map f).find? (fun c => c.remoteCID = r) = (cs.find? fun c => c.remoteCID = r).map f := by
  induction cs with
  | nil => rfl
  | cons c cs ih =>
    rw [List.map_cons]
    by_cases h : c.remoteCID = r
    · rw [List.find?_cons_of_pos (by simp [hf, h]), List.find?_cons_of_pos (by simp [h])]; rfl
    · rw [List.find?_cons_of_neg (by simp [hf, h]), List.find?_cons_of_neg (by simp [h])]; exact ih

theorem find_remote {s : St} {r : Nat} {c : Chan} (h : find s r = some c) : c.remoteCID = r ∧ c ∈ s.chans := by
  have h1 := List.find?_some h
  have h2 := List.mem_of_find?_eq_some h
  exact ⟨by simpa using h1, h2⟩

/-- Credits of the channel with this remote identifier, 0 if there is none. -/
def creditsOf (s : St) (r : Nat) : Nat := ((find s r).map (·.credits)).getD 0

theorem creditsOf_set (s : St) (r n r' : Nat) (c : Chan) (h : find s r = some c) : creditsOf (setCredits s r n) r' = if r' = r then n else creditsOf s r' := by
  unfold creditsOf
  have : find (setCredits s r n) r' = (find s r').map fun c => if c.remoteCID = r then { c with credits := n } else c :=
    find_map _ (by intro c; split <;> rfl) r'
  rw [this]
  split
  · rename_i e; subst e
    rw [h]; simp [(find_remote h).1]
  · rename_i e
    cases hf : find s r' with
    | none => rfl
    | some d =>
      have := (find_remote hf).1
      simp [this, e]

structure Inv (h : Hist) : Prop where
  /-- remote identifiers are unique -/
  remotes : (h.st.chans.map (·.remoteCID)).Nodup
  locals : (h.st.chans.map (·.localCID) ++ h.opening).Nodup
  known : ∀ l, l ∈ h.st.chans.map (·.localCID) ++ h.opening → l ∈ h.ids
  ids : h.ids = List.range' 0x40 h.ids.length
  next : (h.ids.length < 65472 ∧ h.st.next = 0x40 + h.ids.length) ∨ (h.ids.length = 65472 ∧ h.st.next = 0)
  written : ∀ r, h.written r ≤ h.taken r
  credit : ∀ r, h.taken r + creditsOf h.st r ≤ h.granted r

theorem Inv_init : Inv Hist.init := by
  refine ⟨by simp [Hist.init, Coc.init], by simp [Hist.init, Coc.init], by simp [Hist.init, Coc.init], rfl, Or.inl ⟨by simp [Hist.init], rfl⟩, by simp [Hist.init], by
    intro r; simp [Hist.init, creditsOf, find, Coc.init]⟩

theorem unique_of_nodup {cs : List Chan} (hn : (cs.map (·.remoteCID)).Nodup) {c d : Chan} (hc : c ∈ cs) (hd : d ∈ cs) (e : c.remoteCID = d.remoteCID) : c = d := by
  induction cs with
  | nil => simp at hc
  | cons x xs ih =>
    rw [List.map_cons, List.nodup_cons] at hn
    rcases List.mem_cons.1 hc with h1 | h1 <;> rcases List.mem_cons.1 hd with h2 | h2
    · rw [h1, h2]
    · subst h1; exact absurd (List.mem_map.2 ⟨d, h2, e.symm⟩) hn.1
    · subst h2; exact absurd (List.mem_map.2 ⟨c, h1, e⟩) hn.1
    · exact ih hn.2 h1 h2

/-- Replacing the entry of a channel by a copy with another subscription flag. -/
private theorem Inv_sub {h : Hist} (hi : Inv h) (c : Chan) (b : Bool) (hc : c ∈ h.st.chans) :
    Inv { h with st := { h.st with chans := h.st.chans.map fun d => if d.remoteCID = c.remoteCID then { c with sub := b } else d } } := by
  have key : ∀ d ∈ h.st.chans, (if d.remoteCID = c.remoteCID then { c with sub := b } else d) = { d with sub := if d.remoteCID = c.remoteCID then b else d.sub } := by
    intro d hd
    split
    · rename_i e; rw [unique_of_nodup hi.remotes hd hc e]
    · rfl
  have m1 : (h.st.chans.map fun d => if d.remoteCID = c.remoteCID then { c with sub := b } else d).map (·.remoteCID) = h.st.chans.map (·.remoteCID) := by
    rw [List.map_map]; apply List.map_congr_left; intro d hd; simp only [Function.comp, key d hd]
  have m2 : (h.st.chans.map fun d => if d.remoteCID = c.remoteCID then { c with sub := b } else d).map (·.localCID) = h.st.chans.map (·.localCID) := by
    rw [List.map_map]; apply List.map_congr_left; intro d hd; simp only [Function.comp, key d hd]
  refine ⟨by simp only [m1]; exact hi.remotes, by simp only [m2]; exact hi.locals, by simp only [m2]; exact hi.known, hi.ids, hi.next, hi.written, ?_⟩
  intro r
  have : creditsOf { h.st with chans := h.st.chans.map fun d => if d.remoteCID = c.remoteCID then { c with sub := b } else d } r = creditsOf h.st r := by
    unfold creditsOf
    have hf : find { h.st with chans := h.st.chans.map fun d => if d.remoteCID = c.remoteCID then { c with sub := b } else d } r
        = (find h.st r).map fun d => if d.remoteCID = c.remoteCID then { c with sub := b } else d :=
      find_map _ (by intro d; split; · rename_i e; exact e.symm
                     · rfl) r
    rw [hf]
    cases hfr : find h.st r with
    | none => rfl
    | some d => simp only [Option.map_some, Option.getD_some]; rw [key d (find_remote hfr).2]
  simp only [this]
  exact hi.credit r

private theorem Inv_set {h : Hist} (hi : Inv h) (r n : Nat) : 
    ((setCredits h.st r n).chans.map (·.remoteCID)).Nodup ∧ ((setCredits h.st r n).chans.map (·.localCID) ++ h.opening).Nodup ∧
    (∀ l, l ∈ (setCredits h.st r n).chans.map (·.localCID) ++ h.opening → l ∈ h.ids) := by
  have m1 : (setCredits h.st r n).chans.map (·.remoteCID) = h.st.chans.map (·.remoteCID) := by
    simp only [setCredits, List.map_map]; apply List.map_congr_left; intro d _; simp only [Function.comp]; split <;> rfl
  have m2 : (setCredits h.st r n).chans.map (·.localCID) = h.st.chans.map (·.localCID) := by
    simp only [setCredits, List.map_map]; apply List.map_congr_left; intro d _; simp only [Function.comp]; split <;> rfl
  rw [m1, m2]
  exact ⟨hi.remotes, hi.locals, hi.known⟩

theorem Inv_step {h : Hist} (hi : Inv h) (a : Act) : Inv (step h a) := by
  cases a with
  | reserve =>
    simp only [step, nextSourceCID]
    split
    · exact hi
    · rename_i l s hs
      split at hs
      · cases hs
      · rename_i hge
        injection hs with hs; injection hs with h1 h2; subst h1; subst h2
        rcases hi.next with ⟨hn1, hn2⟩ | ⟨_, hn2⟩
        · have hnot : h.st.next ∉ h.ids := by
            rw [hi.ids, List.mem_range'_1]; omega
          constructor
          · exact hi.remotes
          · rw [← List.append_assoc, List.nodup_append]
            refine ⟨hi.locals, by simp, ?_⟩
            intro x hx y hy
            simp only [List.mem_singleton] at hy; subst hy
            rintro rfl; exact hnot (hi.known _ hx)
          · intro l hl
            rw [← List.append_assoc, List.mem_append] at hl
            rcases hl with hl | hl
            · exact List.mem_append_left _ (hi.known l hl)
            · exact List.mem_append_right _ hl
          · have hids := hi.ids
            simp only [List.length_append, List.length_singleton]
            conv => lhs; rw [hids]
            rw [List.range'_concat, hn2]
            simp
          · simp only [List.length_append, List.length_singleton]
            omega
          · exact hi.written
          · exact hi.credit
        · omega
  | answer l a =>
    simp only [step]
    split
    · rename_i hl
      have keep : Inv { h with opening := h.opening.erase l } := by
        refine ⟨hi.remotes, ?_, ?_, hi.ids, hi.next, hi.written, hi.credit⟩
        · exact hi.locals.sublist (List.Sublist.append_left List.erase_sublist _)
        · intro x hx
          apply hi.known
          rcases List.mem_append.1 hx with hx | hx
          · exact List.mem_append_left _ hx
          · exact List.mem_append_right _ (List.mem_of_mem_erase hx)
      cases a with
      | noAnswer => exact keep
      | refused => exact keep
      | accepted dcid c mtu mps =>
        cases hf : find h.st dcid with
        | some d =>
          have hadd : addChannel h.st l (.accepted dcid c mtu mps) = (h.st, false) := by simp [addChannel, hf]
          simp only [hadd]; exact keep
        | none =>
          have hadd : addChannel h.st l (.accepted dcid c mtu mps) = ({ h.st with chans := h.st.chans ++ [⟨l, dcid, c, mtu, mps, false⟩] }, true) := by simp [addChannel, hf]
          simp only [hadd, if_true]
          have hnr : dcid ∉ h.st.chans.map (·.remoteCID) := by
            intro hm
            obtain ⟨x, hx, hxe⟩ := List.mem_map.1 hm
            have := List.find?_eq_none.1 hf x hx
            simp [hxe] at this
          constructor
          · simp only [List.map_append, List.map_cons, List.map_nil, List.nodup_append]
            refine ⟨hi.remotes, by simp, ?_⟩
            intro x hx y hy
            simp only [List.mem_singleton] at hy; subst hy
            rintro rfl; exact hnr hx
          · simp only [List.map_append, List.map_cons, List.map_nil, List.append_assoc, List.singleton_append]
            have hnd := hi.locals
            have hp : (h.st.chans.map (·.localCID) ++ l :: h.opening.erase l).Perm (h.st.chans.map (·.localCID) ++ h.opening) :=
              List.Perm.append_left _ (List.perm_cons_erase hl).symm
            exact hp.nodup_iff.2 hnd
          · intro x hx
            simp only [List.map_append, List.map_cons, List.map_nil, List.append_assoc, List.singleton_append] at hx
            apply hi.known
            rcases List.mem_append.1 hx with hx | hx
            · exact List.mem_append_left _ hx
            · rcases List.mem_cons.1 hx with rfl | hx
              · exact List.mem_append_right _ hl
              · exact List.mem_append_right _ (List.mem_of_mem_erase hx)
          · exact hi.ids
          · exact hi.next
          · exact hi.written
          · intro r
            have hcr := hi.credit r
            by_cases hr : r = dcid
            · subst hr
              simp only [upd_same]
              have : creditsOf { h.st with chans := h.st.chans ++ [⟨l, r, c, mtu, mps, false⟩] } r = c := by
                unfold creditsOf find
                rw [List.find?_append]
                unfold find at hf
                rw [hf]; simp
              rw [this]; omega
            · simp only [upd_other _ _ hr]
              have : creditsOf { h.st with chans := h.st.chans ++ [⟨l, dcid, c, mtu, mps, false⟩] } r = creditsOf h.st r := by
                unfold creditsOf find
                rw [List.find?_append]
                have : ([(⟨l, dcid, c, mtu, mps, false⟩ : Chan)].find? fun c => c.remoteCID = r) = none := by
                  simp; exact fun e => hr e.symm
                rw [this]; simp
              rw [this]; exact hcr
    · exact hi
  | closeChan r =>
    simp only [step, closeChan]
    have hsub : (h.st.chans.filter fun c => decide (c.remoteCID ≠ r)).Sublist h.st.chans := List.filter_sublist
    constructor
    · exact hi.remotes.sublist (hsub.map _)
    · exact hi.locals.sublist (List.Sublist.append_right (hsub.map _) _)
    · intro x hx
      apply hi.known
      rcases List.mem_append.1 hx with hx | hx
      · exact List.mem_append_left _ ((hsub.map _).subset hx)
      · exact List.mem_append_right _ hx
    · exact hi.ids
    · exact hi.next
    · exact hi.written
    · intro r'
      have hcr := hi.credit r'
      have : creditsOf { h.st with chans := h.st.chans.filter fun c => decide (c.remoteCID ≠ r) } r' ≤ creditsOf h.st r' := by
        unfold creditsOf find
        by_cases hr : r' = r
        · subst hr
          have : (h.st.chans.filter fun c => decide (c.remoteCID ≠ r')).find? (fun c => decide (c.remoteCID = r')) = none := by
            rw [List.find?_eq_none]; intro x hx; simp at hx ⊢; exact hx.2
          simp only [this]; exact Nat.zero_le _
        · have : (h.st.chans.filter fun c => decide (c.remoteCID ≠ r)).find? (fun c => decide (c.remoteCID = r')) = h.st.chans.find? (fun c => decide (c.remoteCID = r')) := by
            rw [List.find?_filter]
            congr 1; funext c
            by_cases hc : c.remoteCID = r'
            · simp [hc, hr]
            · simp [hc]
          simp only [this]; exact Nat.le_refl _
      exact Nat.le_trans (Nat.add_le_add_left this _) hcr
  | grant r n =>
    simp only [step, increment]
    cases hf : find h.st r with
    | none => exact hi
    | some c =>
      simp only []
      by_cases hov : c.credits + n > 0xffff
      · simp only [hov, if_true]; exact hi
      · simp only [hov, if_false]
        obtain ⟨s1, s2, s3⟩ := Inv_set hi r (c.credits + n)
        refine ⟨s1, s2, s3, hi.ids, hi.next, hi.written, ?_⟩
        intro r'
        have hcr := hi.credit r'
        simp only [creditsOf_set _ _ _ _ _ hf]
        by_cases hr : r' = r
        · subst hr
          rw [if_pos rfl, upd_same]
          have : creditsOf h.st r' = c.credits := by simp [creditsOf, hf]
          omega
        · rw [if_neg hr, upd_other _ _ hr]; exact hcr
  | take r =>
    simp only [step, decrement]
    cases hf : find h.st r with
    | none => exact hi
    | some c =>
      simp only []
      by_cases hov : 1 > c.credits
      · simp only [hov, if_true]; exact hi
      · simp only [hov, if_false]
        obtain ⟨s1, s2, s3⟩ := Inv_set hi r (c.credits - 1)
        refine ⟨s1, s2, s3, hi.ids, hi.next, ?_, ?_⟩
        · intro r'
          have := hi.written r'
          by_cases hr : r' = r
          · subst hr; simp only [upd_same]; omega
          · simp only [upd_other _ _ hr]; exact this
        · intro r'
          have hcr := hi.credit r'
          simp only [creditsOf_set _ _ _ _ _ hf]
          by_cases hr : r' = r
          · subst hr
            rw [if_pos rfl, upd_same]
            have : creditsOf h.st r' = c.credits := by simp [creditsOf, hf]
            omega
          · rw [if_neg hr, upd_other _ _ hr]; exact hcr
  | write r =>
    simp only [step]
    split
    · refine ⟨hi.remotes, hi.locals, hi.known, hi.ids, hi.next, ?_, hi.credit⟩
      intro r'
      have := hi.written r'
      by_cases hr : r' = r
      · subst hr; simp only [upd_same]; omega
      · simp only [upd_other _ _ hr]; exact this
    · exact hi
  | subscribe l =>
    simp only [step, subscribe]
    cases hl : lookupLocal h.st l with
    | none => exact hi
    | some c =>
      simp only []
      by_cases hs : c.sub = true
      · simp only [hs, if_true]; exact hi
      · simp only [hs]
        exact Inv_sub hi c true (List.mem_of_find?_eq_some hl)
  | unsubscribe l =>
    simp only [step, unsubscribe]
    cases hl : lookupLocal h.st l with
    | none => exact hi
    | some c => exact Inv_sub hi c false (List.mem_of_find?_eq_some hl)

theorem Inv_run (as : List Act) : Inv (run Hist.init as) := by
  have : ∀ (as : List Act) (h : Hist), Inv h → Inv (run h as) := by
    intro as
    induction as with
    | nil => intro h hi; exact hi
    | cons a as ih => intro h hi; exact ih _ (Inv_step hi a)
  exact this as _ Inv_init

end CocSpec

open CocSpec

/-! ## C36 -/

/-- C36. In every history of opening, closing, granting, sending and subscribing by any number of goroutines, the frames written on a channel never exceed the credits the peer granted for it. -/
theorem coc_frames_le_credits (as : List Act) (r : Nat) : (run Hist.init as).written r ≤ (run Hist.init as).granted r := by
  have h := Inv_run as
  have := h.written r; have := h.credit r; omega

/-- Credits never wrap around: in every such history the count of every open channel is below 65536. -/
theorem coc_credits_bounded (as : List Act) (ha : ∀ a ∈ as, ActOk a) (c : Chan) (hc : c ∈ (run Hist.init as).st.chans) : c.credits < 65536 := by
  have : ∀ (as : List Act) (h : Hist), (∀ a ∈ as, ActOk a) → (∀ c ∈ h.st.chans, c.credits < 65536) → ∀ c ∈ (run h as).st.chans, c.credits < 65536 := by
    intro as
    induction as with
    | nil => intro h _ hi; exact hi
    | cons a as ih =>
      intro h ha hi
      refine ih (step h a) (fun x hx => ha x (by simp [hx])) ?_
      have hok := ha a (by simp)
      intro c hc
      cases a with
      | reserve =>
        simp only [step, nextSourceCID] at hc
        split at hc
        · exact hi c hc
        · rename_i l s hs
          split at hs
          · cases hs
          · injection hs with hs; injection hs with _ h2; subst h2; exact hi c hc
      | answer l a =>
        simp only [step] at hc
        split at hc
        · cases a with
          | noAnswer => exact hi c hc
          | refused => exact hi c hc
          | accepted dcid n mtu mps =>
            simp only [addChannel] at hc
            split at hc
            · exact hi c hc
            · simp only [] at hc
              rcases List.mem_append.1 hc with hc | hc
              · exact hi c hc
              · simp only [List.mem_singleton] at hc; subst hc; exact hok
        · exact hi c hc
      | closeChan r => exact hi c (List.mem_filter.1 hc).1
      | grant r n =>
        simp only [step, increment] at hc
        split at hc
        · rename_i s hs
          split at hs
          · cases hs
          · split at hs
            · cases hs
            · injection hs with hs; subst hs
              simp only [setCredits, List.mem_map] at hc
              obtain ⟨d, hd, rfl⟩ := hc
              split
              · simp only []; omega
              · exact hi d hd
        · exact hi c hc
      | take r =>
        simp only [step, decrement] at hc
        split at hc
        · rename_i s hs
          split at hs
          · cases hs
          · rename_i x hx
            split at hs
            · cases hs
            · injection hs with hs; subst hs
              simp only [setCredits, List.mem_map] at hc
              obtain ⟨d, hd, rfl⟩ := hc
              split
              · have := hi x (find_remote hx).2; simp only []; omega
              · exact hi d hd
        · exact hi c hc
      | write r =>
        simp only [step] at hc
        split at hc <;> exact hi c hc
      | subscribe l =>
        simp only [step, subscribe] at hc
        split at hc
        · rename_i s hs
          split at hs
          · cases hs
          · rename_i x hx
            split at hs
            · cases hs
            · injection hs with hs; subst hs
              simp only [List.mem_map] at hc
              obtain ⟨d, hd, rfl⟩ := hc
              split
              · exact hi x (List.mem_of_find?_eq_some hx)
              · exact hi d hd
        · exact hi c hc
      | unsubscribe l =>
        simp only [step, unsubscribe] at hc
        split at hc
        · rename_i s hs
          split at hs
          · cases hs
          · rename_i x hx
            injection hs with hs; subst hs
            simp only [List.mem_map] at hc
            obtain ⟨d, hd, rfl⟩ := hc
            split
            · exact hi x (List.mem_of_find?_eq_some hx)
            · exact hi d hd
        · exact hi c hc
  exact this as Hist.init ha (by simp [Hist.init, Coc.init]) c hc

/-- A grant that would overflow is refused and changes nothing. -/
theorem coc_overflow_refused (s : St) (c : Chan) (r n : Nat) (hf : find s r = some c) (h : 65535 < c.credits + n) : increment s r n = none := by
  simp [increment, hf, h]

/-- An accepted grant adds exactly the credits to the channel, and to no other. -/
theorem coc_grant_adds (s s' : St) (c : Chan) (r n r' : Nat) (hf : find s r = some c) (h : increment s r n = some s') :
    creditsOf s' r' = if r' = r then creditsOf s r + n else creditsOf s r' := by
  simp only [increment, hf] at h
  split at h
  · cases h
  · injection h with h; subst h
    rw [creditsOf_set s r _ r' c hf]
    simp [creditsOf, hf]

/-- A frame costs exactly one credit of its channel; without credit nothing is taken. -/
theorem coc_frame_costs_one (s : St) (r : Nat) : (∃ s', decrement s r 1 = some s' ∧ ∀ r', creditsOf s' r' = if r' = r then creditsOf s r - 1 else creditsOf s r') ↔ 0 < creditsOf s r := by
  unfold decrement
  cases hf : find s r with
  | none => simp [creditsOf, hf]
  | some c =>
    have hc : creditsOf s r = c.credits := by simp [creditsOf, hf]
    simp only [hc]
    constructor
    · rintro ⟨s', h, _⟩
      split at h
      · cases h
      · omega
    · intro h
      refine ⟨setCredits s r (c.credits - 1), by rw [if_neg (by omega)], fun r' => ?_⟩
      rw [creditsOf_set s r _ r' c hf]

/-- Each frame received on an open channel gives the peer exactly one credit back. -/
theorem coc_returns_one_credit (s : St) (c : Chan) (cid : Nat) (h : lookupLocal s cid = some c) : creditReturned s cid = 1 := by simp [creditReturned, h]

/-- A frame on a channel that is not open gives no credit. -/
theorem coc_no_credit_unknown (s : St) (cid : Nat) (h : lookupLocal s cid = none) : creditReturned s cid = 0 := by simp [creditReturned, h]

/-- Credits that arrive before `Open` has stored the channel are lost: here the peer grants 5 credits right after accepting the channel with none; the channel then has none. -/
theorem coc_early_credits_lost : ∃ as, (∀ a ∈ as, ActOk a) ∧ Act.grant 0x41 5 ∈ as ∧ creditsOf (run Hist.init as).st 0x41 = 0 ∧ (find (run Hist.init as).st 0x41).isSome :=
  ⟨[.reserve, .grant 0x41 5, .answer 0x40 (.accepted 0x41 0 64 64)], by simp [ActOk], by simp, by decide, by decide⟩

/-! ## C37 -/

/-- C37. In every history, the open channels and the calls of `Open` in progress have different local identifiers, all in the dynamic range. -/
theorem coc_local_ids_unique (as : List Act) :
    ((run Hist.init as).st.chans.map (·.localCID) ++ (run Hist.init as).opening).Nodup ∧
    ∀ l ∈ (run Hist.init as).st.chans.map (·.localCID) ++ (run Hist.init as).opening, 0x40 ≤ l ∧ l ≤ 0xffff := by
  have h := Inv_run as
  refine ⟨h.locals, fun l hl => ?_⟩
  have h1 := h.known l hl
  rw [h.ids, List.mem_range'_1] at h1
  have := h.next
  omega

/-- No identifier is ever handed out twice, not even after its channel was closed. -/
theorem coc_local_ids_never_reused (as : List Act) : (run Hist.init as).ids.Nodup := by
  have h := Inv_run as
  rw [h.ids]
  exact List.nodup_range' ..

/-- The remote identifiers of the open channels are different too. -/
theorem coc_remote_ids_unique (as : List Act) : ((run Hist.init as).st.chans.map (·.remoteCID)).Nodup := (Inv_run as).remotes

/-- Identifiers are handed out as long as there are some, whatever else happens … -/
theorem coc_open_has_id (as : List Act) (h : (run Hist.init as).ids.length < 65472) : ∃ l s, nextSourceCID (run Hist.init as).st = some (l, s) := by
  have := (Inv_run as).next
  unfold nextSourceCID
  rw [if_neg (by omega)]
  exact ⟨_, _, rfl⟩

/-- … but after 65472 calls of `Open` the connection can open no channel any more, even if all its channels are closed. -/
theorem coc_ids_run_out (as bs : List Act) (h : (run Hist.init as).ids.length = 65472) : nextSourceCID (run Hist.init (as ++ bs)).st = none ∧ (run Hist.init (as ++ bs)).ids = (run Hist.init as).ids := by
  have key : ∀ (bs : List Act) (h : Hist), h.st.next = 0 → (run h bs).st.next = 0 ∧ (run h bs).ids = h.ids := by
    intro bs
    induction bs with
    | nil => intro h h0; exact ⟨h0, rfl⟩
    | cons b bs ih =>
      intro h h0
      have hb : (step h b).st.next = 0 ∧ (step h b).ids = h.ids := by
        cases b with
        | reserve => simp [step, nextSourceCID, h0]
        | answer l a =>
          simp only [step]
          split
          · cases a with
            | noAnswer => exact ⟨h0, rfl⟩
            | refused => exact ⟨h0, rfl⟩
            | accepted dcid n mtu mps =>
              simp only [addChannel]
              split <;> simp [h0]
          · exact ⟨h0, rfl⟩
        | closeChan r => exact ⟨h0, rfl⟩
        | grant r n =>
          simp only [step, increment]
          cases find h.st r with
          | none => exact ⟨h0, rfl⟩
          | some c => simp only []; by_cases hc : c.credits + n > 0xffff <;> simp [hc, h0, setCredits]
        | take r =>
          simp only [step, decrement]
          cases find h.st r with
          | none => exact ⟨h0, rfl⟩
          | some c => simp only []; by_cases hc : 1 > c.credits <;> simp [hc, h0, setCredits]
        | write r => simp only [step]; split <;> exact ⟨h0, rfl⟩
        | subscribe l =>
          simp only [step, subscribe]
          cases lookupLocal h.st l with
          | none => exact ⟨h0, rfl⟩
          | some c => simp only []; by_cases hc : c.sub = true <;> simp [hc, h0]
        | unsubscribe l =>
          simp only [step, unsubscribe]
          cases lookupLocal h.st l with
          | none => exact ⟨h0, rfl⟩
          | some c => exact ⟨h0, rfl⟩
      obtain ⟨h1, h2⟩ := ih (step h b) hb.1
      exact ⟨h1, h2.trans hb.2⟩
  have h0 : (run Hist.init as).st.next = 0 := by have := (Inv_run as).next; omega
  have happ : run Hist.init (as ++ bs) = run (run Hist.init as) bs := List.foldl_append
  rw [happ]
  obtain ⟨h1, h2⟩ := key bs _ h0
  exact ⟨by simp [nextSourceCID, h1], h2⟩

/-! ## C38, sending -/

theorem pieces_flatten (size : Nat) (hs : 0 < size) : ∀ (n : Nat) (data : Bytes), data.length ≤ n → (pieces size data).flatten = data := by
  intro n
  induction n with
  | zero => intro data h; have : data = [] := List.eq_nil_of_length_eq_zero (by omega); subst this; rw [pieces]; simp
  | succ n ih =>
    intro data h
    rw [pieces]
    split
    · rename_i hc; rcases hc with hc | hc
      · simp [hc]
      · omega
    · rename_i hc
      have : 0 < data.length := List.length_pos_iff.2 fun e => hc (Or.inl e)
      rw [List.flatten_cons, ih (data.drop size) (by simp; omega), List.take_append_drop]

theorem pieces_bounds (size : Nat) : ∀ (n : Nat) (data : Bytes), data.length ≤ n → ∀ p ∈ pieces size data, p ≠ [] ∧ p.length ≤ size := by
  intro n
  induction n with
  | zero => intro data h; have : data = [] := List.eq_nil_of_length_eq_zero (by omega); subst this; rw [pieces]; simp
  | succ n ih =>
    intro data h p hp
    rw [pieces] at hp
    split at hp
    · simp at hp
    · rename_i hc
      have h1 : 0 < data.length := List.length_pos_iff.2 fun e => hc (Or.inl e)
      have h2 : size ≠ 0 := fun e => hc (Or.inr e)
      rcases List.mem_cons.1 hp with rfl | hp
      · constructor
        · intro e
          have := congrArg List.length e
          rw [List.length_take] at this
          simp only [List.length_nil] at this
          omega
        · rw [List.length_take]; omega
      · exact ih (data.drop size) (by simp; omega) p hp

/-- C38 for SDUs that fit in one frame. A non-empty SDU of at most MPS - 2 bytes is sent as one L2CAP frame on the channel whose payload is the segmentation the specification asks for. -/
theorem coc_single_frame_sent_partial (cid mps : Nat) (data : Bytes) (hm : 2 < mps) (hm2 : mps < 65536) (hc : cid < 65536) (hne : data ≠ []) (hl : data.length ≤ mps - 2) :
    ∃ f info, sendFrames cid mps data = some [f] ∧ IsFrame cid info f ∧ IsSegmentation mps data [info] := by
  have hp : pieces (mps - 2) data = [data] := by
    rw [pieces, dif_neg (by rintro (h | h); · exact hne h
                            · omega), List.take_of_length_le hl, List.drop_of_length_le hl, pieces]
    simp
  refine ⟨kframe cid data.length data, put16 data.length ++ data, by simp [sendFrames, hp, Nat.not_le.2 hm], ⟨hc, by simp; omega, ?_⟩, data, [], rfl, by simp, by omega, by simp, by simp; omega⟩
  simp [kframe, Nat.add_comm]

/-- All frames of an SDU respect the MPS, are frames of the channel, and their data pieces in order are the SDU. -/
theorem coc_frames_carry_data (cid mps : Nat) (data : Bytes) (hm : 2 < mps) (hm2 : mps < 65536) (hc : cid < 65536) :
    ∃ ps : List Bytes, sendFrames cid mps data = some (ps.map (kframe cid data.length)) ∧ ps.flatten = data ∧
      ∀ p ∈ ps, p ≠ [] ∧ 2 + p.length ≤ mps ∧ IsFrame cid (put16 data.length ++ p) (kframe cid data.length p) := by
  refine ⟨pieces (mps - 2) data, by simp [sendFrames, Nat.not_le.2 hm], pieces_flatten _ (by omega) _ _ (Nat.le_refl _), fun p hp => ?_⟩
  obtain ⟨h1, h2⟩ := pieces_bounds (mps - 2) _ _ (Nat.le_refl _) p hp
  refine ⟨h1, by omega, hc, by simp; omega, ?_⟩
  simp [kframe, Nat.add_comm]

/-- C38 is false for SDUs that need more than one frame: the SDU length is repeated in every frame, so the payloads are not a segmentation of the SDU, whatever its contents. -/
theorem coc_multi_frame_send_malformed (cid mps : Nat) (data : Bytes) (hm : 2 < mps) (hl : mps - 2 < data.length) (frames infos : List Bytes) (h : sendFrames cid mps data = some frames)
    (hi : frames = infos.map fun i => put16 i.length ++ put16 cid ++ i) (hi2 : ∀ i ∈ infos, i.length < 65536) (hm2 : mps < 65536) : ¬ IsSegmentation mps data infos := by
  simp only [sendFrames, Nat.not_le.2 hm, if_false, Option.some.injEq] at h
  subst h
  have hfl := pieces_flatten (mps - 2) (by omega) data.length data (Nat.le_refl _)
  have hb := pieces_bounds (mps - 2) data.length data (Nat.le_refl _)
  -- two frames at least
  have h2 : ∃ p q ps, pieces (mps - 2) data = p :: q :: ps := by
    match hp : pieces (mps - 2) data with
    | [] => rw [hp] at hfl; simp at hfl; rw [hfl] at hl; simp at hl
    | [p] => rw [hp] at hfl hb; simp at hfl; have := (hb p (by simp)).2; rw [hfl] at this; omega
    | p :: q :: ps => exact ⟨p, q, ps, rfl⟩
  -- total length of the payloads
  have hinfo : ∀ (ps infos : List Bytes), (∀ p ∈ ps, p.length ≤ mps - 2) → (∀ i ∈ infos, i.length < 65536) →
      ps.map (kframe cid data.length) = infos.map (fun i => put16 i.length ++ put16 cid ++ i) → infos.flatten.length = ps.flatten.length + 2 * ps.length := by
    intro ps
    induction ps with
    | nil => intro infos _ _ h; cases infos with
      | nil => rfl
      | cons => simp at h
    | cons p ps ih =>
      intro infos hp hi h
      cases infos with
      | nil => simp at h
      | cons i is =>
        simp only [List.map_cons, List.cons.injEq] at h
        have := ih is (fun x hx => hp x (by simp [hx])) (fun x hx => hi x (by simp [hx])) h.2
        have hlen := congrArg List.length h.1
        simp [kframe] at hlen
        simp only [List.flatten_cons, List.length_append, List.length_cons, this]
        omega
  rintro ⟨first, rest, e1, e2, e3, e4, e5⟩
  have t1 := hinfo _ infos (fun p hp => (hb p hp).2) hi2 hi
  rw [hfl] at t1
  have t2 : infos.flatten.length = 2 + data.length := by
    rw [e1]
    have := congrArg List.length e2
    rw [List.length_append] at this
    simp only [List.flatten_cons, List.length_append, put16_length]
    omega
  obtain ⟨p, q, ps, h2⟩ := h2
  rw [h2] at t1
  simp only [List.length_cons] at t1
  omega

/-- Sending an empty SDU sends nothing and reports success. -/
theorem coc_empty_sdu_not_sent (cid mps : Nat) (hm : 2 < mps) : sendFrames cid mps [] = some [] := by
  simp [sendFrames, Nat.not_le.2 hm]
  rw [pieces]; simp

/-- The peer's MTU is not checked: an SDU longer than it is sent all the same (here 65 bytes to a peer with MTU and MPS 23, in four frames). -/
theorem coc_mtu_not_checked : ∃ fs, sendFrames 0x41 23 (List.replicate 65 0) = some fs ∧ fs.length = 4 := by
  refine ⟨_, rfl, ?_⟩
  simp [pieces, List.replicate]

/-! ## C38, receiving -/

/-- C38 for SDUs in one frame: an SDU that a peer sends in one frame to a channel with a subscriber is delivered whole. -/
theorem coc_single_frame_received_partial (s : St) (cid mps : Nat) (sdu info : Bytes) (c : Chan) (hc : lookupLocal s cid = some c) (hs : c.sub = true)
    (hseg : IsSegmentation mps sdu [info]) : receive s cid info = .deliver sdu := by
  obtain ⟨first, rest, e1, e2, e3, -, -⟩ := hseg
  simp only [List.cons.injEq] at e1
  obtain ⟨rfl, rfl⟩ := e1
  simp only [List.flatten_nil, List.append_nil] at e2
  subst e2
  simp [receive, hc, put16, hs, le16_put16 _ e3]

/-- In every history a frame's channel identifier picks the open channel whose local identifier it is, and no other. -/
theorem coc_lookup_exact (as : List Act) (l : Nat) (c : Chan) :
    lookupLocal (run Hist.init as).st l = some c ↔ c ∈ (run Hist.init as).st.chans ∧ c.localCID = l := by
  have hn := (List.nodup_append.1 (Inv_run as).locals).1
  unfold lookupLocal
  generalize (run Hist.init as).st.chans = cs at hn ⊢
  induction cs with
  | nil => simp
  | cons d cs ih =>
    rw [List.map_cons, List.nodup_cons] at hn
    by_cases hd : d.localCID = l
    · rw [List.find?_cons_of_pos (by simpa using hd)]
      constructor
      · intro h; injection h with h; subst h; exact ⟨by simp, hd⟩
      · rintro ⟨h1, h2⟩
        rcases List.mem_cons.1 h1 with h1 | h1
        · rw [h1]
        · exact absurd (List.mem_map.2 ⟨c, h1, by rw [h2, hd]⟩) hn.1
    · rw [List.find?_cons_of_neg (by simpa using hd)]
      refine (ih hn.2).trans ?_
      constructor
      · rintro ⟨h1, h2⟩; exact ⟨by simp [h1], h2⟩
      · rintro ⟨h1, h2⟩
        rcases List.mem_cons.1 h1 with h1 | h1
        · subst h1; exact absurd h2 hd
        · exact ⟨h1, h2⟩

/-- The channel opened by a successful `Open` has the local identifier of the call and the identifier, credits, MTU and MPS of the peer's response; the other channels are as before. -/
theorem coc_open_channel (h : Hist) (l dcid credits mtu mps : Nat) (hl : l ∈ h.opening) (hf : ∀ c ∈ h.st.chans, c.remoteCID ≠ dcid) :
    (step h (.answer l (.accepted dcid credits mtu mps))).st.chans =
      h.st.chans ++ [{ localCID := l, remoteCID := dcid, credits := credits, mtu := mtu, mps := mps, sub := false }] := by
  have : find h.st dcid = none := by simpa [find] using hf
  simp [step, hl, addChannel, this]

/-- `Open` returns a channel exactly if the peer accepted and none of the open channels has the peer's identifier; otherwise the channels are as before. -/
theorem coc_open_returns (s : St) (l : Nat) (a : Answer) :
    ((addChannel s l a).2 = true ↔ ∃ dcid credits mtu mps, a = .accepted dcid credits mtu mps ∧ ∀ c ∈ s.chans, c.remoteCID ≠ dcid) ∧
    ((addChannel s l a).2 = false → (addChannel s l a).1 = s) := by
  cases a with
  | noAnswer => simp [addChannel]
  | refused => simp [addChannel]
  | accepted dcid credits mtu mps =>
    cases hf : find s dcid with
    | none =>
      have : ∀ c ∈ s.chans, c.remoteCID ≠ dcid := by simpa [find] using hf
      simp only [addChannel, hf, true_iff, reduceCtorEq, false_implies, and_true]
      exact ⟨_, _, _, _, rfl, this⟩
    | some d =>
      have h1 := List.mem_of_find?_eq_some hf
      have h2 := List.find?_some hf
      simp only [addChannel, hf, Bool.false_eq_true, false_iff, implies_true, and_true, Answer.accepted.injEq]
      rintro ⟨_, _, _, _, ⟨rfl, -⟩, h⟩
      exact h d h1 (by simpa using h2)

/-- C38 for SDUs in one frame, in terms of histories: an SDU that a peer sends in one frame to the local identifier of an open channel with a subscriber is delivered whole. -/
theorem coc_open_channel_receives_partial (as : List Act) (mps : Nat) (sdu info : Bytes) (c : Chan) (hc : c ∈ (run Hist.init as).st.chans) (hs : c.sub = true)
    (hseg : IsSegmentation mps sdu [info]) : receive (run Hist.init as).st c.localCID info = .deliver sdu :=
  coc_single_frame_received_partial _ _ mps sdu info c ((coc_lookup_exact as _ c).2 ⟨hc, rfl⟩) hs hseg

/-- C38 is false for SDUs in several frames: no frame of such an SDU makes the host deliver it. -/
theorem coc_multi_frame_never_received (s : St) (cid mps : Nat) (sdu i j : Bytes) (is : List Bytes) (hseg : IsSegmentation mps sdu (i :: j :: is)) :
    ∀ info ∈ i :: j :: is, receive s cid info ≠ .deliver sdu := by
  obtain ⟨first, rest, e1, e2, e3, e4, -⟩ := hseg
  simp only [List.cons.injEq] at e1
  obtain ⟨rfl, rfl⟩ := e1
  have hj : j ≠ [] := e4 j (by simp)
  have hjl : 0 < j.length := List.length_pos_iff.2 hj
  intro info hinfo hd
  rcases List.mem_cons.1 hinfo with rfl | hinfo
  · unfold receive at hd
    split at hd
    · cases hd
    · simp only [put16, List.cons_append, List.nil_append, le16_put16 _ e3] at hd
      rw [if_pos] at hd
      · cases hd
      · rw [← e2]; simp; omega
  · have hle : info.length ≤ sdu.length := by
      rw [← e2, List.length_append]
      have : info.length ≤ (j :: is).flatten.length := by
        rw [List.length_flatten]
        exact le_sum_of_mem (List.mem_map.2 ⟨info, hinfo, rfl⟩)
      omega
    unfold receive at hd
    split at hd
    · cases hd
    · split at hd
      · rename_i a b r
        split at hd
        · cases hd
        · split at hd
          · injection hd with hd; subst hd; simp at hle; omega
          · split at hd <;> cases hd
      · cases hd

/-- C32, credit-based channels: the host crashes exactly on frames of fewer than two bytes for an open channel. -/
theorem coc_receive_panics_iff (s : St) (cid : Nat) (info : Bytes) : receive s cid info = .panic ↔ (lookupLocal s cid).isSome ∧ info.length < 2 := by
  unfold receive
  cases lookupLocal s cid with
  | none => simp
  | some c =>
    match info with
    | [] => simp
    | [a] => simp
    | a :: b :: r =>
      simp only [Option.isSome_some, true_and, List.length_cons]
      constructor
      · intro h
        split at h
        · cases h
        · split at h
          · cases h
          · split at h <;> cases h
      · intro h; omega

/-- A complete SDU for an open channel without subscriber is discarded at once; only a frame with more data than its SDU length announces holds up the connection's receiver (it waits five seconds for a subscriber that is not there). -/
theorem coc_no_subscriber (s : St) (cid : Nat) (c : Chan) (hc : lookupLocal s cid = some c) (hs : c.sub = false) (sdu extra : Bytes) (hl : sdu.length < 65536) :
    receive s cid (put16 sdu.length ++ sdu ++ extra) = if extra = [] then .discard else .timeout := by
  cases extra with
  | nil => simp [receive, hc, put16, hs, le16_put16 _ hl]
  | cons x xs => simp [receive, hc, put16, hs, le16_put16 _ hl]

/-- With a subscriber, a frame with more data than announced is delivered with its surplus. -/
theorem coc_surplus_delivered (s : St) (cid : Nat) (c : Chan) (hc : lookupLocal s cid = some c) (hs : c.sub = true) (sdu extra : Bytes) (hl : sdu.length < 65536) :
    receive s cid (put16 sdu.length ++ sdu ++ extra) = .deliver (sdu ++ extra) := by
  simp [receive, hc, put16, hs, le16_put16 _ hl]

/-- A conforming peer can cause the crash without intending it: the last frame of an SDU may have one byte. -/
theorem coc_conforming_peer_crashes (s : St) (cid : Nat) (c : Chan) (h : lookupLocal s cid = some c) (x : UInt8) :
    IsSegmentation 23 (List.replicate 21 x ++ [x]) [put16 22 ++ List.replicate 21 x, [x]] ∧ receive s cid [x] = .panic := by
  refine ⟨⟨List.replicate 21 x, [[x]], rfl, rfl, by simp, by simp, by simp⟩, ?_⟩
  simp [receive, h]

/-- Two instances of this library: an SDU of more than one frame sent by one is not delivered by the other. -/
theorem coc_library_to_itself_fails (s : St) (cid mps : Nat) (data : Bytes) (hm : 2 < mps) (hl : mps - 2 < data.length) (hlen : data.length < 65536) :
    ∀ p ∈ pieces (mps - 2) data, receive s cid (put16 data.length ++ p) ≠ .deliver data := by
  intro p hp hd
  have hb := (pieces_bounds (mps - 2) _ data (Nat.le_refl _) p hp).2
  unfold receive at hd
  split at hd
  · cases hd
  · simp only [put16, List.cons_append, List.nil_append, le16_put16 _ hlen] at hd
    rw [if_pos (by omega)] at hd
    cases hd

/-! ## The hypotheses are met -/

/-- Two channels, opened concurrently; three frames on one of them. -/
private def demo : List Act :=
  [.reserve, .reserve, .answer 0x41 (.accepted 0x50 2 64 64), .answer 0x40 (.accepted 0x60 0 64 64), .subscribe 0x40, .take 0x50, .write 0x50, .take 0x50, .take 0x50, .grant 0x50 1,
   .write 0x50, .take 0x50, .write 0x50, .grant 0x60 65535]

example : (run Hist.init demo).written 0x50 = 3 ∧ (run Hist.init demo).granted 0x50 = 3 ∧ (run Hist.init demo).granted 0x60 = 65535 ∧
    (run Hist.init demo).st.chans = [⟨0x41, 0x50, 0, 64, 64, false⟩, ⟨0x40, 0x60, 65535, 64, 64, true⟩] := by decide
example : ∀ a ∈ demo, ActOk a := by simp [demo, ActOk]
example : IsSegmentation 23 [1, 2, 3] [[3, 0, 1, 2, 3]] := ⟨[1, 2, 3], [], rfl, rfl, by decide, by simp, by decide⟩
example : receive (run Hist.init demo).st 0x40 [3, 0, 1, 2, 3] = .deliver [1, 2, 3] := by decide

end Ble.Props
