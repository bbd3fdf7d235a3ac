import Verif.Hci.CocRx
set_option autoImplicit false

/-!
# Receiving on credit-based channels (C129)
-/

namespace Ble.CocRx

/-! ## Specification -/

/-- The SDU in a frame that holds a whole one: two bytes of length, then at least that many bytes. -/
def sdu? : Bytes → Option Bytes
  | a :: b :: rest => if le16 a b ≤ rest.length then some rest else none
  | _ => none

/-- The SDUs that arrived in whole frames for a local identifier, in order. -/
def sdus (l : Nat) (es : List Ev) : List Bytes :=
  es.filterMap fun e => match e with
    | .frame l' d => if l' = l then sdu? d else none
    | _ => none

/-- What the receiving goroutine holds for a channel. -/
def pending (s : St) (k : Nat) : List Bytes :=
  match s.rx with
  | some (some j, b) => if j = k then [b] else []
  | _ => []

/-! ## Invariant -/

structure Inv (s : St) : Prop where
  locU : ∀ c ∈ s.chans, ∀ d ∈ s.chans, c.loc = d.loc → c = d
  remU : ∀ c ∈ s.chans, ∀ d ∈ s.chans, c.rem = d.rem → c = d
  subU : ∀ c ∈ s.chans, ∀ d ∈ s.chans, ∀ k, c.sub = some k → d.sub = some k → c = d
  lt : ∀ c ∈ s.chans, ∀ k, c.sub = some k → k < s.nsub
  cl : ∀ k, k < s.nsub → ((s.subs k).closed = true ↔ ∀ c ∈ s.chans, c.sub ≠ some k)
  fresh : ∀ k, s.nsub ≤ k → s.subs k = {}
  rx : ∀ k b, s.rx = some (some k, b) → ∃ c ∈ s.chans, c.sub = some k
  ql : ∀ k, (s.subs k).q.length ≤ 8

theorem inv_init : Inv {} := by constructor <;> simp

theorem look_mem {s : St} {l : Nat} {c : Ch} (h : look s l = some c) : c ∈ s.chans ∧ c.loc = l :=
  ⟨List.mem_of_find?_eq_some h, by simpa using List.find?_some h⟩

theorem look_of {s : St} (hi : Inv s) {c : Ch} (hc : c ∈ s.chans) : look s c.loc = some c := by
  cases h : look s c.loc with
  | none =>
    have := List.find?_eq_none.1 h c hc
    simp at this
  | some d =>
    obtain ⟨h1, h2⟩ := look_mem h
    rw [hi.locU d h1 c hc h2]

theorem mem_putBack {s : St} {c d : Ch} : d ∈ (putBack s c).chans ↔ (d = c ∧ ∃ e ∈ s.chans, e.rem = c.rem) ∨ (d ∈ s.chans ∧ d.rem ≠ c.rem) := by
  simp only [putBack, List.mem_map]
  constructor
  · rintro ⟨e, he, hd⟩
    split at hd
    · rename_i h; exact Or.inl ⟨hd.symm, e, he, h⟩
    · rename_i h; subst hd; exact Or.inr ⟨he, h⟩
  · rintro (⟨rfl, e, he, h⟩ | ⟨he, h⟩)
    · exact ⟨e, he, by simp [h]⟩
    · exact ⟨d, he, by simp [h]⟩

theorem not_closed {s : St} (hi : Inv s) {c : Ch} (hc : c ∈ s.chans) {k : Nat} (hk : c.sub = some k) : (s.subs k).closed = false := by
  cases h : (s.subs k).closed with
  | false => rfl
  | true => exact absurd hk ((hi.cl k (hi.lt c hc k hk)).1 h c hc)

theorem inv_step {s s' : St} {e : Ev} (hi : Inv s) (h : step s e = some s') : Inv s' := by
  have ⟨h1, h2, h3, h4, h5, h6, h7, h8⟩ := hi
  cases e with
  | opened l r =>
    simp only [step] at h
    split at h
    · cases h
    · rename_i hb
      split at h
      · cases h; exact hi
      · rename_i hn
        simp only [Option.some.injEq] at h; subst h
        simp only [List.any_eq_true, Bool.or_eq_true, beq_iff_eq, not_exists, not_and, not_or] at hn
        have hrx : s.rx = none := by simp only [Bool.or_eq_true, not_or] at hb; simpa using hb.2
        refine ⟨?_, ?_, ?_, ?_, ?_, h6, ?_, h8⟩
        · intro c hc d hd hl
          simp only [List.mem_append, List.mem_singleton] at hc hd
          rcases hc with hc | rfl <;> rcases hd with hd | rfl
          · exact h1 c hc d hd hl
          · exact absurd hl (hn c hc).2
          · exact absurd hl.symm (hn d hd).2
          · rfl
        · intro c hc d hd hl
          simp only [List.mem_append, List.mem_singleton] at hc hd
          rcases hc with hc | rfl <;> rcases hd with hd | rfl
          · exact h2 c hc d hd hl
          · exact absurd hl (hn c hc).1
          · exact absurd hl.symm (hn d hd).1
          · rfl
        · intro c hc d hd k hck hdk
          simp only [List.mem_append, List.mem_singleton] at hc hd
          rcases hc with hc | rfl <;> rcases hd with hd | rfl
          · exact h3 c hc d hd k hck hdk
          · cases hdk
          · cases hck
          · rfl
        · intro c hc k hk
          simp only [List.mem_append, List.mem_singleton] at hc
          rcases hc with hc | rfl
          · exact h4 c hc k hk
          · cases hk
        · intro k hk
          rw [h5 k hk]
          simp only [List.mem_append, List.mem_singleton]
          constructor
          · rintro h c (hc | rfl)
            · exact h c hc
            · simp
          · intro h c hc; exact h c (Or.inl hc)
        · intro k b hk; simp only [hrx] at hk; cases hk
  | subscribe l =>
    simp only [step] at h
    split at h
    · cases h
    · rename_i hb
      have hrx : s.rx = none := by simp only [Bool.or_eq_true, not_or] at hb; simpa using hb.2
      split at h
      · cases h; exact hi
      · rename_i c hl
        obtain ⟨hc, hcl⟩ := look_mem hl
        split at h
        · cases h; exact hi
        · rename_i hs
          simp only [Option.some.injEq] at h; subst h
          have hs' : c.sub = none := by simpa using hs
          have mem : ∀ d : Ch, d ∈ (putBack s { c with sub := some s.nsub }).chans ↔ d = { c with sub := some s.nsub } ∨ (d ∈ s.chans ∧ d.rem ≠ c.rem) := by
            intro d; rw [mem_putBack]
            constructor
            · rintro (⟨h, -⟩ | h)
              · exact Or.inl h
              · exact Or.inr h
            · rintro (h | h)
              · exact Or.inl ⟨h, c, hc, rfl⟩
              · exact Or.inr h
          refine ⟨?_, ?_, ?_, ?_, ?_, ?_, ?_, h8⟩
          · intro d hd e he hde
            rcases (mem d).1 hd with rfl | ⟨hd, hdr⟩ <;> rcases (mem e).1 he with rfl | ⟨he, her⟩
            · rfl
            · exact absurd (congrArg Ch.rem (h1 c hc e he hde)).symm her
            · exact absurd (congrArg Ch.rem (h1 d hd c hc hde)) hdr
            · exact h1 d hd e he hde
          · intro d hd e he hde
            rcases (mem d).1 hd with rfl | ⟨hd, hdr⟩ <;> rcases (mem e).1 he with rfl | ⟨he, her⟩
            · rfl
            · exact absurd hde.symm her
            · exact absurd hde hdr
            · exact h2 d hd e he hde
          · intro d hd e he k hdk hek
            rcases (mem d).1 hd with rfl | ⟨hd, hdr⟩ <;> rcases (mem e).1 he with rfl | ⟨he, her⟩
            · rfl
            · simp only [Option.some.injEq] at hdk; have := h4 e he k hek; omega
            · simp only [Option.some.injEq] at hek; have := h4 d hd k hdk; omega
            · exact h3 d hd e he k hdk hek
          · intro d hd k hk
            rcases (mem d).1 hd with rfl | ⟨hd, hdr⟩
            · simp only [Option.some.injEq] at hk; simp only; omega
            · have := h4 d hd k hk; simp only; omega
          · intro k hk
            simp only at hk
            change (s.subs k).closed = true ↔ ∀ d ∈ (putBack s { c with sub := some s.nsub }).chans, d.sub ≠ some k
            by_cases hkn : k = s.nsub
            · rw [h6 k (by omega)]
              simp only [Bool.false_eq_true, false_iff]
              intro hall
              exact hall _ ((mem _).2 (Or.inl rfl)) (by simp [hkn])
            · rw [h5 k (by omega)]
              constructor
              · intro hall d hd
                rcases (mem d).1 hd with rfl | ⟨hd, hdr⟩
                · simp only [ne_eq, Option.some.injEq]; omega
                · exact hall d hd
              · intro hall d hd
                by_cases hdr : d.rem = c.rem
                · rw [h2 d hd c hc hdr, hs']; simp
                · exact hall d ((mem d).2 (Or.inr ⟨hd, hdr⟩))
          · intro k hk; exact h6 k (by simp only at hk; omega)
          · intro k b hk; change s.rx = _ at hk; rw [hrx] at hk; cases hk
  | unsubscribe l =>
    simp only [step] at h
    split at h
    · cases h
    · rename_i hb
      have hrx : s.rx = none := by simp only [Bool.or_eq_true, not_or] at hb; simpa using hb.2
      split at h
      · cases h; exact hi
      · rename_i c hl
        obtain ⟨hc, hcl⟩ := look_mem hl
        split at h
        · cases h; exact hi
        · rename_i k0 hs
          simp only [Option.some.injEq] at h; subst h
          have hnc := not_closed hi hc hs
          have hk0 := h4 c hc k0 hs
          simp only [closeSub, hnc, Bool.false_eq_true, if_false]
          have mem : ∀ d : Ch, d ∈ (putBack (setSub s k0 { s.subs k0 with closed := true }) { c with sub := none }).chans ↔ d = { c with sub := none } ∨ (d ∈ s.chans ∧ d.rem ≠ c.rem) := by
            intro d; rw [mem_putBack]
            constructor
            · rintro (⟨h, -⟩ | h)
              · exact Or.inl h
              · exact Or.inr h
            · rintro (h | h)
              · exact Or.inl ⟨h, c, hc, rfl⟩
              · exact Or.inr h
          refine ⟨?_, ?_, ?_, ?_, ?_, ?_, ?_, ?_⟩
          · intro d hd e he hde
            rcases (mem d).1 hd with rfl | ⟨hd, hdr⟩ <;> rcases (mem e).1 he with rfl | ⟨he, her⟩
            · rfl
            · exact absurd (congrArg Ch.rem (h1 c hc e he hde)).symm her
            · exact absurd (congrArg Ch.rem (h1 d hd c hc hde)) hdr
            · exact h1 d hd e he hde
          · intro d hd e he hde
            rcases (mem d).1 hd with rfl | ⟨hd, hdr⟩ <;> rcases (mem e).1 he with rfl | ⟨he, her⟩
            · rfl
            · exact absurd hde.symm her
            · exact absurd hde hdr
            · exact h2 d hd e he hde
          · intro d hd e he k hdk hek
            rcases (mem d).1 hd with rfl | ⟨hd, hdr⟩ <;> rcases (mem e).1 he with rfl | ⟨he, her⟩
            · rfl
            · cases hdk
            · cases hek
            · exact h3 d hd e he k hdk hek
          · intro d hd k hk
            rcases (mem d).1 hd with rfl | ⟨hd, hdr⟩
            · cases hk
            · exact h4 d hd k hk
          · intro k hk
            change k < s.nsub at hk
            change (if k = k0 then { s.subs k0 with closed := true } else s.subs k).closed = true ↔ ∀ d ∈ (putBack (setSub s k0 { s.subs k0 with closed := true }) { c with sub := none }).chans, d.sub ≠ some k
            by_cases hkk : k = k0
            · subst hkk
              simp only [if_true, true_iff]
              intro d hd hdk
              rcases (mem d).1 hd with rfl | ⟨hd, hdr⟩
              · cases hdk
              · exact hdr (congrArg Ch.rem (h3 d hd c hc k hdk hs))
            · simp only [hkk, if_false]
              rw [h5 k hk]
              constructor
              · intro hall d hd
                rcases (mem d).1 hd with rfl | ⟨hd, hdr⟩
                · simp
                · exact hall d hd
              · intro hall d hd
                by_cases hdr : d.rem = c.rem
                · rw [h2 d hd c hc hdr, hs]; simp only [ne_eq, Option.some.injEq]; omega
                · exact hall d ((mem d).2 (Or.inr ⟨hd, hdr⟩))
          · intro k hk
            change s.nsub ≤ k at hk
            change (if k = k0 then { s.subs k0 with closed := true } else s.subs k) = {}
            rw [if_neg (by omega)]; exact h6 k hk
          · intro k b hk; change s.rx = _ at hk; rw [hrx] at hk; cases hk
          · intro k
            change (if k = k0 then { s.subs k0 with closed := true } else s.subs k).q.length ≤ 8
            split
            · exact h8 k0
            · exact h8 k
  | close r =>
    simp only [step] at h
    split at h
    · cases h
    · rename_i hb
      have hrx : s.rx = none := by simp only [Bool.or_eq_true, not_or] at hb; simpa using hb.2
      split at h
      · cases h; exact hi
      · rename_i c hl
        have hc := List.mem_of_find?_eq_some hl
        have hcr : c.rem = r := by simpa using List.find?_some hl
        have mem : ∀ d : Ch, d ∈ s.chans.filter (fun d => d.rem ≠ r) ↔ d ∈ s.chans ∧ d.rem ≠ r := by intro d; simp
        split at h
        · rename_i hs
          simp only [Option.some.injEq] at h; subst h
          refine ⟨?_, ?_, ?_, ?_, ?_, h6, ?_, h8⟩
          · intro d hd e he; exact h1 d ((mem d).1 hd).1 e ((mem e).1 he).1
          · intro d hd e he; exact h2 d ((mem d).1 hd).1 e ((mem e).1 he).1
          · intro d hd e he; exact h3 d ((mem d).1 hd).1 e ((mem e).1 he).1
          · intro d hd; exact h4 d ((mem d).1 hd).1
          · intro k hk
            rw [h5 k hk]
            constructor
            · intro hall d hd; exact hall d ((mem d).1 hd).1
            · intro hall d hd
              by_cases hdr : d.rem = r
              · rw [h2 d hd c hc (by rw [hdr, hcr]), hs]; simp
              · exact hall d ((mem d).2 ⟨hd, hdr⟩)
          · intro k b hk; change s.rx = _ at hk; rw [hrx] at hk; cases hk
        · rename_i k0 hs
          simp only [Option.some.injEq] at h; subst h
          have hnc := not_closed hi hc hs
          have hk0 := h4 c hc k0 hs
          simp only [closeSub, hnc, Bool.false_eq_true, if_false]
          refine ⟨?_, ?_, ?_, ?_, ?_, ?_, ?_, ?_⟩
          · intro d hd e he; exact h1 d ((mem d).1 hd).1 e ((mem e).1 he).1
          · intro d hd e he; exact h2 d ((mem d).1 hd).1 e ((mem e).1 he).1
          · intro d hd e he; exact h3 d ((mem d).1 hd).1 e ((mem e).1 he).1
          · intro d hd; exact h4 d ((mem d).1 hd).1
          · intro k hk
            change k < s.nsub at hk
            change (if k = k0 then { s.subs k0 with closed := true } else s.subs k).closed = true ↔ ∀ d ∈ s.chans.filter (fun d => d.rem ≠ r), d.sub ≠ some k
            by_cases hkk : k = k0
            · subst hkk
              simp only [if_true, true_iff]
              intro d hd hdk
              obtain ⟨hd1, hd2⟩ := (mem d).1 hd
              exact hd2 ((congrArg Ch.rem (h3 d hd1 c hc k hdk hs)).trans hcr)
            · simp only [hkk, if_false]
              rw [h5 k hk]
              constructor
              · intro hall d hd; exact hall d ((mem d).1 hd).1
              · intro hall d hd
                by_cases hdr : d.rem = r
                · rw [h2 d hd c hc (by rw [hdr, hcr]), hs]; simp only [ne_eq, Option.some.injEq]; omega
                · exact hall d ((mem d).2 ⟨hd, hdr⟩)
          · intro k hk
            change s.nsub ≤ k at hk
            change (if k = k0 then { s.subs k0 with closed := true } else s.subs k) = {}
            rw [if_neg (by omega)]; exact h6 k hk
          · intro k b hk; change s.rx = _ at hk; rw [hrx] at hk; cases hk
          · intro k
            change (if k = k0 then { s.subs k0 with closed := true } else s.subs k).q.length ≤ 8
            split
            · exact h8 k0
            · exact h8 k
  | frame l data =>
    simp only [step] at h
    split at h
    · cases h
    · split at h
      · cases h; exact hi
      · rename_i c hl
        obtain ⟨hc, hcl⟩ := look_mem hl
        split at h
        · rename_i a b rest
          split at h
          · cases h; exact hi
          · rename_i ch hts
            simp only [Option.some.injEq] at h; subst h
            refine ⟨h1, h2, h3, h4, h5, h6, ?_, h8⟩
            intro k x hk
            simp only [Option.some.injEq, Prod.mk.injEq] at hk
            refine ⟨c, hc, ?_⟩
            rw [← hk.1]
            simp only [toSelect] at hts
            split at hts
            · cases hts
            · split at hts
              · exact Option.some.inj hts
              · cases hts
        · simp only [Option.some.injEq] at h; subst h; exact ⟨h1, h2, h3, h4, h5, h6, h7, h8⟩
  | put =>
    simp only [step] at h
    split at h
    · rename_i k0 b hrx
      split at h
      · cases h
      · split at h
        · simp only [Option.some.injEq] at h; subst h; exact ⟨h1, h2, h3, h4, h5, h6, h7, h8⟩
        · split at h
          · rename_i hq
            obtain ⟨c, hc, hck⟩ := h7 k0 b hrx
            have hk0 := h4 c hc k0 hck
            simp only [Option.some.injEq] at h; subst h
            refine ⟨h1, h2, h3, h4, ?_, ?_, ?_, ?_⟩
            · intro k hk
              simp only [setSub]
              rw [← h5 k hk]
              split
              · rename_i e; rw [e]
              · rfl
            · intro k hk
              simp only [setSub] at hk ⊢
              rw [if_neg (by omega)]; exact h6 k hk
            · intro k x hk; cases hk
            · intro k
              simp only [setSub]
              split
              · simp only [List.length_append, List.length_singleton]; simp only [cap] at hq; omega
              · exact h8 k
          · cases h
    · cases h
  | timeout =>
    simp only [step] at h
    split at h
    · split at h
      · cases h
      · simp only [Option.some.injEq] at h; subst h; exact ⟨h1, h2, h3, h4, h5, h6, fun _ _ hk => by (cases hk), h8⟩
    · split at h
      · cases h
      · simp only [Option.some.injEq] at h; subst h; exact ⟨h1, h2, h3, h4, h5, h6, fun _ _ hk => by (cases hk), h8⟩
    · cases h
  | read k0 =>
    simp only [step] at h
    split at h
    · cases h
    · split at h
      · cases h
      · rename_i b q hq
        simp only [Option.some.injEq] at h; subst h
        refine ⟨h1, h2, h3, h4, ?_, ?_, h7, ?_⟩
        · intro k hk
          simp only [setSub]
          rw [← h5 k hk]
          split
          · rename_i e; rw [e]
          · rfl
        · intro k hk
          simp only [setSub] at hk ⊢
          rw [if_neg]
          · exact h6 k hk
          · intro e; subst e; rw [h6 k hk] at hq; cases hq
        · intro k
          simp only [setSub]
          split
          · have := h8 k0; rw [hq] at this; simp only [List.length_cons] at this; simp only; omega
          · exact h8 k
  | down =>
    simp only [step] at h
    split at h
    · cases h
    · simp only [Option.some.injEq] at h; subst h; exact ⟨h1, h2, h3, h4, h5, h6, h7, h8⟩

theorem inv {es : List Ev} {s : St} (h : run {} es = some s) : Inv s :=
  runT_ind (P := fun _ s => Inv s) inv_init (fun _ _ _ _ _ hi hs => inv_step hi hs) es s h

/-! ## C129 -/

theorem crash_step {s s' : St} {e : Ev} (hi : Inv s) (hc : s.crashed = false) (h : step s e = some s') (hc' : s'.crashed = true) : ∃ l d, e = .frame l d ∧ d.length < 2 := by
  cases e with
  | opened l r => simp only [step] at h; repeat' split at h
                  all_goals simp only [Option.some.injEq, reduceCtorEq] at h
                  all_goals subst h
                  all_goals simp_all
  | subscribe l => simp only [step] at h; repeat' split at h
                   all_goals simp only [Option.some.injEq, reduceCtorEq] at h
                   all_goals subst h
                   all_goals simp_all [putBack]
  | unsubscribe l =>
    simp only [step] at h
    split at h
    · cases h
    · split at h
      · cases h; rw [hc] at hc'; cases hc'
      · rename_i c hl
        split at h
        · cases h; rw [hc] at hc'; cases hc'
        · rename_i k hk
          simp only [closeSub, not_closed hi (look_mem hl).1 hk, Bool.false_eq_true, if_false, Option.some.injEq] at h
          subst h; simp [putBack, setSub, hc] at hc'
  | close r =>
    simp only [step] at h
    split at h
    · cases h
    · split at h
      · cases h; rw [hc] at hc'; cases hc'
      · rename_i c hl
        split at h
        · simp only [Option.some.injEq] at h; subst h; simp [hc] at hc'
        · rename_i k hk
          simp only [closeSub, not_closed hi (List.mem_of_find?_eq_some hl) hk, Bool.false_eq_true, if_false, Option.some.injEq] at h
          subst h; simp [setSub, hc] at hc'
  | frame l d =>
    simp only [step] at h
    split at h
    · cases h
    · split at h
      · cases h; rw [hc] at hc'; cases hc'
      · split at h
        · split at h
          · cases h; rw [hc] at hc'; cases hc'
          · simp only [Option.some.injEq] at h; subst h; simp [hc] at hc'
        · rename_i hn
          refine ⟨l, d, rfl, ?_⟩
          match d, hn with
          | [], _ => simp
          | [_], _ => simp
          | a :: b :: r, hn => exact absurd rfl (hn a b r)
  | put =>
    simp only [step] at h
    split at h
    · rename_i k b hrx
      obtain ⟨c, h1, h2⟩ := hi.rx k b hrx
      simp only [hc, Bool.false_eq_true, if_false, not_closed hi h1 h2] at h
      split at h
      · simp only [Option.some.injEq] at h; subst h; simp [setSub, hc] at hc'
      · cases h
    · cases h
  | timeout => simp only [step] at h; repeat' split at h
               all_goals simp only [Option.some.injEq, reduceCtorEq] at h
               all_goals subst h
               all_goals simp_all
  | read k => simp only [step] at h; repeat' split at h
              all_goals simp only [Option.some.injEq, reduceCtorEq] at h
              all_goals subst h
              all_goals simp_all [setSub]
  | down => simp only [step] at h; repeat' split at h
            all_goals simp only [Option.some.injEq, reduceCtorEq] at h
            all_goals subst h
            all_goals simp_all

/-- **C129, no crash by timing.** However subscribing, unsubscribing, closing, arriving frames and reading interleave, no data are sent to a closed channel and no channel is closed twice: the process is lost only by a frame too short for its length
field. -/
theorem coc_no_crash {es : List Ev} {s : St} (h : run {} es = some s) (hf : ∀ l d, Ev.frame l d ∈ es → 2 ≤ d.length) : s.crashed = false := by
  refine runT_ind (P := fun es s => (∀ l d, Ev.frame l d ∈ es → 2 ≤ d.length) → s.crashed = false) (fun _ => rfl) ?_ es s h hf
  intro es s e s' hr ih hs hf
  have hc := ih fun l d hm => hf l d (by simp [hm])
  cases hc' : s'.crashed with
  | false => rfl
  | true =>
    obtain ⟨l, d, rfl, hd⟩ := crash_step (inv hr) hc hs hc'
    have := hf l d (by simp)
    omega

/-- What of a subscription's SDUs was read, is in its channel, or is about to be put there. -/
def held (s : St) (k : Nat) : List Bytes := (s.subs k).got ++ (s.subs k).q ++ pending s k

/-- The SDU an event brings for a local identifier. -/
def newOf (l : Nat) : Ev → List Bytes
  | .frame l' d => if l' = l then (sdu? d).toList else []
  | _ => []

theorem sdus_snoc (l : Nat) (es : List Ev) (e : Ev) : sdus l (es ++ [e]) = sdus l es ++ newOf l e := by
  simp only [sdus, List.filterMap_append, List.append_cancel_left_eq]
  cases e <;> simp [List.filterMap, newOf]
  rename_i l' d
  by_cases hl : l' = l
  · simp only [hl, if_true]; cases sdu? d <;> rfl
  · simp [hl]

/-- The steps that do not disturb a subscription keep the entry in the table; the numbers of subscriptions do not go down. -/
theorem entry_step {s s' : St} {e : Ev} {l r k : Nat} (hi : Inv s) (hm : (⟨l, r, some k⟩ : Ch) ∈ s.chans) (hs : step s e = some s') (hu : e ≠ .unsubscribe l) (hc : e ≠ .close r) :
    (⟨l, r, some k⟩ : Ch) ∈ s'.chans := by
  cases e with
  | opened l' r' => simp only [step] at hs; repeat' split at hs
                    all_goals simp only [Option.some.injEq, reduceCtorEq] at hs
                    all_goals subst hs
                    all_goals simp_all
  | subscribe l' =>
    simp only [step] at hs
    split at hs
    · cases hs
    · split at hs
      · cases hs; exact hm
      · rename_i c hl
        split at hs
        · cases hs; exact hm
        · rename_i hn
          simp only [Option.some.injEq] at hs; subst hs
          refine mem_putBack.2 (Or.inr ⟨hm, ?_⟩)
          intro e
          have := hi.remU _ hm _ (look_mem hl).1 e
          rw [← this] at hn; simp at hn
  | unsubscribe l' =>
    simp only [step] at hs
    split at hs
    · cases hs
    · split at hs
      · cases hs; exact hm
      · rename_i c hl
        split at hs
        · cases hs; exact hm
        · rename_i k' hk
          simp only [closeSub, not_closed hi (look_mem hl).1 hk, Bool.false_eq_true, if_false, Option.some.injEq] at hs
          subst hs
          refine mem_putBack.2 (Or.inr ⟨hm, ?_⟩)
          intro e
          have := hi.remU _ hm _ (look_mem hl).1 e
          have h2 := (look_mem hl).2
          rw [← this] at h2
          exact hu (by rw [← h2])
  | close r' =>
    simp only [step] at hs
    split at hs
    · cases hs
    · have hne : r ≠ r' := fun e => hc (by rw [e])
      split at hs
      · cases hs; exact hm
      · rename_i c hl
        split at hs
        · simp only [Option.some.injEq] at hs; subst hs
          simp [hm, hne]
        · rename_i k' hk
          simp only [Option.some.injEq] at hs
          subst hs
          simp [hm, hne]
  | frame l' d => simp only [step] at hs; repeat' split at hs
                  all_goals simp only [Option.some.injEq, reduceCtorEq] at hs
                  all_goals subst hs
                  all_goals simp_all
  | put => simp only [step] at hs; repeat' split at hs
           all_goals simp only [Option.some.injEq, reduceCtorEq] at hs
           all_goals subst hs
           all_goals simp_all [setSub]
  | timeout => simp only [step] at hs; repeat' split at hs
               all_goals simp only [Option.some.injEq, reduceCtorEq] at hs
               all_goals subst hs
               all_goals simp_all
  | read k' => simp only [step] at hs; repeat' split at hs
               all_goals simp only [Option.some.injEq, reduceCtorEq] at hs
               all_goals subst hs
               all_goals simp_all [setSub]
  | down => simp only [step] at hs; repeat' split at hs
            all_goals simp only [Option.some.injEq, reduceCtorEq] at hs
            all_goals subst hs
            all_goals simp_all

theorem held_congr {s s' : St} {k : Nat} (h1 : (s'.subs k).got = (s.subs k).got) (h2 : (s'.subs k).q = (s.subs k).q) (h3 : s'.rx = s.rx) : held s' k = held s k := by
  simp only [held, pending, h1, h2, h3]

theorem closeSub_held (s : St) (j k : Nat) : ((closeSub s j).subs k).got = (s.subs k).got ∧ ((closeSub s j).subs k).q = (s.subs k).q ∧ (closeSub s j).rx = s.rx := by
  simp only [closeSub]
  split
  · exact ⟨rfl, rfl, rfl⟩
  · simp only [setSub]
    split
    · rename_i e; subst e; exact ⟨rfl, rfl, trivial⟩
    · exact ⟨rfl, rfl, trivial⟩

theorem held_step {s s' : St} {e : Ev} {l r k : Nat} (hi : Inv s) (hm : (⟨l, r, some k⟩ : Ch) ∈ s.chans) (hs : step s e = some s') (ht : e ≠ .timeout) :
    held s' k = held s k ++ newOf l e := by
  cases e with
  | opened l' r' =>
    simp only [newOf, List.append_nil]
    simp only [step] at hs; repeat' split at hs
    all_goals simp only [Option.some.injEq, reduceCtorEq] at hs
    all_goals subst hs
    · rfl
    · exact held_congr rfl rfl rfl
  | subscribe l' =>
    simp only [newOf, List.append_nil]
    simp only [step] at hs; repeat' split at hs
    all_goals simp only [Option.some.injEq, reduceCtorEq] at hs
    all_goals subst hs
    · rfl
    · rfl
    · exact held_congr rfl rfl rfl
  | unsubscribe l' =>
    simp only [newOf, List.append_nil]
    simp only [step] at hs; repeat' split at hs
    all_goals simp only [Option.some.injEq, reduceCtorEq] at hs
    all_goals subst hs
    · rfl
    · rfl
    · rename_i j _
      obtain ⟨h1, h2, h3⟩ := closeSub_held s j k
      exact held_congr h1 h2 h3
  | close r' =>
    simp only [newOf, List.append_nil]
    simp only [step] at hs; repeat' split at hs
    all_goals simp only [Option.some.injEq, reduceCtorEq] at hs
    all_goals subst hs
    · rfl
    · exact held_congr rfl rfl rfl
    · rename_i j _
      obtain ⟨h1, h2, h3⟩ := closeSub_held s j k
      exact held_congr h1 h2 h3
  | frame l' d =>
    simp only [newOf]
    simp only [step] at hs
    split at hs
    · cases hs
    · rename_i hb
      have hrx : s.rx = none := by
        simp only [Bool.or_eq_true, not_or] at hb
        simpa using hb.1.2
      have hp : pending s k = [] := by simp [pending, hrx]
      split at hs
      · rename_i hl
        cases hs
        have : l' ≠ l := by
          intro e; subst e
          have := look_of hi hm
          simp only at this
          rw [hl] at this; cases this
        simp [this]
      · rename_i c hl
        obtain ⟨hc, hcl⟩ := look_mem hl
        have hcs : l' = l → c = ⟨l, r, some k⟩ := fun e => hi.locU c hc _ hm (by rw [hcl, e])
        split at hs
        · rename_i a b rest
          split at hs
          · rename_i hts
            cases hs
            by_cases hll : l' = l
            · simp only [hll, if_true, sdu?]
              have := hcs hll
              subst this
              simp only [toSelect] at hts
              split at hts
              · rw [if_neg (by omega)]; simp
              · simp at hts
            · simp [hll]
          · rename_i ch hts
            simp only [Option.some.injEq] at hs; subst hs
            have hch : ch = c.sub ∧ le16 a b ≤ rest.length := by
              simp only [toSelect] at hts
              split at hts
              · cases hts
              · rename_i hle
                split at hts
                · exact ⟨(Option.some.inj hts).symm, by omega⟩
                · cases hts
            by_cases hll : l' = l
            · have := hcs hll
              subst this
              simp only [hll, if_true, sdu?, hch.2, held, hp, List.append_nil, Option.toList]
              simp only [pending, hch.1, if_true]
            · have hne : ∀ j, c.sub = some j → j ≠ k := by
                intro j hj e; subst e
                have := hi.subU c hc _ hm j hj rfl
                rw [this] at hcl; exact hll hcl.symm
              simp only [hll, if_false, held, hp, List.append_nil]
              have : pending { s with rx := some (ch, rest) } k = [] := by
                simp only [pending, hch.1]
                cases hcs' : c.sub with
                | none => rfl
                | some j => simp [hne j hcs']
              rw [this, List.append_nil]
        · rename_i hn
          simp only [Option.some.injEq] at hs; subst hs
          have : sdu? d = none := by
            match d, hn with
            | [], _ => rfl
            | [_], _ => rfl
            | a :: b :: r, hn => exact absurd rfl (hn a b r)
          simp only [this, Option.toList, ite_self, List.append_nil]
          exact held_congr rfl rfl rfl
  | put =>
    simp only [newOf, List.append_nil]
    simp only [step] at hs
    split at hs
    · rename_i j b hrx
      split at hs
      · cases hs
      · split at hs
        · simp only [Option.some.injEq] at hs; subst hs; exact held_congr rfl rfl rfl
        · split at hs
          · simp only [Option.some.injEq] at hs; subst hs
            simp only [held, pending, hrx, setSub, List.append_nil]
            by_cases hjk : j = k
            · subst hjk; simp
            · have : k ≠ j := fun e => hjk e.symm
              simp [hjk, this]
          · cases hs
    · cases hs
  | timeout => exact absurd rfl ht
  | read j =>
    simp only [newOf, List.append_nil]
    simp only [step] at hs
    split at hs
    · cases hs
    · split at hs
      · cases hs
      · rename_i b q hq
        simp only [Option.some.injEq] at hs; subst hs
        have hp : pending (setSub s j { s.subs j with q := q, got := (s.subs j).got ++ [b] }) k = pending s k := rfl
        simp only [held, hp]
        simp only [setSub]
        split
        · rename_i e; subst e; simp [hq]
        · rfl
  | down =>
    simp only [newOf, List.append_nil]
    simp only [step] at hs
    split at hs
    · cases hs
    · simp only [Option.some.injEq] at hs; subst hs; exact held_congr rfl rfl rfl

theorem held_timeout {s s' : St} {k : Nat} (hs : step s .timeout = some s') : (held s' k).Sublist (held s k) := by
  simp only [step] at hs
  repeat' split at hs
  all_goals simp only [Option.some.injEq, reduceCtorEq] at hs
  all_goals subst hs
  all_goals simp only [held, pending, List.append_nil]
  all_goals exact List.sublist_append_left ..

/-- The state in which `Subscribe` has given the application a new channel for the local identifier `l`. -/
theorem subscribe_made {s s1 : St} {l : Nat} {c : Ch} (hi : Inv s) (hl : look s l = some c) (hc : c.sub = none) (hs : step s (.subscribe l) = some s1) :
    (⟨l, c.rem, some s.nsub⟩ : Ch) ∈ s1.chans ∧ held s1 s.nsub = [] := by
  simp only [step, hl, hc] at hs
  split at hs
  · cases hs
  · rename_i hb
    have hrx : s.rx = none := by simp only [Bool.or_eq_true, not_or] at hb; simpa using hb.2
    simp only [Option.isSome_none, Bool.false_eq_true, if_false, Option.some.injEq] at hs
    subst hs
    obtain ⟨hm, hcl⟩ := look_mem hl
    refine ⟨mem_putBack.2 (Or.inl ⟨by simp [hcl], c, hm, rfl⟩), ?_⟩
    simp only [held, pending, putBack, hrx, hi.fresh s.nsub (Nat.le_refl _)]
    rfl

/-- **C129, delivery.** From the moment a subscription is made until it is ended by `Unsubscribe` or `Close`, whatever else happens on this and the other channels: the SDUs that arrived in whole frames for the channel are, in order, those the
application has read from the subscription's channel, those in it and the one about to be put there: none is lost, doubled, changed, or given to another subscriber, unless `recieve` gave up because the channel stayed full. -/
theorem coc_subscriber_gets_all {es fs : List Ev} {s s1 s2 : St} {l : Nat} {c : Ch} (h : run {} es = some s) (hl : look s l = some c) (hc : c.sub = none) (hs : step s (.subscribe l) = some s1)
    (h2 : run s1 fs = some s2) (hu : Ev.unsubscribe l ∉ fs) (hcl : Ev.close c.rem ∉ fs) :
    ((s2.subs s.nsub).got ++ (s2.subs s.nsub).q ++ pending s2 s.nsub).Sublist (sdus l fs) ∧
    (Ev.timeout ∉ fs → (s2.subs s.nsub).got ++ (s2.subs s.nsub).q ++ pending s2 s.nsub = sdus l fs) := by
  obtain ⟨hm, h0⟩ := subscribe_made (inv h) hl hc hs
  have hr1 : run {} (es ++ [.subscribe l]) = some s1 := runT_snoc.2 ⟨s, h, hs⟩
  have key := runT_ind (step := step) (s0 := s1) (P := fun fs t => Ev.unsubscribe l ∉ fs → Ev.close c.rem ∉ fs →
      Inv t ∧ (⟨l, c.rem, some s.nsub⟩ : Ch) ∈ t.chans ∧ (held t s.nsub).Sublist (sdus l fs) ∧ (Ev.timeout ∉ fs → held t s.nsub = sdus l fs))
    (fun _ _ => ⟨inv hr1, hm, by simp [h0, sdus], fun _ => by simp [h0, sdus]⟩) (by
      intro fs t e t' _ ih hst hu hcl
      simp only [List.mem_append, List.mem_singleton, not_or] at hu hcl
      obtain ⟨i1, i2, i3, i4⟩ := ih hu.1 hcl.1
      refine ⟨inv_step i1 hst, entry_step i1 i2 hst (fun e' => hu.2 e'.symm) (fun e' => hcl.2 e'.symm), ?_, ?_⟩
      · rw [sdus_snoc]
        by_cases ht : e = .timeout
        · subst ht
          simp only [newOf, List.append_nil]
          exact (held_timeout hst).trans i3
        · rw [held_step i1 i2 hst ht]
          exact List.Sublist.append i3 (List.Sublist.refl _)
      · intro hnt
        simp only [List.mem_append, List.mem_singleton, not_or] at hnt
        rw [sdus_snoc, held_step i1 i2 hst (fun e' => hnt.2 e'.symm), i4 hnt.1]) fs s2 h2 hu hcl
  exact ⟨key.2.2.1, key.2.2.2⟩

/-- An SDU for a subscriber is given up only when its channel holds eight. -/
theorem coc_loss_only_when_full {es : List Ev} {s s' : St} (h : run {} es = some s) (hs : step s .timeout = some s') (k : Nat) (b : Bytes) (hk : s.rx = some (some k, b)) :
    (s.subs k).q.length = 8 := by
  simp only [step, hk] at hs
  split at hs
  · cases hs
  · rename_i hn
    have := (inv h).ql k
    have h2 : ¬ (s.subs k).q.length < 8 := fun hlt => hn (by simp [cap, hlt])
    omega

/-- **Calls are not stopped for ever**: whenever the receiving goroutine waits with the mutex held, it can go on by itself, by the send or by the end of the five seconds. -/
theorem coc_receive_goes_on {es : List Ev} {s : St} (h : run {} es = some s) (hc : s.crashed = false) (hrx : s.rx ≠ none) : ∃ e s', (e = .put ∨ e = .timeout) ∧ step s e = some s' ∧ s'.rx = none ∧ s'.crashed = false := by
  have hi := inv h
  match hx : s.rx with
  | none => exact absurd hx hrx
  | some (none, b) => exact ⟨.timeout, { s with rx := none }, Or.inr rfl, by simp [step, hx, hc], rfl, hc⟩
  | some (some k, b) =>
    obtain ⟨c, h1, h2⟩ := hi.rx k b hx
    by_cases hq : (s.subs k).q.length < cap
    · exact ⟨.put, { setSub s k { s.subs k with q := (s.subs k).q ++ [b] } with rx := none }, Or.inl rfl, by simp [step, hx, hc, not_closed hi h1 h2, hq], rfl, hc⟩
    · exact ⟨.timeout, { s with rx := none }, Or.inr rfl, by simp [step, hx, hc, hq], rfl, hc⟩

/-- While it waits, no other frame of the connection is handled and no call on any channel of the connection returns. -/
theorem coc_full_channel_stops_connection {s : St} (hrx : s.rx ≠ none) :
    (∀ l r, step s (.opened l r) = none) ∧ (∀ l, step s (.subscribe l) = none) ∧ (∀ l, step s (.unsubscribe l) = none) ∧ (∀ r, step s (.close r) = none) ∧ (∀ l d, step s (.frame l d) = none) ∧ step s .down = none := by
  have : s.rx.isSome = true := by cases h : s.rx with | none => exact absurd h hrx | some _ => rfl
  simp [step, this]

/-- **C129, the end.** After a successful `Unsubscribe` or `Close` the subscription's channel is closed; nothing is added to it any more; and the application can read all that is in it and then sees the end. -/
theorem coc_end_seen {es fs : List Ev} {s s2 : St} (h : run {} es = some s) (k : Nat) (hk : (s.subs k).closed = true) (h2 : run s fs = some s2) :
    (s2.subs k).closed = true ∧ (s2.subs k).got ++ (s2.subs k).q = (s.subs k).got ++ (s.subs k).q ∧ (s2.crashed = false → sees_end s2 k ∨ (step s2 (.read k)).isSome = true) := by
  have key := runT_ind (step := step) (s0 := s) (P := fun _ t => Inv t ∧ (t.subs k).closed = true ∧ (t.subs k).got ++ (t.subs k).q = (s.subs k).got ++ (s.subs k).q)
    ⟨inv h, hk, rfl⟩ (by
      rintro fs t e t' - ⟨i1, i2, i3⟩ hst
      refine ⟨inv_step i1 hst, ?_⟩
      cases e with
      | put =>
        simp only [step] at hst
        split at hst
        · rename_i j b hrx
          obtain ⟨c, h1, h2⟩ := i1.rx j b hrx
          have hj := not_closed i1 h1 h2
          have : k ≠ j := by intro e; subst e; rw [i2] at hj; cases hj
          repeat' split at hst
          all_goals simp only [Option.some.injEq, reduceCtorEq] at hst
          all_goals subst hst
          · exact ⟨i2, i3⟩
          · simp [setSub, this, i2, i3]
        · cases hst
      | read j =>
        simp only [step] at hst
        split at hst
        · cases hst
        · split at hst
          · cases hst
          · rename_i b q hq
            simp only [Option.some.injEq] at hst; subst hst
            simp only [setSub]
            split
            · rename_i e; subst e; rw [hq] at i3; exact ⟨i2, by rw [← i3]; simp⟩
            · exact ⟨i2, i3⟩
      | unsubscribe l' =>
        simp only [step] at hst; repeat' split at hst
        all_goals simp only [Option.some.injEq, reduceCtorEq] at hst
        all_goals subst hst
        · exact ⟨i2, i3⟩
        · exact ⟨i2, i3⟩
        · rename_i j _
          obtain ⟨h1, h2, h3⟩ := closeSub_held t j k
          refine ⟨?_, by rw [← i3, ← h1, ← h2]; rfl⟩
          simp only [closeSub, putBack]
          split
          · exact i2
          · simp only [setSub]; split
            · rfl
            · exact i2
      | close r' =>
        simp only [step] at hst; repeat' split at hst
        all_goals simp only [Option.some.injEq, reduceCtorEq] at hst
        all_goals subst hst
        · exact ⟨i2, i3⟩
        · exact ⟨i2, i3⟩
        · rename_i j _
          obtain ⟨h1, h2, h3⟩ := closeSub_held t j k
          refine ⟨?_, by rw [← i3, ← h1, ← h2]⟩
          simp only [closeSub]
          split
          · exact i2
          · simp only [setSub]; split
            · rfl
            · exact i2
      | opened _ _ | subscribe _ | frame _ _ | timeout | down =>
        simp only [step] at hst; repeat' split at hst
        all_goals simp only [Option.some.injEq, reduceCtorEq] at hst
        all_goals subst hst
        all_goals exact ⟨i2, i3⟩) fs s2 h2
  refine ⟨key.2.1, key.2.2, fun hc => ?_⟩
  cases hq : (s2.subs k).q with
  | nil => exact Or.inl ⟨key.2.1, hq⟩
  | cons b q => exact Or.inr (by simp [step, hc, hq])

/-- Both calls close the subscription's channel (and `Close` removes the channel). -/
theorem coc_unsubscribe_closes {es : List Ev} {s s' : St} (h : run {} es = some s) {c : Ch} (hc : c ∈ s.chans) {k : Nat} (hk : c.sub = some k) {e : Ev} (he : e = .unsubscribe c.loc ∨ e = .close c.rem) (hs : step s e = some s') :
    (s'.subs k).closed = true := by
  have hi := inv h
  have hl := look_of hi hc
  have hf : (s.chans.find? fun d => d.rem = c.rem) = some c := by
    cases hf : s.chans.find? fun d => decide (d.rem = c.rem) with
    | none => have := List.find?_eq_none.1 hf c hc; simp at this
    | some d => rw [hi.remU d (List.mem_of_find?_eq_some hf) c hc (by simpa using List.find?_some hf)]
  rcases he with rfl | rfl
  · simp only [step, hl, hk] at hs
    split at hs
    · cases hs
    · simp only [closeSub, not_closed hi hc hk, Bool.false_eq_true, if_false, Option.some.injEq] at hs
      subst hs; simp [putBack, setSub]
  · simp only [step, hf, hk] at hs
    split at hs
    · cases hs
    · simp only [closeSub, not_closed hi hc hk, Bool.false_eq_true, if_false, Option.some.injEq] at hs
      subst hs; simp [setSub]

/-- The full claim C129 adds that a subscriber sees the end of the channel also when the connection ends; proved is that it sees it exactly when the application itself ended the subscription. Missing, and false of the code: `coc_link_loss_unseen`. -/
theorem coc_end_iff_partial {es : List Ev} {s : St} (h : run {} es = some s) (k : Nat) (hk : k < s.nsub) : sees_end s k ↔ (s.subs k).q = [] ∧ ∀ c ∈ s.chans, c.sub ≠ some k := by
  simp only [sees_end, (inv h).cl k hk, and_comm]

/-- FALSE of the code: when the connection is lost, a subscriber waits for ever: unless the application itself ends the subscription, the end never comes. -/
theorem coc_link_loss_unseen {es fs : List Ev} {s s2 : St} {l r k : Nat} (h : run {} es = some s) (hm : (⟨l, r, some k⟩ : Ch) ∈ s.chans) (h2 : run s (.down :: fs) = some s2)
    (hu : Ev.unsubscribe l ∉ fs) (hcl : Ev.close r ∉ fs) : ¬ sees_end s2 k := by
  have key := runT_ind (step := step) (s0 := s) (P := fun fs t => Ev.unsubscribe l ∉ fs → Ev.close r ∉ fs → Inv t ∧ (⟨l, r, some k⟩ : Ch) ∈ t.chans) (fun _ _ => ⟨inv h, hm⟩) (by
      intro fs t e t' _ ih hst hu hcl
      simp only [List.mem_append, List.mem_singleton, not_or] at hu hcl
      obtain ⟨i1, i2⟩ := ih hu.1 hcl.1
      exact ⟨inv_step i1 hst, entry_step i1 i2 hst (fun e' => hu.2 e'.symm) (fun e' => hcl.2 e'.symm)⟩) _ s2 h2 (by simp [hu]) (by simp [hcl])
  intro hse
  have := not_closed key.1 key.2 rfl
  rw [hse.1] at this; cases this

/-- Non-vacuity: two channels with subscribers, frames for both interleaved with reads, one subscription ended while its channel holds an SDU, the connection lost. -/
theorem cocrx_example : ∃ s, run {} [.opened 0x40 0x50, .opened 0x41 0x51, .subscribe 0x40, .subscribe 0x41, .frame 0x40 [1, 0, 7], .put, .frame 0x41 [2, 0, 8, 9], .put, .read 0, .frame 0x40 [1, 0, 6], .put, .unsubscribe 0x40,
      .read 0, .down] = some s ∧ (s.subs 0).got = [[7], [6]] ∧ sees_end s 0 ∧ (s.subs 1).q = [[8, 9]] ∧ ¬ sees_end s 1 := by
  refine ⟨_, rfl, rfl, ⟨rfl, rfl⟩, rfl, fun h => by (cases h.1)⟩

/-- C129: a frame for a channel that is too short for its length field ends the process, in every reachable state in which it can be handled. -/
theorem coc_short_frame_crashes {s s' : St} {l : Nat} {d : Bytes} (hl : look s l ≠ none) (hd : d.length < 2) (hs : step s (.frame l d) = some s') : s'.crashed = true ∧ ∀ e, step s' e = none ∨ ∃ k, e = .read k ∨ e = .down := by
  have hcr : s'.crashed = true := by
    simp only [step] at hs
    split at hs
    · cases hs
    · split at hs
      · rename_i h; exact absurd h hl
      · match d, hd with
        | [], _ => simp only [Option.some.injEq] at hs; subst hs; rfl
        | [_], _ => simp only [Option.some.injEq] at hs; subst hs; rfl
  refine ⟨hcr, fun e => ?_⟩
  cases e <;> simp [step, hcr] <;> (repeat' split) <;> simp_all

/-- C129: when the connection has ended, no frame is received any more. -/
theorem coc_down_no_frames {s s' : St} {fs : List Ev} (h : run s (.down :: fs) = some s') (l : Nat) (d : Bytes) : Ev.frame l d ∉ fs := by
  simp only [run, runT, step] at h
  split at h
  · cases h
  · rename_i hd
    have hup : ∀ {a : St}, (if (s.crashed || s.rx.isSome) = true then none else some { s with up := false }) = some a → a.up = false := by
      intro a ha
      split at ha
      · cases ha
      · simp only [Option.some.injEq] at ha; subst ha; rfl
    have key := runT_ind (step := step) (P := fun fs s => s.up = false ∧ ∀ l d, Ev.frame l d ∉ fs) ⟨hup hd, by simp⟩ ?_ fs s' h
    · exact key.2 l d
    · intro fs s e s' _ ⟨h1, h2⟩ hs
      have hu : s'.up = false ∧ ∀ l d, e ≠ .frame l d := by
        cases e
        case frame l d => simp [step, h1] at hs
        all_goals simp only [step, h1] at hs
        all_goals repeat' split at hs
        all_goals first
          | (simp only [Option.some.injEq] at hs; subst hs; first | (refine ⟨h1, by simp⟩; done) | (simp_all [closeSub, setSub, putBack]; done) | (simp_all [closeSub, setSub, putBack]; split <;> rfl))
          | simp_all
      refine ⟨hu.1, fun l d hm => ?_⟩
      simp only [List.mem_append, List.mem_singleton] at hm
      rcases hm with hm | hm
      · exact h2 l d hm
      · exact hu.2 l d hm.symm

/-- C129: an SDU for a channel without a subscriber is dropped at once; but if its frame is longer than its length field says, the connection stops for the five seconds, since nobody takes it. -/
theorem coc_unsubscribed_frame {s s' : St} {l : Nat} {c : Ch} {a b : UInt8} {rest : Bytes} (hl : look s l = some c) (hn : c.sub = none) (hrx : s.rx = none) (hs : step s (.frame l (a :: b :: rest)) = some s') :
    if rest.length ≤ le16 a b then s' = s else s' = { s with rx := some (none, rest) } := by
  simp only [step, hl] at hs
  split at hs
  · cases hs
  · by_cases h1 : rest.length ≤ le16 a b
    · rw [if_pos h1]
      have : toSelect c (le16 a b) rest = none := by
        unfold toSelect
        split
        · rfl
        · rw [if_neg (by simp [hn]; omega)]
      rw [this] at hs
      exact (Option.some.inj hs).symm
    · rw [if_neg h1]
      have : toSelect c (le16 a b) rest = some none := by
        unfold toSelect
        rw [if_neg (by omega), if_pos (by simp; omega), hn]
      rw [this] at hs
      exact (Option.some.inj hs).symm

end Ble.CocRx
