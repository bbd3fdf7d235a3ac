import Verif.Client.Model
set_option autoImplicit false

/-!
# Client calls do not depend on what carries the requests

If two peers answer related requests in the same way, every client call gives the same result with both.
-/

namespace Ble.Client

open Ble.Att (add16)

variable {S T α β γ δ ε : Type}

/-- The same outcome, up to a relation of the results. -/
inductive GoSim (Q : α → β → Prop) : Go ε α → Go ε β → Prop where
  | ok {a b} (h : Q a b) : GoSim Q (.ok a) (.ok b)
  | err (e) : GoSim Q (.err e) (.err e)
  | panic : GoSim Q .panic .panic

theorem GoSim.bind {Q : α → β → Prop} {P : γ → δ → Prop} {x : Go ε α} {y : Go ε β} {f : α → Go ε γ} {g : β → Go ε δ} (h : GoSim Q x y)
    (hf : ∀ a b, Q a b → GoSim P (f a) (g b)) : GoSim P (x >>= f) (y >>= g) := by
  cases h with
  | ok h => exact hf _ _ h
  | err e => exact .err e
  | panic => exact .panic

theorem GoSim.refl {Q : α → α → Prop} (hq : ∀ a, Q a a) (x : Go ε α) : GoSim Q x x := by
  cases x with
  | ok a => exact .ok (hq a)
  | err e => exact .err e
  | panic => exact .panic

/-- Two clients in the same state, with related peers. -/
structure CliSim (R : T → S → Prop) (c : Cli T) (d : Cli S) : Prop where
  peer : R c.peer d.peer
  buf : c.buf = d.buf
  tx : c.txMTU = d.txMTU
  rx : c.rxMTU = d.rxMTU

/-- The requests every call but `ExchangeMTU` and `PrepareWrite` makes, of at most `N` bytes. -/
def Plain (N : Nat) (req : Bytes) : Prop := req.length ≤ N ∧ req.head? ≠ some 0x02 ∧ req.head? ≠ some 0x16

/-- The two peers answer related requests in the same way. -/
def ExSim (R : T → S → Prop) (N : Nat) (ex' : Exchange T) (ex : Exchange S) : Prop :=
  ∀ t s req, R t s → Plain N req → GoSim (fun a b => R a.1 b.1 ∧ a.2 = b.2) (ex' t req) (ex s req)

variable {R : T → S → Prop} {N : Nat} {ex' : Exchange T} {ex : Exchange S} {c : Cli T} {d : Cli S}

theorem send_sim (he : ExSim R N ex' ex) (hc : CliSim R c d) {req : Bytes} (hp : Plain N req) :
    GoSim (fun a b => CliSim R a.1 b.1 ∧ a.2 = b.2) (Cli.send ex' c req) (Cli.send ex d req) := by
  unfold Cli.send
  rw [hc.buf]
  split
  · exact .panic
  · refine GoSim.bind (he _ _ req hc.peer hp) ?_
    rintro ⟨p, r⟩ ⟨q, r'⟩ ⟨h1, h2⟩
    exact .ok ⟨⟨h1, rfl, hc.tx, hc.rx⟩, h2⟩

/-- Results related: clients in the same state and equal values. -/
abbrev Same (R : T → S → Prop) (γ : Type) : Cli T × γ → Cli S × γ → Prop := fun a b => CliSim R a.1 b.1 ∧ a.2 = b.2

theorem findInformation_sim (he : ExSim R N ex' ex) (hc : CliSim R c d) (hN : 7 ≤ N) (lo hi : Nat) :
    GoSim (Same R (Nat × Bytes)) (findInformation ex' c lo hi) (findInformation ex d lo hi) := by
  unfold findInformation
  split
  · exact .err _
  · refine GoSim.bind (send_sim he hc ⟨by simp; omega, by simp, by simp⟩) ?_
    rintro ⟨c', r⟩ ⟨d', r'⟩ ⟨h1, h2⟩
    cases h2
    refine GoSim.bind (Q := fun _ _ => True) (GoSim.refl (fun _ => trivial) _) ?_
    intro _ _ _
    split
    · exact .err _
    · refine GoSim.bind (Q := (· = ·)) (GoSim.refl (fun _ => rfl) _) ?_
      rintro f _ rfl
      split
      · exact .err _
      · split
        · exact .err _
        · exact .ok ⟨h1, rfl⟩

theorem readList_sim (he : ExSim R N ex' ex) (hc : CliSim R c d) (op : UInt8) (ho : op ≠ 0x02) (ho' : op ≠ 0x16) (lo hi : Nat) (u : Bytes)
    (hN : 5 + u.length ≤ N) : GoSim (Same R (Nat × Bytes)) (readList op ex' c lo hi u) (readList op ex d lo hi u) := by
  unfold readList
  split
  · exact .err _
  · refine GoSim.bind (send_sim he hc ⟨by simp; omega, by simpa using ho, by simpa using ho'⟩) ?_
    rintro ⟨c', r⟩ ⟨d', r'⟩ ⟨h1, h2⟩
    cases h2
    refine GoSim.bind (Q := fun _ _ => True) (GoSim.refl (fun _ => trivial) _) ?_
    intro _ _ _
    split
    · exact .err _
    · refine GoSim.bind (Q := (· = ·)) (GoSim.refl (fun _ => rfl) _) ?_
      rintro f _ rfl
      split
      · exact .panic
      · split
        · exact .err _
        · exact .ok ⟨h1, rfl⟩

theorem read_sim (he : ExSim R N ex' ex) (hc : CliSim R c d) (hN : 7 ≤ N) (h : Nat) :
    GoSim (Same R Bytes) (Client.read ex' c h) (Client.read ex d h) := by
  unfold Client.read
  refine GoSim.bind (send_sim he hc ⟨by simp; omega, by simp, by simp⟩) ?_
  rintro ⟨c', r⟩ ⟨d', r'⟩ ⟨h1, h2⟩
  cases h2
  refine GoSim.bind (Q := fun _ _ => True) (GoSim.refl (fun _ => trivial) _) ?_
  intro _ _ _
  exact .ok ⟨h1, rfl⟩

theorem readBlob_sim (he : ExSim R N ex' ex) (hc : CliSim R c d) (hN : 7 ≤ N) (h off : Nat) :
    GoSim (Same R Bytes) (readBlob ex' c h off) (readBlob ex d h off) := by
  unfold readBlob
  refine GoSim.bind (send_sim he hc ⟨by simp; omega, by simp, by simp⟩) ?_
  rintro ⟨c', r⟩ ⟨d', r'⟩ ⟨h1, h2⟩
  cases h2
  refine GoSim.bind (Q := fun _ _ => True) (GoSim.refl (fun _ => trivial) _) ?_
  intro _ _ _
  exact .ok ⟨h1, rfl⟩

theorem readMultiple_sim (he : ExSim R N ex' ex) (hc : CliSim R c d) (hN : d.txMTU ≤ N) (hs : List Nat) :
    GoSim (Same R Bytes) (readMultiple ex' c hs) (readMultiple ex d hs) := by
  unfold readMultiple
  rw [hc.tx]
  split
  · exact .err _
  · rename_i hl
    refine GoSim.bind (send_sim he hc ⟨?_, by simp, by simp⟩) ?_
    · have : (hs.flatMap put16).length = hs.length * 2 := by
        clear hl
        induction hs with
        | nil => rfl
        | cons a as ih => rw [List.flatMap_cons, List.length_append, put16_length, ih, List.length_cons]; omega
      simp only [List.length_cons, this]; omega
    · rintro ⟨c', r⟩ ⟨d', r'⟩ ⟨h1, h2⟩
      cases h2
      refine GoSim.bind (Q := fun _ _ => True) (GoSim.refl (fun _ => trivial) _) ?_
      intro _ _ _
      exact .ok ⟨h1, rfl⟩

theorem write_sim (he : ExSim R N ex' ex) (hc : CliSim R c d) (hN : d.txMTU ≤ N) (h : Nat) (v : Bytes) :
    GoSim (CliSim R) (write ex' c h v) (write ex d h v) := by
  unfold write
  rw [hc.tx]
  split
  · exact .err _
  · refine GoSim.bind (send_sim he hc ⟨by simp; omega, by simp, by simp⟩) ?_
    rintro ⟨c', r⟩ ⟨d', r'⟩ ⟨h1, h2⟩
    cases h2
    refine GoSim.bind (Q := fun _ _ => True) (GoSim.refl (fun _ => trivial) _) ?_
    intro _ _ _
    exact .ok h1

/-- Optional results related. -/
inductive OptSim (Q : α → β → Prop) : Option α → Option β → Prop where
  | none : OptSim Q none none
  | some {a b} (h : Q a b) : OptSim Q (some a) (some b)

theorem discoverServices_sim (he : ExSim R N ex' ex) (hN : 7 ≤ N) (filter : Option (List Bytes)) :
    ∀ (fuel : Nat) (c : Cli T) (d : Cli S) (start : Nat) (acc : List SvcInfo), CliSim R c d →
      GoSim (OptSim (Same R (List SvcInfo))) (discoverServices ex' filter fuel c start acc) (discoverServices ex filter fuel d start acc) := by
  intro fuel
  induction fuel with
  | zero => intro c d start acc _; exact .ok .none
  | succ n ih =>
    intro c d start acc hc
    simp only [discoverServices, readByGroupType]
    have hr := readList_sim he hc 0x10 (by decide) (by decide) start 0xFFFF (put16 0x2800) (by simpa using hN)
    revert hr
    generalize readList 0x10 ex' c start 0xFFFF (put16 0x2800) = x
    generalize readList 0x10 ex d start 0xFFFF (put16 0x2800) = y
    intro hr
    cases hr with
    | panic => exact .panic
    | err e =>
      by_cases h : e = .att 0x0A
      · subst h; exact .ok (.some ⟨hc, rfl⟩)
      · split
        · contradiction
        · rename_i heq; cases heq; exact absurd rfl h
        · rename_i heq; cases heq; exact .err _
        · contradiction
    | ok h =>
      rename_i a b
      obtain ⟨c', l, bb⟩ := a
      obtain ⟨d', l', bb'⟩ := b
      obtain ⟨h1, h2⟩ := h
      cases h2
      simp only
      split
      · exact .panic
      · exact .err _
      · exact .ok (.some ⟨h1, rfl⟩)
      · exact ih _ _ _ _ h1

theorem charOuter_sim (he : ExSim R N ex' ex) (hN : 7 ≤ N) (endh : Nat) :
    ∀ (fuel : Nat) (c : Cli T) (d : Cli S) (start : Nat) (acc : List CharInfo), CliSim R c d →
      GoSim (OptSim (Same R (List CharInfo))) (charOuter ex' endh fuel c start acc) (charOuter ex endh fuel d start acc) := by
  intro fuel
  induction fuel with
  | zero => intro c d start acc _; exact .ok .none
  | succ n ih =>
    intro c d start acc hc
    simp only [charOuter, readByType]
    split
    · exact .ok (.some ⟨hc, rfl⟩)
    have hr := readList_sim he hc 0x08 (by decide) (by decide) start endh (put16 0x2803) (by simpa using hN)
    revert hr
    generalize readList 0x08 ex' c start endh (put16 0x2803) = x
    generalize readList 0x08 ex d start endh (put16 0x2803) = y
    intro hr
    cases hr with
    | panic => exact .panic
    | err e =>
      by_cases h : e = .att 0x0A
      · subst h; exact .ok (.some ⟨hc, rfl⟩)
      · split
        · contradiction
        · rename_i heq; cases heq; exact absurd rfl h
        · rename_i heq; cases heq; exact .err _
        · contradiction
    | ok h =>
      rename_i a b
      obtain ⟨c', l, bb⟩ := a
      obtain ⟨d', l', bb'⟩ := b
      obtain ⟨h1, h2⟩ := h
      cases h2
      simp only
      split
      · exact .panic
      · exact .err _
      · exact ih _ _ _ _ h1

theorem descOuter_sim (he : ExSim R N ex' ex) (hN : 7 ≤ N) (endh : Nat) :
    ∀ (fuel : Nat) (c : Cli T) (d : Cli S) (start : Nat) (acc : List DescInfo), CliSim R c d →
      GoSim (OptSim (Same R (List DescInfo))) (descOuter ex' endh fuel c start acc) (descOuter ex endh fuel d start acc) := by
  intro fuel
  induction fuel with
  | zero => intro c d start acc _; exact .ok .none
  | succ n ih =>
    intro c d start acc hc
    simp only [descOuter]
    split
    · exact .ok (.some ⟨hc, rfl⟩)
    have hr := findInformation_sim he hc hN start endh
    revert hr
    generalize findInformation ex' c start endh = x
    generalize findInformation ex d start endh = y
    intro hr
    cases hr with
    | panic => exact .panic
    | err e =>
      by_cases h : e = .att 0x0A
      · subst h; exact .ok (.some ⟨hc, rfl⟩)
      · split
        · contradiction
        · rename_i heq; cases heq; exact absurd rfl h
        · rename_i heq; cases heq; exact .err _
        · contradiction
    | ok h =>
      rename_i a b
      obtain ⟨c', l, bb⟩ := a
      obtain ⟨d', l', bb'⟩ := b
      obtain ⟨h1, h2⟩ := h
      cases h2
      simp only
      split
      · exact .panic
      · exact .err _
      · exact ih _ _ _ _ h1

theorem discoverCharacteristics_sim (he : ExSim R N ex' ex) (hN : 7 ≤ N) (filter : Option (List Bytes)) (fuel : Nat) (hc : CliSim R c d) (s : SvcInfo) :
    GoSim (OptSim (Same R (List CharInfo))) (discoverCharacteristics ex' filter fuel c s) (discoverCharacteristics ex filter fuel d s) := by
  unfold discoverCharacteristics
  refine GoSim.bind (charOuter_sim he hN _ fuel c d _ _ hc) ?_
  intro a b h
  cases h with
  | none => exact .ok .none
  | some h => exact .ok (.some ⟨h.1, by simp only [h.2]⟩)

theorem discoverDescriptors_sim (he : ExSim R N ex' ex) (hN : 7 ≤ N) (filter : Option (List Bytes)) (fuel : Nat) (hc : CliSim R c d) (ch : CharInfo) :
    GoSim (OptSim (Same R (List DescInfo × Option DescInfo))) (discoverDescriptors ex' filter fuel c ch) (discoverDescriptors ex filter fuel d ch) := by
  unfold discoverDescriptors
  refine GoSim.bind (descOuter_sim he hN _ fuel c d _ _ hc) ?_
  intro a b h
  cases h with
  | none => exact .ok .none
  | some h => exact .ok (.some ⟨h.1, by simp only [h.2]⟩)

theorem descFound_sim (he : ExSim R N ex' ex) (hN : 7 ≤ N) (endh : Nat) :
    ∀ (fuel : Nat) (c : Cli T) (d : Cli S) (start : Nat) (acc : List DescInfo), CliSim R c d → descFound ex' endh fuel c start acc = descFound ex endh fuel d start acc := by
  intro fuel
  induction fuel with
  | zero => intro c d start acc _; rfl
  | succ n ih =>
    intro c d start acc hc
    simp only [descFound]
    split
    · rfl
    have hr := findInformation_sim he hc hN start endh
    revert hr
    generalize findInformation ex' c start endh = x
    generalize findInformation ex d start endh = y
    intro hr
    cases hr with
    | panic => rfl
    | err e => rfl
    | ok h =>
      rename_i a b
      obtain ⟨c', l, bb⟩ := a
      obtain ⟨d', l', bb'⟩ := b
      obtain ⟨h1, h2⟩ := h
      cases h2
      simp only
      split
      · exact ih _ _ _ _ h1
      · rfl

theorem charFound_sim (he : ExSim R N ex' ex) (hN : 7 ≤ N) (endh : Nat) :
    ∀ (fuel : Nat) (c : Cli T) (d : Cli S) (start : Nat) (acc : List CharInfo), CliSim R c d → charFound ex' endh fuel c start acc = charFound ex endh fuel d start acc := by
  intro fuel
  induction fuel with
  | zero => intro c d start acc _; rfl
  | succ n ih =>
    intro c d start acc hc
    simp only [charFound, readByType]
    split
    · rfl
    have hr := readList_sim he hc 0x08 (by decide) (by decide) start endh (put16 0x2803) (by simpa using hN)
    revert hr
    generalize readList 0x08 ex' c start endh (put16 0x2803) = x
    generalize readList 0x08 ex d start endh (put16 0x2803) = y
    intro hr
    cases hr with
    | panic => rfl
    | err e => rfl
    | ok h =>
      rename_i a b
      obtain ⟨c', l, bb⟩ := a
      obtain ⟨d', l', bb'⟩ := b
      obtain ⟨h1, h2⟩ := h
      cases h2
      simp only
      split
      · exact ih _ _ _ _ h1
      · rfl

theorem profDescs_sim (he : ExSim R N ex' ex) (hN : 7 ≤ N) (fuel : Nat) : ∀ (chs : List CharProf) (c : Cli T) (d : Cli S), CliSim R c d →
    (profDescs ex' fuel c chs).1 = (profDescs ex fuel d chs).1 ∧
    GoSim (OptSim (CliSim R)) (profDescs ex' fuel c chs).2 (profDescs ex fuel d chs).2 := by
  intro chs
  induction chs with
  | nil => intro c d hc; exact ⟨rfl, .ok (.some hc)⟩
  | cons ch chs ih =>
    intro c d hc
    simp only [profDescs]
    have hb : ch.broken ex' fuel c = ch.broken ex fuel d := by simp only [CharProf.broken, descFound_sim he hN _ fuel c d _ _ hc]
    rw [hb]
    have hr := discoverDescriptors_sim he hN none fuel hc ch.info
    revert hr
    generalize discoverDescriptors ex' none fuel c ch.info = x
    generalize discoverDescriptors ex none fuel d ch.info = y
    intro hr
    cases hr with
    | panic => exact ⟨rfl, .panic⟩
    | err e => exact ⟨rfl, .err e⟩
    | ok h =>
      cases h with
      | none => exact ⟨rfl, .ok .none⟩
      | some h =>
        rename_i a b
        obtain ⟨c', l, bb⟩ := a
        obtain ⟨d', l', bb'⟩ := b
        obtain ⟨h1, h2⟩ := h
        cases h2
        obtain ⟨i1, i2⟩ := ih c' d' h1
        exact ⟨by simp only [i1], i2⟩

theorem profSvcs_sim (he : ExSim R N ex' ex) (hN : 7 ≤ N) (fuel : Nat) : ∀ (ss : List SvcProf) (c : Cli T) (d : Cli S), CliSim R c d →
    (profSvcs ex' fuel c ss).1 = (profSvcs ex fuel d ss).1 ∧
    GoSim (OptSim (CliSim R)) (profSvcs ex' fuel c ss).2 (profSvcs ex fuel d ss).2 := by
  intro ss
  induction ss with
  | nil => intro c d hc; exact ⟨rfl, .ok (.some hc)⟩
  | cons s ss ih =>
    intro c d hc
    simp only [profSvcs]
    have hb : s.broken ex' fuel c = s.broken ex fuel d := by simp only [SvcProf.broken, charFound_sim he hN _ fuel c d _ _ hc]
    rw [hb]
    have hr := discoverCharacteristics_sim he hN none fuel hc s.info
    revert hr
    generalize discoverCharacteristics ex' none fuel c s.info = x
    generalize discoverCharacteristics ex none fuel d s.info = y
    intro hr
    cases hr with
    | panic => exact ⟨rfl, .panic⟩
    | err e => exact ⟨rfl, .err e⟩
    | ok h =>
      cases h with
      | none => exact ⟨rfl, .ok .none⟩
      | some h =>
        rename_i a b
        obtain ⟨c', l⟩ := a
        obtain ⟨d', l'⟩ := b
        obtain ⟨h1, h2⟩ := h
        cases h2
        obtain ⟨p1, p2⟩ := profDescs_sim he hN fuel (s.chars ++ l.map fun i => { info := i }) c' d' h1
        simp only
        rw [p1]
        revert p2
        generalize (profDescs ex' fuel c' (s.chars ++ l.map fun i => { info := i })).2 = x2
        generalize (profDescs ex fuel d' (s.chars ++ l.map fun i => { info := i })).2 = y2
        intro p2
        cases p2 with
        | panic => exact ⟨rfl, .panic⟩
        | err e => exact ⟨rfl, .err e⟩
        | ok h =>
          cases h with
          | none => exact ⟨rfl, .ok .none⟩
          | some h =>
            obtain ⟨i1, i2⟩ := ih _ _ h
            exact ⟨by simp only [i1], i2⟩

theorem svcRun_sim (he : ExSim R N ex' ex) (hN : 7 ≤ N) : ∀ (fuel : Nat) (c : Cli T) (d : Cli S) (start : Nat) (acc : List SvcInfo), CliSim R c d →
    (svcRun ex' fuel c start acc).1 = (svcRun ex fuel d start acc).1 ∧
    GoSim (OptSim (CliSim R)) (svcRun ex' fuel c start acc).2 (svcRun ex fuel d start acc).2 := by
  intro fuel
  induction fuel with
  | zero => intro c d start acc _; exact ⟨rfl, .ok .none⟩
  | succ n ih =>
    intro c d start acc hc
    simp only [svcRun, readByGroupType]
    have hr := readList_sim he hc 0x10 (by decide) (by decide) start 0xFFFF (put16 0x2800) (by simpa using hN)
    revert hr
    generalize readList 0x10 ex' c start 0xFFFF (put16 0x2800) = x
    generalize readList 0x10 ex d start 0xFFFF (put16 0x2800) = y
    intro hr
    cases hr with
    | panic => exact ⟨rfl, .panic⟩
    | err e =>
      by_cases h : e = .att 0x0A
      · subst h; exact ⟨rfl, .ok (.some hc)⟩
      · split
        · contradiction
        · rename_i heq; cases heq; exact absurd rfl h
        · rename_i heq; cases heq; exact ⟨rfl, .err _⟩
        · contradiction
    | ok h =>
      rename_i a b
      obtain ⟨c', l, bb⟩ := a
      obtain ⟨d', l', bb'⟩ := b
      obtain ⟨h1, h2⟩ := h
      cases h2
      simp only
      split
      · exact ⟨rfl, .panic⟩
      · exact ⟨rfl, .err _⟩
      · exact ⟨rfl, .ok (.some h1)⟩
      · exact ih _ _ _ _ h1

theorem discoverProfile_sim (he : ExSim R N ex' ex) (hN : 7 ≤ N) (fuel : Nat) (force : Bool) (hc : CliSim R c d) (prof : Option (List SvcProf)) :
    (discoverProfile ex' fuel force c prof).1 = (discoverProfile ex fuel force d prof).1 ∧
    GoSim (OptSim (CliSim R)) (discoverProfile ex' fuel force c prof).2 (discoverProfile ex fuel force d prof).2 := by
  unfold discoverProfile
  split
  · exact ⟨rfl, .ok (.some hc)⟩
  · obtain ⟨p1, p2⟩ := svcRun_sim he hN fuel c d 1 ((prof.getD []).map SvcProf.info) hc
    simp only
    rw [p1]
    revert p2
    generalize (svcRun ex' fuel c 1 ((prof.getD []).map SvcProf.info)).2 = x2
    generalize (svcRun ex fuel d 1 ((prof.getD []).map SvcProf.info)).2 = y2
    intro p2
    cases p2 with
    | panic => exact ⟨rfl, .panic⟩
    | err e => exact ⟨rfl, .err e⟩
    | ok h =>
      cases h with
      | none => exact ⟨rfl, .ok .none⟩
      | some h =>
        obtain ⟨i1, i2⟩ := profSvcs_sim he hN fuel _ _ _ h
        exact ⟨by simp only [i1], i2⟩

theorem readLong_sim (he : ExSim R N ex' ex) (hN : 7 ≤ N) (fuel : Nat) (hc : CliSim R c d) (h : Nat) :
    GoSim (OptSim (Same R Bytes)) (readLong ex' fuel c h) (readLong ex fuel d h) := by
  have loop : ∀ (fuel : Nat) (c : Cli T) (d : Cli S) (last buf : Bytes), CliSim R c d →
      GoSim (OptSim (Same R Bytes)) (readLongLoop ex' h fuel c last buf) (readLongLoop ex h fuel d last buf) := by
    intro fuel
    induction fuel with
    | zero => intro c d last buf _; exact .ok .none
    | succ n ih =>
      intro c d last buf hc
      simp only [readLongLoop]
      rw [hc.tx]
      split
      · have hr := readBlob_sim he hc hN h (buf.length % 65536)
        revert hr
        generalize readBlob ex' c h (buf.length % 65536) = x
        generalize readBlob ex d h (buf.length % 65536) = y
        intro hr
        cases hr with
        | panic => exact .panic
        | err e => exact .err e
        | ok h =>
          rename_i a b
          obtain ⟨c', l⟩ := a
          obtain ⟨d', l'⟩ := b
          obtain ⟨h1, h2⟩ := h
          cases h2
          exact ih _ _ _ _ h1
      · exact .ok (.some ⟨hc, rfl⟩)
  unfold readLong
  have hr := read_sim he hc hN h
  revert hr
  generalize Client.read ex' c h = x
  generalize Client.read ex d h = y
  intro hr
  cases hr with
  | panic => exact .panic
  | err e => exact .err e
  | ok h =>
    rename_i a b
    obtain ⟨c', l⟩ := a
    obtain ⟨d', l'⟩ := b
    obtain ⟨h1, h2⟩ := h
    cases h2
    exact loop _ _ _ _ _ h1

end Ble.Client
