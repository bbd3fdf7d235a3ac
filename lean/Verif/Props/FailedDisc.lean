import Verif.Client.Sim
import Verif.Props.DiscoveryChars
set_option autoImplicit false

/-!
# C207: what a DiscoverProfile that fails leaves as the client's profile
-/

namespace Ble.FailedDisc

open Ble.Client Ble.Att

variable {S T α β γ δ : Type}

/-! ## Specification -/

/-- A peer that answers as `ex` does, except that requests may fail with `e` (time-out, loss of the connection): `R` relates the states of the two. -/
def Faulty (R : T → S → Prop) (e : CErr) (ex' : Exchange T) (ex : Exchange S) : Prop :=
  ∀ t s req, R t s → ex' t req = .err e ∨ GoSim (fun a b => R a.1 b.1 ∧ a.2 = b.2) (ex' t req) (ex s req)

/-- A characteristic in a partial profile, against the true one: everything but the end of its range is right, and its descriptors are the first true ones. -/
structure PartChar (x y : CharProf) : Prop where
  info : { x.info with endHandle := 0 } = { y.info with endHandle := 0 }
  descs : x.descs <+: y.descs
  cccd : ∀ d, x.cccd = some d → d ∈ y.descs

/-- A service in a partial profile: its characteristics are the first true ones; the end of the range is right too, except perhaps for the last characteristic of an incomplete list. -/
structure PartSvc (a b : SvcProf) : Prop where
  info : a.info = b.info
  len : a.chars.length ≤ b.chars.length
  chars : ∀ (i : Nat) x y, a.chars[i]? = some x → b.chars[i]? = some y → PartChar x y
  ends : ∀ (i : Nat) x y, a.chars[i]? = some x → b.chars[i]? = some y → i + 1 < a.chars.length ∨ a.chars.length = b.chars.length → x.info = y.info

/-- A partial profile: the first true services. -/
structure Part (p q : List SvcProf) : Prop where
  len : p.length ≤ q.length
  svcs : ∀ (i : Nat) a b, p[i]? = some a → q[i]? = some b → PartSvc a b

/-! ## Requests -/

/-- The same outcome, or the failure. -/
def Cut (Q : α → β → Prop) (e : CErr) (x : Call α) (y : Call β) : Prop := x = .err e ∨ GoSim Q x y

theorem Cut.bind {Q : α → β → Prop} {P : γ → δ → Prop} {e : CErr} {x : Call α} {y : Call β} {f : α → Call γ} {g : β → Call δ} (h : Cut Q e x y)
    (hf : ∀ a b, Q a b → Cut P e (f a) (g b)) : Cut P e (x >>= f) (y >>= g) := by
  rcases h with h | h
  · left; rw [h]; rfl
  · cases h with
    | ok h => exact hf _ _ h
    | err e => exact Or.inr (.err e)
    | panic => exact Or.inr .panic

variable {R : T → S → Prop} {e : CErr} {ex' : Exchange T} {ex : Exchange S} {c : Cli T} {d : Cli S}

theorem send_cut (he : Faulty R e ex' ex) (hc : CliSim R c d) (req : Bytes) :
    Cut (fun a b => CliSim R a.1 b.1 ∧ a.2 = b.2) e (Cli.send ex' c req) (Cli.send ex d req) := by
  unfold Cli.send
  rw [hc.buf]
  split
  · exact Or.inr .panic
  · refine Cut.bind (he _ _ req hc.peer) ?_
    rintro ⟨p, r⟩ ⟨q, r'⟩ ⟨h1, h2⟩
    exact Or.inr (.ok ⟨⟨h1, rfl, hc.tx, hc.rx⟩, h2⟩)

theorem findInformation_cut (he : Faulty R e ex' ex) (hc : CliSim R c d) (lo hi : Nat) :
    Cut (Same R (Nat × Bytes)) e (findInformation ex' c lo hi) (findInformation ex d lo hi) := by
  unfold findInformation
  split
  · exact Or.inr (.err _)
  · refine Cut.bind (send_cut he hc _) ?_
    rintro ⟨c', r⟩ ⟨d', r'⟩ ⟨h1, h2⟩
    cases h2
    refine Or.inr (GoSim.bind (Q := fun _ _ => True) (GoSim.refl (fun _ => trivial) _) ?_)
    intro _ _ _
    split
    · exact .err _
    · refine GoSim.bind (Q := (· = ·)) (GoSim.refl (fun _ => rfl) _) ?_
      rintro f _ rfl
      split
      · exact .err _
      · split
        · exact .err _
        · exact .ok ⟨h1, rfl⟩

theorem readList_cut (he : Faulty R e ex' ex) (hc : CliSim R c d) (op : UInt8) (lo hi : Nat) (u : Bytes) : Cut (Same R (Nat × Bytes)) e (readList op ex' c lo hi u) (readList op ex d lo hi u) := by
  unfold readList
  split
  · exact Or.inr (.err _)
  · refine Cut.bind (send_cut he hc _) ?_
    rintro ⟨c', r⟩ ⟨d', r'⟩ ⟨h1, h2⟩
    cases h2
    refine Or.inr (GoSim.bind (Q := fun _ _ => True) (GoSim.refl (fun _ => trivial) _) ?_)
    intro _ _ _
    split
    · exact .err _
    · refine GoSim.bind (Q := (· = ·)) (GoSim.refl (fun _ => rfl) _) ?_
      rintro f _ rfl
      split
      · exact .panic
      · split
        · exact .err _
        · exact .ok ⟨h1, rfl⟩

/-! ## Lists that grow -/

theorem descLoop_grows {len : Nat} : ∀ (n : Nat) (b : Bytes), b.length ≤ n → ∀ (start : Nat) (acc : List DescInfo) (r : Nat × List DescInfo), descLoop len b start acc = .ok r → acc <+: r.2 := by
  intro n
  induction n with
  | zero =>
    intro b hb start acc r h
    cases b with
    | nil => rw [descLoop] at h; cases h; exact List.prefix_refl _
    | cons x xs => simp at hb
  | succ n ih =>
    intro b hb start acc r h
    cases b with
    | nil => rw [descLoop] at h; cases h; exact List.prefix_refl _
    | cons x xs =>
      rw [descLoop] at h
      split at h
      · cases h
      · next hl =>
        obtain ⟨v, -, h⟩ := Go.bind_eq_ok.1 h
        exact (List.prefix_append acc _).trans (ih _ (by simp only [List.length_drop, List.length_cons] at *; omega) _ _ _ h)

theorem svcLoop_grows {len : Nat} : ∀ (n : Nat) (b : Bytes), b.length ≤ n → ∀ (start : Nat) (acc : List SvcInfo) (r : Step SvcInfo), svcLoop none len b start acc = .ok r →
    (∃ l, r = .ret l ∧ acc <+: l) ∨ ∃ st l, r = .again st l ∧ acc <+: l := by
  intro n
  induction n with
  | zero =>
    intro b hb start acc r h
    cases b with
    | nil => rw [svcLoop] at h; cases h; exact Or.inr ⟨_, _, rfl, List.prefix_refl _⟩
    | cons x xs => simp at hb
  | succ n ih =>
    intro b hb start acc r h
    cases b with
    | nil => rw [svcLoop] at h; cases h; exact Or.inr ⟨_, _, rfl, List.prefix_refl _⟩
    | cons x xs =>
      rw [svcLoop] at h
      split at h
      · cases h
      · next hl =>
        obtain ⟨v, -, h⟩ := Go.bind_eq_ok.1 h
        obtain ⟨w, -, h⟩ := Go.bind_eq_ok.1 h
        simp only [kept, if_true] at h
        split at h
        · cases h; exact Or.inl ⟨_, rfl, List.prefix_append _ _⟩
        · split at h
          · cases h; exact Or.inl ⟨_, rfl, List.prefix_append _ _⟩
          · rcases ih _ (by simp only [List.length_drop, List.length_cons] at *; omega) _ _ _ h with ⟨l, h1, h2⟩ | ⟨st, l, h1, h2⟩
            · exact Or.inl ⟨l, h1, (List.prefix_append acc _).trans h2⟩
            · exact Or.inr ⟨st, l, h1, (List.prefix_append acc _).trans h2⟩

/-- Characteristics found earlier and later. -/
def Grow (a b : List CharInfo) : Prop :=
  a.length ≤ b.length ∧ ∀ (i : Nat) x y, a[i]? = some x → b[i]? = some y → { x with endHandle := 0 } = { y with endHandle := 0 } ∧ (i + 1 < a.length ∨ a.length = b.length → x = y)

theorem Grow.refl (a : List CharInfo) : Grow a a := ⟨Nat.le_refl _, fun i x y hx hy => by rw [hx] at hy; cases hy; exact ⟨rfl, fun _ => rfl⟩⟩

theorem Grow.trans {a b c : List CharInfo} (h1 : Grow a b) (h2 : Grow b c) : Grow a c := by
  refine ⟨Nat.le_trans h1.1 h2.1, fun i x z hx hz => ?_⟩
  have hi : i < b.length := by
    have := (List.getElem?_eq_some_iff.1 hx).1
    have := h1.1
    omega
  obtain ⟨p1, p2⟩ := h1.2 i x b[i] hx (List.getElem?_eq_getElem hi)
  obtain ⟨q1, q2⟩ := h2.2 i b[i] z (List.getElem?_eq_getElem hi) hz
  refine ⟨p1.trans q1, fun hl => ?_⟩
  have := h1.1
  have := h2.1
  rw [p2 (by omega), q2 (by omega)]

theorem grow_step (acc : List CharInfo) (h : Nat) (n : CharInfo) : Grow acc (closeLast acc h ++ [n]) := by
  have hl : (closeLast acc h).length = acc.length := by simp [closeLast]
  refine ⟨by simp [hl], fun i x y hx hy => ?_⟩
  have hi := (List.getElem?_eq_some_iff.1 hx).1
  rw [List.getElem?_append_left (by omega)] at hy
  simp only [closeLast, List.getElem?_modify, hx, Option.map_eq_map, Option.map_some] at hy
  have hy := Option.some.inj hy
  subst hy
  refine ⟨by split <;> rfl, fun hc => ?_⟩
  rw [if_neg]
  simp only [List.length_append, hl, List.length_cons, List.length_nil] at hc
  omega

theorem charLoop_grows {E len : Nat} : ∀ (n : Nat) (b : Bytes), b.length ≤ n → ∀ (start : Nat) (acc : List CharInfo) (r : Nat × List CharInfo), charLoop E len b start acc = .ok r → Grow acc r.2 := by
  intro n
  induction n with
  | zero =>
    intro b hb start acc r h
    cases b with
    | nil => rw [charLoop] at h; cases h; exact Grow.refl _
    | cons x xs => simp at hb
  | succ n ih =>
    intro b hb start acc r h
    cases b with
    | nil => rw [charLoop] at h; cases h; exact Grow.refl _
    | cons x xs =>
      rw [charLoop] at h
      split at h
      · cases h
      · next hl =>
        obtain ⟨v, -, h⟩ := Go.bind_eq_ok.1 h
        obtain ⟨w, -, h⟩ := Go.bind_eq_ok.1 h
        obtain ⟨z, -, h⟩ := Go.bind_eq_ok.1 h
        exact (grow_step acc _ _).trans (ih _ (by simp only [List.length_drop, List.length_cons] at *; omega) _ _ _ h)

theorem descOuter_grows (ex : Exchange S) (endh : Nat) : ∀ (fuel : Nat) (d : Cli S) (start : Nat) (acc : List DescInfo) (d' : Cli S) (full : List DescInfo), descOuter ex endh fuel d start acc = .ok (some (d', full)) → acc <+: full := by
  intro fuel
  induction fuel with
  | zero => intro d start acc d' full h; cases h
  | succ n ih =>
    intro d start acc d' full h
    rw [descOuter] at h
    split at h
    · cases h; exact List.prefix_refl _
    · split at h
      · cases h
      · cases h; exact List.prefix_refl _
      · cases h
      · next c f b _ =>
        split at h
        · cases h
        · cases h
        · next st ac hl => exact (descLoop_grows _ b (Nat.le_refl _) _ _ _ hl).trans (ih _ _ _ _ _ h)

theorem charOuter_grows (ex : Exchange S) (E : Nat) : ∀ (fuel : Nat) (d : Cli S) (start : Nat) (acc : List CharInfo) (d' : Cli S) (full : List CharInfo), charOuter ex E fuel d start acc = .ok (some (d', full)) → Grow acc full := by
  intro fuel
  induction fuel with
  | zero => intro d start acc d' full h; cases h
  | succ n ih =>
    intro d start acc d' full h
    rw [charOuter] at h
    split at h
    · cases h; exact Grow.refl _
    · split at h
      · cases h
      · cases h; exact Grow.refl _
      · cases h
      · next c f b _ =>
        split at h
        · cases h
        · cases h
        · next st ac hl => exact (charLoop_grows _ b (Nat.le_refl _) _ _ _ hl).trans (ih _ _ _ _ _ h)

theorem svcRun_grows (ex : Exchange S) : ∀ (fuel : Nat) (d : Cli S) (start : Nat) (acc : List SvcInfo), acc <+: (svcRun ex fuel d start acc).1 := by
  intro fuel
  induction fuel with
  | zero => intro d start acc; exact List.prefix_refl _
  | succ n ih =>
    intro d start acc
    rw [svcRun]
    split
    · exact List.prefix_refl _
    · exact List.prefix_refl _
    · exact List.prefix_refl _
    · next c f b _ =>
      split
      · exact List.prefix_refl _
      · exact List.prefix_refl _
      · next l hl =>
        rcases svcLoop_grows _ b (Nat.le_refl _) _ _ _ hl with ⟨l', h1, h2⟩ | ⟨st, l', h1, h2⟩
        · cases h1; exact h2
        · cases h1
      · next st l hl =>
        rcases svcLoop_grows _ b (Nat.le_refl _) _ _ _ hl with ⟨l', h1, h2⟩ | ⟨st, l', h1, h2⟩
        · cases h1
        · cases h1; exact h2.trans (ih _ _ _)

/-! ## The loops with failures -/

theorem descs_cut (he : Faulty R e ex' ex) (hne : e ≠ .att 0x0A) (endh : Nat) :
    ∀ (fuel : Nat) (c : Cli T) (d : Cli S) (start : Nat) (acc : List DescInfo) (d' : Cli S) (full : List DescInfo), CliSim R c d → descOuter ex endh fuel d start acc = .ok (some (d', full)) →
      (∃ c', CliSim R c' d' ∧ descOuter ex' endh fuel c start acc = .ok (some (c', full))) ∨ (descOuter ex' endh fuel c start acc = .err e ∧ descFound ex' endh fuel c start acc <+: full) := by
  intro fuel
  induction fuel with
  | zero => intro c d start acc d' full _ h; cases h
  | succ n ih =>
    intro c d start acc d' full hc h
    have hg := descOuter_grows ex endh _ _ _ _ _ _ h
    rw [descOuter] at h
    rw [descOuter, descFound]
    split
    · next hs =>
      rw [if_pos hs] at h
      cases h
      exact Or.inl ⟨c, hc, rfl⟩
    · next hs =>
      rw [if_neg hs] at h
      have hr := findInformation_cut he hc start endh
      revert hr h
      generalize findInformation ex' c start endh = x
      generalize findInformation ex d start endh = y
      intro h hr
      rcases hr with rfl | hr
      · right
        refine ⟨?_, hg⟩
        split
        · contradiction
        · rename_i heq; cases heq; exact absurd rfl hne
        · rename_i heq; cases heq; rfl
        · contradiction
      · cases hr with
        | panic => cases h
        | err e' =>
          by_cases h0 : e' = .att 0x0A
          · subst h0
            cases h
            exact Or.inl ⟨c, hc, rfl⟩
          · exfalso
            split at h
            · contradiction
            · rename_i heq; cases heq; exact h0 rfl
            · cases h
            · contradiction
        | ok hq =>
          rename_i a b
          obtain ⟨c1, l, bb⟩ := a
          obtain ⟨d1, l', bb'⟩ := b
          obtain ⟨h1, h2⟩ := hq
          cases h2
          simp only at h ⊢
          split at h
          · cases h
          · cases h
          · next st ac hl =>
            rw [hl]
            exact ih c1 d1 st ac d' full h1 h

theorem chars_cut (he : Faulty R e ex' ex) (hne : e ≠ .att 0x0A) (E : Nat) :
    ∀ (fuel : Nat) (c : Cli T) (d : Cli S) (start : Nat) (acc : List CharInfo) (d' : Cli S) (full : List CharInfo), CliSim R c d → charOuter ex E fuel d start acc = .ok (some (d', full)) →
      (∃ c', CliSim R c' d' ∧ charOuter ex' E fuel c start acc = .ok (some (c', full))) ∨ (charOuter ex' E fuel c start acc = .err e ∧ Grow (charFound ex' E fuel c start acc) full) := by
  intro fuel
  induction fuel with
  | zero => intro c d start acc d' full _ h; cases h
  | succ n ih =>
    intro c d start acc d' full hc h
    have hg := charOuter_grows ex E _ _ _ _ _ _ h
    rw [charOuter] at h
    rw [charOuter, charFound]
    split
    · next hs =>
      rw [if_pos hs] at h
      cases h
      exact Or.inl ⟨c, hc, rfl⟩
    · next hs =>
      rw [if_neg hs] at h
      have hr := readList_cut he hc 0x08 start E (put16 0x2803)
      simp only [readByType] at h ⊢
      revert hr h
      generalize readList 0x08 ex' c start E (put16 0x2803) = x
      generalize readList 0x08 ex d start E (put16 0x2803) = y
      intro h hr
      rcases hr with rfl | hr
      · right
        refine ⟨?_, hg⟩
        split
        · contradiction
        · rename_i heq; cases heq; exact absurd rfl hne
        · rename_i heq; cases heq; rfl
        · contradiction
      · cases hr with
        | panic => cases h
        | err e' =>
          by_cases h0 : e' = .att 0x0A
          · subst h0
            cases h
            exact Or.inl ⟨c, hc, rfl⟩
          · exfalso
            split at h
            · contradiction
            · rename_i heq; cases heq; exact h0 rfl
            · cases h
            · contradiction
        | ok hq =>
          rename_i a b
          obtain ⟨c1, l, bb⟩ := a
          obtain ⟨d1, l', bb'⟩ := b
          obtain ⟨h1, h2⟩ := hq
          cases h2
          simp only at h ⊢
          split at h
          · cases h
          · cases h
          · next st ac hl =>
            rw [hl]
            exact ih c1 d1 st ac d' full h1 h

theorem svcs_cut (he : Faulty R e ex' ex) (hne : e ≠ .att 0x0A) :
    ∀ (fuel : Nat) (c : Cli T) (d : Cli S) (start : Nat) (acc : List SvcInfo) (d' : Cli S) (full : List SvcInfo), CliSim R c d → svcRun ex fuel d start acc = (full, .ok (some d')) →
      (∃ c', CliSim R c' d' ∧ svcRun ex' fuel c start acc = (full, .ok (some c'))) ∨ (∃ l, svcRun ex' fuel c start acc = (l, .err e) ∧ l <+: full) := by
  intro fuel
  induction fuel with
  | zero => intro c d start acc d' full _ h; cases h
  | succ n ih =>
    intro c d start acc d' full hc h
    have hg := svcRun_grows ex (n + 1) d start acc
    rw [h] at hg
    rw [svcRun] at h
    rw [svcRun]
    have hr := readList_cut he hc 0x10 start 0xFFFF (put16 0x2800)
    simp only [readByGroupType] at h ⊢
    revert hr h
    generalize readList 0x10 ex' c start 0xFFFF (put16 0x2800) = x
    generalize readList 0x10 ex d start 0xFFFF (put16 0x2800) = y
    intro h hr
    rcases hr with rfl | hr
    · right
      refine ⟨acc, ?_, hg⟩
      split
      · contradiction
      · rename_i heq; cases heq; exact absurd rfl hne
      · rename_i heq; cases heq; rfl
      · contradiction
    · cases hr with
      | panic => cases h
      | err e' =>
        by_cases h0 : e' = .att 0x0A
        · subst h0
          cases h
          exact Or.inl ⟨c, hc, rfl⟩
        · exfalso
          split at h
          · contradiction
          · rename_i heq; cases heq; exact h0 rfl
          · cases h
          · contradiction
      | ok hq =>
        rename_i a b
        obtain ⟨c1, l, bb⟩ := a
        obtain ⟨d1, l', bb'⟩ := b
        obtain ⟨h1, h2⟩ := hq
        cases h2
        simp only at h ⊢
        split at h
        · cases h
        · cases h
        · next ac hl =>
          cases h
          exact Or.inl ⟨c1, h1, rfl⟩
        · next st ac hl =>
          exact ih c1 d1 st ac d' full h1 h

theorem kept_all_descs (l : List DescInfo) : (l.filter fun x => kept none x.uuid) = l := by simp [kept]
theorem kept_all_chars (l : List CharInfo) : (l.filter fun x => kept none x.uuid) = l := by simp [kept]

theorem profDescs_infos (ex : Exchange S) (fuel : Nat) (c : Cli S) (l : List CharProf) : (profDescs ex fuel c l).1.map CharProf.info = l.map CharProf.info := by
  induction l generalizing c with
  | nil => rfl
  | cons ch chs ih =>
    simp only [profDescs]
    split
    · simp only [List.map_cons, ih]; rfl
    · rfl
    · rfl
    · rfl

/-- A characteristic whose descriptors have not been discovered. -/
def Fresh (ch : CharProf) : Prop := ch.descs = [] ∧ ch.cccd = none

theorem part_fresh {x y : CharProf} (hf : Fresh x) (hi : x.info = y.info) : PartChar x y :=
  ⟨by rw [hi], by rw [hf.1]; exact List.nil_prefix, fun d h => by rw [hf.2] at h; cases h⟩

theorem profDescs_cut (he : Faulty R e ex' ex) (hne : e ≠ .att 0x0A) (fuel : Nat) :
    ∀ (chs : List CharProf) (c : Cli T) (d d' : Cli S) (full : List CharProf), (∀ ch ∈ chs, Fresh ch) → CliSim R c d → profDescs ex fuel d chs = (full, .ok (some d')) →
      (∃ c', CliSim R c' d' ∧ profDescs ex' fuel c chs = (full, .ok (some c'))) ∨
      (∃ l, profDescs ex' fuel c chs = (l, .err e) ∧ l.map CharProf.info = full.map CharProf.info ∧ ∀ (i : Nat) x y, l[i]? = some x → full[i]? = some y → PartChar x y) := by
  intro chs
  induction chs with
  | nil => intro c d d' full _ hc h; cases h; exact Or.inl ⟨c, hc, rfl⟩
  | cons ch chs ih =>
    intro c d d' full hf hc h
    have hinf := profDescs_infos ex fuel d (ch :: chs)
    rw [h] at hinf
    have hfr := hf ch (List.mem_cons_self ..)
    simp only [profDescs] at h
    simp only [profDescs]
    split at h
    · next d1 ds cccd hd =>
      have hd0 := hd
      unfold discoverDescriptors at hd
      obtain ⟨o, ho, hd⟩ := Go.bind_eq_ok.1 hd
      cases o with
      | none => cases hd
      | some o =>
        obtain ⟨d2, fds⟩ := o
        cases hd
        rcases descs_cut he hne ch.info.endHandle fuel c d _ _ _ _ hc ho with ⟨c1, hc1, h1⟩ | ⟨h1, h2⟩
        · have hd' : discoverDescriptors ex' none fuel c ch.info = .ok (some (c1, fds.filter (fun x => kept none x.uuid), (fds.filter fun x => x.uuid == put16 0x2902).getLast?)) := by
            unfold discoverDescriptors
            rw [h1]
            rfl
          rw [hd']
          have h := Prod.mk.inj h
          have hrec : profDescs ex fuel d1 chs = ((profDescs ex fuel d1 chs).1, .ok (some d')) := Prod.ext rfl h.2
          rcases ih c1 d1 d' _ (fun x hx => hf x (List.mem_cons_of_mem _ hx)) hc1 hrec with ⟨c', hc', h3⟩ | ⟨l, h3, h4, h5⟩
          · left
            refine ⟨c', hc', ?_⟩
            simp only [h3]
            rw [← h.1]
          · right
            refine ⟨ch.add (fds.filter (fun x => kept none x.uuid)) ((fds.filter fun x => x.uuid == put16 0x2902).getLast?) :: l, ?_, ?_, ?_⟩
            · simp only [h3]
            · rw [← h.1]; simp only [List.map_cons, h4]
            · intro i x y hx hy
              rw [← h.1] at hy
              cases i with
              | zero =>
                cases hx
                cases hy
                refine ⟨rfl, List.prefix_refl _, fun d hd => ?_⟩
                simp only [CharProf.add, hfr.1, hfr.2, kept_all_descs, List.nil_append] at hd ⊢
                have : (fds.filter fun x => x.uuid == put16 0x2902).getLast? = some d := by simpa using hd
                exact (List.mem_filter.1 (List.mem_of_getLast? this)).1
              | succ i => exact h5 i x y (by simpa using hx) (by simpa using hy)
        · right
          have hd' : discoverDescriptors ex' none fuel c ch.info = .err e := by
            unfold discoverDescriptors
            rw [h1]
            rfl
          rw [hd']
          have h := Prod.mk.inj h
          have hb : (ch.broken ex' fuel c).info = ch.info := rfl
          refine ⟨_, rfl, ?_, ?_⟩
          · rw [hinf]; simp only [List.map_cons, hb]
          · intro i x y hx hy
            cases i with
            | zero =>
              cases hx
              rw [← h.1] at hy
              cases hy
              refine ⟨rfl, ?_, fun d hd => ?_⟩
              · simp only [CharProf.broken, CharProf.add, hfr.1, List.nil_append, kept_all_descs]
                exact h2
              · simp only [CharProf.broken, CharProf.add, hfr.1, hfr.2, kept_all_descs, List.nil_append] at hd ⊢
                have hd : ((descFound ex' ch.info.endHandle fuel c (add16 ch.info.valueHandle 1) []).filter fun x => x.uuid == put16 0x2902).getLast? = some d := by simpa using hd
                exact h2.subset (List.mem_filter.1 (List.mem_of_getLast? hd)).1
            | succ i =>
              have hx : chs[i]? = some x := by simpa using hx
              refine part_fresh (hf x (List.mem_cons_of_mem _ (List.mem_of_getElem? hx))) ?_
              have h6 := congrArg (fun l => l[i + 1]?) hinf
              simp only [List.getElem?_map, hy, List.map_cons, List.getElem?_cons_succ, hx, Option.map_some] at h6
              exact (Option.some.inj h6).symm
    · cases h
    · cases h
    · cases h

/-- In a complete discovery the CCCD is one of the descriptors. -/
theorem cccd_full (ex : Exchange S) (fuel : Nat) : ∀ (chs : List CharProf) (d d' : Cli S) (full : List CharProf), (∀ ch ∈ chs, Fresh ch) → profDescs ex fuel d chs = (full, .ok (some d')) →
    ∀ (i : Nat) x, full[i]? = some x → ∀ q, x.cccd = some q → q ∈ x.descs := by
  intro chs
  induction chs with
  | nil => intro d d' full _ h i x hx; cases h; simp at hx
  | cons ch chs ih =>
    intro d d' full hf h i x hx q hq
    have hfr := hf ch (List.mem_cons_self ..)
    simp only [profDescs] at h
    split at h
    · next d1 ds cccd hd =>
      unfold discoverDescriptors at hd
      obtain ⟨o, ho, hd⟩ := Go.bind_eq_ok.1 hd
      cases o with
      | none => cases hd
      | some o =>
        obtain ⟨d2, fds⟩ := o
        cases hd
        have h := Prod.mk.inj h
        rw [← h.1] at hx
        cases i with
        | zero =>
          cases hx
          simp only [CharProf.add, hfr.1, hfr.2, kept_all_descs, List.nil_append] at hq ⊢
          have : (fds.filter fun x => x.uuid == put16 0x2902).getLast? = some q := by simpa using hq
          exact (List.mem_filter.1 (List.mem_of_getLast? this)).1
        | succ i => exact ih d1 d' _ (fun x hx => hf x (List.mem_cons_of_mem _ hx)) (Prod.ext rfl h.2) i x (by simpa using hx) q hq
    · cases h
    · cases h
    · cases h

theorem get_info {l m : List CharProf} (h : l.map CharProf.info = m.map CharProf.info) {i : Nat} {x y : CharProf} (hx : l[i]? = some x) (hy : m[i]? = some y) : x.info = y.info := by
  have := congrArg (fun l => l[i]?) h
  simp only [List.getElem?_map, hx, hy, Option.map_some] at this
  exact Option.some.inj this

theorem profSvcs_cut (he : Faulty R e ex' ex) (hne : e ≠ .att 0x0A) (fuel : Nat) :
    ∀ (ss : List SvcProf) (c : Cli T) (d d' : Cli S) (full : List SvcProf), (∀ s ∈ ss, s.chars = []) → CliSim R c d → profSvcs ex fuel d ss = (full, .ok (some d')) →
      (∃ c', CliSim R c' d' ∧ profSvcs ex' fuel c ss = (full, .ok (some c'))) ∨ (∃ l, profSvcs ex' fuel c ss = (l, .err e) ∧ Part l full) := by
  have fresh : ∀ (s y : SvcProf), s.chars = [] → s.info = y.info → PartSvc s y := by
    intro s y h hi
    refine ⟨hi, by rw [h]; simp, ?_, ?_⟩
    · intro i a b ha; rw [h] at ha; simp at ha
    · intro i a b ha; rw [h] at ha; simp at ha
  intro ss
  induction ss with
  | nil => intro c d d' full _ hc h; cases h; exact Or.inl ⟨c, hc, rfl⟩
  | cons s ss ih =>
    intro c d d' full hf hc h
    have hinf := Ble.Props.profSvcs_infos ex fuel d (s :: ss)
    rw [h] at hinf
    simp only at hinf
    have hs := hf s (List.mem_cons_self ..)
    -- the part of the profile after the service where the failure is
    have tail : ∀ (i : Nat) x y, ss[i]? = some x → full[i + 1]? = some y → PartSvc x y := by
      intro i x y hx hy
      refine fresh x y (hf x (List.mem_cons_of_mem _ (List.mem_of_getElem? hx))) ?_
      have h6 := congrArg (fun l => l[i + 1]?) hinf
      simp only [List.getElem?_map, hy, List.map_cons, List.getElem?_cons_succ, hx, Option.map_some] at h6
      exact (Option.some.inj h6).symm
    have hlen : full.length = ss.length + 1 := by
      have := congrArg List.length hinf
      simpa using this
    simp only [profSvcs, hs, List.nil_append] at h
    simp only [profSvcs, hs, List.nil_append]
    split at h
    · next d1 l hd =>
      unfold discoverCharacteristics at hd
      obtain ⟨o, ho, hd⟩ := Go.bind_eq_ok.1 hd
      cases o with
      | none => cases hd
      | some o =>
        obtain ⟨d2, fl⟩ := o
        cases hd
        simp only [kept_all_chars] at h
        have hfresh : ∀ ch ∈ fl.map (fun i => ({ info := i } : CharProf)), Fresh ch := by
          intro ch hch
          obtain ⟨i, -, rfl⟩ := List.mem_map.1 hch
          exact ⟨rfl, rfl⟩
        split at h
        · next d3 hd3 =>
          have hpd : profDescs ex fuel d1 (fl.map fun i => { info := i }) = ((profDescs ex fuel d1 (fl.map fun i => { info := i })).1, .ok (some d3)) := Prod.ext rfl hd3
          have h := Prod.mk.inj h
          have hpi := profDescs_infos ex fuel d1 (fl.map fun i => { info := i })
          have hid : (fl.map fun i => ({ info := i } : CharProf)).map CharProf.info = fl := by
            rw [List.map_map]
            exact List.map_id' fl
          rw [hid] at hpi
          rcases chars_cut he hne s.info.endHandle fuel c d _ _ _ _ hc ho with ⟨c1, hc1, h1⟩ | ⟨h1, h2⟩
          · have hd' : discoverCharacteristics ex' none fuel c s.info = .ok (some (c1, fl)) := by
              unfold discoverCharacteristics
              rw [h1]
              simp only [Go.bind_ok, Option.map_some, kept_all_chars]
              rfl
            rw [hd']
            simp only
            rcases profDescs_cut he hne fuel _ c1 d1 d3 _ hfresh hc1 hpd with ⟨c2, hc2, h3⟩ | ⟨l2, h3, h4, h5⟩
            · rw [h3]
              simp only
              have hrec : profSvcs ex fuel d3 ss = ((profSvcs ex fuel d3 ss).1, .ok (some d')) := Prod.ext rfl h.2
              rcases ih c2 d3 d' _ (fun x hx => hf x (List.mem_cons_of_mem _ hx)) hc2 hrec with ⟨c', hc', h6⟩ | ⟨l3, h6, h7⟩
              · left
                refine ⟨c', hc', ?_⟩
                simp only [h6]
                rw [← h.1]
              · right
                refine ⟨_, by simp only [h6]; rfl, ?_, ?_⟩
                · rw [← h.1]
                  simp only [List.length_cons]
                  have := h7.len
                  omega
                · intro i a b ha hb
                  rw [← h.1] at hb
                  cases i with
                  | zero =>
                    cases ha
                    cases hb
                    refine ⟨rfl, Nat.le_refl _, ?_, ?_⟩
                    · intro j x y hx hy
                      rw [hx] at hy
                      cases hy
                      -- the same characteristic
                      refine ⟨rfl, List.prefix_refl _, ?_⟩
                      exact cccd_full ex fuel _ d1 d3 _ hfresh hpd j x hx
                    · intro j x y hx hy _
                      rw [hx] at hy
                      cases hy
                      rfl
                  | succ i => exact h7.svcs i a b (by simpa using ha) (by simpa using hb)
            · rw [h3]
              right
              refine ⟨_, rfl, by simp [hlen], ?_⟩
              intro i a b ha hb
              cases i with
              | zero =>
                cases ha
                rw [← h.1] at hb
                cases hb
                have hl2 : l2.length = (profDescs ex fuel d1 (fl.map fun i => { info := i })).1.length := by
                  have := congrArg List.length h4
                  simpa using this
                exact ⟨rfl, Nat.le_of_eq hl2, h5, fun j x y hx hy _ => get_info h4 hx hy⟩
              | succ i => exact tail i a b (by simpa using ha) hb
          · have hd' : discoverCharacteristics ex' none fuel c s.info = .err e := by
              unfold discoverCharacteristics
              rw [h1]
              rfl
            rw [hd']
            right
            refine ⟨_, rfl, by simp [hlen], ?_⟩
            intro i a b ha hb
            cases i with
            | zero =>
              cases ha
              rw [← h.1] at hb
              cases hb
              have hbl : (profDescs ex fuel d1 (fl.map fun i => { info := i })).1.length = fl.length := by
                have := congrArg List.length hpi
                simpa using this
              have key : ∀ (j : Nat) x y, (s.broken ex' fuel c).chars[j]? = some x → (profDescs ex fuel d1 (fl.map fun i => { info := i })).1[j]? = some y →
                  Fresh x ∧ ∃ u v, (charFound ex' s.info.endHandle fuel c s.info.handle [])[j]? = some u ∧ fl[j]? = some v ∧ x.info = u ∧ y.info = v := by
                intro j x y hx hy
                simp only [SvcProf.broken, hs, List.nil_append, List.getElem?_map, Option.map_eq_some_iff] at hx
                obtain ⟨u, hu, rfl⟩ := hx
                refine ⟨⟨rfl, rfl⟩, u, y.info, hu, ?_, rfl, rfl⟩
                rw [← hpi, List.getElem?_map, hy]
                rfl
              refine ⟨rfl, ?_, ?_, ?_⟩
              · simp only [SvcProf.broken, hs, List.nil_append, List.length_map, hbl]
                exact h2.1
              · intro j x y hx hy
                obtain ⟨hfx, u, v, hu, hv, rfl, rfl⟩ := key j x y hx hy
                exact ⟨(h2.2 j _ _ hu hv).1, by rw [hfx.1]; exact List.nil_prefix, fun d hd => by rw [hfx.2] at hd; cases hd⟩
              · intro j x y hx hy hc
                obtain ⟨hfx, u, v, hu, hv, rfl, rfl⟩ := key j x y hx hy
                refine (h2.2 j _ _ hu hv).2 ?_
                simpa only [SvcProf.broken, hs, List.nil_append, List.length_map, hbl] using hc
            | succ i => exact tail i a b (by simpa using ha) hb
        · rename_i hno
          exact absurd (Prod.mk.inj h).2 (fun h7 => hno _ h7)
    · cases h
    · cases h
    · cases h

/-! ## Theorems -/

/-- **C207** Take any peer with which a first `DiscoverProfile` succeeds, and let any request fail, at any point. Then the call either succeeds with the same profile, or it returns the failure and leaves a part of that profile: the first
services, with their first characteristics, with their first descriptors, nothing else. -/
theorem failed_discovery (he : Faulty R e ex' ex) (hne : e ≠ .att 0x0A) (fuel : Nat) (force : Bool) (hc : CliSim R c d) (full : List SvcProf) (d' : Cli S)
    (h : discoverProfile ex fuel force d none = (some full, .ok (some d'))) :
    (∃ c', CliSim R c' d' ∧ discoverProfile ex' fuel force c none = (some full, .ok (some c'))) ∨ (∃ p, discoverProfile ex' fuel force c none = (some p, .err e) ∧ Part p full) := by
  unfold discoverProfile at h ⊢
  simp only [Option.isSome_none, Bool.false_and, Bool.false_eq_true, if_false, Option.getD_none, List.map_nil, List.nil_append, List.length_nil, List.drop_zero] at h ⊢
  split at h
  · next d1 h1 =>
    have hr : svcRun ex fuel d 1 [] = ((svcRun ex fuel d 1 []).1, .ok (some d1)) := Prod.ext rfl h1
    have h := Prod.mk.inj h
    have hf := Option.some.inj h.1
    have hq : profSvcs ex fuel d1 ((svcRun ex fuel d 1 []).1.map fun i => { info := i }) = (full, .ok (some d')) := Prod.ext hf h.2
    have hfresh : ∀ s ∈ (svcRun ex fuel d 1 []).1.map (fun i => ({ info := i } : SvcProf)), s.chars = [] := by
      intro s hs
      obtain ⟨i, -, rfl⟩ := List.mem_map.1 hs
      rfl
    rcases svcs_cut he hne fuel c d 1 [] d1 _ hc hr with ⟨c1, hc1, h2⟩ | ⟨l, h2, h3⟩
    · rw [h2]
      simp only
      rcases profSvcs_cut he hne fuel _ c1 d1 d' full hfresh hc1 hq with ⟨c', hc', h4⟩ | ⟨p, h4, h5⟩
      · exact Or.inl ⟨c', hc', by rw [h4]⟩
      · exact Or.inr ⟨p, by rw [h4], h5⟩
    · rw [h2]
      right
      have hinf := Ble.Props.profSvcs_infos ex fuel d1 ((svcRun ex fuel d 1 []).1.map fun i => { info := i })
      rw [hq] at hinf
      have hid : ((svcRun ex fuel d 1 []).1.map fun i => ({ info := i } : SvcProf)).map SvcProf.info = (svcRun ex fuel d 1 []).1 := by
        rw [List.map_map]
        exact List.map_id' _
      rw [hid] at hinf
      simp only at hinf
      refine ⟨_, rfl, ?_, ?_⟩
      · have h6 := h3.length_le
        rw [← hinf] at h6
        simpa using h6
      · intro i a b ha hb
        simp only [List.getElem?_map, Option.map_eq_some_iff] at ha
        obtain ⟨u, hu, rfl⟩ := ha
        have h6 : (svcRun ex fuel d 1 []).1[i]? = some u := by
          obtain ⟨t, ht⟩ := h3
          rw [← ht, List.getElem?_append_left (List.getElem?_eq_some_iff.1 hu).1]
          exact hu
        rw [← hinf, List.getElem?_map, hb] at h6
        refine ⟨(Option.some.inj h6).symm, by simp, ?_, ?_⟩
        · intro j x y hx; simp at hx
        · intro j x y hx; simp at hx
  · rename_i hno
    exact absurd (Prod.mk.inj h).2 (fun h7 => hno _ h7)

/-- **C207** This library's server, asked by this library's client, with any requests failing: the profile left by a failed `DiscoverProfile`, which the next call without `force` returns as a success, is a part of the server's profile.
Missing: the end of the range of the last characteristic listed for a service may be wrong (`end_handle_wrong`), and the incomplete profile is not marked as such. -/
theorem profile_part_partial {α : Type} (ss : List (Svc α)) (hp : Ble.Spec.Proper ss) (hf : 1 + Ble.Spec.dbSize ss ≤ 65535) (srv : Server (CState α)) (hdb : srv.db = newDB ss 1)
    (hm : 23 ≤ srv.mtu) (R : T → Server (CState α) → Prop) (e : CErr) (hne : e ≠ .att 0x0A) (ex' : Exchange T) (he : Faulty R e ex' serverPeer) (c : Cli T) (hR : R c.peer srv) (hb : 7 ≤ c.buf.length) (force : Bool) :
    (∃ c', discoverProfile ex' (Ble.Props.enough ss) force c none = (some (Ble.Spec.svcProfs ss 1), .ok (some c'))) ∨
    (∃ p, discoverProfile ex' (Ble.Props.enough ss) force c none = (some p, .err e) ∧ Part p (Ble.Spec.svcProfs ss 1) ∧
      ∀ (ex'' : Exchange T) fuel c'', discoverProfile ex'' fuel false c'' (some p) = (some p, .ok (some c''))) := by
  obtain ⟨d', -, h⟩ := Ble.Props.discover_profile ss hp hf srv hdb hm ⟨srv, c.buf, c.txMTU, c.rxMTU⟩ rfl hb force
  rcases failed_discovery (c := c) he hne _ force ⟨hR, rfl, rfl, rfl⟩ _ _ h with ⟨c', -, h1⟩ | ⟨p, h1, h2⟩
  · exact Or.inl ⟨c', h1⟩
  · exact Or.inr ⟨p, h1, h2, fun ex'' fuel c'' => rfl⟩

/-- A peer that answers `k` requests as `ex` does, and then no more. -/
def cut {S : Type} (ex : Exchange S) : Exchange (S × Nat) := fun t req =>
  match t.2 with
  | 0 => .err .transport
  | k + 1 => match ex t.1 req with
    | .ok (s, r) => .ok ((s, k), r)
    | .err e => .err e
    | .panic => .panic

/-- The hypothesis of the theorems is met. -/
theorem cut_faulty {S : Type} (ex : Exchange S) : Faulty (fun (t : S × Nat) s => t.1 = s) .transport (cut ex) ex := by
  intro t s req h
  obtain ⟨t1, k⟩ := t
  cases h
  cases k with
  | zero => exact Or.inl rfl
  | succ k =>
    right
    simp only [cut]
    cases h : ex t1 req with
    | ok r => exact .ok ⟨rfl, rfl⟩
    | err e => exact .err e
    | panic => exact .panic

/-- A peer with one service of two characteristics, whose UUIDs have different sizes and so come in two responses. -/
def twoChars : Exchange Nat := fun n _ =>
  if n = 0 then .ok (1, [0x11, 6, 1, 0, 0xFF, 0xFF, 0x0D, 0x18])
  else if n = 1 then .ok (2, [0x09, 7, 2, 0, 0x10, 3, 0, 0x37, 0x2A])
  else if n = 2 then .ok (3, 0x09 :: 21 :: 4 :: 0 :: 2 :: 5 :: 0 :: List.replicate 16 7)
  else .ok (n + 1, [0x01, 0x08, 6, 0, 0x0A])

/-! The loops on the three responses of `twoChars`. -/

theorem twoChars_svcs : svcLoop none 6 [1, 0, 0xFF, 0xFF, 0x0D, 0x18] 1 [] = .ok (.ret [⟨put16 0x180D, 1, 0xFFFF⟩]) := by
  simp [svcLoop, le16At, index, kept, put16, le16]; try rfl
theorem twoChars_first : charLoop 0xFFFF 7 [2, 0, 0x10, 3, 0, 0x37, 0x2A] 1 [] = .ok (4, [⟨put16 0x2A37, 0x10, 2, 3, 0xFFFF⟩]) := by
  simp [charLoop, le16At, index, put16, le16, closeLast, add16]; try rfl
theorem twoChars_second : charLoop 0xFFFF 21 (4 :: 0 :: 2 :: 5 :: 0 :: List.replicate 16 7) 4 [⟨put16 0x2A37, 0x10, 2, 3, 0xFFFF⟩] = .ok (6, [⟨put16 0x2A37, 0x10, 2, 3, 3⟩, ⟨List.replicate 16 7, 2, 4, 5, 0xFFFF⟩]) := by
  rw [charLoop]
  simp [charLoop, le16At, index, put16, le16, closeLast, add16, List.replicate]; try rfl

/-- The transmit buffer after a Read By (Group) Type Request. -/
def reqBuf (op : UInt8) (a b u : Nat) : Bytes := op :: (put16 a ++ (put16 b ++ put16 u)) ++ List.replicate 16 0

/-- **C207, what is false** With `twoChars` a discovery cut off after two responses leaves the first characteristic with the range up to 0xFFFF, where the complete discovery gives 3: a later `DiscoverDescriptors` or
`Subscribe` on it, from the profile returned by the next call as a success, works on a range that takes in the second characteristic. -/
theorem end_handle_wrong :
    discoverProfile (cut twoChars) 5 false (Cli.new (0, 2) 23 23) none =
      (some [{ info := ⟨put16 0x180D, 1, 0xFFFF⟩, chars := [{ info := ⟨put16 0x2A37, 0x10, 2, 3, 0xFFFF⟩ }] }], .err .transport) ∧
    (discoverProfile twoChars 5 false (Cli.new 0 23 23) none).1 =
      some [{ info := ⟨put16 0x180D, 1, 0xFFFF⟩, chars := [{ info := ⟨put16 0x2A37, 0x10, 2, 3, 3⟩ }, { info := ⟨List.replicate 16 7, 2, 4, 5, 0xFFFF⟩ }] }] := by
  constructor
  · have h1 : readByGroupType (cut twoChars) (Cli.new (0, 2) 23 23) 1 0xFFFF (put16 0x2800) =
        .ok (⟨(1, 1), reqBuf 0x10 1 0xFFFF 0x2800, 23, 23⟩, 6, [1, 0, 0xFF, 0xFF, 0x0D, 0x18]) := rfl
    have h2 : svcRun (cut twoChars) 5 (Cli.new (0, 2) 23 23) 1 [] = ([⟨put16 0x180D, 1, 0xFFFF⟩], .ok (some ⟨(1, 1), reqBuf 0x10 1 0xFFFF 0x2800, 23, 23⟩)) := by
      rw [svcRun, h1]; simp only [twoChars_svcs]
    have h3 : readByType (cut twoChars) ⟨(1, 1), reqBuf 0x10 1 0xFFFF 0x2800, 23, 23⟩ 1 0xFFFF (put16 0x2803) =
        .ok (⟨(2, 0), reqBuf 0x08 1 0xFFFF 0x2803, 23, 23⟩, 7, [2, 0, 0x10, 3, 0, 0x37, 0x2A]) := rfl
    have h4 : readByType (cut twoChars) ⟨(2, 0), reqBuf 0x08 1 0xFFFF 0x2803, 23, 23⟩ 4 0xFFFF (put16 0x2803) = .err .transport := rfl
    have h5 : charOuter (cut twoChars) 0xFFFF 5 ⟨(1, 1), reqBuf 0x10 1 0xFFFF 0x2800, 23, 23⟩ 1 [] = .err .transport := by
      rw [charOuter, h3]; simp only [twoChars_first]; rw [charOuter, h4]; rfl
    have h6 : charFound (cut twoChars) 0xFFFF 5 ⟨(1, 1), reqBuf 0x10 1 0xFFFF 0x2800, 23, 23⟩ 1 [] = [⟨put16 0x2A37, 0x10, 2, 3, 0xFFFF⟩] := by
      rw [charFound, h3]; simp only [twoChars_first]; rw [charFound, h4]; rfl
    have h7 : discoverCharacteristics (cut twoChars) none 5 ⟨(1, 1), reqBuf 0x10 1 0xFFFF 0x2800, 23, 23⟩ ⟨put16 0x180D, 1, 0xFFFF⟩ = .err .transport := by
      unfold discoverCharacteristics; simp only [h5]; rfl
    simp only [discoverProfile, Option.isSome_none, Bool.false_and, Option.getD_none, List.map_nil, h2, List.length_nil, List.drop_zero, List.nil_append, List.map_cons]
    rw [if_neg (by simp)]
    simp only [profSvcs, h7, SvcProf.broken, h6]
    rfl
  · have h1 : readByGroupType twoChars (Cli.new 0 23 23) 1 0xFFFF (put16 0x2800) =
        .ok (⟨1, reqBuf 0x10 1 0xFFFF 0x2800, 23, 23⟩, 6, [1, 0, 0xFF, 0xFF, 0x0D, 0x18]) := rfl
    have h2 : svcRun twoChars 5 (Cli.new 0 23 23) 1 [] = ([⟨put16 0x180D, 1, 0xFFFF⟩], .ok (some ⟨1, reqBuf 0x10 1 0xFFFF 0x2800, 23, 23⟩)) := by
      rw [svcRun, h1]; simp only [twoChars_svcs]
    have h3 : readByType twoChars ⟨1, reqBuf 0x10 1 0xFFFF 0x2800, 23, 23⟩ 1 0xFFFF (put16 0x2803) =
        .ok (⟨2, reqBuf 0x08 1 0xFFFF 0x2803, 23, 23⟩, 7, [2, 0, 0x10, 3, 0, 0x37, 0x2A]) := rfl
    have h4 : readByType twoChars ⟨2, reqBuf 0x08 1 0xFFFF 0x2803, 23, 23⟩ 4 0xFFFF (put16 0x2803) =
        .ok (⟨3, reqBuf 0x08 4 0xFFFF 0x2803, 23, 23⟩, 21, 4 :: 0 :: 2 :: 5 :: 0 :: List.replicate 16 7) := rfl
    have h5 : readByType twoChars ⟨3, reqBuf 0x08 4 0xFFFF 0x2803, 23, 23⟩ 6 0xFFFF (put16 0x2803) = .err (.att 0x0A) := rfl
    have h6 : charOuter twoChars 0xFFFF 5 ⟨1, reqBuf 0x10 1 0xFFFF 0x2800, 23, 23⟩ 1 [] =
        .ok (some (⟨3, reqBuf 0x08 4 0xFFFF 0x2803, 23, 23⟩, [⟨put16 0x2A37, 0x10, 2, 3, 3⟩, ⟨List.replicate 16 7, 2, 4, 5, 0xFFFF⟩])) := by
      rw [charOuter, h3]; simp only [twoChars_first]; rw [charOuter, h4]; simp only [twoChars_second]; rw [charOuter, h5]; rfl
    have h7 : discoverCharacteristics twoChars none 5 ⟨1, reqBuf 0x10 1 0xFFFF 0x2800, 23, 23⟩ ⟨put16 0x180D, 1, 0xFFFF⟩ =
        .ok (some (⟨3, reqBuf 0x08 4 0xFFFF 0x2803, 23, 23⟩, [⟨put16 0x2A37, 0x10, 2, 3, 3⟩, ⟨List.replicate 16 7, 2, 4, 5, 0xFFFF⟩])) := by
      unfold discoverCharacteristics; simp only [h6]; rfl
    simp only [discoverProfile, Option.isSome_none, Bool.false_and, Option.getD_none, List.map_nil, h2, List.length_nil, List.drop_zero, List.nil_append, List.map_cons]
    rw [if_neg (by simp)]
    simp only [profSvcs, h7]
    rfl
/-- The hypotheses of `profile_part_partial` are met: the example table of the discovery theorems, behind a link that goes down after any number of answers. -/
example (k : Nat) (hp : Ble.Spec.Proper Ble.Props.exampleServices) :
    (∃ c', discoverProfile (cut serverPeer) (Ble.Props.enough Ble.Props.exampleServices) false (Cli.new (Ble.Props.discServer, k) 23 23) none = (some (Ble.Spec.svcProfs Ble.Props.exampleServices 1), .ok (some c'))) ∨
    (∃ p, discoverProfile (cut serverPeer) (Ble.Props.enough Ble.Props.exampleServices) false (Cli.new (Ble.Props.discServer, k) 23 23) none = (some p, .err .transport) ∧
      Part p (Ble.Spec.svcProfs Ble.Props.exampleServices 1) ∧ ∀ (ex'' : Exchange (Server (CState Unit) × Nat)) fuel c'', discoverProfile ex'' fuel false c'' (some p) = (some p, .ok (some c''))) :=
  profile_part_partial _ hp (by decide) Ble.Props.discServer rfl (by decide) _ .transport (by decide) (cut serverPeer) (cut_faulty serverPeer) (Cli.new (Ble.Props.discServer, k) 23 23) rfl (by simp [Cli.new]) false

end Ble.FailedDisc
