import Verif.Client.History
import Verif.Props.FailedDisc
set_option autoImplicit false

/-!
# C208: what is known after any history of discovery calls is true
-/

namespace Ble.DiscHist

open Ble.Client Ble.Client.History Ble.Att Ble.FailedDisc
open Ble.Spec (svcProfs charProfs svcInfos charInfos descInfos allDescs dbSize svcSize charSize Proper)

variable {S T α : Type}

/-! ## Specification -/

/-- A characteristic the client has, against the true one of a service that ends at `E`: everything but the end of its range is right, that is right or the end of the service, and if it is right then so are the descriptors and the CCCD. -/
structure TrueChar (E : Nat) (x y : CharProf) : Prop where
  info : { x.info with endHandle := 0 } = { y.info with endHandle := 0 }
  endh : x.info.endHandle = y.info.endHandle ∨ x.info.endHandle = E
  descs : x.info.endHandle = y.info.endHandle → ∀ d ∈ x.descs, d ∈ y.descs
  cccd : x.info.endHandle = y.info.endHandle → ∀ d, x.cccd = some d → d ∈ y.descs ∧ d.uuid = put16 0x2902

/-- A service the client has, against the true one. -/
structure TrueSvc (a b : SvcProf) : Prop where
  info : a.info = b.info
  chars : ∀ x ∈ a.chars, ∃ y ∈ b.chars, TrueChar b.info.endHandle x y

/-- Everything in a profile is in the table of the server. -/
def AllTrue (p : List SvcProf) (ss : List (Svc α)) : Prop := ∀ a ∈ p, ∃ b ∈ svcProfs ss 1, TrueSvc a b

/-- A call meets a server with the table `ss` in some state, except that requests may fail. -/
def Meets (ss : List (Svc α)) (ex : Exchange T) (c : Cli T) : Prop :=
  ∃ (srv : Server (CState α)) (R : T → Server (CState α) → Prop) (e : CErr),
    srv.db = newDB ss 1 ∧ 23 ≤ srv.mtu ∧ e ≠ .att 0x0A ∧ Faulty R e ex serverPeer ∧ R c.peer srv ∧ 7 ≤ c.buf.length

/-! ## The tables -/

theorem mem_svcProfs : ∀ (ss : List (Svc α)) (h : Nat) (b : SvcProf), b ∈ svcProfs ss h →
    ∃ pre s post, ss = pre ++ s :: post ∧ b = { info := ⟨s.uuid, h + dbSize pre, if post.isEmpty then 0xFFFF else h + dbSize pre + svcSize s - 1⟩
                                                chars := charProfs (if post.isEmpty then 0xFFFF else h + dbSize pre + svcSize s - 1) s.chars (h + dbSize pre + 1) }
  | [], _, b, hb => by simp [svcProfs] at hb
  | s :: ss, h, b, hb => by
    rw [svcProfs] at hb
    rcases List.mem_cons.1 hb with rfl | hb
    · exact ⟨[], s, ss, rfl, by simp [dbSize]⟩
    · obtain ⟨pre, t, post, rfl, hb2⟩ := mem_svcProfs ss _ b hb
      have e : h + svcSize s + dbSize pre = h + dbSize (s :: pre) := by simp [dbSize]; omega
      rw [e] at hb2
      exact ⟨s :: pre, t, post, rfl, hb2⟩

theorem mem_charProfs (E : Nat) : ∀ (cs : List (Char α)) (h : Nat) (y : CharProf), y ∈ charProfs E cs h →
    ∃ cpre ch cpost, cs = cpre ++ ch :: cpost ∧ y =
      { info := ⟨ch.uuid, ch.prop, h + (cpre.map charSize).sum, h + (cpre.map charSize).sum + 1, if cpost.isEmpty then E else h + (cpre.map charSize).sum + charSize ch - 1⟩
        descs := descInfos (allDescs ch) (h + (cpre.map charSize).sum + 2)
        cccd := ((descInfos (allDescs ch) (h + (cpre.map charSize).sum + 2)).filter fun x => x.uuid == put16 0x2902).getLast? }
  | [], _, b, hb => by simp [charProfs] at hb
  | s :: ss, h, b, hb => by
    rw [charProfs] at hb
    rcases List.mem_cons.1 hb with rfl | hb
    · exact ⟨[], s, ss, rfl, by simp⟩
    · obtain ⟨pre, t, post, rfl, hb2⟩ := mem_charProfs E ss _ b hb
      have e : h + charSize s + (pre.map charSize).sum = h + ((s :: pre).map charSize).sum := by simp; omega
      rw [e] at hb2
      exact ⟨s :: pre, t, post, rfl, hb2⟩

theorem charProfs_infos (E : Nat) : ∀ (cs : List (Char α)) (h : Nat), (charProfs E cs h).map CharProf.info = charInfos E cs h
  | [], _ => rfl
  | c :: cs, h => by simp [charProfs, charInfos, charProfs_infos E cs]

/-! ## The loops -/

/-- The last characteristic of a list has its provisional range. -/
def Provisional (E : Nat) (l : List CharInfo) : Prop := ∀ x, l.getLast? = some x → x.endHandle = E

theorem charLoop_provisional {E len : Nat} : ∀ (n : Nat) (b : Bytes), b.length ≤ n → ∀ (start : Nat) (acc : List CharInfo) (r : Nat × List CharInfo), charLoop E len b start acc = .ok r → Provisional E acc → Provisional E r.2 := by
  intro n
  induction n with
  | zero =>
    intro b hb start acc r h hp
    cases b with
    | nil => rw [charLoop] at h; cases h; exact hp
    | cons x xs => simp at hb
  | succ n ih =>
    intro b hb start acc r h hp
    cases b with
    | nil => rw [charLoop] at h; cases h; exact hp
    | cons x xs =>
      rw [charLoop] at h
      split at h
      · cases h
      · next hl =>
        obtain ⟨v, -, h⟩ := Go.bind_eq_ok.1 h
        obtain ⟨w, -, h⟩ := Go.bind_eq_ok.1 h
        obtain ⟨z, -, h⟩ := Go.bind_eq_ok.1 h
        refine ih _ (by simp only [List.length_drop, List.length_cons] at *; omega) _ _ _ h ?_
        intro q hq
        simp at hq
        rw [← hq]

theorem charFound_provisional (ex : Exchange S) (E : Nat) : ∀ (fuel : Nat) (d : Cli S) (start : Nat) (acc : List CharInfo), Provisional E acc → Provisional E (charFound ex E fuel d start acc) := by
  intro fuel
  induction fuel with
  | zero => intro d start acc h; exact h
  | succ n ih =>
    intro d start acc h
    rw [charFound]
    split
    · exact h
    · split
      · next c l b _ =>
        split
        · next st ac hl => exact ih _ _ _ (charLoop_provisional _ b (Nat.le_refl _) _ _ _ hl h)
        · exact h
      · exact h

theorem charFound_ok (ex : Exchange S) (E : Nat) : ∀ (fuel : Nat) (d : Cli S) (start : Nat) (acc : List CharInfo) (d' : Cli S) (l : List CharInfo), charOuter ex E fuel d start acc = .ok (some (d', l)) →
    charFound ex E fuel d start acc = l := by
  intro fuel
  induction fuel with
  | zero => intro d start acc d' l h; cases h
  | succ n ih =>
    intro d start acc d' l h
    rw [charOuter] at h
    rw [charFound]
    split at h
    · next hs => rw [if_pos hs]; cases h; rfl
    · next hs =>
      rw [if_neg hs]
      split at h
      · cases h
      · cases h; rename_i h1; rw [h1]
      · cases h
      · next h1 =>
        rw [h1]
        simp only
        split at h
        · cases h
        · cases h
        · next h2 => rw [h2]; exact ih _ _ _ _ _ h

theorem descFound_ok (ex : Exchange S) (E : Nat) : ∀ (fuel : Nat) (d : Cli S) (start : Nat) (acc : List DescInfo) (d' : Cli S) (l : List DescInfo), descOuter ex E fuel d start acc = .ok (some (d', l)) →
    descFound ex E fuel d start acc = l := by
  intro fuel
  induction fuel with
  | zero => intro d start acc d' l h; cases h
  | succ n ih =>
    intro d start acc d' l h
    rw [descOuter] at h
    rw [descFound]
    split at h
    · next hs => rw [if_pos hs]; cases h; rfl
    · next hs =>
      rw [if_neg hs]
      split at h
      · cases h
      · cases h; rename_i h1; rw [h1]
      · cases h
      · next h1 =>
        rw [h1]
        simp only
        split at h
        · cases h
        · cases h
        · next h2 => rw [h2]; exact ih _ _ _ _ _ h

theorem svcLoop_grows (filter : Option (List Bytes)) {len : Nat} : ∀ (n : Nat) (b : Bytes), b.length ≤ n → ∀ (start : Nat) (acc : List SvcInfo) (r : Step SvcInfo), svcLoop filter len b start acc = .ok r →
    (∃ l, r = .ret l ∧ acc <+: l) ∨ ∃ st l, r = .again st l ∧ acc <+: l := by
  intro n
  induction n with
  | zero =>
    intro b hb start acc r h
    cases b with
    | nil => rw [svcLoop] at h; cases h; exact Or.inr ⟨_, _, rfl, List.prefix_refl _⟩
    | cons x xs => simp at hb
  | succ n ih =>
    intro b hb start acc r h
    cases b with
    | nil => rw [svcLoop] at h; cases h; exact Or.inr ⟨_, _, rfl, List.prefix_refl _⟩
    | cons x xs =>
      rw [svcLoop] at h
      split at h
      · cases h
      · next hl =>
        obtain ⟨v, -, h⟩ := Go.bind_eq_ok.1 h
        obtain ⟨w, -, h⟩ := Go.bind_eq_ok.1 h
        simp only at h
        have hg : acc <+: (if kept filter (((x :: xs).take len).drop 4) then acc ++ [⟨((x :: xs).take len).drop 4, v, w⟩] else acc) := by
          split
          · exact List.prefix_append _ _
          · exact List.prefix_refl _
        revert h hg
        generalize (if kept filter (((x :: xs).take len).drop 4) then acc ++ [(⟨((x :: xs).take len).drop 4, v, w⟩ : SvcInfo)] else acc) = ac
        intro h hg
        split at h
        · cases h; exact Or.inl ⟨_, rfl, hg⟩
        · split at h
          · cases h; exact Or.inl ⟨_, rfl, hg⟩
          · rcases ih _ (by simp only [List.length_drop, List.length_cons] at *; omega) _ _ _ h with ⟨l, h1, h2⟩ | ⟨st, l, h1, h2⟩
            · exact Or.inl ⟨l, h1, hg.trans h2⟩
            · exact Or.inr ⟨st, l, h1, hg.trans h2⟩

theorem svcFound_grows (ex : Exchange S) (filter : Option (List Bytes)) : ∀ (fuel : Nat) (d : Cli S) (start : Nat) (acc : List SvcInfo), acc <+: (svcFound ex filter fuel d start acc).1 := by
  intro fuel
  induction fuel with
  | zero => intro d start acc; exact List.prefix_refl _
  | succ n ih =>
    intro d start acc
    rw [svcFound]
    split
    · exact List.prefix_refl _
    · exact List.prefix_refl _
    · exact List.prefix_refl _
    · next c f b _ =>
      split
      · exact List.prefix_refl _
      · exact List.prefix_refl _
      · next l hl =>
        rcases svcLoop_grows filter _ b (Nat.le_refl _) _ _ _ hl with ⟨l', h1, h2⟩ | ⟨st, l', h1, h2⟩
        · cases h1; exact h2
        · cases h1
      · next st l hl =>
        rcases svcLoop_grows filter _ b (Nat.le_refl _) _ _ _ hl with ⟨l', h1, h2⟩ | ⟨st, l', h1, h2⟩
        · cases h1
        · cases h1; exact h2.trans (ih _ _ _)

theorem svcFound_run (ex : Exchange S) : ∀ (fuel : Nat) (d : Cli S) (start : Nat) (acc : List SvcInfo), svcRun ex fuel d start acc = svcFound ex none fuel d start acc := by
  intro fuel
  induction fuel with
  | zero => intro d start acc; rfl
  | succ n ih =>
    intro d start acc
    rw [svcFound, svcRun]
    simp only [ih]
    rfl

theorem svcFound_eq {ex : Exchange S} {filter : Option (List Bytes)} {fuel : Nat} {c c' : Cli S} {start : Nat} {acc l : List SvcInfo}
    (h : discoverServices ex filter fuel c start acc = .ok (some (c', l))) : svcFound ex filter fuel c start acc = (l, .ok (some c')) := by
  induction fuel generalizing c start acc with
  | zero => cases h
  | succ n ih =>
    rw [discoverServices] at h
    rw [svcFound]
    split at h <;> rename_i h1
    · cases h
    · cases h; rw [h1]; rfl
    · cases h
    · rw [h1]
      simp only
      split at h <;> rename_i h2
      · cases h
      · cases h
      · cases h; rw [h2]
      · rw [h2]; exact ih h

variable {R : T → S → Prop} {e : CErr} {ex' : Exchange T} {ex : Exchange S}

theorem svcs_cut (he : Faulty R e ex' ex) (hne : e ≠ .att 0x0A) (filter : Option (List Bytes)) :
    ∀ (fuel : Nat) (c : Cli T) (d : Cli S) (start : Nat) (acc : List SvcInfo) (d' : Cli S) (full : List SvcInfo), CliSim R c d → svcFound ex filter fuel d start acc = (full, .ok (some d')) →
      (∃ c', CliSim R c' d' ∧ svcFound ex' filter fuel c start acc = (full, .ok (some c'))) ∨ (∃ l, svcFound ex' filter fuel c start acc = (l, .err e) ∧ l <+: full) := by
  intro fuel
  induction fuel with
  | zero => intro c d start acc d' full _ h; cases h
  | succ n ih =>
    intro c d start acc d' full hc h
    have hg := svcFound_grows ex filter (n + 1) d start acc
    rw [h] at hg
    rw [svcFound] at h
    rw [svcFound]
    have hr := readList_cut he hc 0x10 start 0xFFFF (put16 0x2800)
    simp only [readByGroupType] at h ⊢
    revert hr h
    generalize readList 0x10 ex' c start 0xFFFF (put16 0x2800) = x
    generalize readList 0x10 ex d start 0xFFFF (put16 0x2800) = y
    intro h hr
    rcases hr with rfl | hr
    · right
      refine ⟨acc, ?_, hg⟩
      split
      · contradiction
      · rename_i heq; cases heq; exact absurd rfl hne
      · rename_i heq; cases heq; rfl
      · contradiction
    · cases hr with
      | panic => cases h
      | err e' =>
        by_cases h0 : e' = .att 0x0A
        · subst h0
          cases h
          exact Or.inl ⟨c, hc, rfl⟩
        · exfalso
          split at h
          · contradiction
          · rename_i heq; cases heq; exact h0 rfl
          · cases h
          · contradiction
      | ok hq =>
        rename_i a b
        obtain ⟨c1, l, bb⟩ := a
        obtain ⟨d1, l', bb'⟩ := b
        obtain ⟨h1, h2⟩ := hq
        cases h2
        simp only at h ⊢
        split at h
        · cases h
        · cases h
        · next ac hl =>
          cases h
          exact Or.inl ⟨c1, h1, rfl⟩
        · next st ac hl =>
          exact ih c1 d1 st ac d' full h1 h

/-- `DiscoverServices` only adds services of the list. -/
theorem svcScan_adds (filter : Option (List Bytes)) (is : List SvcInfo) : ∀ acc, ∃ t, (svcScan filter is acc).2 = acc ++ t ∧ ∀ x ∈ t, x ∈ is := by
  induction is with
  | nil => intro acc; exact ⟨[], by simp [svcScan], by simp⟩
  | cons i is ih =>
    intro acc
    have hk : ∃ t, addKept filter acc i = acc ++ t ∧ ∀ x ∈ t, x = i := by
      unfold addKept
      split
      · exact ⟨[i], rfl, by simp⟩
      · exact ⟨[], by simp, by simp⟩
    obtain ⟨t, ht, ht2⟩ := hk
    rw [svcScan]
    split
    · exact ⟨t, ht, fun x hx => by simp [ht2 x hx]⟩
    · obtain ⟨u, hu, hu2⟩ := ih (addKept filter acc i)
      refine ⟨t ++ u, by rw [hu, ht, List.append_assoc], ?_⟩
      intro x hx
      rcases List.mem_append.1 hx with hx | hx
      · simp [ht2 x hx]
      · simp [hu2 x hx]

/-! ## Calls that meet the server -/

/-- A client that meets the server `srv`. -/
structure At (R : T → Server (CState α) → Prop) (srv : Server (CState α)) (c : Cli T) : Prop where
  peer : R c.peer srv
  buf : 7 ≤ c.buf.length

theorem At.sim {R : T → Server (CState α) → Prop} {srv : Server (CState α)} {c : Cli T} (h : At R srv c) : CliSim R c ⟨srv, c.buf, c.txMTU, c.rxMTU⟩ := ⟨h.peer, rfl, rfl, rfl⟩

theorem At.of_like {R : T → Server (CState α) → Prop} {srv : Server (CState α)} {c : Cli T} {d : Cli (Server (CState α))} {n tx rx : Nat} (h : CliSim R c d) (hl : Like d srv n tx rx) (hn : 7 ≤ n) : At R srv c :=
  ⟨by rw [← hl.peer]; exact h.peer, by rw [h.buf, hl.buf]; exact hn⟩

/-- What is fixed during a call. -/
structure Ctx (ss : List (Svc α)) (srv : Server (CState α)) (R : T → Server (CState α) → Prop) (e : CErr) (ex : Exchange T) : Prop where
  proper : Proper ss
  fits : 1 + dbSize ss ≤ 65535
  db : srv.db = newDB ss 1
  mtu : 23 ≤ srv.mtu
  ne : e ≠ .att 0x0A
  faulty : Faulty R e ex serverPeer

section
variable {ss : List (Svc α)} {srv : Server (CState α)} {R : T → Server (CState α) → Prop} {e : CErr} {ex : Exchange T}

/-- Services: what is added is true, and a call that succeeds leaves the client at the server. -/
theorem svcs_true (K : Ctx ss srv R e ex) {c : Cli T} (hc : At R srv c) (filter : Option (List Bytes)) (acc : List SvcInfo) :
    ∃ t, (svcFound ex filter (Ble.Props.enough ss) c 1 acc).1 = acc ++ t ∧ (∀ x ∈ t, x ∈ svcInfos ss 1) ∧
      ∀ c', (svcFound ex filter (Ble.Props.enough ss) c 1 acc).2 = .ok (some c') → At R srv c' ∧ (filter = none → t = svcInfos ss 1) := by
  have hen := Ble.Props.enough_ok ss
  have full : ∃ d' l, Like d' srv c.buf.length c.txMTU c.rxMTU ∧ svcFound serverPeer filter (Ble.Props.enough ss) ⟨srv, c.buf, c.txMTU, c.rxMTU⟩ 1 acc = (acc ++ l, .ok (some d')) ∧ (∀ x ∈ l, x ∈ svcInfos ss 1) ∧
      (filter = none → l = svcInfos ss 1) := by
    by_cases hss : ss = []
    · subst hss
      refine ⟨⟨srv, c.buf, c.txMTU, c.rxMTU⟩, [], ⟨rfl, rfl, rfl, rfl⟩, ?_, by simp, fun _ => rfl⟩
      have hreq : handleRequest srv (Ble.Props.rangeReq 0x10 1 0xFFFF (put16 0x2800)) = .ok (srv, some (errorRsp 0x10 1 0x0A)) := by
        rw [Ble.Props.handleRequest_readByGroup srv (by rw [K.db]; exact (Ble.Props.table_handles _ _ (by simp [dbSize])).2) _ _ _ (by omega) (by omega) (by omega) (.inl rfl), K.db]
        rfl
      have := readList_error (c := ⟨srv, c.buf, c.txMTU, c.rxMTU⟩) ⟨rfl, rfl, rfl, rfl⟩ (op := 0x10) (by have := hc.buf; simp; omega) (show 1 ≤ 0xFFFF by omega) (.inl rfl) hreq
      rw [Ble.Props.enough, svcFound]
      unfold readByGroupType
      rw [this]; simp
    · obtain ⟨d', hd', h⟩ := Ble.Props.discoverServices_loop filter srv [] ss hss K.db K.mtu (by have := K.fits; simpa using by omega) (fun t ht => ⟨(K.proper t ht).1, fun c hc => ((K.proper t ht).2 c hc).1⟩)
        c.buf.length c.txMTU c.rxMTU hc.buf ⟨srv, c.buf, c.txMTU, c.rxMTU⟩ ⟨rfl, rfl, rfl, rfl⟩ acc (Ble.Props.enough ss) (by omega)
      have h1 : 1 + dbSize ([] : List (Svc α)) = 1 := rfl
      rw [h1] at h
      obtain ⟨t, ht, ht2⟩ := svcScan_adds filter (svcInfos ss 1) acc
      refine ⟨d', t, hd', by rw [← ht]; exact svcFound_eq h, ht2, ?_⟩
      intro hf
      subst hf
      rw [svcScan_all _ (Ble.Props.svcInfos_last _ _ (by have := K.fits; omega))] at ht
      exact (List.append_cancel_left ht).symm
  obtain ⟨d', l, hd', h1, h2, h3⟩ := full
  rcases svcs_cut K.faulty K.ne filter _ c _ 1 acc d' _ hc.sim h1 with ⟨c', hc', h4⟩ | ⟨l', h4, h5⟩
  · rw [h4]
    refine ⟨l, rfl, h2, ?_⟩
    intro c'' h; cases h
    exact ⟨At.of_like hc' hd' hc.buf, h3⟩
  · have hg := svcFound_grows ex filter (Ble.Props.enough ss) c 1 acc
    rw [h4] at hg ⊢
    obtain ⟨t, rfl⟩ := hg
    refine ⟨t, rfl, ?_, by intro c' h; cases h⟩
    intro x hx
    have h6 : t <+: l := (List.prefix_append_right_inj acc).1 h5
    exact h2 x (h6.subset hx)

theorem charOuter_server (K : Ctx ss srv R e ex) {b : SvcProf} (hb : b ∈ svcProfs ss 1) (d : Cli (Server (CState α))) (hd : d.peer = srv) (h7 : 7 ≤ d.buf.length) :
    ∃ d', Like d' srv d.buf.length d.txMTU d.rxMTU ∧ charOuter serverPeer b.info.endHandle (Ble.Props.enough ss) d b.info.handle [] = .ok (some (d', b.chars.map CharProf.info)) := by
  obtain ⟨pre, s, post, rfl, rfl⟩ := mem_svcProfs ss 1 b hb
  obtain ⟨d', hd', h⟩ := Ble.Props.discover_characteristics none pre post s srv K.db K.mtu K.fits (K.proper s (by simp)).2 d hd h7 (Ble.Props.enough (pre ++ s :: post))
    ((Ble.Props.enough_ok (pre ++ s :: post)).2 s (by simp)).1
  refine ⟨d', hd', ?_⟩
  unfold discoverCharacteristics at h
  obtain ⟨r, hr, h⟩ := Go.bind_eq_ok.1 h
  cases r with
  | none => cases h
  | some r =>
    obtain ⟨d2, l⟩ := r
    simp only [kept_all_chars, Option.map_some] at h
    cases h
    rw [charProfs_infos]
    exact hr

/-- Characteristics of a true service: what is found is true up to the end of the range of the last one. -/
theorem chars_true (K : Ctx ss srv R e ex) {c : Cli T} (hc : At R srv c) {b : SvcProf} (hb : b ∈ svcProfs ss 1) :
    (∀ x ∈ charFound ex b.info.endHandle (Ble.Props.enough ss) c b.info.handle [], ∃ y ∈ b.chars, { x with endHandle := 0 } = { y.info with endHandle := 0 } ∧ (x.endHandle = y.info.endHandle ∨ x.endHandle = b.info.endHandle)) ∧
    ∀ c' l, charOuter ex b.info.endHandle (Ble.Props.enough ss) c b.info.handle [] = .ok (some (c', l)) → At R srv c' ∧ l = b.chars.map CharProf.info := by
  obtain ⟨d', hd', h1⟩ := charOuter_server K hb ⟨srv, c.buf, c.txMTU, c.rxMTU⟩ rfl hc.buf
  rcases chars_cut K.faulty K.ne _ _ c _ _ _ _ _ hc.sim h1 with ⟨c', hc', h2⟩ | ⟨h2, h3⟩
  · refine ⟨?_, ?_⟩
    · rw [charFound_ok _ _ _ _ _ _ _ _ h2]
      intro x hx
      obtain ⟨y, hy, rfl⟩ := List.mem_map.1 hx
      exact ⟨y, hy, rfl, Or.inl rfl⟩
    · intro c'' l h; rw [h2] at h; cases h
      exact ⟨At.of_like hc' hd' hc.buf, rfl⟩
  · refine ⟨?_, by intro c' l h; rw [h2] at h; cases h⟩
    intro x hx
    have hpr := charFound_provisional ex b.info.endHandle (Ble.Props.enough ss) c b.info.handle [] (by intro x hx; simp at hx)
    obtain ⟨i, hi, rfl⟩ := List.getElem_of_mem hx
    have hi2 : i < (b.chars.map CharProf.info).length := Nat.lt_of_lt_of_le hi h3.1
    have hi3 : i < b.chars.length := by simpa using hi2
    obtain ⟨h4, h5⟩ := h3.2 i _ _ (List.getElem?_eq_getElem hi) (List.getElem?_eq_getElem hi2)
    refine ⟨b.chars[i], List.getElem_mem hi3, by simpa using h4, ?_⟩
    by_cases hl : i + 1 < (charFound ex b.info.endHandle (Ble.Props.enough ss) c b.info.handle []).length
    · left; rw [h5 (Or.inl hl)]; simp
    · right
      refine hpr _ ?_
      rw [List.getLast?_eq_getElem?, List.getElem?_eq_getElem (by omega)]
      congr 2
      omega

/-- Descriptors of a characteristic with the right range. -/
theorem descs_true (K : Ctx ss srv R e ex) {c : Cli T} (hc : At R srv c) {b : SvcProf} (hb : b ∈ svcProfs ss 1) {y : CharProf} (hy : y ∈ b.chars) :
    (∀ d ∈ descFound ex y.info.endHandle (Ble.Props.enough ss) c (add16 y.info.valueHandle 1) [], d ∈ y.descs) ∧
    ∀ c' l, descOuter ex y.info.endHandle (Ble.Props.enough ss) c (add16 y.info.valueHandle 1) [] = .ok (some (c', l)) → l = y.descs := by
  obtain ⟨pre, s, post, hss, rfl⟩ := mem_svcProfs ss 1 b hb
  obtain ⟨cpre, ch, cpost, hcs, rfl⟩ := mem_charProfs _ _ _ y hy
  obtain ⟨u, cs⟩ := s
  simp only at hcs
  subst hcs
  have hen := ((Ble.Props.enough_ok ss).2 ⟨u, cpre ++ ch :: cpost⟩ (by rw [hss]; simp)).2 ch (by simp)
  have hpr := ((K.proper ⟨u, cpre ++ ch :: cpost⟩ (by rw [hss]; simp)).2 ch (by simp)).2.2
  have hdb := K.db
  have hf := K.fits
  rw [hss] at hdb hf
  obtain ⟨d', hd', h⟩ := Ble.Props.discover_descriptors none pre post u cpre cpost ch srv hdb K.mtu hf (fun d hd => (hpr d hd).1) ⟨srv, c.buf, c.txMTU, c.rxMTU⟩ rfl hc.buf (Ble.Props.enough ss) hen
    (1 + dbSize pre + 1 + (cpre.map charSize).sum) rfl _ rfl
  unfold discoverDescriptors at h
  obtain ⟨r, hr, h⟩ := Go.bind_eq_ok.1 h
  cases r with
  | none => cases h
  | some r =>
    obtain ⟨d2, l⟩ := r
    simp only [kept_all_descs, Option.map_some] at h
    have h9 := Option.some.inj (Go.ok.inj h)
    have h10 := (Prod.mk.inj (Prod.mk.inj h9).2).1
    subst h10
    rcases descs_cut K.faulty K.ne _ _ c _ _ _ _ _ hc.sim hr with ⟨c', hc', h2⟩ | ⟨h2, h3⟩
    · refine ⟨?_, ?_⟩
      · intro d hd
        erw [descFound_ok _ _ _ _ _ _ _ _ h2] at hd
        exact hd
      · intro c'' l' h4; erw [h2] at h4; cases h4; rfl
    · refine ⟨fun d hd => h3.subset hd, ?_⟩
      intro c'' l' h4; erw [h2] at h4; cases h4

theorem handleFindInfo_same {σ : Type} {s s' : Server σ} {r : Bytes} {o : Option Bytes} (h : handleFindInfo s r = .ok (s', o)) : s' = s := by
  unfold handleFindInfo reject at h
  obtain ⟨v, -, h⟩ := Go.bind_eq_ok.1 h
  split at h
  · cases h; rfl
  · obtain ⟨lo, -, h⟩ := Go.bind_eq_ok.1 h
    obtain ⟨hi, -, h⟩ := Go.bind_eq_ok.1 h
    split at h
    · cases h; rfl
    · obtain ⟨as, -, h⟩ := Go.bind_eq_ok.1 h
      simp only at h
      split at h
      · cases h; rfl
      · cases h; rfl

theorem findInformation_keeps {σ : Type} {d d' : Cli (Server σ)} {lo hi f : Nat} {b : Bytes} (h : findInformation serverPeer d lo hi = .ok (d', f, b)) : d'.peer = d.peer ∧ d'.buf.length = d.buf.length := by
  unfold findInformation at h
  split at h
  · cases h
  · obtain ⟨⟨d1, rsp⟩, h1, h⟩ := Go.bind_eq_ok.1 h
    have hd : d' = d1 := by
      obtain ⟨u, -, h⟩ := Go.bind_eq_ok.1 h
      split at h
      · cases h
      · obtain ⟨g, -, h⟩ := Go.bind_eq_ok.1 h
        split at h
        · cases h
        · split at h
          · cases h
          · cases h; rfl
    subst hd
    unfold Cli.send at h1
    split at h1
    · cases h1
    · next hl =>
      obtain ⟨⟨s', r⟩, h2, h1⟩ := Go.bind_eq_ok.1 h1
      have h3 : s' = d.peer := by
        unfold serverPeer at h2
        have hr : handleRequest d.peer (0x04 :: (put16 lo ++ put16 hi)) = handleFindInfo d.peer (0x04 :: (put16 lo ++ put16 hi)) := rfl
        rw [hr] at h2
        split at h2
        · next h4 =>
          split at h2
          · cases h2; exact handleFindInfo_same h4
          · cases h2
        · cases h2
      cases h1
      refine ⟨h3, ?_⟩
      simp only [List.length_append, List.length_drop, List.length_cons, put16_length] at hl ⊢
      omega

/-- Whatever range is asked for, a descriptor discovery leaves the client at the server. -/
theorem descOuter_keeps (K : Ctx ss srv R e ex) (endh : Nat) : ∀ (fuel : Nat) (c : Cli T) (start : Nat) (acc : List DescInfo) (c' : Cli T) (l : List DescInfo), At R srv c →
    descOuter ex endh fuel c start acc = .ok (some (c', l)) → At R srv c' := by
  intro fuel
  induction fuel with
  | zero => intro c start acc c' l hc h; cases h
  | succ n ih =>
    intro c start acc c' l hc h
    rw [descOuter] at h
    split at h
    · cases h; exact hc
    · split at h
      · cases h
      · cases h; exact hc
      · cases h
      · next c1 f b h1 =>
        have hr := findInformation_cut K.faulty hc.sim start endh
        rw [h1] at hr
        have hc1 : At R srv c1 := by
          rcases hr with hr | hr
          · cases hr
          · revert hr
            generalize hy : findInformation serverPeer ⟨srv, c.buf, c.txMTU, c.rxMTU⟩ start endh = y
            intro hr
            cases hr with
            | ok hq =>
              rename_i z
              obtain ⟨d1, f', b'⟩ := z
              obtain ⟨h2, h3⟩ := findInformation_keeps hy
              exact ⟨by have := hq.1.peer; rw [h2] at this; exact this, by rw [hq.1.buf, h3]; exact hc.buf⟩
        split at h
        · cases h
        · cases h
        · exact ih _ _ _ _ _ hc1 h

/-- A call of `DiscoverDescriptors` keeps a characteristic true. -/
theorem add_true (K : Ctx ss srv R e ex) {c : Cli T} (hc : At R srv c) {b : SvcProf} (hb : b ∈ svcProfs ss 1) {x y : CharProf} (hy : y ∈ b.chars) (h : TrueChar b.info.endHandle x y) (f : DescInfo → Bool) :
    TrueChar b.info.endHandle (x.add ((descFound ex x.info.endHandle (Ble.Props.enough ss) c (add16 x.info.valueHandle 1) []).filter f)
      ((descFound ex x.info.endHandle (Ble.Props.enough ss) c (add16 x.info.valueHandle 1) []).filter fun x => x.uuid == put16 0x2902).getLast?) y := by
  have hv : x.info.valueHandle = y.info.valueHandle := by
    have h0 := h.info
    simp only [CharInfo.mk.injEq] at h0
    exact h0.2.2.2.1
  refine ⟨h.info, h.endh, ?_, ?_⟩
  · intro he d hd
    have he : x.info.endHandle = y.info.endHandle := he
    simp only [CharProf.add, List.mem_append] at hd
    rcases hd with hd | hd
    · exact h.descs he d hd
    · have := (List.mem_filter.1 hd).1
      rw [he, hv] at this
      exact (descs_true K hc hb hy).1 d this
  · intro he d hd
    have he : x.info.endHandle = y.info.endHandle := he
    simp only [CharProf.add] at hd
    rcases hg : ((descFound ex x.info.endHandle (Ble.Props.enough ss) c (add16 x.info.valueHandle 1) []).filter fun x => x.uuid == put16 0x2902).getLast? with _ | d0
    · rw [hg] at hd
      exact h.cccd he d hd
    · rw [hg] at hd
      cases hd
      obtain ⟨h1, h2⟩ := List.mem_filter.1 (List.mem_of_getLast? hg)
      rw [he, hv] at h1
      exact ⟨(descs_true K hc hb hy).1 d h1, by simpa using h2⟩

theorem profDescs_true (K : Ctx ss srv R e ex) {b : SvcProf} (hb : b ∈ svcProfs ss 1) : ∀ (chs : List CharProf) (c : Cli T), At R srv c → (∀ x ∈ chs, ∃ y ∈ b.chars, TrueChar b.info.endHandle x y) →
    (∀ x ∈ (profDescs ex (Ble.Props.enough ss) c chs).1, ∃ y ∈ b.chars, TrueChar b.info.endHandle x y) ∧ ∀ c', (profDescs ex (Ble.Props.enough ss) c chs).2 = .ok (some c') → At R srv c' := by
  intro chs
  induction chs with
  | nil =>
    intro c hc _
    exact ⟨by simp [profDescs], by intro c' h; cases h; exact hc⟩
  | cons ch chs ih =>
    intro c hc h
    obtain ⟨y, hy, hty⟩ := h ch (by simp)
    have hrest : ∀ x ∈ chs, ∃ y ∈ b.chars, TrueChar b.info.endHandle x y := fun x hx => h x (by simp [hx])
    have hadd := add_true K hc hb hy hty
    have hbr : TrueChar b.info.endHandle (ch.broken ex (Ble.Props.enough ss) c) y := by
      have := hadd (fun _ => true)
      rw [List.filter_eq_self.2 (fun _ _ => rfl)] at this
      exact this
    have hfail : ∀ x ∈ ch.broken ex (Ble.Props.enough ss) c :: chs, ∃ y ∈ b.chars, TrueChar b.info.endHandle x y := by
      intro x hx
      rcases List.mem_cons.1 hx with rfl | hx
      · exact ⟨y, hy, hbr⟩
      · exact hrest x hx
    rw [profDescs]
    split
    · next c1 ds cccd h1 =>
      unfold discoverDescriptors at h1
      obtain ⟨r, hr, h1⟩ := Go.bind_eq_ok.1 h1
      cases r with
      | none => cases h1
      | some r =>
        obtain ⟨c2, l⟩ := r
        simp only [Option.map_some] at h1
        cases h1
        have hc1 := descOuter_keeps K _ _ _ _ _ _ _ hc hr
        obtain ⟨h2, h3⟩ := ih c1 hc1 hrest
        refine ⟨?_, h3⟩
        intro x hx
        rcases List.mem_cons.1 hx with rfl | hx
        · have := hadd (fun x => kept none x.uuid)
          rw [descFound_ok _ _ _ _ _ _ _ _ hr] at this
          exact ⟨y, hy, this⟩
        · exact h2 x hx
    · exact ⟨hfail, by intro c' h; cases h⟩
    · exact ⟨hfail, by intro c' h; cases h⟩
    · exact ⟨hfail, by intro c' h; cases h⟩

/-- A call of `DiscoverCharacteristics` keeps a service true. -/
theorem chars_added (K : Ctx ss srv R e ex) {c : Cli T} (hc : At R srv c) {a b : SvcProf} (hb : b ∈ svcProfs ss 1) (h : TrueSvc a b) (f : CharInfo → Bool) :
    TrueSvc { a with chars := a.chars ++ ((charFound ex a.info.endHandle (Ble.Props.enough ss) c a.info.handle []).filter f).map fun i => { info := i } } b := by
  refine ⟨h.info, ?_⟩
  intro x hx
  rcases List.mem_append.1 hx with hx | hx
  · exact h.chars x hx
  · obtain ⟨i, hi, rfl⟩ := List.mem_map.1 hx
    have hi := (List.mem_filter.1 hi).1
    rw [h.info] at hi
    obtain ⟨y, hy, h1, h2⟩ := (chars_true K hc hb).1 i hi
    exact ⟨y, hy, h1, h2, by simp, by simp⟩

theorem profSvcs_true (K : Ctx ss srv R e ex) : ∀ (l : List SvcProf) (c : Cli T), At R srv c → AllTrue l ss → AllTrue (profSvcs ex (Ble.Props.enough ss) c l).1 ss := by
  intro l
  induction l with
  | nil => intro c hc _; intro a ha; simp [profSvcs] at ha
  | cons s l ih =>
    intro c hc h
    obtain ⟨b, hb, hs⟩ := h s (by simp)
    have hrest : AllTrue l ss := fun x hx => h x (by simp [hx])
    have hfail : AllTrue (s.broken ex (Ble.Props.enough ss) c :: l) ss := by
      intro x hx
      rcases List.mem_cons.1 hx with rfl | hx
      · have := chars_added K hc hb hs (fun _ => true)
        rw [List.filter_eq_self.2 (fun _ _ => rfl)] at this
        exact ⟨b, hb, this⟩
      · exact hrest x hx
    rw [profSvcs]
    split
    · next c1 l1 h1 =>
      unfold discoverCharacteristics at h1
      obtain ⟨r, hr, h1⟩ := Go.bind_eq_ok.1 h1
      cases r with
      | none => cases h1
      | some r =>
        obtain ⟨c2, l2⟩ := r
        simp only [Option.map_some] at h1
        cases h1
        have hr' := hr
        rw [hs.info] at hr'
        have hc1 := ((chars_true K hc hb).2 _ _ hr').1
        have hadd := chars_added K hc hb hs (fun x => kept none x.uuid)
        rw [charFound_ok _ _ _ _ _ _ _ _ hr] at hadd
        obtain ⟨h2, h3⟩ := profDescs_true K hb _ c1 hc1 hadd.chars
        have hhd : TrueSvc { s with chars := (profDescs ex (Ble.Props.enough ss) c1 (s.chars ++ (l2.filter fun x => kept none x.uuid).map fun i => { info := i })).1 } b := ⟨hs.info, h2⟩
        simp only
        split
        · next c3 h4 =>
          intro x hx
          rcases List.mem_cons.1 hx with rfl | hx
          · exact ⟨b, hb, hhd⟩
          · exact ih c3 (h3 c3 h4) hrest x hx
        · intro x hx
          rcases List.mem_cons.1 hx with rfl | hx
          · exact ⟨b, hb, hhd⟩
          · exact hrest x hx
    · exact hfail
    · exact hfail
    · exact hfail

theorem svcInfo_prof {i : SvcInfo} (hi : i ∈ svcInfos ss 1) : ∃ b ∈ svcProfs ss 1, TrueSvc { info := i } b := by
  rw [← Ble.Props.svcProfs_infos] at hi
  obtain ⟨b, hb, rfl⟩ := List.mem_map.1 hi
  exact ⟨b, hb, rfl, by simp⟩

theorem svcs_added (K : Ctx ss srv R e ex) {c : Cli T} (hc : At R srv c) (f : Option (List Bytes)) {p : List SvcProf} (hp : AllTrue p ss) :
    AllTrue (p ++ ((svcFound ex f (Ble.Props.enough ss) c 1 (p.map SvcProf.info)).1.drop p.length).map fun i => { info := i }) ss := by
  obtain ⟨t, h1, h2, -⟩ := svcs_true K hc f (p.map SvcProf.info)
  rw [h1, List.drop_append_of_le_length (by simp)]
  intro a ha
  rcases List.mem_append.1 ha with ha | ha
  · exact hp a ha
  · obtain ⟨i, hi, rfl⟩ := List.mem_map.1 ha
    rw [List.drop_of_length_le (by simp)] at hi
    exact svcInfo_prof (h2 i (by simpa using hi))

theorem mem_modify {β : Type} {l : List β} {i : Nat} {f : β → β} {x : β} (h : x ∈ l.modify i f) : x ∈ l ∨ ∃ y ∈ l, x = f y := by
  obtain ⟨j, hj, rfl⟩ := List.getElem_of_mem h
  rw [List.getElem_modify]
  have hj2 : j < l.length := by simpa using hj
  split
  · exact Or.inr ⟨_, List.getElem_mem hj2, rfl⟩
  · exact Or.inl (List.getElem_mem hj2)

theorem step_true (K : Ctx ss srv R e ex) {c : Cli T} (hc : At R srv c) {p : Option (List SvcProf)} (hp : AllTrue (p.getD []) ss) (op : Op) : AllTrue ((step ex (Ble.Props.enough ss) c p op).1.getD []) ss := by
  cases op with
  | services f => exact svcs_added K hc f hp
  | chars i f =>
    cases p with
    | none => intro a ha; simp [step] at ha
    | some l =>
      intro a ha
      simp only [step, Option.map_some, Option.getD_some] at ha
      rcases mem_modify ha with ha | ⟨s, hs, rfl⟩
      · exact hp a ha
      · obtain ⟨b, hb, ht⟩ := hp s hs
        exact ⟨b, hb, chars_added K hc hb ht _⟩
  | descs i j f =>
    cases p with
    | none => intro a ha; simp [step] at ha
    | some l =>
      intro a ha
      simp only [step, Option.map_some, Option.getD_some] at ha
      rcases mem_modify ha with ha | ⟨s, hs, rfl⟩
      · exact hp a ha
      · obtain ⟨b, hb, ht⟩ := hp s hs
        refine ⟨b, hb, ht.info, ?_⟩
        intro x hx
        rcases mem_modify hx with hx | ⟨z, hz, rfl⟩
        · exact ht.chars x hx
        · obtain ⟨y, hy, hty⟩ := ht.chars z hz
          exact ⟨y, hy, add_true K hc hb hy hty _⟩
  | profile force =>
    simp only [step, discoverProfile]
    split
    · exact hp
    · have hadd := svcs_added K hc none hp
      simp only [svcFound_run]
      split
      · next c1 h1 =>
        obtain ⟨t, h2, h3, h4⟩ := svcs_true K hc none ((p.getD []).map SvcProf.info)
        exact profSvcs_true K _ c1 (h4 c1 h1).1 hadd
      · exact hadd

end

/-- **C208** After any history of discovery calls, with any filters, in any order, repeated, on any of the services and characteristics found, each meeting a server with the table `ss`, except that any requests fail: every service the client has is a
service of the server, every characteristic it has for it is a characteristic of that service, and, if the end of its range is the right one, every descriptor and the CCCD are descriptors of that characteristic.
Missing: the end of the range of a characteristic may be that of the service (then also the descriptors and the CCCD may be those of others: `wrong_cccd`). -/
theorem discovered_true_partial (ss : List (Svc α)) (hp : Proper ss) (hf : 1 + dbSize ss ≤ 65535) (l : List (Op × Exchange T × Cli T)) (hl : ∀ t ∈ l, Meets ss t.2.1 t.2.2) :
    AllTrue ((run (Ble.Props.enough ss) l).getD []) ss := by
  unfold run
  suffices h : ∀ (l : List (Op × Exchange T × Cli T)) (p : Option (List SvcProf)), (∀ t ∈ l, Meets ss t.2.1 t.2.2) → AllTrue (p.getD []) ss →
      AllTrue ((l.foldl (fun p t => (step t.2.1 (Ble.Props.enough ss) t.2.2 p t.1).1) p).getD []) ss from h l none hl (by intro a ha; simp at ha)
  intro l
  induction l with
  | nil => intro p _ h; exact h
  | cons t l ih =>
    intro p hl h
    rw [List.foldl_cons]
    refine ih _ (fun x hx => hl x (by simp [hx])) ?_
    obtain ⟨srv, R, e, h1, h2, h3, h4, h5, h6⟩ := hl t (by simp)
    exact step_true ⟨hp, hf, h1, h2, h3, h4⟩ ⟨h5, h6⟩ h t.1

/-! ## What a call that succeeds has found -/

/-- **C208** A `DiscoverServices` without filter that succeeds, whatever happened before: every service of the server is in the profile. -/
theorem services_found (ss : List (Svc α)) (hp : Proper ss) (hf : 1 + dbSize ss ≤ 65535) (ex : Exchange T) (c : Cli T) (hm : Meets ss ex c) (p : Option (List SvcProf))
    (h : (step ex (Ble.Props.enough ss) c p (.services none)).2 = true) : ∀ b ∈ svcProfs ss 1, ∃ a ∈ (step ex (Ble.Props.enough ss) c p (.services none)).1.getD [], a.info = b.info := by
  obtain ⟨srv, R, e, h1, h2, h3, h4, h5, h6⟩ := hm
  obtain ⟨t, h7, -, h8⟩ := svcs_true ⟨hp, hf, h1, h2, h3, h4⟩ ⟨h5, h6⟩ none ((p.getD []).map SvcProf.info)
  simp only [step, addSvcs] at h ⊢
  have hs : ∃ c', (svcFound ex none (Ble.Props.enough ss) c 1 ((p.getD []).map SvcProf.info)).2 = .ok (some c') := by
    revert h
    unfold succeeded
    split
    · next h9 => intro _; exact ⟨_, h9⟩
    · intro h; cases h
  obtain ⟨c', hc'⟩ := hs
  have ht := (h8 c' hc').2 rfl
  intro b hb
  refine ⟨{ info := b.info }, ?_, rfl⟩
  rw [h7, ht]
  simp only [Option.getD_some, List.mem_append, List.mem_map]
  right
  refine ⟨b.info, ?_, rfl⟩
  rw [List.drop_append_of_le_length (by simp), List.drop_of_length_le (by simp), List.nil_append, ← Ble.Props.svcProfs_infos]
  exact List.mem_map.2 ⟨b, hb, rfl⟩

/-- **C208** A `DiscoverCharacteristics` that succeeds: every characteristic of the service that passes the filter is in the profile, with the right range. -/
theorem chars_found (ss : List (Svc α)) (hp : Proper ss) (hf : 1 + dbSize ss ≤ 65535) (ex : Exchange T) (c : Cli T) (hm : Meets ss ex c) (p : List SvcProf) (i : Nat) (a b : SvcProf) (ha : p[i]? = some a) (hb : b ∈ svcProfs ss 1)
    (hab : a.info = b.info) (f : Option (List Bytes)) (h : (step ex (Ble.Props.enough ss) c (some p) (.chars i f)).2 = true) :
    ∃ a', ((step ex (Ble.Props.enough ss) c (some p) (.chars i f)).1.getD [])[i]? = some a' ∧ ∀ y ∈ b.chars, kept f y.info.uuid = true → ∃ x ∈ a'.chars, x.info = y.info := by
  obtain ⟨srv, R, e, h1, h2, h3, h4, h5, h6⟩ := hm
  simp only [step, Option.getD_some, ha, Option.map_some, addChars] at h ⊢
  refine ⟨_, by rw [List.getElem?_modify, ha]; simp; rfl, ?_⟩
  have hs : ∃ c' l, charOuter ex a.info.endHandle (Ble.Props.enough ss) c a.info.handle [] = .ok (some (c', l)) := by
    revert h
    unfold succeeded
    split
    · next h9 =>
      intro _
      unfold discoverCharacteristics at h9
      obtain ⟨r, hr, h9⟩ := Go.bind_eq_ok.1 h9
      cases r with
      | none => cases h9
      | some r => exact ⟨r.1, r.2, hr⟩
    · intro h; cases h
  obtain ⟨c', l, hl⟩ := hs
  rw [charFound_ok _ _ _ _ _ _ _ _ hl]
  rw [hab] at hl
  rw [((chars_true ⟨hp, hf, h1, h2, h3, h4⟩ ⟨h5, h6⟩ hb).2 _ _ hl).2]
  intro y hy hk
  refine ⟨{ info := y.info }, ?_, rfl⟩
  simp only [List.mem_append, List.mem_map, List.mem_filter]
  right
  exact ⟨y.info, ⟨⟨y, hy, rfl⟩, hk⟩, rfl⟩

/-- **C208** A `DiscoverDescriptors` that succeeds, on a characteristic with the right range: every descriptor of the characteristic that passes the filter is in the profile. -/
theorem descs_found (ss : List (Svc α)) (hp : Proper ss) (hf : 1 + dbSize ss ≤ 65535) (ex : Exchange T) (c : Cli T) (hm : Meets ss ex c) (p : List SvcProf) (i j : Nat) (a : SvcProf) (x : CharProf) (ha : p[i]? = some a) (hx : a.chars[j]? = some x)
    (b : SvcProf) (hb : b ∈ svcProfs ss 1) (y : CharProf) (hy : y ∈ b.chars) (hxy : x.info = y.info) (f : Option (List Bytes)) (h : (step ex (Ble.Props.enough ss) c (some p) (.descs i j f)).2 = true) :
    ∃ a' x', ((step ex (Ble.Props.enough ss) c (some p) (.descs i j f)).1.getD [])[i]? = some a' ∧ a'.chars[j]? = some x' ∧ x'.info = x.info ∧ ∀ d ∈ y.descs, kept f d.uuid = true → d ∈ x'.descs := by
  obtain ⟨srv, R, e, h1, h2, h3, h4, h5, h6⟩ := hm
  simp only [step, Option.getD_some, ha, Option.map_some, Option.bind_some, hx, addDescs] at h ⊢
  refine ⟨inService ex f (Ble.Props.enough ss) c j a, (addDescs ex f (Ble.Props.enough ss) c x).1, by rw [List.getElem?_modify, ha]; simp, by simp only [inService]; rw [List.getElem?_modify, hx]; simp, rfl, ?_⟩
  have hs : ∃ c' l, descOuter ex x.info.endHandle (Ble.Props.enough ss) c (add16 x.info.valueHandle 1) [] = .ok (some (c', l)) := by
    revert h
    unfold succeeded
    split
    · next h9 =>
      intro _
      unfold discoverDescriptors at h9
      obtain ⟨r, hr, h9⟩ := Go.bind_eq_ok.1 h9
      cases r with
      | none => cases h9
      | some r => exact ⟨r.1, r.2, hr⟩
    · intro h; cases h
  obtain ⟨c', l, hl⟩ := hs
  simp only [addDescs, CharProf.add]
  rw [descFound_ok _ _ _ _ _ _ _ _ hl]
  rw [hxy] at hl
  rw [(descs_true ⟨hp, hf, h1, h2, h3, h4⟩ ⟨h5, h6⟩ hb hy).2 _ _ hl]
  intro d hd hk
  simp only [List.mem_append, List.mem_filter]
  exact Or.inr ⟨hd, hk⟩

/-! ## What is false -/

/-- One service with two notifying characteristics, whose UUIDs have different sizes. -/
def twoNotify : List (Svc Unit) :=
  [ { uuid := put16 0x180D
      chars := [ { uuid := put16 0x2A37, prop := 0x10, hasNotify := true }, { uuid := List.replicate 16 7, prop := 0x10, hasNotify := true } ] } ]

/-- A server with that table. -/
def twoServer : Server (CState Unit) := { db := newDB twoNotify 1, mtu := 23, rxMTU := 515, prep := none, prepData := [], st := CState.init () }

/-- The history: a `DiscoverProfile` that fails at its third request, and a `DiscoverDescriptors` on the characteristic found, none of whose requests fails. -/
def twoHistory : List (Op × Exchange (Server (CState Unit) × Nat) × Cli (Server (CState Unit) × Nat)) :=
  [(.profile false, cut serverPeer, Cli.new (twoServer, 2) 23 23), (.descs 0 0 none, cut serverPeer, Cli.new (twoServer, 10) 23 23)]

/-- **C208, what is false** The CCCD of the first characteristic has handle 4. The client takes that of the second, with handle 7, for it (a subscription to the first characteristic subscribes to the second), and lists the declaration, value and CCCD
of the second characteristic among the descriptors of the first. -/
theorem wrong_cccd :
    run (Ble.Props.enough twoNotify) twoHistory =
      some [{ info := ⟨put16 0x180D, 1, 0xFFFF⟩
              chars := [{ info := ⟨put16 0x2A37, 0x10, 2, 3, 0xFFFF⟩
                          descs := [⟨put16 0x2902, 4⟩, ⟨put16 0x2803, 5⟩, ⟨List.replicate 16 7, 6⟩, ⟨put16 0x2902, 7⟩]
                          cccd := some ⟨put16 0x2902, 7⟩ }] }] ∧
    (svcProfs twoNotify 1).map (fun b => b.chars.map fun y => (y.info.endHandle, y.cccd.map DescInfo.handle)) = [[(4, some 4), (0xFFFF, some 7)]] := by
  constructor
  · decide +kernel
  · decide +kernel

/-- The hypotheses are met by that history, and by every other one on that server. -/
theorem two_meets (k : Nat) : Proper twoNotify ∧ 1 + dbSize twoNotify ≤ 65535 ∧ Meets twoNotify (cut serverPeer) (Cli.new (twoServer, k) 23 23) := by
  refine ⟨?_, by decide, twoServer, _, .transport, rfl, by decide, by decide, cut_faulty serverPeer, rfl, by simp [Cli.new]⟩
  intro s hs
  simp only [twoNotify, List.mem_cons, List.not_mem_nil, or_false] at hs
  subst hs
  refine ⟨Or.inl rfl, ?_⟩
  intro c hc
  simp only [List.mem_cons, List.not_mem_nil, or_false] at hc
  rcases hc with rfl | rfl
  · exact ⟨Or.inl rfl, by decide, by simp⟩
  · exact ⟨Or.inr rfl, by decide, by simp⟩

/-- A history with a failed and a repeated discovery, filtered and not: what it leaves. -/
theorem history_example :
    run (Ble.Props.enough twoNotify) [(.services (some [put16 0x180D]), cut serverPeer, Cli.new (twoServer, 9) 23 23), (.chars 0 (some [List.replicate 16 7]), cut serverPeer, Cli.new (twoServer, 9) 23 23),
      (.descs 0 0 none, cut serverPeer, Cli.new (twoServer, 9) 23 23)] =
      some [{ info := ⟨put16 0x180D, 1, 0xFFFF⟩, chars := [{ info := ⟨List.replicate 16 7, 0x10, 5, 6, 0xFFFF⟩, descs := [⟨put16 0x2902, 7⟩], cccd := some ⟨put16 0x2902, 7⟩ }] }] := by decide +kernel

/-- Calls that succeed and calls that fail. -/
theorem outcome_example :
    (step (cut serverPeer) (Ble.Props.enough twoNotify) (Cli.new (twoServer, 9) 23 23) none (.services none)).2 = true ∧
    (step (cut serverPeer) (Ble.Props.enough twoNotify) (Cli.new (twoServer, 0) 23 23) none (.services none)).2 = false ∧
    (step (cut serverPeer) (Ble.Props.enough twoNotify) (Cli.new (twoServer, 9) 23 23) (some [{ info := ⟨put16 0x180D, 1, 0xFFFF⟩ }]) (.chars 0 none)).2 = true ∧
    (step (cut serverPeer) (Ble.Props.enough twoNotify) (Cli.new (twoServer, 1) 23 23) (some [{ info := ⟨put16 0x180D, 1, 0xFFFF⟩ }]) (.chars 0 none)).2 = false ∧
    (step (cut serverPeer) (Ble.Props.enough twoNotify) (Cli.new (twoServer, 9) 23 23) (some [{ info := ⟨put16 0x180D, 1, 0xFFFF⟩, chars := [{ info := ⟨put16 0x2A37, 0x10, 2, 3, 4⟩ }] }]) (.descs 0 0 none)).2 = true ∧
    (step (cut serverPeer) (Ble.Props.enough twoNotify) (Cli.new (twoServer, 9) 23 23) none (.profile false)).2 = true := by
  refine ⟨?_, ?_, ?_, ?_, ?_, ?_⟩ <;> decide +kernel

end Ble.DiscHist
