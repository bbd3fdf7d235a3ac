import Verif.Att.CccdSpec
import Verif.Att.ServerLemmas
set_option autoImplicit false

namespace Ble.Att

open Ble.Spec

variable {α σ : Type}

/-- The handlers of an attribute are an application's, or those of the CCCD of a characteristic in `refs`. -/
structure AttrOk (refs : CharRef → Prop) (a : Attr (CState α)) : Prop where
  rh : ∀ f, a.rh = some f → (∃ g, f = liftRead g) ∨ ∃ c, f = cccdRead c
  wh : ∀ f, a.wh = some f → (∃ g, f = liftWrite g) ∨ ∃ c, refs c ∧ f = cccdWrite c

/-- All attributes of the table, and the prepared one, are of that kind. -/
structure WF (refs : CharRef → Prop) (s : Server (CState α)) : Prop where
  db : ∀ a ∈ s.db.attrs, AttrOk refs a
  prep : ∀ a, s.prep = some a → AttrOk refs a

theorem _root_.Ble.Spec.Evolves.trans {refs : CharRef → Prop} {a b c : CState α} {e1 e2 : List (CharRef × Bytes)}
    (h1 : Evolves refs a e1 b) (h2 : Evolves refs b e2 c) : Evolves refs a (e1 ++ e2) c := by
  induction h2 with
  | start => simpa using h1
  | app x _ ih => exact .app x ih
  | write _ hr hw ih => rw [← List.append_assoc]; exact .write ih hr hw

/-- `s` leads to `s'`, without CCCD writes if `W` does not hold. -/
def Leads (W : Prop) (refs : CharRef → Prop) (s s' : Server (CState α)) : Prop :=
  WF refs s → WF refs s' ∧ ∃ evs, (¬ W → evs = []) ∧ Evolves refs s.st evs s'.st

theorem Leads.refl {W : Prop} {refs : CharRef → Prop} {s : Server (CState α)} : Leads W refs s s := fun h => ⟨h, [], fun _ => rfl, .start⟩

theorem Leads.trans {W : Prop} {refs : CharRef → Prop} {a b c : Server (CState α)} (h1 : Leads W refs a b) (h2 : Leads W refs b c) :
    Leads W refs a c := by
  intro h
  obtain ⟨w1, e1, n1, ev1⟩ := h1 h
  obtain ⟨w2, e2, n2, ev2⟩ := h2 w1
  exact ⟨w2, _, fun hw => by rw [n1 hw, n2 hw]; rfl, ev1.trans ev2⟩

/-- The opcodes that can write. -/
def Writes (r : Bytes) : Prop := r.head? = some 0x12 ∨ r.head? = some 0x52 ∨ r.head? = some 0x18

theorem Leads.mono {W V : Prop} {refs : CharRef → Prop} {a b : Server (CState α)} (h : Leads W refs a b) (hv : W → V) : Leads V refs a b := by
  intro hw
  obtain ⟨w, e, n, ev⟩ := h hw
  exact ⟨w, e, fun hn => n fun x => hn (hv x), ev⟩

theorem serveRead_leads {W : Prop} {refs : CharRef → Prop} {s s' : Server (CState α)} {f : ReadH (CState α)} {off cap : Nat} {e : UInt8} {w : Bytes}
    (hf : (∃ g, f = liftRead g) ∨ ∃ c, f = cccdRead c) (h : serveRead f s off cap = .ok (s', e, w)) : Leads W refs s s' := by
  obtain ⟨⟨st, ch, e'⟩, h1, h⟩ := Go.bind_eq_ok.1 h
  cases h
  intro hw
  refine ⟨⟨hw.db, hw.prep⟩, [], fun _ => rfl, ?_⟩
  rcases hf with ⟨g, rfl⟩ | ⟨c, rfl⟩
  · obtain ⟨⟨a, ch', e''⟩, h2, h1⟩ := Go.bind_eq_ok.1 h1
    cases h1
    exact .app a .start
  · cases h1; exact .start

theorem write_leads {refs : CharRef → Prop} {s : Server (CState α)} {st : CState α} {f : WriteH (CState α)} {d : Bytes} {e : UInt8}
    (hf : (∃ g, f = liftWrite g) ∨ ∃ c, refs c ∧ f = cccdWrite c) (h : f s.st d = .ok (st, e)) : ∃ evs, Evolves refs s.st evs st := by
  rcases hf with ⟨g, rfl⟩ | ⟨c, hc, rfl⟩
  · obtain ⟨⟨a, e''⟩, h2, h1⟩ := Go.bind_eq_ok.1 h
    cases h1
    exact ⟨[], .app a .start⟩
  · exact ⟨[(c, d)], .write .start hc h⟩

theorem handleATT_leads {refs : CharRef → Prop} {a : Option (Attr (CState α))} {s s' : Server (CState α)} {r : Bytes} {cap : Nat} {e : UInt8}
    {w : Bytes} (ha : ∀ x, a = some x → AttrOk refs x) (h : handleATT a s r cap = .ok (s', e, w)) : Leads (Writes r) refs s s' := by
  unfold handleATT at h
  obtain ⟨op, ho, h⟩ := Go.bind_eq_ok.1 h
  have ho : r.head? = some op := by
    cases r with
    | nil => cases ho
    | cons x xs => cases ho; rfl
  cases a with
  | none =>
    simp only at h
    split at h; · cases h
    split at h; · cases h
    split at h; · cases h
    split at h; · cases h
    split at h; · cases h
    cases h; exact .refl
  | some a =>
    have ha := ha a rfl
    simp only at h
    split at h
    · split at h
      · cases h; exact .refl
      · rename_i f hf; exact serveRead_leads (ha.rh f hf) h
    split at h
    · split at h
      · cases h; exact .refl
      · rename_i f hf
        obtain ⟨off, -, h⟩ := Go.bind_eq_ok.1 h; exact serveRead_leads (ha.rh f hf) h
    split at h
    · split at h
      · cases h; exact .refl
      · obtain ⟨d, -, h⟩ := Go.bind_eq_ok.1 h
        cases h
        intro hw
        unfold enqueue; split
        · exact ⟨⟨hw.db, fun x hx => by cases hx; exact ha⟩, [], fun _ => rfl, .start⟩
        · exact ⟨⟨hw.db, fun x hx => hw.prep x hx⟩, [], fun _ => rfl, .start⟩
    split at h
    · split at h
      · cases h; exact .refl
      · rename_i f hf
        obtain ⟨⟨st, e'⟩, h1, h⟩ := Go.bind_eq_ok.1 h
        cases h
        intro hw
        obtain ⟨evs, hev⟩ := write_leads (ha.wh f hf) h1
        refine ⟨⟨hw.db, fun x hx => by cases hx⟩, evs, ?_, hev⟩
        intro hn
        exact absurd (Or.inr (Or.inr (by rw [ho, ‹op = 0x18›]))) hn
    split at h
    · split at h
      · cases h; exact .refl
      · rename_i f hf
        obtain ⟨d, -, h⟩ := Go.bind_eq_ok.1 h
        obtain ⟨⟨st, e'⟩, h1, h⟩ := Go.bind_eq_ok.1 h
        cases h
        intro hw
        obtain ⟨evs, hev⟩ := write_leads (ha.wh f hf) h1
        refine ⟨⟨hw.db, hw.prep⟩, evs, ?_, hev⟩
        intro hn
        rcases ‹op = 0x12 ∨ op = 0x52› with hop | hop
        · exact absurd (Or.inl (by rw [ho, hop])) hn
        · exact absurd (Or.inr (Or.inl (by rw [ho, hop]))) hn
    cases h; exact .refl

theorem reject_leads {W : Prop} {refs : CharRef → Prop} {s s' : Server (CState α)} {op : UInt8} {h : Nat} {e : UInt8} {o : Option Bytes}
    (hr : reject s op h e = .ok (s', o)) : Leads W refs s s' := by cases hr; exact .refl

theorem findByTypeValueLoop_leads {refs : CharRef → Prop} {cap : Nat} {typ value req : Bytes} {s s' : Server (CState α)}
    {as : List (Attr (CState α))} {buf : Bytes} {o : Option Bytes} (ha : ∀ a ∈ as, AttrOk refs a)
    (h : findByTypeValueLoop cap typ value req s as buf = .ok (s', o)) : Leads (Writes req) refs s s' := by
  induction as generalizing s buf with
  | nil => cases h; exact .refl
  | cons a as ih =>
    have ih' := fun {s buf} => @ih s buf (fun x hx => ha x (by simp [hx]))
    rw [findByTypeValueLoop] at h
    split at h
    · exact ih' h
    split at h
    · obtain ⟨⟨s1, e, w⟩, h1, h⟩ := Go.bind_eq_ok.1 h
      have l1 := handleATT_leads (refs := refs) (fun x hx => by cases hx; exact ha a (by simp)) h1
      simp only [] at h
      split at h
      · cases h; exact l1
      split at h
      · exact l1.trans (ih' h)
      split at h
      · cases h; exact l1
      · exact l1.trans (ih' h)
    · split at h
      · exact ih' h
      split at h
      · cases h; exact .refl
      · exact ih' h

theorem readByTypeLoop_leads {refs : CharRef → Prop} {cap : Nat} {typ req : Bytes} {s s' : Server (CState α)}
    {as : List (Attr (CState α))} {dlen : Nat} {buf : Bytes} {o : ListEnd} (ha : ∀ a ∈ as, AttrOk refs a)
    (h : readByTypeLoop cap typ req s as dlen buf = .ok (s', o)) : Leads (Writes req) refs s s' := by
  induction as generalizing s buf dlen with
  | nil => cases h; exact .refl
  | cons a as ih =>
    have ih' := fun {s dlen buf} => @ih s dlen buf (fun x hx => ha x (by simp [hx]))
    rw [readByTypeLoop] at h
    split at h
    · exact ih' h
    obtain ⟨⟨s1, r⟩, h1, h⟩ := Go.bind_eq_ok.1 h
    have l1 : Leads (Writes req) refs s s1 := by
      split at h1
      · cases h1; exact .refl
      · obtain ⟨⟨s2, e, w⟩, h2, h1⟩ := Go.bind_eq_ok.1 h1
        cases h1
        exact handleATT_leads (fun x hx => by cases hx; exact ha a (by simp)) h2
    simp only [] at h
    split at h
    · cases h; exact l1
    · obtain ⟨⟨d, nb⟩, -, h⟩ := Go.bind_eq_ok.1 h
      simp only [] at h
      split at h
      · cases h; exact l1
      · exact l1.trans (ih' h)

theorem readByGroupLoop_leads {refs : CharRef → Prop} {cap : Nat} {req : Bytes} {s s' : Server (CState α)}
    {as : List (Attr (CState α))} {dlen : Nat} {buf : Bytes} {o : ListEnd} (ha : ∀ a ∈ as, AttrOk refs a)
    (h : readByGroupLoop cap req s as dlen buf = .ok (s', o)) : Leads (Writes req) refs s s' := by
  induction as generalizing s buf dlen with
  | nil => cases h; exact .refl
  | cons a as ih =>
    have ih' := fun {s dlen buf} => @ih s dlen buf (fun x hx => ha x (by simp [hx]))
    rw [readByGroupLoop] at h
    obtain ⟨⟨s1, r⟩, h1, h⟩ := Go.bind_eq_ok.1 h
    have l1 : Leads (Writes req) refs s s1 := by
      split at h1
      · cases h1; exact .refl
      · split at h1
        · cases h1
        obtain ⟨⟨s2, e, w⟩, h2, h1⟩ := Go.bind_eq_ok.1 h1
        cases h1
        exact handleATT_leads (fun x hx => by cases hx; exact ha a (by simp)) h2
    simp only [] at h
    split at h
    · cases h; exact l1
    · obtain ⟨⟨d, nb⟩, -, h⟩ := Go.bind_eq_ok.1 h
      simp only [] at h
      split at h
      · cases h; exact l1
      · exact l1.trans (ih' h)

theorem subrange_mem {db : DB σ} {lo hi : Nat} {as : List (Attr σ)} (h : db.subrange lo hi = .ok as) : ∀ a ∈ as, a ∈ db.attrs := by
  have key : ∀ i j, ((if i ≤ j then .ok ((db.attrs.take j).drop i) else .panic : Run (List (Attr σ))) = .ok as) → ∀ a ∈ as, a ∈ db.attrs := by
    intro i j h
    split at h
    · cases h
      intro a ha
      exact List.mem_of_mem_take (List.mem_of_mem_drop ha)
    · cases h
  unfold DB.subrange at h
  cases h1 : db.idx lo <;> cases h2 : db.idx (hi + 1) <;> simp only [h1, h2] at h <;>
    first
      | (cases h; simp; done)
      | exact key _ _ h

theorem at_mem {db : DB σ} {h : Nat} {a : Attr σ} (ha : db.at h = some a) : a ∈ db.attrs := by
  unfold DB.at at ha
  split at ha
  · exact List.mem_of_getElem? ha
  · cases ha

theorem handleRequest_leads {refs : CharRef → Prop} {s s' : Server (CState α)} {b : Bytes} {o : Option Bytes}
    (h : handleRequest s b = .ok (s', o)) : Leads (Writes b) refs s s' := by
  intro hw
  revert hw
  suffices WF refs s → Leads (Writes b) refs s s' from fun hw => this hw hw
  intro hw
  cases b with
  | nil => cases h; exact .refl
  | cons op t =>
    unfold handleRequest at h
    simp only [] at h
    split at h
    · unfold handleExchangeMTU at h
      simp only [index_cons_zero, Go.bind_ok] at h
      split at h
      · exact reject_leads h
      obtain ⟨m, -, h⟩ := Go.bind_eq_ok.1 h
      split at h
      · exact reject_leads h
      · cases h; exact fun hw => ⟨⟨hw.db, hw.prep⟩, [], fun _ => rfl, .start⟩
    split at h
    · unfold handleFindInfo at h
      simp only [index_cons_zero, Go.bind_ok] at h
      split at h
      · exact reject_leads h
      obtain ⟨lo, -, h⟩ := Go.bind_eq_ok.1 h
      obtain ⟨hi, -, h⟩ := Go.bind_eq_ok.1 h
      split at h
      · exact reject_leads h
      obtain ⟨as, -, h⟩ := Go.bind_eq_ok.1 h
      split at h
      · exact reject_leads h
      · cases h; exact .refl
    split at h
    · unfold handleFindByTypeValue at h
      simp only [index_cons_zero, Go.bind_ok] at h
      split at h
      · exact reject_leads h
      obtain ⟨lo, -, h⟩ := Go.bind_eq_ok.1 h
      obtain ⟨hi, -, h⟩ := Go.bind_eq_ok.1 h
      split at h
      · exact reject_leads h
      obtain ⟨ty, -, h⟩ := Go.bind_eq_ok.1 h
      obtain ⟨va, -, h⟩ := Go.bind_eq_ok.1 h
      obtain ⟨as, hs, h⟩ := Go.bind_eq_ok.1 h
      obtain ⟨⟨s1, out⟩, h1, h⟩ := Go.bind_eq_ok.1 h
      have l1 := findByTypeValueLoop_leads (refs := refs) (fun a ha => hw.db a (subrange_mem hs a ha)) h1
      simp only [] at h
      split at h
      · exact l1.trans (reject_leads h)
      split at h
      · exact l1.trans (reject_leads h)
      · cases h; exact l1
    split at h
    · unfold handleReadByType at h
      simp only [index_cons_zero, Go.bind_ok] at h
      split at h
      · exact reject_leads h
      obtain ⟨lo, -, h⟩ := Go.bind_eq_ok.1 h
      obtain ⟨hi, -, h⟩ := Go.bind_eq_ok.1 h
      split at h
      · exact reject_leads h
      obtain ⟨ty, -, h⟩ := Go.bind_eq_ok.1 h
      obtain ⟨as, hs, h⟩ := Go.bind_eq_ok.1 h
      obtain ⟨⟨s1, out⟩, h1, h⟩ := Go.bind_eq_ok.1 h
      have l1 := readByTypeLoop_leads (refs := refs) (fun a ha => hw.db a (subrange_mem hs a ha)) h1
      simp only [] at h
      split at h
      · exact l1.trans (reject_leads h)
      split at h
      · exact l1.trans (reject_leads h)
      · cases h; exact l1
    split at h
    · unfold handleRead at h
      simp only [index_cons_zero, Go.bind_ok] at h
      split at h
      · exact reject_leads h
      obtain ⟨hd, -, h⟩ := Go.bind_eq_ok.1 h
      split at h
      · exact reject_leads h
      rename_i a ha
      split at h
      · obtain ⟨r, -, h⟩ := Go.bind_eq_ok.1 h
        cases h; exact .refl
      · obtain ⟨⟨s1, e, w⟩, h1, h⟩ := Go.bind_eq_ok.1 h
        have l1 := handleATT_leads (refs := refs) (fun x hx => by cases hx; exact hw.db a (at_mem ha)) h1
        simp only [] at h
        split at h
        · exact l1.trans (reject_leads h)
        · cases h; exact l1
    split at h
    · unfold handleReadBlob at h
      simp only [index_cons_zero, Go.bind_ok] at h
      split at h
      · exact reject_leads h
      obtain ⟨hd, -, h⟩ := Go.bind_eq_ok.1 h
      split at h
      · exact reject_leads h
      rename_i a ha
      split at h
      · obtain ⟨r, -, h⟩ := Go.bind_eq_ok.1 h
        cases h; exact .refl
      · obtain ⟨⟨s1, e, w⟩, h1, h⟩ := Go.bind_eq_ok.1 h
        have l1 := handleATT_leads (refs := refs) (fun x hx => by cases hx; exact hw.db a (at_mem ha)) h1
        simp only [] at h
        split at h
        · exact l1.trans (reject_leads h)
        · cases h; exact l1
    split at h
    · unfold handleReadByGroup at h
      simp only [index_cons_zero, Go.bind_ok] at h
      split at h
      · exact reject_leads h
      obtain ⟨lo, -, h⟩ := Go.bind_eq_ok.1 h
      obtain ⟨hi, -, h⟩ := Go.bind_eq_ok.1 h
      split at h
      · exact reject_leads h
      obtain ⟨as, hs, h⟩ := Go.bind_eq_ok.1 h
      obtain ⟨⟨s1, out⟩, h1, h⟩ := Go.bind_eq_ok.1 h
      have l1 := readByGroupLoop_leads (refs := refs) (fun a ha => hw.db a (subrange_mem hs a ha)) h1
      simp only [] at h
      split at h
      · exact l1.trans (reject_leads h)
      split at h
      · exact l1.trans (reject_leads h)
      · cases h; exact l1
    split at h
    · unfold handleWrite at h
      simp only [index_cons_zero, Go.bind_ok] at h
      split at h
      · exact reject_leads h
      obtain ⟨hd, -, h⟩ := Go.bind_eq_ok.1 h
      split at h
      · exact reject_leads h
      rename_i a ha
      obtain ⟨⟨s1, e, w⟩, h1, h⟩ := Go.bind_eq_ok.1 h
      have l1 := handleATT_leads (refs := refs) (fun x hx => by cases hx; exact hw.db a (at_mem ha)) h1
      simp only [] at h
      split at h
      · exact l1.trans (reject_leads h)
      · cases h; exact l1
    split at h
    · unfold handleWriteCommand at h
      split at h
      · cases h; exact .refl
      obtain ⟨hd, -, h⟩ := Go.bind_eq_ok.1 h
      split at h
      · cases h; exact .refl
      rename_i a ha
      obtain ⟨⟨s1, e, w⟩, h1, h⟩ := Go.bind_eq_ok.1 h
      have l1 := handleATT_leads (refs := refs) (fun x hx => by cases hx; exact hw.db a (at_mem ha)) h1
      cases h; exact l1
    split at h
    · unfold handlePrepareWrite at h
      obtain ⟨hd, -, h⟩ := Go.bind_eq_ok.1 h
      simp only [index_cons_zero, Go.bind_ok] at h
      split at h
      · exact reject_leads h
      split at h
      · exact reject_leads h
      rename_i a ha
      obtain ⟨⟨s1, e, w⟩, h1, h⟩ := Go.bind_eq_ok.1 h
      have l1 := handleATT_leads (refs := refs) (fun x hx => by cases hx; exact hw.db a (at_mem ha)) h1
      simp only [] at h
      split at h
      · exact l1.trans (reject_leads h)
      · cases h; exact l1
    split at h
    · unfold handleExecuteWrite at h
      simp only [index_cons_zero, Go.bind_ok] at h
      split at h
      · exact reject_leads h
      obtain ⟨fl, -, h⟩ := Go.bind_eq_ok.1 h
      split at h
      · cases h; exact fun hw => ⟨⟨hw.db, fun x hx => by cases hx⟩, [], fun _ => rfl, .start⟩
      split at h
      · obtain ⟨⟨s1, e, w⟩, h1, h⟩ := Go.bind_eq_ok.1 h
        have l1 := handleATT_leads (refs := refs) (fun x hx => hw.prep x hx) h1
        simp only [] at h
        split at h
        · exact l1.trans (reject_leads h)
        · cases h; exact l1
      · cases h; exact .refl
    · exact reject_leads h

theorem loopStep_leads {refs : CharRef → Prop} {s s' : Server (CState α)} {b : Bytes} {o : List Bytes}
    (h : loopStep s b = .ok (s', o)) : Leads (Writes b) refs s s' := by
  unfold loopStep at h
  split at h
  · cases h; exact .refl
  · obtain ⟨⟨s1, r⟩, h1, h⟩ := Go.bind_eq_ok.1 h
    have := handleRequest_leads (refs := refs) h1
    simp only [] at h
    split at h <;> (cases h; exact this)

theorem loop_leads {refs : CharRef → Prop} {s s' : Server (CState α)} {bs : List Bytes} {os : List (List Bytes)}
    (h : loop s bs = .ok (s', os)) : Leads (∃ b ∈ bs, Writes b) refs s s' := by
  induction bs generalizing s os with
  | nil => cases h; exact .refl
  | cons b bs ih =>
    rw [loop] at h
    obtain ⟨⟨s1, o⟩, h1, h⟩ := Go.bind_eq_ok.1 h
    obtain ⟨⟨s2, os'⟩, h2, h⟩ := Go.bind_eq_ok.1 h
    cases h
    exact ((loopStep_leads h1).mono fun hw => ⟨b, by simp, hw⟩).trans ((ih h2).mono fun ⟨x, hx, hw⟩ => ⟨x, by simp [hx], hw⟩)

/-- Every attribute of a table made from services is of the kind `AttrOk`, for the characteristics of those services. -/
theorem svcsAt_attrOk (ss : List (Svc α)) (h : Nat) :
    ∀ a ∈ svcsAt ss h, AttrOk (fun c => ∃ s ∈ ss, ∃ ch ∈ s.chars, c.prop = ch.prop ∧ c.hasNotify = ch.hasNotify ∧ c.hasIndicate = ch.hasIndicate) a := by
  have none' : ∀ (refs : CharRef → Prop) (a : Attr (CState α)), a.rh = none → a.wh = none → AttrOk refs a := by
    intro refs a h1 h2
    constructor
    · intro f hf; rw [h1] at hf; cases hf
    · intro f hf; rw [h2] at hf; cases hf
  have lift : ∀ (refs : CharRef → Prop) (a : Attr (CState α)) (r : Option (ReadH α)) (w : Option (WriteH α)),
      a.rh = r.map liftRead → a.wh = w.map liftWrite → AttrOk refs a := by
    intro refs a r w h1 h2
    constructor
    · intro f hf
      rw [h1] at hf
      cases r with
      | none => cases hf
      | some g => cases hf; exact Or.inl ⟨g, rfl⟩
    · intro f hf
      rw [h2] at hf
      cases w with
      | none => cases hf
      | some g => cases hf; exact Or.inl ⟨g, rfl⟩
  have descs : ∀ (refs : CharRef → Prop) (r : CharRef) (_ : refs r) (ds : List (Desc α)) (h : Nat), ∀ a ∈ descsAt r ds h, AttrOk refs a := by
    intro refs r hr ds
    induction ds with
    | nil => intro h a ha; simp [descsAt] at ha
    | cons d ds ih =>
      intro h a ha
      simp only [descsAt, List.mem_cons] at ha
      rcases ha with rfl | ha
      · cases d with
        | app u v rh wh => exact lift refs _ rh wh rfl rfl
        | cccd =>
          constructor
          · intro f hf; cases hf; exact Or.inr ⟨r, rfl⟩
          · intro f hf; cases hf; exact Or.inr ⟨r, hr, rfl⟩
      · exact ih _ a ha
  have chars : ∀ (refs : CharRef → Prop) (cs : List (Char α)) (h : Nat),
      (∀ ch ∈ cs, ∀ c : CharRef, c.prop = ch.prop → c.hasNotify = ch.hasNotify → c.hasIndicate = ch.hasIndicate → refs c) →
      ∀ a ∈ charsAt cs h, AttrOk refs a := by
    intro refs cs
    induction cs with
    | nil => intro h _ a ha; simp [charsAt] at ha
    | cons c cs ih =>
      intro h hr a ha
      simp only [charsAt, List.mem_append] at ha
      rcases ha with ha | ha
      · simp only [charAt, List.mem_cons] at ha
        rcases ha with rfl | rfl | ha
        · exact none' _ _ rfl rfl
        · exact lift _ _ c.rh c.wh rfl rfl
        · exact descs refs _ (hr c (by simp) _ rfl rfl rfl) _ _ a ha
      · exact ih _ (fun ch hch => hr ch (by simp [hch])) a ha
  intro a ha
  generalize hrefs : (fun c : CharRef => ∃ s ∈ ss, ∃ ch ∈ s.chars, c.prop = ch.prop ∧ c.hasNotify = ch.hasNotify ∧ c.hasIndicate = ch.hasIndicate) = refs
  have hr : ∀ s ∈ ss, ∀ ch ∈ s.chars, ∀ c : CharRef, c.prop = ch.prop → c.hasNotify = ch.hasNotify → c.hasIndicate = ch.hasIndicate → refs c := by
    intro s hs ch hch c h1 h2 h3
    rw [← hrefs]; exact ⟨s, hs, ch, hch, h1, h2, h3⟩
  clear hrefs
  induction ss generalizing h with
  | nil => simp [svcsAt] at ha
  | cons s ss ih =>
    simp only [svcsAt, List.mem_append] at ha
    rcases ha with ha | ha
    · simp only [svcAt, List.mem_cons] at ha
      rcases ha with rfl | ha
      · exact none' _ _ rfl rfl
      · exact chars refs _ _ (hr s (by simp)) a ha
    · exact ih _ ha (fun s' hs' => hr s' (by simp [hs']))

end Ble.Att
