import Verif.Props.AttWrite
import Verif.Att.CccdLemmas
set_option autoImplicit false

/-!
# C155: exactly which writes reach the application

Every sequence of PDUs from the peer, of whatever kinds and however formed.
-/

namespace Ble.Queue

open Ble.Att

variable {σ : Type}

/-! ## Specification -/

/-- The handle in a request. -/
def handle (lo hi : UInt8) : Nat := lo.toNat + 256 * hi.toNat

/-- What has been prepared, after a PDU: the handle of the first prepared write, and the values of all of them, also of those for other handles. `w h`: handle `h` can be written. -/
def prepared (w : Nat → Bool) (q : Option (Nat × Bytes)) : Bytes → Option (Nat × Bytes)
  | 0x16 :: lo :: hi :: _ :: _ :: v =>
    if w (handle lo hi) then some (match q with | none => (handle lo hi, v) | some p => (p.1, p.2 ++ v)) else q
  | 0x18 :: 0x00 :: _ => none
  | 0x18 :: 0x01 :: _ => none
  | _ => q

/-- What the application gets when a PDU arrives, as (handle, value). -/
def delivered (w : Nat → Bool) (q : Option (Nat × Bytes)) : Bytes → List (Nat × Bytes)
  | 0x12 :: lo :: hi :: v => if w (handle lo hi) then [(handle lo hi, v)] else []
  | 0x52 :: lo :: hi :: v => if w (handle lo hi) ∧ v ≠ [] then [(handle lo hi, v)] else []
  | 0x18 :: 0x01 :: _ => q.toList
  | _ => []

/-- What it gets when these PDUs arrive one after the other. -/
def deliveries (w : Nat → Bool) : Option (Nat × Bytes) → List Bytes → List (Nat × Bytes)
  | _, [] => []
  | q, b :: bs => delivered w q b ++ deliveries w (prepared w q b) bs

/-- An application that keeps a log of the writes it gets: the write handler of handle `h` appends, the read handlers do not. -/
structure Logging (db : DB σ) (log : σ → List (Nat × Bytes)) : Prop where
  write : ∀ h a f, db.at h = some a → a.wh = some f → ∀ st d st' e, f st d = .ok (st', e) → log st' = log st ++ [(h, d)]
  read : ∀ a ∈ db.attrs, ∀ f, a.rh = some f → ∀ st off cap st' cs e, f st off cap = .ok (st', cs, e) → log st' = log st

/-- The handle exists and has a write handler. -/
def writable (db : DB σ) (h : Nat) : Bool := match db.at h with | some a => a.wh.isSome | none => false

/-! ## Requests that write nothing -/

namespace Aux

/-- Table, queue and log are as before. -/
def Kept (log : σ → List (Nat × Bytes)) (s s' : Server σ) : Prop := s'.db = s.db ∧ s'.prep = s.prep ∧ s'.prepData = s.prepData ∧ log s'.st = log s.st

theorem Kept.refl {log : σ → List (Nat × Bytes)} {s : Server σ} : Kept log s s := ⟨rfl, rfl, rfl, rfl⟩

theorem Kept.trans {log : σ → List (Nat × Bytes)} {a b c : Server σ} (h1 : Kept log a b) (h2 : Kept log b c) : Kept log a c :=
  ⟨h2.1.trans h1.1, h2.2.1.trans h1.2.1, h2.2.2.1.trans h1.2.2.1, h2.2.2.2.trans h1.2.2.2⟩

/-- The read handler of the attribute, if any, does not log. -/
def ReadsOk (log : σ → List (Nat × Bytes)) (a : Attr σ) : Prop := ∀ f, a.rh = some f → ∀ st off cap st' cs e, f st off cap = .ok (st', cs, e) → log st' = log st

theorem serveRead_kept {log : σ → List (Nat × Bytes)} {s s' : Server σ} {f : ReadH σ} {off cap : Nat} {e : UInt8} {w : Bytes}
    (hf : ∀ st off cap st' cs e, f st off cap = .ok (st', cs, e) → log st' = log st) (h : serveRead f s off cap = .ok (s', e, w)) : Kept log s s' := by
  obtain ⟨⟨st, ch, e'⟩, h1, h⟩ := Go.bind_eq_ok.1 h
  cases h
  exact ⟨rfl, rfl, rfl, hf _ _ _ _ _ _ h1⟩

theorem reject_kept {log : σ → List (Nat × Bytes)} {s s' : Server σ} {op : UInt8} {h : Nat} {e : UInt8} {o : Option Bytes}
    (hr : reject s op h e = .ok (s', o)) : Kept log s s' := by cases hr; exact .refl

/-- The opcodes that can write or change the queue. -/
def Changes (r : Bytes) : Prop := r.head? = some 0x12 ∨ r.head? = some 0x52 ∨ r.head? = some 0x16 ∨ r.head? = some 0x18

theorem handleATT_kept {log : σ → List (Nat × Bytes)} {a : Attr σ} {s s' : Server σ} {r : Bytes} {cap : Nat} {e : UInt8}
    {w : Bytes} (ha : ReadsOk log a) (hr : ¬ Changes r) (h : handleATT (some a) s r cap = .ok (s', e, w)) : Kept log s s' := by
  unfold handleATT at h
  obtain ⟨op, ho, h⟩ := Go.bind_eq_ok.1 h
  have ho : r.head? = some op := by
    cases r with
    | nil => cases ho
    | cons x xs => cases ho; rfl
  simp only [Changes, ho, Option.some.injEq, not_or] at hr
  simp only at h
  split at h
  · split at h
    · cases h; exact .refl
    · rename_i f hf; exact serveRead_kept (ha f hf) h
  split at h
  · split at h
    · cases h; exact .refl
    · rename_i f hf
      obtain ⟨off, -, h⟩ := Go.bind_eq_ok.1 h; exact serveRead_kept (ha f hf) h
  split at h
  · exact absurd (by assumption) hr.2.2.1
  split at h
  · exact absurd (by assumption) hr.2.2.2
  split at h
  · rename_i hc; exact absurd hc (by simp [hr.1, hr.2.1])
  cases h; exact .refl

theorem findByTypeValueLoop_kept {log : σ → List (Nat × Bytes)} {cap : Nat} {typ value req : Bytes} (hr : ¬ Changes req) {s s' : Server σ}
    {as : List (Attr σ)} {buf : Bytes} {o : Option Bytes} (ha : ∀ a ∈ as, ReadsOk log a)
    (h : findByTypeValueLoop cap typ value req s as buf = .ok (s', o)) : Kept log s s' := by
  induction as generalizing s buf with
  | nil => cases h; exact .refl
  | cons a as ih =>
    have ih' := fun {s buf} => @ih s buf (fun x hx => ha x (by simp [hx]))
    rw [findByTypeValueLoop] at h
    split at h
    · exact ih' h
    split at h
    · obtain ⟨⟨s1, e, w⟩, h1, h⟩ := Go.bind_eq_ok.1 h
      have l1 := handleATT_kept (ha a (by simp)) hr h1
      simp only [] at h
      split at h
      · cases h; exact l1
      split at h
      · exact l1.trans (ih' h)
      split at h
      · cases h; exact l1
      · exact l1.trans (ih' h)
    · split at h
      · exact ih' h
      split at h
      · cases h; exact .refl
      · exact ih' h

theorem readByTypeLoop_kept {log : σ → List (Nat × Bytes)} {cap : Nat} {typ req : Bytes} (hr : ¬ Changes req) {s s' : Server σ}
    {as : List (Attr σ)} {dlen : Nat} {buf : Bytes} {o : ListEnd} (ha : ∀ a ∈ as, ReadsOk log a)
    (h : readByTypeLoop cap typ req s as dlen buf = .ok (s', o)) : Kept log s s' := by
  induction as generalizing s buf dlen with
  | nil => cases h; exact .refl
  | cons a as ih =>
    have ih' := fun {s dlen buf} => @ih s dlen buf (fun x hx => ha x (by simp [hx]))
    rw [readByTypeLoop] at h
    split at h
    · exact ih' h
    obtain ⟨⟨s1, r⟩, h1, h⟩ := Go.bind_eq_ok.1 h
    have l1 : Kept log s s1 := by
      split at h1
      · cases h1; exact .refl
      · obtain ⟨⟨s2, e, w⟩, h2, h1⟩ := Go.bind_eq_ok.1 h1
        cases h1
        exact handleATT_kept (ha a (by simp)) hr h2
    simp only [] at h
    split at h
    · cases h; exact l1
    · obtain ⟨⟨d, nb⟩, -, h⟩ := Go.bind_eq_ok.1 h
      simp only [] at h
      split at h
      · cases h; exact l1
      · exact l1.trans (ih' h)

theorem readByGroupLoop_kept {log : σ → List (Nat × Bytes)} {cap : Nat} {req : Bytes} (hr : ¬ Changes req) {s s' : Server σ}
    {as : List (Attr σ)} {dlen : Nat} {buf : Bytes} {o : ListEnd} (ha : ∀ a ∈ as, ReadsOk log a)
    (h : readByGroupLoop cap req s as dlen buf = .ok (s', o)) : Kept log s s' := by
  induction as generalizing s buf dlen with
  | nil => cases h; exact .refl
  | cons a as ih =>
    have ih' := fun {s dlen buf} => @ih s dlen buf (fun x hx => ha x (by simp [hx]))
    rw [readByGroupLoop] at h
    obtain ⟨⟨s1, r⟩, h1, h⟩ := Go.bind_eq_ok.1 h
    have l1 : Kept log s s1 := by
      split at h1
      · cases h1; exact .refl
      · split at h1
        · cases h1
        obtain ⟨⟨s2, e, w⟩, h2, h1⟩ := Go.bind_eq_ok.1 h1
        cases h1
        exact handleATT_kept (ha a (by simp)) hr h2
    simp only [] at h
    split at h
    · cases h; exact l1
    · obtain ⟨⟨d, nb⟩, -, h⟩ := Go.bind_eq_ok.1 h
      simp only [] at h
      split at h
      · cases h; exact l1
      · exact l1.trans (ih' h)

theorem handleRequest_kept {log : σ → List (Nat × Bytes)} {s s' : Server σ} {b : Bytes} {o : Option Bytes} (hl : ∀ a ∈ s.db.attrs, ReadsOk log a) (hw : ¬ Changes b)
    (h : handleRequest s b = .ok (s', o)) : Kept log s s' := by
  cases b with
  | nil => cases h; exact .refl
  | cons op t =>
    have hw' := hw
    simp only [Changes, List.head?_cons, Option.some.injEq, not_or] at hw'
    unfold handleRequest at h
    simp only [] at h
    split at h
    · unfold handleExchangeMTU at h
      simp only [index_cons_zero, Go.bind_ok] at h
      split at h
      · exact reject_kept h
      obtain ⟨m, -, h⟩ := Go.bind_eq_ok.1 h
      split at h
      · exact reject_kept h
      · cases h; exact ⟨rfl, rfl, rfl, rfl⟩
    split at h
    · unfold handleFindInfo at h
      simp only [index_cons_zero, Go.bind_ok] at h
      split at h
      · exact reject_kept h
      obtain ⟨lo, -, h⟩ := Go.bind_eq_ok.1 h
      obtain ⟨hi, -, h⟩ := Go.bind_eq_ok.1 h
      split at h
      · exact reject_kept h
      obtain ⟨as, -, h⟩ := Go.bind_eq_ok.1 h
      split at h
      · exact reject_kept h
      · cases h; exact .refl
    split at h
    · unfold handleFindByTypeValue at h
      simp only [index_cons_zero, Go.bind_ok] at h
      split at h
      · exact reject_kept h
      obtain ⟨lo, -, h⟩ := Go.bind_eq_ok.1 h
      obtain ⟨hi, -, h⟩ := Go.bind_eq_ok.1 h
      split at h
      · exact reject_kept h
      obtain ⟨ty, -, h⟩ := Go.bind_eq_ok.1 h
      obtain ⟨va, -, h⟩ := Go.bind_eq_ok.1 h
      obtain ⟨as, hs, h⟩ := Go.bind_eq_ok.1 h
      obtain ⟨⟨s1, out⟩, h1, h⟩ := Go.bind_eq_ok.1 h
      have l1 := findByTypeValueLoop_kept (log := log) hw (fun a ha => hl a (subrange_mem hs a ha)) h1
      simp only [] at h
      split at h
      · exact l1.trans (reject_kept h)
      split at h
      · exact l1.trans (reject_kept h)
      · cases h; exact l1
    split at h
    · unfold handleReadByType at h
      simp only [index_cons_zero, Go.bind_ok] at h
      split at h
      · exact reject_kept h
      obtain ⟨lo, -, h⟩ := Go.bind_eq_ok.1 h
      obtain ⟨hi, -, h⟩ := Go.bind_eq_ok.1 h
      split at h
      · exact reject_kept h
      obtain ⟨ty, -, h⟩ := Go.bind_eq_ok.1 h
      obtain ⟨as, hs, h⟩ := Go.bind_eq_ok.1 h
      obtain ⟨⟨s1, out⟩, h1, h⟩ := Go.bind_eq_ok.1 h
      have l1 := readByTypeLoop_kept (log := log) hw (fun a ha => hl a (subrange_mem hs a ha)) h1
      simp only [] at h
      split at h
      · exact l1.trans (reject_kept h)
      split at h
      · exact l1.trans (reject_kept h)
      · cases h; exact l1
    split at h
    · unfold handleRead at h
      simp only [index_cons_zero, Go.bind_ok] at h
      split at h
      · exact reject_kept h
      obtain ⟨hd, -, h⟩ := Go.bind_eq_ok.1 h
      split at h
      · exact reject_kept h
      rename_i a ha
      split at h
      · obtain ⟨r, -, h⟩ := Go.bind_eq_ok.1 h
        cases h; exact .refl
      · obtain ⟨⟨s1, e, w⟩, h1, h⟩ := Go.bind_eq_ok.1 h
        have l1 := handleATT_kept (log := log) (hl a (at_mem ha)) hw h1
        simp only [] at h
        split at h
        · exact l1.trans (reject_kept h)
        · cases h; exact l1
    split at h
    · unfold handleReadBlob at h
      simp only [index_cons_zero, Go.bind_ok] at h
      split at h
      · exact reject_kept h
      obtain ⟨hd, -, h⟩ := Go.bind_eq_ok.1 h
      split at h
      · exact reject_kept h
      rename_i a ha
      split at h
      · obtain ⟨r, -, h⟩ := Go.bind_eq_ok.1 h
        cases h; exact .refl
      · obtain ⟨⟨s1, e, w⟩, h1, h⟩ := Go.bind_eq_ok.1 h
        have l1 := handleATT_kept (log := log) (hl a (at_mem ha)) hw h1
        simp only [] at h
        split at h
        · exact l1.trans (reject_kept h)
        · cases h; exact l1
    split at h
    · unfold handleReadByGroup at h
      simp only [index_cons_zero, Go.bind_ok] at h
      split at h
      · exact reject_kept h
      obtain ⟨lo, -, h⟩ := Go.bind_eq_ok.1 h
      obtain ⟨hi, -, h⟩ := Go.bind_eq_ok.1 h
      split at h
      · exact reject_kept h
      obtain ⟨as, hs, h⟩ := Go.bind_eq_ok.1 h
      obtain ⟨⟨s1, out⟩, h1, h⟩ := Go.bind_eq_ok.1 h
      have l1 := readByGroupLoop_kept (log := log) hw (fun a ha => hl a (subrange_mem hs a ha)) h1
      simp only [] at h
      split at h
      · exact l1.trans (reject_kept h)
      split at h
      · exact l1.trans (reject_kept h)
      · cases h; exact l1
    rw [if_neg hw'.1, if_neg hw'.2.1, if_neg hw'.2.2.1, if_neg hw'.2.2.2] at h
    exact reject_kept h

/-! ## Requests that write -/

/-- What the queue is. -/
def Tied (s : Server σ) (q : Option (Nat × Bytes)) : Prop :=
  match q with
  | none => s.prep = none
  | some (h, d) => ∃ a, s.prep = some a ∧ s.db.at h = some a ∧ a.wh.isSome = true ∧ s.prepData = d

theorem Tied.kept {log : σ → List (Nat × Bytes)} {s s' : Server σ} {q : Option (Nat × Bytes)} (h : Tied s q) (k : Kept log s s') : Tied s' q := by
  cases q with
  | none => exact k.2.1.trans h
  | some p =>
    obtain ⟨a, h1, h2, h3, h4⟩ := h
    exact ⟨a, k.2.1.trans h1, by rw [k.1]; exact h2, h3, k.2.2.1.trans h4⟩

theorem le16_handle (x lo hi : UInt8) (v : Bytes) : le16At (ε := Empty) (x :: lo :: hi :: v) 1 = .ok (handle lo hi) := by
  simp only [handle]
  rfl

theorem write_req {log : σ → List (Nat × Bytes)} {s s' : Server σ} {lo hi : UInt8} {v : Bytes} {o : Option Bytes} {op : UInt8} (hop : op = 0x12 ∨ (op = 0x52 ∧ v ≠ [])) (hl : Logging s.db log)
    (h : handleRequest s (op :: lo :: hi :: v) = .ok (s', o)) :
    s'.db = s.db ∧ s'.prep = s.prep ∧ s'.prepData = s.prepData ∧ log s'.st = log s.st ++ (if writable s.db (handle lo hi) then [(handle lo hi, v)] else []) := by
  have key : ∀ a, s.db.at (handle lo hi) = some a → ∀ s1 e w, handleATT (some a) s (op :: lo :: hi :: v) 0 = .ok (s1, e, w) →
      s1.db = s.db ∧ s1.prep = s.prep ∧ s1.prepData = s.prepData ∧ log s1.st = log s.st ++ (if writable s.db (handle lo hi) then [(handle lo hi, v)] else []) := by
    intro a ha s1 e w hh
    unfold handleATT at hh
    have h1 : ¬ (op = 0x08 ∨ op = 0x0A) := by rcases hop with rfl | ⟨rfl, -⟩ <;> decide
    have h2 : ¬ op = 0x0C := by rcases hop with rfl | ⟨rfl, -⟩ <;> decide
    have h3 : ¬ op = 0x16 := by rcases hop with rfl | ⟨rfl, -⟩ <;> decide
    have h4 : ¬ op = 0x18 := by rcases hop with rfl | ⟨rfl, -⟩ <;> decide
    have h5 : op = 0x12 ∨ op = 0x52 := hop.imp id And.left
    simp only [index_cons_zero, Go.bind_ok] at hh
    rw [if_neg h1, if_neg h2, if_neg h3, if_neg h4, if_pos h5] at hh
    simp only [writable, ha]
    cases hwh : a.wh with
    | none => rw [hwh] at hh; cases hh; simp
    | some f =>
      rw [hwh] at hh
      have hd : sliceFrom (ε := Empty) (op :: lo :: hi :: v) 3 = .ok v := by
        rw [sliceFrom_of_le (by simp)]; rfl
      simp only [hd, Go.bind_ok] at hh
      obtain ⟨⟨st, e'⟩, h6, hh⟩ := Go.bind_eq_ok.1 hh
      cases hh
      refine ⟨rfl, rfl, rfl, ?_⟩
      simp only [Option.isSome_some, if_true]
      exact hl.write _ a f ha hwh _ _ _ _ h6
  have hnone : s.db.at (handle lo hi) = none → log s.st = log s.st ++ (if writable s.db (handle lo hi) then [(handle lo hi, v)] else []) := by
    intro hn; simp [writable, hn]
  rcases hop with rfl | ⟨rfl, hv⟩
  · have h : handleWrite s (0x12 :: lo :: hi :: v) = .ok (s', o) := h
    unfold handleWrite at h
    simp only [index_cons_zero, Go.bind_ok] at h
    rw [if_neg (by simp), le16_handle] at h
    simp only [Go.bind_ok] at h
    split at h
    · rename_i hn; cases h; exact ⟨rfl, rfl, rfl, hnone hn⟩
    · rename_i a ha
      obtain ⟨⟨s1, e, w⟩, h1, h⟩ := Go.bind_eq_ok.1 h
      have k := key a ha s1 e w h1
      simp only [] at h
      split at h <;> (cases h; exact k)
  · have h : handleWriteCommand s (0x52 :: lo :: hi :: v) = .ok (s', o) := h
    unfold handleWriteCommand at h
    rw [if_neg (by cases v with | nil => exact absurd rfl hv | cons => simp), le16_handle] at h
    simp only [Go.bind_ok] at h
    split at h
    · rename_i hn; cases h; exact ⟨rfl, rfl, rfl, hnone hn⟩
    · rename_i a ha
      obtain ⟨⟨s1, e, w⟩, h1, h⟩ := Go.bind_eq_ok.1 h
      have k := key a ha s1 e w h1
      cases h; exact k

theorem prepare_req {s s' : Server σ} {lo hi o1 o2 : UInt8} {v : Bytes} {o : Option Bytes} {q : Option (Nat × Bytes)} (hq : Tied s q)
    (h : handleRequest s (0x16 :: lo :: hi :: o1 :: o2 :: v) = .ok (s', o)) : s'.db = s.db ∧ s'.st = s.st ∧
    Tied s' (prepared (writable s.db) q (0x16 :: lo :: hi :: o1 :: o2 :: v)) := by
  have h : handlePrepareWrite s (0x16 :: lo :: hi :: o1 :: o2 :: v) = .ok (s', o) := h
  unfold handlePrepareWrite at h
  rw [le16_handle] at h
  simp only [index_cons_zero, Go.bind_ok] at h
  rw [if_neg (by simp)] at h
  split at h
  · rename_i hn; cases h; exact ⟨rfl, rfl, by simp [prepared, writable, hn]; exact hq⟩
  · rename_i a ha
    obtain ⟨⟨s1, e, w⟩, h1, h⟩ := Go.bind_eq_ok.1 h
    have k : s1.db = s.db ∧ s1.st = s.st ∧ Tied s1 (prepared (writable s.db) q (0x16 :: lo :: hi :: o1 :: o2 :: v)) := by
      unfold handleATT at h1
      have hd : sliceFrom (ε := Empty) (0x16 :: lo :: hi :: o1 :: o2 :: v) 5 = .ok v := by
        rw [sliceFrom_of_le (by simp)]; rfl
      simp [hd] at h1
      cases hwh : a.wh with
      | none =>
        rw [hwh] at h1
        cases h1
        exact ⟨rfl, rfl, by simp [prepared, writable, ha, hwh]; exact hq⟩
      | some f =>
        rw [hwh] at h1
        cases h1
        unfold enqueue
        have hw : writable s.db (handle lo hi) = true := by simp [writable, ha, hwh]
        simp only [prepared, hw, if_true]
        cases q with
        | none =>
          have hq : s.prep = none := hq
          simp only [hq]
          exact ⟨trivial, trivial, a, rfl, ha, by rw [hwh]; rfl, rfl⟩
        | some p =>
          obtain ⟨b, h1, h2, h3, h4⟩ := hq
          simp only [h1]
          exact ⟨trivial, trivial, b, rfl, h2, h3, by rw [← h4]⟩
    simp only [] at h
    split at h <;> (cases h; exact k)

theorem execute_req {log : σ → List (Nat × Bytes)} {s s' : Server σ} {v : Bytes} {o : Option Bytes} {q : Option (Nat × Bytes)} (hl : Logging s.db log) (hq : Tied s q)
    (h : handleRequest s (0x18 :: 0x01 :: v) = .ok (s', o)) : s'.db = s.db ∧ s'.prep = none ∧ log s'.st = log s.st ++ q.toList := by
  have h : handleExecuteWrite s (0x18 :: 0x01 :: v) = .ok (s', o) := h
  unfold handleExecuteWrite at h
  have hi : index (ε := Empty) (0x18 :: 0x01 :: v) 1 = .ok 0x01 := rfl
  simp only [index_cons_zero, Go.bind_ok, hi] at h
  rw [if_neg (by simp), if_neg (by decide), if_pos trivial] at h
  obtain ⟨⟨s1, e, w⟩, h1, h⟩ := Go.bind_eq_ok.1 h
  have k : s1.db = s.db ∧ s1.prep = none ∧ log s1.st = log s.st ++ q.toList := by
    unfold handleATT at h1
    simp at h1
    cases q with
    | none =>
      have hq : s.prep = none := hq
      rw [hq] at h1
      cases h1
    | some p =>
      obtain ⟨a, h2, h3, h4, h5⟩ := hq
      rw [h2] at h1
      cases hwh : a.wh with
      | none => rw [hwh] at h4; cases h4
      | some f =>
        simp only [hwh] at h1
        obtain ⟨⟨st, e'⟩, h6, h1⟩ := Go.bind_eq_ok.1 h1
        cases h1
        exact ⟨rfl, rfl, by rw [hl.write _ a f h3 hwh _ _ _ _ h6, h5]; rfl⟩
  simp only [] at h
  split at h <;> (cases h; exact k)

theorem short_prepare {log : σ → List (Nat × Bytes)} {s s' : Server σ} {lo hi : UInt8} {v : Bytes} {o : Option Bytes} (hv : v.length < 2) (hx : 0 ≤ v.length)
    (h : handleRequest s (0x16 :: lo :: hi :: v) = .ok (s', o)) : Kept log s s' := by
  have h : handlePrepareWrite s (0x16 :: lo :: hi :: v) = .ok (s', o) := h
  unfold handlePrepareWrite at h
  rw [le16_handle] at h
  simp only [index_cons_zero, Go.bind_ok] at h
  rw [if_neg (by simp)] at h
  split at h
  · exact reject_kept h
  · rename_i a ha
    obtain ⟨⟨s1, e, w⟩, h1, h⟩ := Go.bind_eq_ok.1 h
    have k : Kept log s s1 := by
      unfold handleATT at h1
      have hd : sliceFrom (ε := Empty) (0x16 :: lo :: hi :: v) 5 = .panic := by
        unfold sliceFrom
        rw [if_neg (by simp; omega)]
      simp [hd] at h1
      cases hwh : a.wh with
      | none => rw [hwh] at h1; cases h1; exact .refl
      | some f => rw [hwh] at h1; cases h1
    simp only [] at h
    split at h <;> (cases h; exact k)

theorem loopStep_split {s s' : Server σ} {b : Bytes} {o : List Bytes} (h : loopStep s b = .ok (s', o)) (hb : b.head? ≠ some 0x1E) : ∃ r, handleRequest s b = .ok (s', r) := by
  unfold loopStep at h
  split at h
  · exact absurd rfl hb
  · obtain ⟨⟨s1, r⟩, h1, h⟩ := Go.bind_eq_ok.1 h
    refine ⟨r, ?_⟩
    simp only [] at h
    split at h <;> (cases h; exact h1)

end Aux

open Aux

/-- **C155.** A server whose queue is empty, of an application that keeps a log of the writes it gets. After every sequence of PDUs from the peer that does not crash the server: the log has grown by exactly the writes that `deliveries` says, in that order. -/
theorem writes_delivered_exact (log : σ → List (Nat × Bytes)) (s s' : Server σ) (hl : Logging s.db log) (hp : s.prep = none) (bs : List Bytes) (outs : List (List Bytes))
    (h : loop s bs = .ok (s', outs)) : log s'.st = log s.st ++ deliveries (writable s.db) none bs := by
  suffices ∀ (bs : List Bytes) (s : Server σ) (q : Option (Nat × Bytes)) (outs : List (List Bytes)), Logging s.db log → Tied s q → loop s bs = .ok (s', outs) →
      log s'.st = log s.st ++ deliveries (writable s.db) q bs from this bs s none outs hl hp h
  intro bs
  induction bs with
  | nil => intro s q outs _ _ h; cases h; simp [deliveries]
  | cons b bs ih =>
    intro s q outs hl hq h
    rw [loop] at h
    obtain ⟨⟨s1, o⟩, h1, h⟩ := Go.bind_eq_ok.1 h
    obtain ⟨⟨s2, os⟩, h2, h⟩ := Go.bind_eq_ok.1 h
    cases h
    have hro : ∀ a ∈ s.db.attrs, ReadsOk log a := fun a ha f hf => hl.read a ha f hf
    simp only [deliveries]
    have done : ∀ (q' : Option (Nat × Bytes)) (new : List (Nat × Bytes)), s1.db = s.db → Tied s1 q' → log s1.st = log s.st ++ new →
        log s'.st = log s.st ++ (new ++ deliveries (writable s.db) q' bs) := by
      intro q' new hdb ht hlog
      rw [ih s1 q' os (by rw [hdb]; exact hl) ht h2, hlog, hdb, List.append_assoc]
    have kept : Kept log s s1 → log s'.st = log s.st ++ ([] ++ deliveries (writable s.db) q bs) :=
      fun k => done q [] k.1 (hq.kept k) (by rw [k.2.2.2]; simp)
    by_cases hc : b.head? = some 0x1E
    · match b, hc with
      | x :: t, hc =>
        simp only [List.head?_cons, Option.some.injEq] at hc
        subst hc
        cases h1
        have := kept .refl
        simpa [delivered, prepared] using this
    obtain ⟨r, hr⟩ := loopStep_split h1 hc
    have tied : s1.prep = s.prep → s1.prepData = s.prepData → s1.db = s.db → Tied s1 q := by
      intro e1 e2 e3
      cases q with
      | none => exact e1.trans hq
      | some p =>
        obtain ⟨a, h1, h2, h3, h4⟩ := hq
        exact ⟨a, e1.trans h1, by rw [e3]; exact h2, h3, e2.trans h4⟩
    have still : delivered (writable s.db) q b = [] → prepared (writable s.db) q b = q → Kept log s s1 →
        log s'.st = log s.st ++ (delivered (writable s.db) q b ++ deliveries (writable s.db) (prepared (writable s.db) q b) bs) := by
      intro d0 p0 k
      rw [d0, p0]
      exact kept k
    by_cases hw : ¬ Changes b
    · refine still ?_ ?_ (handleRequest_kept hro hw hr)
      · unfold delivered
        split <;> simp_all [Changes]
      · unfold prepared
        split <;> simp_all [Changes]
    have hw : Changes b := Classical.not_not.1 hw
    rcases hw with hw | hw | hw | hw
    · match b, hw with
      | [x], hw =>
        cases hw
        exact still rfl rfl (by
          have hr : handleWrite s [0x12] = .ok (s1, r) := hr
          cases hr; exact .refl)
      | [x, y], hw =>
        cases hw
        exact still rfl rfl (by
          have hr : handleWrite s [0x12, y] = .ok (s1, r) := hr
          cases hr; exact .refl)
      | x :: lo :: hi :: v, hw =>
        cases hw
        obtain ⟨e1, e2, e3, e4⟩ := write_req (.inl rfl) hl hr
        exact done q _ e1 (tied e2 e3 e1) e4
    · match b, hw with
      | [x], hw =>
        cases hw
        exact still rfl rfl (by
          have hr : handleWriteCommand s [0x52] = .ok (s1, r) := hr
          cases hr; exact .refl)
      | [x, y], hw =>
        cases hw
        exact still rfl rfl (by
          have hr : handleWriteCommand s [0x52, y] = .ok (s1, r) := hr
          cases hr; exact .refl)
      | [x, lo, hi], hw =>
        cases hw
        exact still (by simp [delivered]) rfl (by
          have hr : handleWriteCommand s [0x52, lo, hi] = .ok (s1, r) := hr
          cases hr; exact .refl)
      | x :: lo :: hi :: y :: v, hw =>
        cases hw
        obtain ⟨e1, e2, e3, e4⟩ := write_req (.inr ⟨rfl, by simp⟩) hl hr
        refine done q _ e1 (tied e2 e3 e1) ?_
        rw [e4]
        simp [delivered]
    · match b, hw with
      | [x], hw => cases hw; cases hr
      | [x, y], hw => cases hw; cases hr
      | x :: lo :: hi :: o1 :: o2 :: v, hw =>
        cases hw
        obtain ⟨e1, e2, e3⟩ := prepare_req hq hr
        exact done _ [] e1 e3 (by rw [e2]; simp)
      | [x, lo, hi], hw =>
        cases hw
        exact still rfl rfl (short_prepare (by simp) (by simp) hr)
      | [x, lo, hi, y], hw =>
        cases hw
        exact still rfl rfl (short_prepare (by simp) (by simp) hr)
    · match b, hw with
      | [x], hw =>
        cases hw
        exact still rfl rfl (by
          have hr : handleExecuteWrite s [0x18] = .ok (s1, r) := hr
          cases hr; exact .refl)
      | x :: f :: v, hw =>
        cases hw
        by_cases h0 : f = 0
        · subst h0
          have hr : handleExecuteWrite s (0x18 :: 0x00 :: v) = .ok (s1, r) := hr
          have : s1 = { s with prep := none } := by
            unfold handleExecuteWrite at hr
            have hi : index (ε := Empty) (0x18 :: 0x00 :: v) 1 = .ok 0x00 := rfl
            simp only [index_cons_zero, Go.bind_ok, hi] at hr
            rw [if_neg (by simp)] at hr
            cases hr
            rfl
          subst this
          exact done none [] rfl rfl (by simp)
        by_cases h1 : f = 1
        · subst h1
          obtain ⟨e1, e2, e3⟩ := execute_req hl hq hr
          exact done none _ e1 e2 e3
        · refine still ?_ ?_ ?_
          · unfold delivered; split <;> simp_all
          · unfold prepared; split <;> simp_all
          · have hr : handleExecuteWrite s (0x18 :: f :: v) = .ok (s1, r) := hr
            unfold handleExecuteWrite at hr
            have hi : index (ε := Empty) (0x18 :: f :: v) 1 = .ok f := rfl
            simp only [index_cons_zero, Go.bind_ok, hi] at hr
            rw [if_neg (by simp), if_neg h0, if_neg h1] at hr
            cases hr; exact .refl

/-! ## A case -/

/-- A write handler that logs, for handle `h`. -/
def logger (h : Nat) : WriteH (List (Nat × Bytes)) := fun st d => .ok (st ++ [(h, d)], 0)

/-- Two writable attributes, 3 and 4, and one that is not, 5. -/
def exDb : DB (List (Nat × Bytes)) := ⟨3, [{ h := 3, typ := [], wh := some (logger 3) }, { h := 4, typ := [], wh := some (logger 4) }, { h := 5, typ := [], v := some [1] }]⟩

/-- The second prepared value goes to the handle of the first; a value prepared for a handle that cannot be written is not part of it. -/
theorem queue_example : Logging exDb id ∧
    ∃ s' outs, loop { db := exDb, mtu := 23, rxMTU := 23, prep := none, prepData := [], st := [] }
      [[0x16, 3, 0, 0, 0, 7], [0x16, 5, 0, 0, 0, 6], [0x16, 4, 0, 0, 0, 8], [0x12, 4, 0, 9], [0x52, 4, 0], [0x18, 1], [0x16, 4, 0, 0, 0, 5], [0x18, 0]] = .ok (s', outs) ∧ s'.st = [(4, [9]), (3, [7, 8])] := by
  refine ⟨⟨?_, ?_⟩, _, _, rfl, rfl⟩
  · intro h a f ha hf st d st' e hr
    unfold DB.at DB.idx exDb at ha
    simp only at ha
    by_cases h3 : h = 3
    · subst h3; cases ha; cases hf; cases hr; rfl
    by_cases h4 : h = 4
    · subst h4; cases ha; cases hf; cases hr; rfl
    by_cases h5 : h = 5
    · subst h5; cases ha; cases hf
    · exfalso
      grind
  · intro a ha f hf
    simp only [exDb, List.mem_cons, List.not_mem_nil, or_false] at ha
    rcases ha with rfl | rfl | rfl <;> cases hf

end Ble.Queue
