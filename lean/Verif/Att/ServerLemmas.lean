import Verif.Att.Lemmas
set_option autoImplicit false

namespace Ble.Att

open Ble.Spec

variable {α σ : Type}

theorem writeAll_le (cap : Nat) (acc : Bytes) (cs : List Bytes) (h : acc.length ≤ cap) : (writeAll cap acc cs).length ≤ cap := by
  induction cs generalizing acc with
  | nil => exact h
  | cons c cs ih =>
    rw [writeAll]; split
    · exact ih acc h
    · apply ih; simp only [List.length_append]; omega

/-- What `handleATT` cannot change, and how much it can write. -/
theorem handleATT_ok {a : Option (Attr σ)} {s s' : Server σ} {r : Bytes} {cap : Nat} {e : UInt8} {w : Bytes}
    (h : handleATT a s r cap = .ok (s', e, w)) :
    s'.mtu = s.mtu ∧ s'.db = s.db ∧ s'.rxMTU = s.rxMTU ∧ w.length ≤ cap := by
  unfold handleATT at h
  obtain ⟨op, -, h⟩ := Go.bind_eq_ok.1 h
  have hread : ∀ {f : ReadH σ} {off : Nat}, serveRead f s off cap = .ok (s', e, w) →
      s'.mtu = s.mtu ∧ s'.db = s.db ∧ s'.rxMTU = s.rxMTU ∧ w.length ≤ cap := by
    intro f off h
    obtain ⟨⟨st, ch, e'⟩, -, h⟩ := Go.bind_eq_ok.1 h
    cases h
    exact ⟨rfl, rfl, rfl, writeAll_le _ _ _ (Nat.zero_le _)⟩
  cases a with
  | none =>
    simp only at h
    split at h; · cases h
    split at h; · cases h
    split at h; · cases h
    split at h; · cases h
    split at h; · cases h
    cases h; simp
  | some a =>
    simp only at h
    split at h
    · split at h
      · cases h; simp
      · exact hread h
    split at h
    · split at h
      · cases h; simp
      · obtain ⟨off, -, h⟩ := Go.bind_eq_ok.1 h; exact hread h
    split at h
    · split at h
      · cases h; simp
      · obtain ⟨d, -, h⟩ := Go.bind_eq_ok.1 h
        cases h
        unfold enqueue; split <;> simp
    split at h
    · split at h
      · cases h; simp
      · obtain ⟨⟨st, e'⟩, -, h⟩ := Go.bind_eq_ok.1 h
        cases h; simp
    split at h
    · split at h
      · cases h; simp
      · obtain ⟨d, -, h⟩ := Go.bind_eq_ok.1 h
        obtain ⟨⟨st, e'⟩, -, h⟩ := Go.bind_eq_ok.1 h
        cases h; simp
    cases h; simp

/-- Opcodes for which `handleATT` does nothing. -/
theorem handleATT_other (a : Option (Attr σ)) (s : Server σ) (op : UInt8) (t : Bytes) (cap : Nat)
    (h : op = 0x06 ∨ op = 0x10) : handleATT a s (op :: t) cap = .ok (s, errReqNotSupp, []) := by
  rcases h with rfl | rfl <;> cases a <;> rfl

theorem findInfoLoop_le (cap : Nat) (as : List (Attr σ)) (fmt : Nat) (buf : Bytes) (h : buf.length ≤ cap) :
    (findInfoLoop cap as fmt buf).2.length ≤ cap := by
  induction as generalizing fmt buf with
  | nil => exact h
  | cons a as ih =>
    rw [findInfoLoop]
    split; · exact h
    split; · exact h
    split; · exact h
    apply ih; simp only [List.length_append, put16_length]; omega

theorem findByTypeValueLoop_ok {cap : Nat} {typ value req : Bytes} {s s' : Server σ} {as : List (Attr σ)} {buf : Bytes}
    {o : Option Bytes} (h : findByTypeValueLoop cap typ value req s as buf = .ok (s', o)) (hb : buf.length ≤ cap) :
    s'.mtu = s.mtu ∧ s'.db = s.db ∧ s'.rxMTU = s.rxMTU ∧ ∀ b, o = some b → b.length ≤ cap := by
  induction as generalizing s buf with
  | nil => rw [findByTypeValueLoop] at h; cases h; exact ⟨rfl, rfl, rfl, fun b hb' => by cases hb'; exact hb⟩
  | cons a as ih =>
    rw [findByTypeValueLoop] at h
    split at h
    · exact ih h hb
    · split at h
      · obtain ⟨⟨s1, e, w⟩, h1, h⟩ := Go.bind_eq_ok.1 h
        obtain ⟨m1, m2, m3, -⟩ := handleATT_ok h1
        simp only [] at h
        split at h
        · cases h; exact ⟨m1, m2, m3, by simp⟩
        split at h
        · obtain ⟨i1, i2, i3, i4⟩ := ih h hb; exact ⟨i1.trans m1, i2.trans m2, i3.trans m3, i4⟩
        split at h
        · cases h; exact ⟨m1, m2, m3, fun b hb' => by cases hb'; exact hb⟩
        · obtain ⟨i1, i2, i3, i4⟩ := ih h (by simp only [List.length_append, put16_length]; omega)
          exact ⟨i1.trans m1, i2.trans m2, i3.trans m3, i4⟩
      · split at h
        · exact ih h hb
        split at h
        · cases h; exact ⟨rfl, rfl, rfl, fun b hb' => by cases hb'; exact hb⟩
        · exact ih h (by simp only [List.length_append, put16_length]; omega)

theorem cut_ok {v : Bytes} {hdr dlen : Nat} {p : Bytes} (h : cut v hdr dlen = .ok p) :
    hdr ≤ dlen ∧ dlen ≤ hdr + v.length ∧ p = v.take (dlen - hdr) := by
  unfold cut at h
  split at h
  · unfold slice at h
    split at h
    · cases h; exact ⟨by assumption, by omega, by simp⟩
    · cases h
  · cases h

theorem addEntry_ok {cap dlen : Nat} {hdr v buf : Bytes} {d' : Nat} {nb : Option Bytes}
    (hs : addEntry cap hdr v dlen buf = .ok (d', nb)) : ∀ b, nb = some b → b.length ≤ cap := by
  unfold addEntry at hs
  split at hs
  · cases hs; simp
  · obtain ⟨p, hp, hs⟩ := Go.bind_eq_ok.1 hs
    obtain ⟨h1, h2, rfl⟩ := cut_ok hp
    cases hs
    intro b hb; cases hb
    simp only [List.length_append, List.length_take] at *
    omega

theorem listStep_ok {cap dlen : Nat} {hdr v buf : Bytes} {d' : Nat} {nb : Option Bytes}
    (hs : listStep cap hdr v dlen buf = .ok (d', nb)) : ∀ b, nb = some b → b.length ≤ cap := by
  unfold listStep at hs
  split at hs
  · exact addEntry_ok hs
  split at hs
  · cases hs; simp
  · exact addEntry_ok hs

theorem readByTypeLoop_ok {cap : Nat} {typ req : Bytes} {s s' : Server σ} {as : List (Attr σ)} {dlen : Nat} {buf : Bytes}
    {o : ListEnd} (h : readByTypeLoop cap typ req s as dlen buf = .ok (s', o)) (hb : buf.length ≤ cap) :
    s'.mtu = s.mtu ∧ s'.db = s.db ∧ s'.rxMTU = s.rxMTU ∧ ∀ d b, o = .done d b → b.length ≤ cap := by
  induction as generalizing s buf dlen with
  | nil => rw [readByTypeLoop] at h; cases h; exact ⟨rfl, rfl, rfl, fun d b hb' => by cases hb'; exact hb⟩
  | cons a as ih =>
    rw [readByTypeLoop] at h
    split at h
    · exact ih h hb
    obtain ⟨⟨s1, r⟩, h1, h⟩ := Go.bind_eq_ok.1 h
    have hm : s1.mtu = s.mtu ∧ s1.db = s.db ∧ s1.rxMTU = s.rxMTU := by
      split at h1
      · cases h1; exact ⟨rfl, rfl, rfl⟩
      · obtain ⟨⟨s2, e, w⟩, h2, h1⟩ := Go.bind_eq_ok.1 h1
        cases h1
        obtain ⟨m1, m2, m3, -⟩ := handleATT_ok h2
        exact ⟨m1, m2, m3⟩
    obtain ⟨m1, m2, m3⟩ := hm
    simp only [] at h
    split at h
    · cases h
      refine ⟨m1, m2, m3, fun d b hb' => ?_⟩
      split at hb'
      · cases hb'
      · cases hb'; exact hb
    · obtain ⟨⟨d', nb⟩, h3, h⟩ := Go.bind_eq_ok.1 h
      have hs := listStep_ok h3
      simp only [] at h
      split at h
      · cases h
        exact ⟨m1, m2, m3, fun d b hb' => by cases hb'; exact hb⟩
      · obtain ⟨i1, i2, i3, i4⟩ := ih h (hs _ rfl)
        exact ⟨i1.trans m1, i2.trans m2, i3.trans m3, i4⟩

theorem readByGroupLoop_ok {cap : Nat} {req : Bytes} {s s' : Server σ} {as : List (Attr σ)} {dlen : Nat} {buf : Bytes}
    {o : ListEnd} (h : readByGroupLoop cap req s as dlen buf = .ok (s', o)) (hb : buf.length ≤ cap) :
    s'.mtu = s.mtu ∧ s'.db = s.db ∧ s'.rxMTU = s.rxMTU ∧ ∀ d b, o = .done d b → b.length ≤ cap := by
  induction as generalizing s buf dlen with
  | nil => rw [readByGroupLoop] at h; cases h; exact ⟨rfl, rfl, rfl, fun d b hb' => by cases hb'; exact hb⟩
  | cons a as ih =>
    rw [readByGroupLoop] at h
    obtain ⟨⟨s1, r⟩, h1, h⟩ := Go.bind_eq_ok.1 h
    have hm : s1.mtu = s.mtu ∧ s1.db = s.db ∧ s1.rxMTU = s.rxMTU := by
      split at h1
      · cases h1; exact ⟨rfl, rfl, rfl⟩
      · split at h1
        · cases h1
        obtain ⟨⟨s2, e, w⟩, h2, h1⟩ := Go.bind_eq_ok.1 h1
        cases h1
        obtain ⟨m1, m2, m3, -⟩ := handleATT_ok h2
        exact ⟨m1, m2, m3⟩
    obtain ⟨m1, m2, m3⟩ := hm
    simp only [] at h
    split at h
    · cases h
      exact ⟨m1, m2, m3, fun d b hb' => by cases hb'⟩
    · obtain ⟨⟨d', nb⟩, h3, h⟩ := Go.bind_eq_ok.1 h
      have hs := listStep_ok h3
      simp only [] at h
      split at h
      · cases h
        exact ⟨m1, m2, m3, fun d b hb' => by cases hb'; exact hb⟩
      · obtain ⟨i1, i2, i3, i4⟩ := ih h (hs _ rfl)
        exact ⟨i1.trans m1, i2.trans m2, i3.trans m3, i4⟩

theorem errorRsp_length (op : UInt8) (h : Nat) (c : UInt8) : (errorRsp op h c).length = 5 := rfl

/-- The answer to a request of opcode `op`: a response with the given opcode, or an error naming `op`. -/
def Answers (op code : UInt8) (rsp : Bytes) : Prop :=
  (∃ t, rsp = code :: t) ∨ ∃ h e, rsp = errorRsp op h e

/-- Summary of a handler's normal outcome. -/
structure Good (s s' : Server σ) (op code : UInt8) (o : Option Bytes) : Prop where
  db : s'.db = s.db
  mtu : 23 ≤ s.mtu → 23 ≤ s'.mtu
  mtuSame : op ≠ 0x02 → s'.mtu = s.mtu
  ans : ∃ rsp, o = some rsp ∧ Answers op code rsp ∧ (23 ≤ s.mtu → rsp.length ≤ s.mtu)

theorem good_reject {s s' s'' : Server σ} {op code : UInt8} {o : Option Bytes} {h : Nat} {e : UInt8}
    (hh : reject s' op h e = .ok (s'', o)) (m : s'.mtu = s.mtu) (d : s'.db = s.db) : Good s s'' op code o := by
  cases hh
  exact ⟨d, fun x => by omega, fun _ => m, _, rfl, Or.inr ⟨_, _, rfl⟩, fun h => by rw [errorRsp_length]; omega⟩

theorem handleExchangeMTU_good {s s' : Server σ} {op : UInt8} {t : Bytes} {o : Option Bytes}
    (ho : op = 0x02) (h : handleExchangeMTU s (op :: t) = .ok (s', o)) : Good s s' op 0x03 o := by
  unfold handleExchangeMTU at h
  simp only [index_cons_zero, Go.bind_ok] at h
  split at h
  · exact good_reject h rfl rfl
  obtain ⟨m, hm, h⟩ := Go.bind_eq_ok.1 h
  split at h
  · exact good_reject h rfl rfl
  · cases h
    exact ⟨rfl, fun _ => by show 23 ≤ m; omega, fun x => absurd ho x, _, rfl, Or.inl ⟨_, rfl⟩, fun h => by simp; omega⟩

theorem handleFindInfo_good {s s' : Server σ} {op : UInt8} {t : Bytes} {o : Option Bytes}
    (h : handleFindInfo s (op :: t) = .ok (s', o)) : Good s s' op 0x05 o := by
  unfold handleFindInfo at h
  simp only [index_cons_zero, Go.bind_ok] at h
  split at h
  · exact good_reject h rfl rfl
  obtain ⟨lo, -, h⟩ := Go.bind_eq_ok.1 h
  obtain ⟨hi, -, h⟩ := Go.bind_eq_ok.1 h
  split at h
  · exact good_reject h rfl rfl
  obtain ⟨as, -, h⟩ := Go.bind_eq_ok.1 h
  have hl := findInfoLoop_le (s.mtu - 2) as 0 [] (Nat.zero_le _)
  split at h
  · exact good_reject h rfl rfl
  · cases h
    exact ⟨rfl, id, fun _ => rfl, _, rfl, Or.inl ⟨_, rfl⟩, fun h => by simp only [List.length_cons]; omega⟩

theorem handleFindByTypeValue_good {s s' : Server σ} {op : UInt8} {t : Bytes} {o : Option Bytes}
    (h : handleFindByTypeValue s (op :: t) = .ok (s', o)) : Good s s' op 0x07 o := by
  unfold handleFindByTypeValue at h
  simp only [index_cons_zero, Go.bind_ok] at h
  split at h
  · exact good_reject h rfl rfl
  obtain ⟨lo, -, h⟩ := Go.bind_eq_ok.1 h
  obtain ⟨hi, -, h⟩ := Go.bind_eq_ok.1 h
  split at h
  · exact good_reject h rfl rfl
  obtain ⟨tt, -, h⟩ := Go.bind_eq_ok.1 h
  obtain ⟨vv, -, h⟩ := Go.bind_eq_ok.1 h
  obtain ⟨as, -, h⟩ := Go.bind_eq_ok.1 h
  obtain ⟨⟨s1, out⟩, h1, h⟩ := Go.bind_eq_ok.1 h
  obtain ⟨m1, m2, -, m4⟩ := findByTypeValueLoop_ok h1 (Nat.zero_le _)
  simp only [] at h
  split at h
  · exact good_reject h m1 m2
  split at h
  · exact good_reject h m1 m2
  · cases h
    have := m4 _ rfl
    exact ⟨m2, fun x => by omega, fun _ => m1, _, rfl, Or.inl ⟨_, rfl⟩, fun h => by simp only [List.length_cons]; omega⟩

theorem handleReadByType_good {s s' : Server σ} {op : UInt8} {t : Bytes} {o : Option Bytes}
    (h : handleReadByType s (op :: t) = .ok (s', o)) : Good s s' op 0x09 o := by
  unfold handleReadByType at h
  simp only [index_cons_zero, Go.bind_ok] at h
  split at h
  · exact good_reject h rfl rfl
  obtain ⟨lo, -, h⟩ := Go.bind_eq_ok.1 h
  obtain ⟨hi, -, h⟩ := Go.bind_eq_ok.1 h
  split at h
  · exact good_reject h rfl rfl
  obtain ⟨vv, -, h⟩ := Go.bind_eq_ok.1 h
  obtain ⟨as, -, h⟩ := Go.bind_eq_ok.1 h
  obtain ⟨⟨s1, out⟩, h1, h⟩ := Go.bind_eq_ok.1 h
  obtain ⟨m1, m2, -, m4⟩ := readByTypeLoop_ok h1 (Nat.zero_le _)
  simp only [] at h
  split at h
  · exact good_reject h m1 m2
  split at h
  · exact good_reject h m1 m2
  · cases h
    have := m4 _ _ rfl
    exact ⟨m2, fun x => by omega, fun _ => m1, _, rfl, Or.inl ⟨_, rfl⟩, fun h => by simp only [List.length_cons]; omega⟩

theorem handleReadByGroup_good {s s' : Server σ} {op : UInt8} {t : Bytes} {o : Option Bytes}
    (h : handleReadByGroup s (op :: t) = .ok (s', o)) : Good s s' op 0x11 o := by
  unfold handleReadByGroup at h
  simp only [index_cons_zero, Go.bind_ok] at h
  split at h
  · exact good_reject h rfl rfl
  obtain ⟨lo, -, h⟩ := Go.bind_eq_ok.1 h
  obtain ⟨hi, -, h⟩ := Go.bind_eq_ok.1 h
  split at h
  · exact good_reject h rfl rfl
  obtain ⟨as, -, h⟩ := Go.bind_eq_ok.1 h
  obtain ⟨⟨s1, out⟩, h1, h⟩ := Go.bind_eq_ok.1 h
  obtain ⟨m1, m2, -, m4⟩ := readByGroupLoop_ok h1 (Nat.zero_le _)
  simp only [] at h
  split at h
  · exact good_reject h m1 m2
  split at h
  · exact good_reject h m1 m2
  · cases h
    have := m4 _ _ rfl
    exact ⟨m2, fun x => by omega, fun _ => m1, _, rfl, Or.inl ⟨_, rfl⟩, fun h => by simp only [List.length_cons]; omega⟩

theorem staticValue_ok {code : UInt8} {mtu : Nat} {v rsp : Bytes} (h : staticValue code mtu v = .ok rsp) :
    rsp = code :: v ∧ rsp.length ≤ mtu := by
  unfold staticValue at h
  split at h
  · cases h; simp; omega
  · cases h

theorem handleRead_good {s s' : Server σ} {op : UInt8} {t : Bytes} {o : Option Bytes}
    (h : handleRead s (op :: t) = .ok (s', o)) : Good s s' op 0x0B o := by
  unfold handleRead at h
  simp only [index_cons_zero, Go.bind_ok] at h
  split at h
  · exact good_reject h rfl rfl
  obtain ⟨hd, -, h⟩ := Go.bind_eq_ok.1 h
  split at h
  · exact good_reject h rfl rfl
  split at h
  · obtain ⟨rsp, h1, h⟩ := Go.bind_eq_ok.1 h
    obtain ⟨e, l⟩ := staticValue_ok h1
    cases h
    exact ⟨rfl, id, fun _ => rfl, _, rfl, Or.inl ⟨_, e⟩, fun _ => l⟩
  · obtain ⟨⟨s1, e, w⟩, h1, h⟩ := Go.bind_eq_ok.1 h
    obtain ⟨m1, m2, -, m4⟩ := handleATT_ok h1
    simp only [] at h
    split at h
    · exact good_reject h m1 m2
    · cases h
      exact ⟨m2, fun x => by omega, fun _ => m1, _, rfl, Or.inl ⟨_, rfl⟩, fun h => by simp only [List.length_cons]; omega⟩

theorem handleReadBlob_good {s s' : Server σ} {op : UInt8} {t : Bytes} {o : Option Bytes}
    (h : handleReadBlob s (op :: t) = .ok (s', o)) : Good s s' op 0x0D o := by
  unfold handleReadBlob at h
  simp only [index_cons_zero, Go.bind_ok] at h
  split at h
  · exact good_reject h rfl rfl
  obtain ⟨hd, -, h⟩ := Go.bind_eq_ok.1 h
  split at h
  · exact good_reject h rfl rfl
  split at h
  · obtain ⟨rsp, h1, h⟩ := Go.bind_eq_ok.1 h
    obtain ⟨e, l⟩ := staticValue_ok h1
    cases h
    exact ⟨rfl, id, fun _ => rfl, _, rfl, Or.inl ⟨_, e⟩, fun _ => l⟩
  · obtain ⟨⟨s1, e, w⟩, h1, h⟩ := Go.bind_eq_ok.1 h
    obtain ⟨m1, m2, -, m4⟩ := handleATT_ok h1
    simp only [] at h
    split at h
    · exact good_reject h m1 m2
    · cases h
      exact ⟨m2, fun x => by omega, fun _ => m1, _, rfl, Or.inl ⟨_, rfl⟩, fun h => by simp only [List.length_cons]; omega⟩

theorem handleWrite_good {s s' : Server σ} {op : UInt8} {t : Bytes} {o : Option Bytes}
    (h : handleWrite s (op :: t) = .ok (s', o)) : Good s s' op 0x13 o := by
  unfold handleWrite at h
  simp only [index_cons_zero, Go.bind_ok] at h
  split at h
  · exact good_reject h rfl rfl
  obtain ⟨hd, -, h⟩ := Go.bind_eq_ok.1 h
  split at h
  · exact good_reject h rfl rfl
  · obtain ⟨⟨s1, e, w⟩, h1, h⟩ := Go.bind_eq_ok.1 h
    obtain ⟨m1, m2, -, m4⟩ := handleATT_ok h1
    simp only [] at h
    split at h
    · exact good_reject h m1 m2
    · cases h
      exact ⟨m2, fun x => by omega, fun _ => m1, _, rfl, Or.inl ⟨_, rfl⟩, fun h => by simp; omega⟩

theorem handleExecuteWrite_good {s s' : Server σ} {op : UInt8} {t : Bytes} {o : Option Bytes}
    (h : handleExecuteWrite s (op :: t) = .ok (s', o)) : Good s s' op 0x19 o := by
  unfold handleExecuteWrite at h
  simp only [index_cons_zero, Go.bind_ok] at h
  split at h
  · exact good_reject h rfl rfl
  obtain ⟨fl, -, h⟩ := Go.bind_eq_ok.1 h
  split at h
  · cases h
    exact ⟨rfl, id, fun _ => rfl, _, rfl, Or.inl ⟨_, rfl⟩, fun h => by simp; omega⟩
  split at h
  · obtain ⟨⟨s1, e, w⟩, h1, h⟩ := Go.bind_eq_ok.1 h
    obtain ⟨m1, m2, -, m4⟩ := handleATT_ok h1
    simp only [] at h
    split at h
    · exact good_reject h m1 m2
    · cases h
      exact ⟨m2, fun x => by omega, fun _ => m1, _, rfl, Or.inl ⟨_, rfl⟩, fun h => by simp; omega⟩
  · cases h
    exact ⟨rfl, id, fun _ => rfl, _, rfl, Or.inl ⟨_, rfl⟩, fun h => by simp; omega⟩

theorem handlePrepareWrite_ok {s s' : Server σ} {op : UInt8} {t : Bytes} {o : Option Bytes}
    (h : handlePrepareWrite s (op :: t) = .ok (s', o)) : Good s s' op 0x17 o ∨
    (s'.db = s.db ∧ s'.mtu = s.mtu ∧ o = some (0x17 :: t)) := by
  unfold handlePrepareWrite at h
  obtain ⟨hd, -, h⟩ := Go.bind_eq_ok.1 h
  simp only [index_cons_zero, Go.bind_ok] at h
  split at h
  · exact Or.inl (good_reject h rfl rfl)
  split at h
  · exact Or.inl (good_reject h rfl rfl)
  · obtain ⟨⟨s1, e, w⟩, h1, h⟩ := Go.bind_eq_ok.1 h
    obtain ⟨m1, m2, -, m4⟩ := handleATT_ok h1
    simp only [] at h
    split at h
    · exact Or.inl (good_reject h m1 m2)
    · cases h
      exact Or.inr ⟨m2, m1, rfl⟩

theorem handleWriteCommand_ok {s s' : Server σ} {b : Bytes} {o : Option Bytes}
    (h : handleWriteCommand s b = .ok (s', o)) : o = none ∧ s'.db = s.db ∧ s'.mtu = s.mtu := by
  unfold handleWriteCommand at h
  split at h
  · cases h; exact ⟨rfl, rfl, rfl⟩
  obtain ⟨hd, -, h⟩ := Go.bind_eq_ok.1 h
  split at h
  · cases h; exact ⟨rfl, rfl, rfl⟩
  · obtain ⟨⟨s1, e, w⟩, h1, h⟩ := Go.bind_eq_ok.1 h
    obtain ⟨m1, m2, -, m4⟩ := handleATT_ok h1
    cases h
    exact ⟨rfl, m2, m1⟩

end Ble.Att
