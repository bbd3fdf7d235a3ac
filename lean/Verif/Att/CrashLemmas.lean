import Verif.Att.ServerLemmas
set_option autoImplicit false

namespace Ble.Att

open Ble.Spec

variable {α σ : Type}

theorem cut_of_le {v : Bytes} {hdr dlen : Nat} (h1 : hdr ≤ dlen) (h2 : dlen ≤ hdr + v.length) :
    cut v hdr dlen = .ok (v.take (dlen - hdr)) := by
  unfold cut; rw [if_pos h1, slice_of_le (by omega) (by omega)]; simp

theorem firstLen_le (hdr cap n : Nat) : firstLen hdr cap n ≤ hdr + n ∧ firstLen hdr cap n ≤ cap ∧ firstLen hdr cap n ≤ 255 := by
  unfold firstLen; simp only []; split <;> split <;> omega

theorem firstLen_ge (hdr cap n : Nat) (h : hdr ≤ cap) (h' : hdr ≤ 255) : hdr ≤ firstLen hdr cap n := by
  unfold firstLen; simp only []; split <;> split <;> omega

theorem firstLen_eq (hdr cap n : Nat) : firstLen hdr cap n = min (min (hdr + n) 255) cap := by
  unfold firstLen; simp only []; split <;> split <;> omega

/-- `addEntry` with sizes in order. -/
theorem addEntry_eq {cap dlen : Nat} {hdr v buf : Bytes} (h1 : hdr.length ≤ dlen) (h2 : dlen ≤ hdr.length + v.length) :
    addEntry cap hdr v dlen buf =
      .ok (dlen, if buf.length + dlen > cap then none else some (buf ++ hdr ++ v.take (dlen - hdr.length))) := by
  unfold addEntry
  split
  · rfl
  · rw [cut_of_le h1 h2]; rfl

theorem listStep_returns {cap dlen : Nat} {hdr v buf : Bytes} (hc : hdr.length ≤ cap) (h5 : hdr.length ≤ 255) :
    listStep cap hdr v dlen buf ≠ .panic := by
  unfold listStep
  split
  · rw [addEntry_eq (firstLen_ge _ _ _ hc h5) (firstLen_le _ _ _).1]; simp
  split
  · simp
  · rw [addEntry_eq (by omega) (by omega)]; simp

/-- Panics of the group loop once the entry size is fixed. -/
theorem readByGroupLoop_panic_iff {cap : Nat} {t : Bytes} {s : Server σ} {as : List (Attr σ)} {dlen : Nat} {buf : Bytes}
    (hd : dlen ≠ 0) (hb : buf.length ≤ cap) :
    readByGroupLoop cap (0x10 :: t) s as dlen buf = .panic ↔
      ∃ p a rest, as = p ++ a :: rest ∧ a.v = none ∧ (∀ x ∈ p, ∃ v, x.v = some v ∧ 4 + v.length = dlen) ∧
        buf.length + p.length * dlen ≤ cap ∧ cap < buf.length + p.length * dlen + 4 := by
  induction as generalizing buf with
  | nil => simp [readByGroupLoop]
  | cons x as ih =>
    rw [readByGroupLoop]
    cases hv : x.v with
    | none =>
      simp only []
      by_cases hc : buf.length + 4 > cap
      · rw [if_pos hc]
        simp only [Go.bind_panic, true_iff]
        exact ⟨[], x, as, rfl, hv, by simp, by simp; omega, by simp; omega⟩
      · rw [if_neg hc, handleATT_other _ _ _ _ _ (Or.inr rfl)]
        simp [errReqNotSupp]
        rintro p a rest he ha hp h1
        cases p with
        | nil => simp; simp only [List.nil_append, List.cons.injEq] at he; omega
        | cons y p =>
          simp only [List.cons_append, List.cons.injEq] at he
          obtain ⟨v, h, -⟩ := hp y (by simp)
          rw [← he.1, hv] at h; cases h
    | some v =>
      simp only [Go.pure_def, Go.bind_ok]
      unfold listStep
      rw [if_neg hd]
      simp only [List.length_append, put16_length]
      by_cases hl : 2 + 2 + v.length ≠ dlen
      · rw [if_pos hl]
        simp
        rintro p a rest he ha hp h1
        cases p with
        | nil => simp only [List.nil_append, List.cons.injEq] at he; rw [← he.1, hv] at ha; cases ha
        | cons y p =>
          simp only [List.cons_append, List.cons.injEq] at he
          obtain ⟨v', h, h'⟩ := hp y (by simp)
          rw [← he.1, hv] at h; cases h; omega
      · rw [if_neg hl, addEntry_eq (by simp; omega) (by simp; omega)]
        simp only [Go.bind_ok]
        by_cases hf : buf.length + dlen > cap
        · simp [if_pos hf]
          rintro p a rest he ha hp h1
          cases p with
          | nil => simp only [List.nil_append, List.cons.injEq] at he; rw [← he.1, hv] at ha; cases ha
          | cons y p =>
            simp only [List.length_cons, Nat.add_mul] at h1; omega
        · rw [if_neg hf]
          simp only []
          rw [ih (by simp; omega)]
          constructor
          · rintro ⟨p, a, rest, rfl, ha, hp, h1, h2⟩
            refine ⟨x :: p, a, rest, rfl, ha, ?_, ?_, ?_⟩
            · intro y hy
              rcases List.mem_cons.1 hy with rfl | hy
              · exact ⟨v, hv, by omega⟩
              · exact hp y hy
            · simp only [List.length_cons, Nat.add_mul, List.length_append, put16_length, List.length_take] at *; omega
            · simp only [List.length_cons, Nat.add_mul, List.length_append, put16_length, List.length_take] at *; omega
          · rintro ⟨p, a, rest, he, ha, hp, h1, h2⟩
            cases p with
            | nil => simp only [List.nil_append, List.cons.injEq] at he; rw [← he.1, hv] at ha; cases ha
            | cons y p =>
              simp only [List.cons_append, List.cons.injEq] at he
              refine ⟨p, a, rest, he.2, ha, fun z hz => hp z (by simp [hz]), ?_, ?_⟩
              · simp only [List.length_cons, Nat.add_mul, List.length_append, put16_length, List.length_take] at *; omega
              · simp only [List.length_cons, Nat.add_mul, List.length_append, put16_length, List.length_take] at *; omega

/-- Panics of the group loop from the start. -/
theorem readByGroupLoop_start_panic_iff {cap : Nat} {t : Bytes} {s : Server σ} {as : List (Attr σ)} (hcap : 4 ≤ cap) :
    readByGroupLoop cap (0x10 :: t) s as 0 [] = .panic ↔
      ∃ x v0 p a rest, as = x :: p ++ a :: rest ∧ x.v = some v0 ∧ a.v = none ∧
        (∀ y ∈ p, ∃ v, y.v = some v ∧ 4 + v.length = min (min (4 + v0.length) 255) cap) ∧
        (p.length + 1) * min (min (4 + v0.length) 255) cap ≤ cap ∧
        cap < (p.length + 1) * min (min (4 + v0.length) 255) cap + 4 := by
  cases as with
  | nil => simp [readByGroupLoop]
  | cons x as =>
    rw [readByGroupLoop]
    cases hv : x.v with
    | none =>
      have hc : ¬ ([] : Bytes).length + 4 > cap := by simp; omega
      simp only []
      rw [if_neg hc, handleATT_other _ _ _ _ _ (Or.inr rfl)]
      constructor
      · intro h; simp [errReqNotSupp] at h
      · rintro ⟨y, v0, p, a, rest, he, hy, -⟩
        simp only [List.cons_append, List.cons.injEq] at he
        rw [← he.1, hv] at hy; cases hy
    | some v =>
      simp only [Go.pure_def, Go.bind_ok]
      unfold listStep
      rw [if_pos rfl]
      have hl : (put16 x.h ++ put16 x.endh).length = 4 := rfl
      have hd := firstLen_le 4 cap v.length
      have hd' := firstLen_ge 4 cap v.length hcap (by omega)
      rw [hl, addEntry_eq (by rw [hl]; exact hd') (by rw [hl]; exact hd.1)]
      have hc : ¬ ([] : Bytes).length + firstLen 4 cap v.length > cap := by simp; omega
      simp only [Go.bind_ok, if_neg hc]
      rw [readByGroupLoop_panic_iff (by omega)
        (by simp only [List.length_append, put16_length, List.length_nil, List.length_take]; omega)]
      rw [firstLen_eq] at *
      generalize hD : min (min (4 + v.length) 255) cap = D at *
      constructor
      · rintro ⟨p, a, rest, rfl, ha, hp, h1, h2⟩
        refine ⟨x, v, p, a, rest, rfl, hv, ha, ?_, ?_, ?_⟩
        · rw [hD]; exact hp
        · rw [hD]; simp only [Nat.add_mul, List.length_append, put16_length, List.length_take, List.length_nil] at *; omega
        · rw [hD]; simp only [Nat.add_mul, List.length_append, put16_length, List.length_take, List.length_nil] at *; omega
      · rintro ⟨y, v0, p, a, rest, he, hy, ha, hp, h1, h2⟩
        simp only [List.cons_append, List.cons.injEq] at he
        rw [← he.1, hv] at hy; cases hy
        rw [hD] at hp h1 h2
        refine ⟨p, a, rest, he.2, ha, hp, ?_, ?_⟩
        · simp only [Nat.add_mul, List.length_append, put16_length, List.length_take, List.length_nil] at *; omega
        · simp only [Nat.add_mul, List.length_append, put16_length, List.length_take, List.length_nil] at *; omega

/-- The read handlers in the table never panic. -/
def ReadTotal (db : DB σ) : Prop := ∀ a ∈ db.attrs, ∀ f, a.rh = some f → ∀ st off cap, f st off cap ≠ .panic

theorem readByTypeLoop_returns {cap : Nat} {typ t : Bytes} {s : Server σ} {as : List (Attr σ)} {dlen : Nat} {buf : Bytes}
    (ht : ∀ a ∈ as, ∀ f, a.rh = some f → ∀ st off cap, f st off cap ≠ .panic) (hc : 2 ≤ cap) :
    readByTypeLoop cap typ (0x08 :: t) s as dlen buf ≠ .panic := by
  induction as generalizing s dlen buf with
  | nil => simp [readByTypeLoop]
  | cons a as ih =>
    have iht : ∀ a ∈ as, ∀ f, a.rh = some f → ∀ st off cap, f st off cap ≠ .panic := fun x hx => ht x (by simp [hx])
    rw [readByTypeLoop]
    split
    · exact ih iht
    intro hp
    rcases Go.bind_eq_panic.1 hp with hp | ⟨⟨s1, r⟩, -, hp⟩
    · split at hp
      · cases hp
      · rcases Go.bind_eq_panic.1 hp with hp | ⟨⟨s2, e, w⟩, -, hp⟩
        · unfold handleATT at hp
          simp only [index_cons_zero, Go.bind_ok] at hp
          rw [if_pos (by simp)] at hp
          split at hp
          · cases hp
          · rename_i f hf
            rcases Go.bind_eq_panic.1 hp with hp | ⟨⟨x, y, z⟩, -, hp⟩
            · exact ht a (by simp) f hf _ _ _ hp
            · cases hp
        · cases hp
    · simp only [] at hp
      split at hp
      · cases hp
      · rcases Go.bind_eq_panic.1 hp with hp | ⟨⟨d', nb⟩, -, hp⟩
        · exact listStep_returns (by simpa using hc) (by simp) hp
        · simp only [] at hp
          split at hp
          · cases hp
          · exact ih iht hp

theorem findByTypeValueLoop_returns {cap : Nat} {typ value t : Bytes} {s : Server σ} {as : List (Attr σ)} {buf : Bytes} :
    findByTypeValueLoop cap typ value (0x06 :: t) s as buf ≠ .panic := by
  induction as generalizing s buf with
  | nil => simp [findByTypeValueLoop]
  | cons a as ih =>
    rw [findByTypeValueLoop]
    split
    · exact ih
    split
    · rw [handleATT_other _ _ _ _ _ (Or.inl rfl)]
      simp [errReqNotSupp]
    · split
      · exact ih
      split
      · simp
      · exact ih

end Ble.Att
