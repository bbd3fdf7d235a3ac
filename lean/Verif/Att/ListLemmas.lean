import Verif.Att.CrashLemmas
set_option autoImplicit false

namespace Ble.Att

open Ble.Spec

variable {α σ : Type}

/-- `(handle, type)` on the air. -/
def infoEntry (a : Attr σ) : Bytes := put16 a.h ++ a.typ

theorem findInfoLoop_eq (cap fmt L : Nat) (hf : fmt = 1 ∧ L = 2 ∨ fmt = 2 ∧ L = 16) (as : List (Attr σ)) (buf : Bytes)
    (hb : buf.length ≤ cap) :
    findInfoLoop cap as fmt buf =
      (fmt, buf ++ ((as.takeWhile fun a => a.typ.length == L).take ((cap - buf.length) / (L + 2))).flatMap infoEntry) := by
  induction as generalizing buf with
  | nil => simp [findInfoLoop]
  | cons a as ih =>
    have hfm : infoFormat fmt a.typ.length = fmt := by unfold infoFormat; rw [if_neg (by omega)]
    rw [findInfoLoop, hfm]
    by_cases hl : a.typ.length = L
    · rw [if_neg (by omega), if_neg (by omega), List.takeWhile_cons_of_pos (by simp [hl])]
      by_cases hc : buf.length + 2 + a.typ.length > cap
      · rw [if_pos hc]
        have : (cap - buf.length) / (L + 2) = 0 := by apply Nat.div_eq_of_lt; omega
        simp [this]
      · rw [if_neg hc, ih _ (by simp only [List.length_append, put16_length]; omega)]
        have e : (cap - buf.length) / (L + 2) = (cap - (buf ++ put16 a.h ++ a.typ).length) / (L + 2) + 1 := by
          rw [← Nat.add_div_right _ (by omega)]
          congr 1
          simp only [List.length_append, put16_length]; omega
        rw [e, List.take_succ_cons, List.flatMap_cons]
        simp [infoEntry]
    · rw [List.takeWhile_cons_of_neg (by simp [hl])]
      by_cases h1 : fmt = 1 ∧ a.typ.length ≠ 2
      · rw [if_pos h1]; simp
      · rw [if_neg h1, if_pos (by omega)]; simp

/-- The static value of an attribute (empty if it has none). -/
def sval (a : Attr σ) : Bytes := a.v.getD []

theorem listStep_other {cap dlen : Nat} {hdr v buf : Bytes} (hd : dlen ≠ 0) (h : hdr.length + v.length ≠ dlen) :
    listStep cap hdr v dlen buf = .ok (dlen, none) := by
  unfold listStep; rw [if_neg hd, if_pos h]; rfl

theorem listStep_same {cap dlen : Nat} {hdr v buf : Bytes} (hd : dlen ≠ 0) (h : hdr.length + v.length = dlen) :
    listStep cap hdr v dlen buf = .ok (dlen, if buf.length + dlen > cap then none else some (buf ++ hdr ++ v)) := by
  unfold listStep
  rw [if_neg hd, if_neg (by simpa using h), addEntry_eq (by omega) (by omega), List.take_of_length_le (by omega)]

theorem listStep_first {cap : Nat} {hdr v buf : Bytes} (hc : hdr.length ≤ cap) (h5 : hdr.length ≤ 255) :
    listStep cap hdr v 0 buf = .ok (firstLen hdr.length cap v.length,
      if buf.length + firstLen hdr.length cap v.length > cap then none
      else some (buf ++ hdr ++ v.take (firstLen hdr.length cap v.length - hdr.length))) := by
  unfold listStep
  rw [if_pos rfl, addEntry_eq (firstLen_ge _ _ _ hc h5) (firstLen_le _ _ _).1]

theorem readByTypeLoop_static (cap dlen : Nat) (typ req : Bytes) (s : Server σ) (as : List (Attr σ)) (buf : Bytes)
    (hd : 2 ≤ dlen) (hb : buf.length ≤ cap) (hs : ∀ a ∈ as, a.typ = typ → a.v ≠ none) :
    readByTypeLoop cap typ req s as dlen buf =
      .ok (s, .done dlen (buf ++ (((as.filter fun a => a.typ == typ).takeWhile fun a => 2 + (sval a).length == dlen).take
        ((cap - buf.length) / dlen)).flatMap fun a => put16 a.h ++ sval a)) := by
  induction as generalizing buf with
  | nil => simp [readByTypeLoop]
  | cons a as ih =>
    have ih' := fun buf hb => ih buf hb (fun x hx => hs x (by simp [hx]))
    rw [readByTypeLoop]
    by_cases ht : a.typ = typ
    · rw [if_neg (by simpa using ht), List.filter_cons_of_pos (by simp [ht])]
      have hv := hs a (by simp) ht
      cases hav : a.v with
      | none => exact absurd hav hv
      | some v =>
        have hsv : sval a = v := by simp [sval, hav]
        simp only [Go.pure_def, Go.bind_ok]
        by_cases hl : 2 + v.length = dlen
        · rw [listStep_same (by omega) (by simpa using hl), List.takeWhile_cons_of_pos (by simp [hsv, hl])]
          simp only [Go.bind_ok]
          by_cases hc : buf.length + dlen > cap
          · have : (cap - buf.length) / dlen = 0 := by apply Nat.div_eq_of_lt; omega
            simp [if_pos hc, this]
          · simp only [if_neg hc]
            rw [ih' _ (by simp only [List.length_append, put16_length]; omega)]
            have e : (cap - buf.length) / dlen = (cap - (buf ++ put16 a.h ++ v).length) / dlen + 1 := by
              rw [← Nat.add_div_right _ (by omega)]
              congr 1
              simp only [List.length_append, put16_length]; omega
            rw [e, List.take_succ_cons, List.flatMap_cons]
            simp [hsv]
        · rw [listStep_other (by omega) (by simpa using hl), List.takeWhile_cons_of_neg (by simp [hsv, hl])]
          simp
    · rw [if_pos ht, List.filter_cons_of_neg (by simp [ht]), ih' buf hb]

/-- Group loop over a run of equal-length static values that is followed by nothing or by a static value of another length. -/
theorem readByGroupLoop_run (cap dlen : Nat) (req : Bytes) (s : Server σ) (run rest : List (Attr σ)) (buf : Bytes)
    (hd : 4 ≤ dlen) (hb : buf.length ≤ cap) (hrun : ∀ a ∈ run, ∃ v, a.v = some v ∧ 4 + v.length = dlen)
    (hrest : rest = [] ∨ ∃ a t v, rest = a :: t ∧ a.v = some v ∧ 4 + v.length ≠ dlen) :
    readByGroupLoop cap req s (run ++ rest) dlen buf =
      .ok (s, .done dlen (buf ++ (run.take ((cap - buf.length) / dlen)).flatMap
        fun a => put16 a.h ++ put16 a.endh ++ sval a)) := by
  induction run generalizing buf with
  | nil =>
    rcases hrest with rfl | ⟨a, t, v, rfl, hv, hl⟩
    · simp [readByGroupLoop]
    · rw [List.nil_append, readByGroupLoop, hv]
      simp only [Go.pure_def, Go.bind_ok]
      rw [listStep_other (by omega) (by simpa using hl)]
      simp
  | cons a run ih =>
    obtain ⟨v, hv, hl⟩ := hrun a (by simp)
    have ih' := fun buf hb => ih buf hb (fun x hx => hrun x (by simp [hx]))
    have hsv : sval a = v := by simp [sval, hv]
    rw [List.cons_append, readByGroupLoop, hv]
    simp only [Go.pure_def, Go.bind_ok]
    rw [listStep_same (by omega) (by simpa using hl)]
    simp only [Go.bind_ok]
    by_cases hc : buf.length + dlen > cap
    · have : (cap - buf.length) / dlen = 0 := by apply Nat.div_eq_of_lt; omega
      simp [if_pos hc, this]
    · simp only [if_neg hc]
      rw [ih' _ (by simp only [List.length_append, put16_length]; omega)]
      have e : (cap - buf.length) / dlen = (cap - (buf ++ (put16 a.h ++ put16 a.endh) ++ v).length) / dlen + 1 := by
        rw [← Nat.add_div_right _ (by omega)]
        congr 1
        simp only [List.length_append, put16_length]; omega
      rw [e, List.take_succ_cons, List.flatMap_cons]
      simp [hsv]

end Ble.Att
