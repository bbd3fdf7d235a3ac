import Verif.Att.ListLemmas
import Verif.Props.AttServer
set_option autoImplicit false

/-!
# The ATT server: Find Information and Read By Type (C13, C14)
-/

namespace Ble.Props

open Ble.Att Ble.Spec

variable {α σ : Type}

theorem le16At_put16 {ε : Type} (x : UInt8) (n : Nat) (h : n < 65536) (t : Bytes) :
    le16At (ε := ε) (x :: (put16 n ++ t)) 1 = .ok n := by
  simp [le16At, put16, le16_put16 n h]

theorem le16At_put16_3 {ε : Type} (x : UInt8) (m n : Nat) (h : n < 65536) (t : Bytes) :
    le16At (ε := ε) (x :: (put16 m ++ (put16 n ++ t))) 3 = .ok n := by
  simp [le16At, put16, le16_put16 n h]

theorem takeWhile_mem {β : Type} {p : β → Bool} {l : List β} {a : β} (h : a ∈ l.takeWhile p) : p a = true := by
  induction l with
  | nil => simp at h
  | cons x xs ih =>
    by_cases hx : p x = true
    · rw [List.takeWhile_cons_of_pos hx] at h
      rcases List.mem_cons.1 h with rfl | h
      · exact hx
      · exact ih h
    · rw [List.takeWhile_cons_of_neg hx] at h; simp at h

/-- A request for a range of handles: opcode, first handle, last handle, rest. -/
def rangeReq (op : UInt8) (lo hi : Nat) (t : Bytes) : Bytes := op :: (put16 lo ++ (put16 hi ++ t))

/-! ## C13 -/

theorem handleRequest_findInfo (s : Server σ) (hc : Consecutive s.db) (lo hi : Nat) (h0 : 0 < lo) (h1 : lo ≤ hi) (h2 : hi < 65536) :
    handleRequest s (rangeReq 0x04 lo hi []) =
      (let (fmt, buf) := findInfoLoop (s.mtu - 2) (inRange s.db lo hi) 0 []
       if fmt = 0 then reject s 0x04 lo errAttrNotFound else .ok (s, some (0x05 :: UInt8.ofNat fmt :: buf))) := by
  show handleFindInfo s (rangeReq 0x04 lo hi []) = _
  unfold handleFindInfo rangeReq
  rw [le16At_put16 _ _ (by omega), le16At_put16_3 _ _ _ h2]
  simp only [index_cons_zero, Go.bind_ok]
  rw [if_neg (by simp), if_neg (by omega), subrange_of_le hc (by omega)]
  rfl

/-- **C13.** The answer to Find Information for `lo..hi` is decided by the attributes of the table in that range: Attribute Not Found if
there are none; otherwise the (handle, type) pairs of the longest prefix with types of the same size as the first one, cut to as many as
fit in the MTU. The format byte is 1 for 16-bit and 2 for 128-bit types. -/
theorem findInfo_spec (s : Server σ) (hm : 23 ≤ s.mtu) (hc : Consecutive s.db) (lo hi : Nat) (h0 : 0 < lo) (h1 : lo ≤ hi) (h2 : hi < 65536) :
    (inRange s.db lo hi = [] → handleRequest s (rangeReq 0x04 lo hi []) = .ok (s, some (errorRsp 0x04 lo 0x0A))) ∧
    (∀ a as, inRange s.db lo hi = a :: as → (a.typ.length = 2 ∨ a.typ.length = 16) →
      ∃ n, 0 < n ∧ n = min ((inRange s.db lo hi).takeWhile fun b => b.typ.length == a.typ.length).length ((s.mtu - 2) / (a.typ.length + 2)) ∧
        handleRequest s (rangeReq 0x04 lo hi []) =
          .ok (s, some (0x05 :: (if a.typ.length = 2 then 1 else 2) :: ((inRange s.db lo hi).take n).flatMap fun b => put16 b.h ++ b.typ)) ∧
        ∀ b ∈ (inRange s.db lo hi).take n, b.typ.length = a.typ.length) := by
  have key := handleRequest_findInfo s hc lo hi h0 h1 h2
  constructor
  · intro he
    rw [key, he]; rfl
  · intro a as he hl
    have hloop : findInfoLoop (s.mtu - 2) (inRange s.db lo hi) 0 [] =
        findInfoLoop (s.mtu - 2) (inRange s.db lo hi) (if a.typ.length = 16 then 2 else 1) [] := by
      rw [he, findInfoLoop, findInfoLoop]
      have : infoFormat (if a.typ.length = 16 then 2 else 1) a.typ.length = infoFormat 0 a.typ.length := by
        unfold infoFormat; split <;> simp
      rw [this]
    have hloop2 := hloop.trans (findInfoLoop_eq (s.mtu - 2) (if a.typ.length = 16 then 2 else 1) a.typ.length
      (by rcases hl with h | h <;> simp [h]) (inRange s.db lo hi) [] (by simp))
    refine ⟨min ((inRange s.db lo hi).takeWhile fun b => b.typ.length == a.typ.length).length ((s.mtu - 2) / (a.typ.length + 2)), ?_, rfl, ?_, ?_⟩
    · rw [Nat.lt_min]
      constructor
      · rw [he]; simp
      · apply Nat.div_pos <;> omega
    · rw [key, hloop2]
      have ht : ((inRange s.db lo hi).takeWhile fun b => b.typ.length == a.typ.length).take ((s.mtu - 2) / (a.typ.length + 2)) =
          (inRange s.db lo hi).take (min ((inRange s.db lo hi).takeWhile fun b => b.typ.length == a.typ.length).length
            ((s.mtu - 2) / (a.typ.length + 2))) := by
        have hp := List.prefix_iff_eq_take.1 (List.takeWhile_prefix (l := inRange s.db lo hi) (fun b => b.typ.length == a.typ.length))
        conv => lhs; rw [hp]
        rw [List.take_take, Nat.min_comm]
      simp only [List.length_nil, Nat.sub_zero, List.nil_append]
      rw [ht]
      rcases hl with h | h <;> simp [h] <;> rfl
    · intro b hb
      have : b ∈ (inRange s.db lo hi).takeWhile fun b => b.typ.length == a.typ.length := by
        have hp := List.prefix_iff_eq_take.1 (List.takeWhile_prefix (l := inRange s.db lo hi) (fun b => b.typ.length == a.typ.length))
        rw [hp]
        exact (List.take_subset_take_left _ (Nat.min_le_left _ _)) hb
      simpa using takeWhile_mem this

/-- With a first attribute whose type is neither 16 nor 128 bits long (the API accepts such UUIDs) the answer is an empty list. -/
theorem findInfo_odd_type (s : Server σ) (hc : Consecutive s.db) (lo hi : Nat) (h0 : 0 < lo) (h1 : lo ≤ hi) (h2 : hi < 65536)
    (a : Attr σ) (as : List (Attr σ)) (he : inRange s.db lo hi = a :: as) (hl : a.typ.length ≠ 2 ∧ a.typ.length ≠ 16) :
    handleRequest s (rangeReq 0x04 lo hi []) = .ok (s, some [0x05, 0x01]) := by
  rw [handleRequest_findInfo s hc lo hi h0 h1 h2, he, findInfoLoop]
  have : infoFormat 0 a.typ.length = 1 := by unfold infoFormat; simp [hl.2]
  rw [this, if_pos ⟨rfl, hl.1⟩]
  rfl

example : handleRequest crashServer (rangeReq 0x04 2 0xFFFF []) =
    .ok (crashServer, some [0x05, 0x01, 2, 0, 0x03, 0x28]) := by rfl
example : handleRequest crashServer (rangeReq 0x04 3 0xFFFF []) =
    .ok (crashServer, some ([0x05, 0x02, 3, 0] ++ List.replicate 16 9)) := by rfl

/-! ## C14 -/

/-- `v` is a value the attribute `a` has for a reader that offers `cap` bytes: its static value, or what its read handler, reporting
success, wrote in some application state. -/
def IsValue (a : Attr σ) (cap : Nat) (v : Bytes) : Prop :=
  a.v = some v ∨ (a.v = none ∧ ∃ f st st' chunks, a.rh = some f ∧ f st 0 cap = .ok (st', chunks, 0) ∧ v = writeAll cap [] chunks)

/-- The value of one attribute in the loop. -/
theorem valueStep {mtu : Nat} {t : Bytes} {s s1 : Server σ} {a : Attr σ} {r : UInt8 ⊕ Bytes} (hm : s.mtu = mtu)
    (h1 : (match a.v with
        | some v => pure (s, Sum.inr v)
        | none => do
          let (s', e, w) ← handleATT (some a) s (0x08 :: t) (s.mtu - 2)
          pure (s', if e ≠ 0 then Sum.inl e else Sum.inr w) : Run (Server σ × (UInt8 ⊕ Bytes))) = .ok (s1, r)) :
    s1.mtu = mtu ∧ ∀ v, r = .inr v → IsValue a (mtu - 2) v := by
  cases hv : a.v with
  | some v =>
    rw [hv] at h1; cases h1
    exact ⟨hm, fun v' e => Or.inl (by cases e; exact hv)⟩
  | none =>
    rw [hv] at h1
    obtain ⟨⟨s2, e, w⟩, h2, h6⟩ := Go.bind_eq_ok.1 h1
    have h3 := handleATT_ok h2
    simp only [Go.pure_def, Go.ok.injEq, Prod.mk.injEq] at h6
    obtain ⟨rfl, h7⟩ := h6
    refine ⟨h3.1.trans hm, fun v hv' => Or.inr ⟨hv, ?_⟩⟩
    subst hv'
    by_cases he : e = 0
    · rw [if_neg (by simpa using he)] at h7
      cases h7
      subst he
      unfold handleATT at h2
      simp only [index_cons_zero, Go.bind_ok] at h2
      rw [if_pos (by simp)] at h2
      cases hrh : a.rh with
      | none => simp [hrh, errReadNotPerm] at h2
      | some f =>
        simp only [hrh, serveRead] at h2
        obtain ⟨⟨st', chunks, e'⟩, h4, h5⟩ := Go.bind_eq_ok.1 h2
        simp only [Go.pure_def, Go.ok.injEq, Prod.mk.injEq] at h5
        obtain ⟨-, rfl, rfl⟩ := h5
        rw [hm] at h4 ⊢
        exact ⟨f, s.st, st', chunks, rfl, h4, rfl⟩
    · rw [if_pos he] at h7; cases h7

/-- The entries a Read By Type loop adds: values of the listed attributes, each of `dlen - 2` bytes. -/
theorem readByTypeLoop_entries {cap mtu dlen : Nat} {typ t : Bytes} {s s' : Server σ} {as : List (Attr σ)} {buf : Bytes} {d : Nat} {out : Bytes}
    (hcap : 2 ≤ cap) (hm : s.mtu = mtu) (hb : buf.length ≤ cap)
    (h : readByTypeLoop cap typ (0x08 :: t) s as dlen buf = .ok (s', .done d out)) (hd : 2 ≤ dlen) :
    d = dlen ∧ ∃ es : List (Attr σ × Bytes), es.map Prod.fst <+: (as.filter fun a => a.typ == typ) ∧
      out = buf ++ es.flatMap (fun e => put16 e.1.h ++ e.2) ∧ out.length ≤ cap ∧
      ∀ e ∈ es, 2 + e.2.length = dlen ∧ IsValue e.1 (mtu - 2) e.2 := by
  induction as generalizing s buf with
  | nil => cases h; exact ⟨rfl, [], by simp, by simp, hb, by simp⟩
  | cons a as ih =>
    rw [readByTypeLoop] at h
    by_cases ht : a.typ = typ
    · rw [if_neg (by simpa using ht)] at h
      obtain ⟨⟨s1, r⟩, h1, h⟩ := Go.bind_eq_ok.1 h
      simp only [] at h
      have hr := valueStep hm h1
      cases r with
      | inl e =>
        simp only [Go.pure_def, if_neg (show ¬ dlen = 0 by omega)] at h
        cases h
        exact ⟨rfl, [], by simp, by simp, hb, by simp⟩
      | inr v =>
        simp only [] at h
        by_cases hl : 2 + v.length = dlen
        · rw [listStep_same (by omega) (by simpa using hl)] at h
          simp only [Go.bind_ok] at h
          by_cases hc : buf.length + dlen > cap
          · simp only [if_pos hc] at h
            cases h
            exact ⟨rfl, [], by simp, by simp, hb, by simp⟩
          · simp only [if_neg hc] at h
            obtain ⟨hd', es, hp, ho, hol, hall⟩ := ih hr.1 (by simp only [List.length_append, put16_length]; omega) h
            refine ⟨hd', (a, v) :: es, ?_, ?_, hol, ?_⟩
            · rw [List.filter_cons_of_pos (by simp [ht])]
              simpa using hp
            · rw [ho]; simp
            · intro e he
              rcases List.mem_cons.1 he with rfl | he
              · exact ⟨hl, hr.2 v rfl⟩
              · exact hall e he
        · rw [listStep_other (by omega) (by simpa using hl)] at h
          cases h
          exact ⟨rfl, [], by simp, by simp, hb, by simp⟩
    · rw [if_pos ht] at h
      obtain ⟨hd', es, hp, ho, hol, hall⟩ := ih hm hb h
      refine ⟨hd', es, ?_, ho, hol, hall⟩
      rw [List.filter_cons_of_neg (by simp [ht])]; exact hp

/-- The list made by a Read By Type loop started empty. -/
theorem readByTypeLoop_start {cap mtu : Nat} {typ t : Bytes} {s s' : Server σ} {as : List (Attr σ)} {d : Nat} {out : Bytes}
    (hm : s.mtu = mtu) (hcap : 2 ≤ cap) (hcm : cap = mtu - 2)
    (h : readByTypeLoop cap typ (0x08 :: t) s as 0 [] = .ok (s', .done d out)) (hd : d ≠ 0) :
    2 ≤ d ∧ d ≤ 255 ∧ ∃ es : List (Attr σ × Bytes), es ≠ [] ∧ es.map Prod.fst <+: (as.filter fun a => a.typ == typ) ∧
      out = es.flatMap (fun e => put16 e.1.h ++ e.2) ∧ out.length ≤ cap ∧ (∀ e ∈ es, 2 + e.2.length = d) ∧
      (∀ e ∈ es.tail, IsValue e.1 (mtu - 2) e.2) ∧
      ∀ e ∈ es.head?, ∃ v, IsValue e.1 (mtu - 2) v ∧ e.2 = v.take (min 253 (mtu - 4)) := by
  induction as generalizing s with
  | nil => cases h; exact absurd rfl hd
  | cons a as ih =>
    rw [readByTypeLoop] at h
    by_cases ht : a.typ = typ
    · rw [if_neg (by simpa using ht)] at h
      obtain ⟨⟨s1, r⟩, h1, h⟩ := Go.bind_eq_ok.1 h
      have hr := valueStep hm h1
      cases r with
      | inl e => cases h
      | inr v =>
        simp only [] at h
        rw [listStep_first (by simpa using hcap) (by simp)] at h
        simp only [Go.bind_ok, put16_length, List.length_nil, Nat.zero_add] at h
        have hf := firstLen_le 2 cap v.length
        have hg := firstLen_ge 2 cap v.length hcap (by omega)
        have he := firstLen_eq 2 cap v.length
        simp only [if_neg (show ¬ firstLen 2 cap v.length > cap by omega)] at h
        obtain ⟨rfl, es, hp, ho, hol, hall⟩ := readByTypeLoop_entries hcap hr.1
          (by simp only [List.length_append, put16_length, List.length_take, List.length_nil]; omega) h hg
        refine ⟨hg, hf.2.2, (a, v.take (firstLen 2 cap v.length - 2)) :: es, by simp, ?_, ?_, hol, ?_, ?_, ?_⟩
        · rw [List.filter_cons_of_pos (by simp [ht])]; simpa using hp
        · rw [ho]; simp
        · intro e he'
          rcases List.mem_cons.1 he' with rfl | he'
          · simp only [List.length_take]; omega
          · exact (hall e he').1
        · intro e he'; exact (hall e he').2
        · intro e he'
          simp only [List.head?_cons, Option.mem_def, Option.some.injEq] at he'
          subst he'
          refine ⟨v, hr.2 v rfl, ?_⟩
          simp only []
          rw [he]
          by_cases hvl : v.length ≤ min 253 (mtu - 4)
          · rw [List.take_of_length_le hvl, List.take_of_length_le (by omega)]
          · congr 1; omega
    · rw [if_pos ht] at h
      obtain ⟨hd1, hd2, es, he⟩ := ih hm h
      refine ⟨hd1, hd2, es, he.1, ?_, he.2.2⟩
      rw [List.filter_cons_of_neg (by simp [ht])]; exact he.2.1

theorem handleRequest_readByType (s : Server σ) (hc : Consecutive s.db) (lo hi : Nat) (typ : Bytes)
    (h0 : 0 < lo) (h1 : lo ≤ hi) (h2 : hi < 65536) (ht : typ.length = 2 ∨ typ.length = 16) :
    handleRequest s (rangeReq 0x08 lo hi typ) = (do
      let (s', out) ← readByTypeLoop (s.mtu - 2) typ (rangeReq 0x08 lo hi typ) s (inRange s.db lo hi) 0 []
      match out with
      | .fail e => reject s' 0x08 lo e
      | .done dlen buf =>
        if dlen = 0 then reject s' 0x08 lo errAttrNotFound
        else pure (s', some (0x09 :: UInt8.ofNat dlen :: buf))) := by
  show handleReadByType s (rangeReq 0x08 lo hi typ) = _
  unfold handleReadByType
  have e1 : index (ε := Empty) (rangeReq 0x08 lo hi typ) 0 = .ok 0x08 := rfl
  have e2 : le16At (ε := Empty) (rangeReq 0x08 lo hi typ) 1 = .ok lo := le16At_put16 _ _ (by omega) _
  have e3 : le16At (ε := Empty) (rangeReq 0x08 lo hi typ) 3 = .ok hi := le16At_put16_3 _ _ _ h2 _
  have e4 : sliceFrom (ε := Empty) (rangeReq 0x08 lo hi typ) 5 = .ok typ := by
    rw [sliceFrom_of_le (by simp [rangeReq]; omega)]; rfl
  rw [e1, e2, e3, e4]
  simp only [Go.bind_ok]
  rw [if_neg (by simp only [rangeReq, List.length_cons, List.length_append, put16_length]; omega), if_neg (by omega), subrange_of_le hc (by omega)]
  rfl

/-- **C14.** If no attribute of the range has the asked type, the answer is Attribute Not Found. -/
theorem readByType_not_found (s : Server σ) (hc : Consecutive s.db) (lo hi : Nat) (typ : Bytes)
    (h0 : 0 < lo) (h1 : lo ≤ hi) (h2 : hi < 65536) (ht : typ.length = 2 ∨ typ.length = 16)
    (hn : ∀ a ∈ inRange s.db lo hi, a.typ ≠ typ) :
    handleRequest s (rangeReq 0x08 lo hi typ) = .ok (s, some (errorRsp 0x08 lo 0x0A)) := by
  rw [handleRequest_readByType s hc lo hi typ h0 h1 h2 ht]
  have : ∀ as : List (Attr σ), (∀ a ∈ as, a.typ ≠ typ) → ∀ cap req,
      readByTypeLoop cap typ req s as 0 [] = .ok (s, .done 0 []) := by
    intro as
    induction as with
    | nil => intros; rfl
    | cons a as ih =>
      intro h cap req
      rw [readByTypeLoop, if_pos (h a (by simp))]
      exact ih (fun x hx => h x (by simp [hx])) cap req
  rw [this _ hn]; rfl

/-- **C14.** If all attributes of the asked type in the range are static, the answer is exactly: the first one's value cut to 253 bytes
and the MTU, then as many following ones of the same size as fit. -/
theorem readByType_static (s : Server σ) (hm : 23 ≤ s.mtu) (hc : Consecutive s.db) (lo hi : Nat) (typ : Bytes)
    (h0 : 0 < lo) (h1 : lo ≤ hi) (h2 : hi < 65536) (ht : typ.length = 2 ∨ typ.length = 16)
    (a : Attr σ) (as : List (Attr σ)) (v : Bytes) (L : Nat)
    (hf : (inRange s.db lo hi).filter (fun a => a.typ == typ) = a :: as) (hv : a.v = some v)
    (hs : ∀ b ∈ as, b.v ≠ none) (hL : L = min (min (2 + v.length) 255) (s.mtu - 2)) :
    handleRequest s (rangeReq 0x08 lo hi typ) = .ok (s, some (0x09 :: UInt8.ofNat L :: (put16 a.h ++ v.take (L - 2) ++
      ((as.takeWhile fun b => 2 + (sval b).length == L).take ((s.mtu - 2 - L) / L)).flatMap fun b => put16 b.h ++ sval b))) := by
  rw [handleRequest_readByType s hc lo hi typ h0 h1 h2 ht]
  have main : ∀ l : List (Attr σ), l.filter (fun a => a.typ == typ) = a :: as →
      readByTypeLoop (s.mtu - 2) typ (rangeReq 0x08 lo hi typ) s l 0 [] = .ok (s, .done L (put16 a.h ++ v.take (L - 2) ++
        ((as.takeWhile fun b => 2 + (sval b).length == L).take ((s.mtu - 2 - L) / L)).flatMap fun b => put16 b.h ++ sval b)) := by
    intro l
    induction l with
    | nil => simp
    | cons x xs ih =>
      intro h
      rw [readByTypeLoop]
      by_cases hx : x.typ = typ
      · rw [List.filter_cons_of_pos (by simp [hx])] at h
        obtain ⟨rfl, h3⟩ := List.cons.inj h
        rw [if_neg (by simpa using hx), hv]
        have e := firstLen_eq 2 (s.mtu - 2) v.length
        have hl2 : 2 ≤ L := by omega
        have hlen : (put16 x.h ++ v.take (L - 2)).length = L := by
          simp only [List.length_append, put16_length, List.length_take]; omega
        simp only [Go.pure_def, Go.bind_ok]
        rw [listStep_first (by simp; omega) (by simp)]
        simp only [put16_length, List.length_nil, Go.bind_ok, e, ← hL, List.nil_append]
        simp only [if_neg (show ¬ 0 + L > s.mtu - 2 by omega)]
        rw [readByTypeLoop_static _ _ _ _ _ _ _ hl2 (by omega), h3, hlen]
        intro b hb hbt
        exact hs b (by rw [← h3]; simp [hb, hbt])
      · rw [List.filter_cons_of_neg (by simp [hx])] at h
        rw [if_pos hx]; exact ih h
  rw [main _ hf]
  simp only [Go.bind_ok]
  rw [if_neg (by omega)]
  rfl

/-- **C14.** If reading the first matching attribute fails, the answer is that failure, for the first handle asked for. -/
theorem readByType_first_fails (s : Server σ) (hc : Consecutive s.db) (lo hi : Nat) (typ : Bytes)
    (h0 : 0 < lo) (h1 : lo ≤ hi) (h2 : hi < 65536) (ht : typ.length = 2 ∨ typ.length = 16)
    (a : Attr σ) (as : List (Attr σ)) (hf : (inRange s.db lo hi).filter (fun a => a.typ == typ) = a :: as) (hv : a.v = none)
    (e : UInt8) (he : e ≠ 0) (st' : σ) (chunks : List Bytes)
    (hr : (a.rh = none ∧ e = 0x02 ∧ st' = s.st) ∨ ∃ f, a.rh = some f ∧ f s.st 0 (s.mtu - 2) = .ok (st', chunks, e)) :
    handleRequest s (rangeReq 0x08 lo hi typ) = .ok ({ s with st := st' }, some (errorRsp 0x08 lo e)) := by
  rw [handleRequest_readByType s hc lo hi typ h0 h1 h2 ht]
  have main : ∀ l : List (Attr σ), l.filter (fun a => a.typ == typ) = a :: as →
      readByTypeLoop (s.mtu - 2) typ (rangeReq 0x08 lo hi typ) s l 0 [] = .ok ({ s with st := st' }, .fail e) := by
    intro l
    induction l with
    | nil => simp
    | cons x xs ih =>
      intro h
      rw [readByTypeLoop]
      by_cases hx : x.typ = typ
      · rw [List.filter_cons_of_pos (by simp [hx])] at h
        obtain ⟨rfl, h⟩ := List.cons.inj h
        rw [if_neg (by simpa using hx), hv]
        have : handleATT (some x) s (rangeReq 0x08 lo hi typ) (s.mtu - 2) = .ok ({ s with st := st' }, e, match x.rh with
            | none => [] | some _ => writeAll (s.mtu - 2) [] chunks) := by
          unfold handleATT
          rw [show index (ε := Empty) (rangeReq 0x08 lo hi typ) 0 = .ok 0x08 from rfl]
          simp only [Go.bind_ok]
          rw [if_pos (by simp)]
          rcases hr with ⟨h1, h2, h3⟩ | ⟨f, h1, h2⟩
          · rw [h1, h2, h3]; rfl
          · rw [h1]; simp only [serveRead, h2, Go.bind_ok]; rfl
        simp only [this, Go.bind_ok, Go.pure_def]
        simp [he]
      · rw [List.filter_cons_of_neg (by simp [hx])] at h
        rw [if_pos hx]; exact ih h
  rw [main _ hf]; rfl

example : handleRequest crashServer (rangeReq 0x08 1 0xFFFF (put16 0x2803)) =
    .ok (crashServer, some ([0x09, 21, 2, 0, 0x10, 3, 0] ++ List.replicate 16 9)) := by rfl
example : handleRequest crashServer (rangeReq 0x08 1 0xFFFF (put16 0x2902)) =
    .ok (crashServer, some [0x09, 4, 4, 0, 0, 0]) := by rfl
example : (∀ a ∈ inRange crashServer.db 1 3, a.typ ≠ cccUUID) := by decide

/-- **C14.** Whatever the table and its handlers, a Read By Type Response lists attributes of the asked type in the range: the first
matching one first, then the following ones in handle order without gaps. Each entry is the handle and a value of the attribute; all have
the announced size, and the whole list fits the MTU. Only the first value may have been cut, to 253 bytes or to what fits the MTU. -/
theorem readByType_entries (s s' : Server σ) (hm : 23 ≤ s.mtu) (hc : Consecutive s.db) (lo hi : Nat) (typ : Bytes)
    (h0 : 0 < lo) (h1 : lo ≤ hi) (h2 : hi < 65536) (ht : typ.length = 2 ∨ typ.length = 16) (len : UInt8) (body : Bytes)
    (h : handleRequest s (rangeReq 0x08 lo hi typ) = .ok (s', some (0x09 :: len :: body))) :
    ∃ es : List (Attr σ × Bytes), es ≠ [] ∧ es.map Prod.fst <+: ((inRange s.db lo hi).filter fun a => a.typ == typ) ∧
      body = es.flatMap (fun e => put16 e.1.h ++ e.2) ∧ body.length ≤ s.mtu - 2 ∧
      (∀ e ∈ es, 2 + e.2.length = len.toNat) ∧ (∀ e ∈ es.tail, IsValue e.1 (s.mtu - 2) e.2) ∧
      ∀ e ∈ es.head?, ∃ v, IsValue e.1 (s.mtu - 2) v ∧ e.2 = v.take (min 253 (s.mtu - 4)) := by
  obtain ⟨s1, out, hl, hr⟩ : ∃ s1 out, readByTypeLoop (s.mtu - 2) typ (rangeReq 0x08 lo hi typ) s (inRange s.db lo hi) 0 [] = .ok (s1, out) ∧
      ((match out with
        | .fail e => reject s1 0x08 lo e
        | .done dlen buf =>
          if dlen = 0 then reject s1 0x08 lo errAttrNotFound
          else .ok (s1, some (0x09 :: UInt8.ofNat dlen :: buf))) : Run (Server σ × Option Bytes)) = .ok (s', some (0x09 :: len :: body)) := by
    rw [handleRequest_readByType s hc lo hi typ h0 h1 h2 ht] at h
    obtain ⟨⟨s1, out⟩, ha, hb⟩ := Go.bind_eq_ok.1 h
    exact ⟨s1, out, ha, hb⟩
  cases out with
  | fail e => cases hr
  | done dlen buf =>
    simp only [] at hr
    split at hr
    · cases hr
    rename_i hd
    simp only [Go.ok.injEq, Prod.mk.injEq, Option.some.injEq, List.cons.injEq, true_and] at hr
    obtain ⟨rfl, rfl, rfl⟩ := hr
    obtain ⟨hd1, hd2, es, he⟩ := readByTypeLoop_start rfl (by omega) (by omega) hl (by omega)
    have hn : (UInt8.ofNat dlen).toNat = dlen := by simp only [UInt8.toNat_ofNat']; omega
    exact ⟨es, he.1, he.2.1, he.2.2.1, he.2.2.2.1, by rw [hn]; exact he.2.2.2.2.1, he.2.2.2.2.2.1, he.2.2.2.2.2.2⟩

end Ble.Props
