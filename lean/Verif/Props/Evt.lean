import Verif.Hci.Evt
import Verif.Hci.EvtSpec
set_option autoImplicit false

/-!
# C34: advertising report accessors
-/

namespace Ble.Props

open Ble.Evt

namespace EvtAux

theorem getBytes_ok_iff (b : Bytes) (start : Int) (n : Nat) (x : Bytes) :
    getBytes b start (some n) = .ok x ↔ 0 ≤ start ∧ start < b.length ∧ start + n ≤ b.length ∧ x = (b.drop start.toNat).take n := by
  unfold getBytes
  split
  · constructor
    · intro h; cases h
    · rintro ⟨-, h, -⟩; omega
  · simp only
    split
    · constructor
      · intro h; cases h
      · rintro ⟨-, -, h, -⟩; omega
    · split
      · constructor
        · intro h; cases h
        · rintro ⟨h, -⟩; omega
      · simp only [Go.ok.injEq]
        constructor
        · rintro rfl; exact ⟨by omega, by omega, by omega, rfl⟩
        · rintro ⟨-, -, -, h⟩; exact h.symm

theorem getBytes_returns (b : Bytes) (start : Int) (c : Option Nat) (h : 0 ≤ start) : (getBytes b start c).returns = true := by
  unfold getBytes
  split
  · rfl
  · cases c with
    | none => simp only [if_neg (Int.not_lt.2 h)]; rfl
    | some n => simp only [if_neg (Int.not_lt.2 h)]; split <;> rfl

theorem getByte_ok_iff (b : Bytes) (i : Int) (x : UInt8) : getByte b i = .ok x ↔ 0 ≤ i ∧ b[i.toNat]? = some x := by
  unfold getByte
  rw [Go.bind_eq_ok]
  constructor
  · rintro ⟨bb, h, hx⟩
    obtain ⟨h0, h1, h2, rfl⟩ := (getBytes_ok_iff ..).1 h
    refine ⟨h0, ?_⟩
    simp only [index, List.getElem?_take, List.getElem?_drop] at hx
    simp only [Nat.lt_irrefl, Nat.zero_lt_one, if_true, Nat.add_zero] at hx
    split at hx
    · next y hy => rw [hy]; injection hx with hx; rw [hx]
    · cases hx
  · rintro ⟨h0, h1⟩
    have hl : i.toNat < b.length := by
      rcases Nat.lt_or_ge i.toNat b.length with h | h
      · exact h
      · rw [List.getElem?_eq_none h] at h1; cases h1
    refine ⟨_, (getBytes_ok_iff ..).2 ⟨h0, by omega, by omega, rfl⟩, ?_⟩
    simp [index, List.getElem?_take, List.getElem?_drop, h1]

theorem getByte_returns (b : Bytes) (i : Int) (h : 0 ≤ i) : (getByte b i).returns = true := by
  refine Go.returns_bind (getBytes_returns _ _ _ h) fun a ha => ?_
  obtain ⟨-, h1, h2, rfl⟩ := (getBytes_ok_iff ..).1 ha
  rw [index_of_lt (by simp; omega)]; rfl

theorem numReports_ok_iff (e : Bytes) (n : Nat) : numReports e = .ok n ↔ ∃ x, e[1]? = some x ∧ x.toNat = n := by
  unfold numReports
  rw [Go.bind_eq_ok]
  constructor
  · rintro ⟨x, h, hx⟩
    exact ⟨x, ((getByte_ok_iff ..).1 h).2, by simpa using hx⟩
  · rintro ⟨x, h, rfl⟩
    exact ⟨x, (getByte_ok_iff ..).2 ⟨by omega, h⟩, rfl⟩

theorem numReports_returns (e : Bytes) : (numReports e).returns = true :=
  Go.returns_bind (getByte_returns _ _ (by omega)) fun _ _ => rfl

theorem lengthData_returns (e : Bytes) (i : Int) (h : 0 ≤ i) : (lengthData e i).returns = true :=
  Go.returns_bind (numReports_returns e) fun nr _ => Go.returns_bind (getByte_returns _ _ (by omega)) fun _ _ => rfl

theorem sumLengths_returns (e : Bytes) (k : Nat) : (sumLengths e k).returns = true := by
  induction k with
  | zero => rfl
  | succ k ih => exact Go.returns_bind ih fun _ _ => Go.returns_bind (lengthData_returns e k (by omega)) fun _ _ => rfl

/-! Monotonicity: more bytes at the end change no successful result. -/

theorem getBytes_mono {b b' : Bytes} (hp : b <+: b') {s : Int} {n : Nat} {x : Bytes} (h : getBytes b s (some n) = .ok x) : getBytes b' s (some n) = .ok x := by
  obtain ⟨t, rfl⟩ := hp
  obtain ⟨h0, h1, h2, rfl⟩ := (getBytes_ok_iff ..).1 h
  refine (getBytes_ok_iff ..).2 ⟨h0, by simp; omega, by simp; omega, ?_⟩
  rw [List.drop_append_of_le_length (by omega), List.take_append_of_le_length (by simp; omega)]

theorem getByte_mono {b b' : Bytes} (hp : b <+: b') {i : Int} {x : UInt8} (h : getByte b i = .ok x) : getByte b' i = .ok x := by
  obtain ⟨t, rfl⟩ := hp
  obtain ⟨h0, h1⟩ := (getByte_ok_iff ..).1 h
  refine (getByte_ok_iff ..).2 ⟨h0, ?_⟩
  rw [List.getElem?_append_left]
  · exact h1
  · rcases Nat.lt_or_ge i.toNat b.length with h | h
    · exact h
    · rw [List.getElem?_eq_none h] at h1; cases h1

theorem bind_mono {α β : Type} {x x' : Go Unit α} {f f' : α → Go Unit β} (hx : ∀ a, x = .ok a → x' = .ok a) (hf : ∀ a b, f a = .ok b → f' a = .ok b) {b : β} (h : (x >>= f) = .ok b) :
    (x' >>= f') = .ok b := by
  obtain ⟨a, h1, h2⟩ := Go.bind_eq_ok.1 h
  exact Go.bind_eq_ok.2 ⟨a, hx a h1, hf a b h2⟩

theorem numReports_mono {b b' : Bytes} (hp : b <+: b') {n : Nat} (h : numReports b = .ok n) : numReports b' = .ok n :=
  bind_mono (fun _ => getByte_mono hp) (fun _ _ h => h) h

theorem lengthData_mono {b b' : Bytes} (hp : b <+: b') {i : Int} {n : Nat} (h : lengthData b i = .ok n) : lengthData b' i = .ok n :=
  bind_mono (fun _ => numReports_mono hp) (fun _ _ h => bind_mono (fun _ => getByte_mono hp) (fun _ _ h => h) h) h

theorem sumLengths_mono {b b' : Bytes} (hp : b <+: b') (k : Nat) {n : Nat} (h : sumLengths b k = .ok n) : sumLengths b' k = .ok n := by
  induction k generalizing n with
  | zero => exact h
  | succ k ih => exact bind_mono (fun _ h => ih h) (fun _ _ h => bind_mono (fun _ => lengthData_mono hp) (fun _ _ h => h) h) h

/-! The columns of an encoded event. -/

theorem idx_mid {α : Type} (pre mid post : List α) (i : Nat) (h : i < mid.length) : (pre ++ mid ++ post)[pre.length + i]? = some mid[i] := by
  simp [List.getElem?_append_right, List.getElem?_append_left, h]

theorem flatten_split {α : Type} (ls : List (List α)) (i : Nat) (h : i < ls.length) : ls.flatten = (ls.take i).flatten ++ ls[i] ++ (ls.drop (i + 1)).flatten := by
  conv => lhs; rw [← List.take_append_drop i ls]
  rw [List.flatten_append, List.drop_eq_getElem_cons h, List.flatten_cons, List.append_assoc]

theorem flatten_len6 (ls : List Bytes) (h : ∀ l ∈ ls, l.length = 6) : ls.flatten.length = 6 * ls.length := by
  induction ls with
  | nil => rfl
  | cons l ls ih =>
    have := ih fun x hx => h x (by simp [hx])
    have := h l (by simp)
    simp only [List.flatten_cons, List.length_append, List.length_cons]; omega

theorem getBytes_mid (pre mid post : Bytes) (h : post ≠ [] ∨ mid ≠ []) : getBytes (pre ++ mid ++ post) pre.length (some mid.length) = .ok mid := by
  have : 0 < post.length + mid.length := by
    rcases h with h | h <;> · have := List.length_pos_iff.2 h; omega
  refine (getBytes_ok_iff ..).2 ⟨by omega, by simp; omega, by simp; omega, ?_⟩
  simp

end EvtAux

open EvtAux

/-- C34. For every event payload and every non-negative index, no accessor of an advertising report panics. -/
theorem report_accessors_no_panic (e : Bytes) (i : Int) (h : 0 ≤ i) :
    (numReports e).returns = true ∧ (eventType e i).returns = true ∧ (addressType e i).returns = true ∧ (address e i).returns = true ∧
    (lengthData e i).returns = true ∧ (data e i).returns = true ∧ (rssi e i).returns = true := by
  refine ⟨numReports_returns e, getByte_returns _ _ (by omega), ?_, ?_, lengthData_returns e i h, ?_, ?_⟩
  · exact Go.returns_bind (numReports_returns e) fun nr _ => getByte_returns _ _ (by omega)
  · exact Go.returns_bind (numReports_returns e) fun nr _ => getBytes_returns _ _ _ (by omega)
  · exact Go.returns_bind (numReports_returns e) fun nr _ => Go.returns_bind (sumLengths_returns e _) fun l _ => Go.returns_bind (lengthData_returns e i h) fun ll _ => getBytes_returns _ _ _ (by omega)
  · exact Go.returns_bind (numReports_returns e) fun nr _ => Go.returns_bind (sumLengths_returns e _) fun l _ => getByte_returns _ _ (by omega)

/-- C34. For every event of up to 255 reports stored array by array, every accessor returns exactly the field of the report with that index. -/
theorem report_fields (rs : List Report) (hok : ∀ r ∈ rs, r.Ok) (hn : rs.length < 256) (i : Nat) (hi : i < rs.length) :
    numReports (encodeColumns rs) = .ok rs.length ∧ eventType (encodeColumns rs) i = .ok rs[i].evType ∧ addressType (encodeColumns rs) i = .ok rs[i].addrType ∧
    address (encodeColumns rs) i = .ok rs[i].addr ∧ lengthData (encodeColumns rs) i = .ok rs[i].data.length ∧ data (encodeColumns rs) i = .ok rs[i].data ∧
    rssi (encodeColumns rs) i = .ok rs[i].rssi := by
  have h6 : ((rs.map (·.addr)).flatten).length = 6 * rs.length := by
    rw [flatten_len6 _ (by intro l hl; obtain ⟨r, hr, rfl⟩ := List.mem_map.1 hl; exact (hok r hr).1)]; simp
  -- the number of reports
  have hnr : numReports (encodeColumns rs) = .ok rs.length := by
    refine (numReports_ok_iff ..).2 ⟨UInt8.ofNat rs.length, by simp [encodeColumns], ?_⟩
    simp [UInt8.toNat_ofNat']; omega
  -- one byte out of a column
  have hcol : ∀ (pre mid post : Bytes) (k : Int) (j : Nat) (hj : j < mid.length), encodeColumns rs = pre ++ mid ++ post → k = pre.length + j →
      getByte (encodeColumns rs) k = .ok mid[j] := by
    intro pre mid post k j hj he hk
    refine (getByte_ok_iff ..).2 ⟨by omega, ?_⟩
    rw [he, hk, show ((pre.length : Int) + j).toNat = pre.length + j by omega, idx_mid _ _ _ _ hj]
  have hlen : ∀ j (hj : j < rs.length), lengthData (encodeColumns rs) j = .ok rs[j].data.length := by
    intro j hj
    simp only [lengthData, hnr, Go.bind_ok]
    rw [hcol ([0x02, UInt8.ofNat rs.length] ++ rs.map (·.evType) ++ rs.map (·.addrType) ++ (rs.map (·.addr)).flatten) (rs.map fun r => UInt8.ofNat r.data.length)
      ((rs.map (·.data)).flatten ++ rs.map (·.rssi)) _ j (by simpa using hj) (by simp [encodeColumns]) (by
        simp only [List.length_append, List.length_map, h6, List.length_cons, List.length_nil]; omega)]
    have := (hok rs[j] (List.getElem_mem hj)).2
    simp only [Go.bind_ok, List.getElem_map, UInt8.toNat_ofNat', Go.pure_def, Go.ok.injEq]
    omega
  have hsum : ∀ j, j ≤ rs.length → sumLengths (encodeColumns rs) j = .ok (((rs.map (·.data)).take j).flatten.length) := by
    intro j
    induction j with
    | zero => intro _; simp [sumLengths]
    | succ j ih =>
      intro hj
      simp only [sumLengths, ih (by omega), Go.bind_ok, hlen j (by omega), Go.pure_def, Go.ok.injEq]
      rw [List.take_succ_eq_append_getElem (by simp; omega)]
      simp
  refine ⟨hnr, ?_, ?_, ?_, hlen i hi, ?_, ?_⟩
  · unfold eventType
    rw [hcol [0x02, UInt8.ofNat rs.length] (rs.map (·.evType)) (rs.map (·.addrType) ++ (rs.map (·.addr)).flatten ++
      rs.map (fun r => UInt8.ofNat r.data.length) ++ (rs.map (·.data)).flatten ++ rs.map (·.rssi)) _ i (by simpa using hi) (by simp [encodeColumns]) (by simp)]
    simp
  · simp only [addressType, hnr, Go.bind_ok]
    rw [hcol ([0x02, UInt8.ofNat rs.length] ++ rs.map (·.evType)) (rs.map (·.addrType)) ((rs.map (·.addr)).flatten ++
      rs.map (fun r => UInt8.ofNat r.data.length) ++ (rs.map (·.data)).flatten ++ rs.map (·.rssi)) _ i (by simpa using hi) (by simp [encodeColumns]) (by
        simp only [List.length_append, List.length_map, List.length_cons, List.length_nil]; omega)]
    simp
  · simp only [address, hnr, Go.bind_ok]
    have hs := flatten_split (rs.map (·.addr)) i (by simpa using hi)
    have he : encodeColumns rs = ([0x02, UInt8.ofNat rs.length] ++ rs.map (·.evType) ++ rs.map (·.addrType) ++ ((rs.map (·.addr)).take i).flatten) ++ rs[i].addr ++
        (((rs.map (·.addr)).drop (i + 1)).flatten ++ rs.map (fun r => UInt8.ofNat r.data.length) ++ (rs.map (·.data)).flatten ++ rs.map (·.rssi)) := by
      unfold encodeColumns; rw [hs]; simp
    have hl : (((rs.map (·.addr)).take i).flatten).length = 6 * i := by
      rw [flatten_len6 _ (by intro l hl; obtain ⟨r, hr, rfl⟩ := List.mem_map.1 (List.mem_of_mem_take hl); exact (hok r hr).1)]
      simp; omega
    have ha := (hok rs[i] (List.getElem_mem hi)).1
    rw [he]
    rw [show (2 + (rs.length : Int) * 2 + 6 * (i : Int)) =
      (([0x02, UInt8.ofNat rs.length] ++ rs.map (·.evType) ++ rs.map (·.addrType) ++ ((rs.map (·.addr)).take i).flatten).length : Nat) by
        simp only [List.length_append, List.length_map, hl, List.length_cons, List.length_nil]; omega]
    rw [show (some 6) = some rs[i].addr.length by rw [ha]]
    refine getBytes_mid _ _ _ (Or.inr fun h => ?_)
    rw [h] at ha; cases ha
  · simp only [data, hnr, Go.bind_ok, Int.toNat_natCast, hsum i (by omega), hlen i hi]
    have hs := flatten_split (rs.map (·.data)) i (by simpa using hi)
    have he : encodeColumns rs = ([0x02, UInt8.ofNat rs.length] ++ rs.map (·.evType) ++ rs.map (·.addrType) ++ (rs.map (·.addr)).flatten ++
        rs.map (fun r => UInt8.ofNat r.data.length) ++ ((rs.map (·.data)).take i).flatten) ++ rs[i].data ++ (((rs.map (·.data)).drop (i + 1)).flatten ++ rs.map (·.rssi)) := by
      unfold encodeColumns; rw [hs]; simp
    rw [he]
    rw [show (2 + (rs.length : Int) * 9 + ((((rs.map (·.data)).take i).flatten.length : Nat) : Int)) =
      (([0x02, UInt8.ofNat rs.length] ++ rs.map (·.evType) ++ rs.map (·.addrType) ++ (rs.map (·.addr)).flatten ++
        rs.map (fun r => UInt8.ofNat r.data.length) ++ ((rs.map (·.data)).take i).flatten).length : Nat) by
        simp only [List.length_append, List.length_map, h6, List.length_cons, List.length_nil]; omega]
    refine getBytes_mid _ _ _ (Or.inl fun h => ?_)
    have := congrArg List.length h
    simp only [List.length_append, List.length_map, List.length_nil] at this; omega
  · simp only [rssi, hnr, Go.bind_ok, hsum rs.length (Nat.le_refl _)]
    rw [hcol ([0x02, UInt8.ofNat rs.length] ++ rs.map (·.evType) ++ rs.map (·.addrType) ++ (rs.map (·.addr)).flatten ++
      rs.map (fun r => UInt8.ofNat r.data.length) ++ (rs.map (·.data)).flatten) (rs.map (·.rssi)) [] _ i (by simpa using hi) (by simp [encodeColumns]) (by
        rw [show (rs.map (·.data)).take rs.length = rs.map (·.data) from List.take_of_length_le (by simp)]
        simp only [List.length_append, List.length_map, h6, List.length_cons, List.length_nil]; omega)]
    simp

/-- **C34, the part that holds.** Missing: indices that are not those of a report (`report_index_not_checked`, `report_negative_index`) and events stored report by report (`report_rows_misread`). -/
theorem report_fields_partial (rs : List Report) (hok : ∀ r ∈ rs, r.Ok) (hn : rs.length < 256) (i : Nat) (hi : i < rs.length) :
    numReports (encodeColumns rs) = .ok rs.length ∧ eventType (encodeColumns rs) i = .ok rs[i].evType ∧ addressType (encodeColumns rs) i = .ok rs[i].addrType ∧
    address (encodeColumns rs) i = .ok rs[i].addr ∧ lengthData (encodeColumns rs) i = .ok rs[i].data.length ∧ data (encodeColumns rs) i = .ok rs[i].data ∧
    rssi (encodeColumns rs) i = .ok rs[i].rssi :=
  report_fields rs hok hn i hi

/-- C34 for the events of real controllers, which carry one report: report by report or array by array is the same, and every field is returned. -/
theorem single_report_fields (r : Report) (h : r.Ok) :
    numReports (encodeRows [r]) = .ok 1 ∧ eventType (encodeRows [r]) 0 = .ok r.evType ∧ addressType (encodeRows [r]) 0 = .ok r.addrType ∧
    address (encodeRows [r]) 0 = .ok r.addr ∧ lengthData (encodeRows [r]) 0 = .ok r.data.length ∧ data (encodeRows [r]) 0 = .ok r.data ∧ rssi (encodeRows [r]) 0 = .ok r.rssi := by
  rw [encode_single]
  exact report_fields [r] (by simpa using h) (by simp) 0 (by simp)

/-- C34. A truncated event gives the same values as the whole one, or errors: for every prefix of an event, whatever its contents, an accessor that returns a value returns the value it would
return on the whole event. -/
theorem truncated_report_safe (e e' : Bytes) (hp : e <+: e') (i : Int) :
    (∀ x, numReports e = .ok x → numReports e' = .ok x) ∧ (∀ x, eventType e i = .ok x → eventType e' i = .ok x) ∧ (∀ x, addressType e i = .ok x → addressType e' i = .ok x) ∧
    (∀ x, address e i = .ok x → address e' i = .ok x) ∧ (∀ x, lengthData e i = .ok x → lengthData e' i = .ok x) ∧ (∀ x, data e i = .ok x → data e' i = .ok x) ∧
    (∀ x, rssi e i = .ok x → rssi e' i = .ok x) := by
  refine ⟨fun _ h => numReports_mono hp h, fun _ h => getByte_mono hp h, fun _ h => ?_, fun _ h => ?_, fun _ h => lengthData_mono hp h, fun _ h => ?_, fun _ h => ?_⟩
  · exact bind_mono (fun _ => numReports_mono hp) (fun _ _ => getByte_mono hp) h
  · exact bind_mono (fun _ => numReports_mono hp) (fun _ _ => getBytes_mono hp) h
  · exact bind_mono (fun _ => numReports_mono hp) (fun _ _ h => bind_mono (fun _ => sumLengths_mono hp _) (fun _ _ h => bind_mono (fun _ => lengthData_mono hp) (fun _ _ => getBytes_mono hp) h) h) h
  · exact bind_mono (fun _ => numReports_mono hp) (fun _ _ h => bind_mono (fun _ => sumLengths_mono hp _) (fun _ _ => getByte_mono hp) h) h

/-- In every event, if the data of a report can be read then so can all its other fields but the RSSI. -/
theorem data_implies_other_fields (e : Bytes) (i : Nat) (n : Nat) (d : Bytes) (hn : numReports e = .ok n) (hi : i < n) (h : data e i = .ok d) :
    (∃ t, eventType e i = .ok t) ∧ (∃ t, addressType e i = .ok t) ∧ (∃ a, address e i = .ok a ∧ a.length = 6) := by
  simp only [data, hn, Go.bind_ok] at h
  obtain ⟨l, -, h⟩ := Go.bind_eq_ok.1 h
  obtain ⟨ll, -, h⟩ := Go.bind_eq_ok.1 h
  obtain ⟨-, h1, -, -⟩ := (getBytes_ok_iff ..).1 h
  refine ⟨⟨e[2 + i]'(by omega), (getByte_ok_iff ..).2 ⟨by omega, ?_⟩⟩, ⟨e[2 + n + i]'(by omega), ?_⟩, ?_⟩
  · rw [show ((2 : Int) + (i : Int)).toNat = 2 + i by omega]; exact List.getElem?_eq_getElem _
  · simp only [addressType, hn, Go.bind_ok]
    refine (getByte_ok_iff ..).2 ⟨by omega, ?_⟩
    rw [show ((2 : Int) + (n : Int) + (i : Int)).toNat = 2 + n + i by omega]; exact List.getElem?_eq_getElem _
  · simp only [address, hn, Go.bind_ok]
    exact ⟨_, (getBytes_ok_iff ..).2 ⟨by omega, by omega, by omega, rfl⟩, by simp; omega⟩

/-! ## Where C34 is false -/

/-- The index is not compared with the number of reports: index `n` of `n` reports gives the address type of the first report as event type. -/
theorem report_index_not_checked (r : Report) (rs : List Report) (hn : (r :: rs).length < 256) :
    eventType (encodeColumns (r :: rs)) (r :: rs).length = .ok r.addrType := by
  refine (getByte_ok_iff ..).2 ⟨by omega, ?_⟩
  rw [show ((2 : Int) + ((r :: rs).length : Int)).toNat = ([0x02, UInt8.ofNat (r :: rs).length] ++ (r :: rs).map (·.evType)).length + 0 by simp; omega]
  rw [show encodeColumns (r :: rs) = ([0x02, UInt8.ofNat (r :: rs).length] ++ (r :: rs).map (·.evType)) ++ (r :: rs).map (·.addrType) ++
    (((r :: rs).map (·.addr)).flatten ++ (r :: rs).map (fun r => UInt8.ofNat r.data.length) ++ ((r :: rs).map (·.data)).flatten ++ (r :: rs).map (·.rssi)) by simp [encodeColumns]]
  rw [idx_mid _ _ _ _ (by simp)]
  simp

/-- A negative index panics, or reads the header of the event. -/
theorem report_negative_index (e : Bytes) (h : 2 ≤ e.length) : eventType e (-3) = .panic ∧ eventType e (-1) = .ok e[1] := by
  constructor
  · unfold eventType getByte getBytes
    rw [if_neg (by omega)]
    simp only
    rw [if_neg (by omega), if_pos (by omega)]; rfl
  · exact (getByte_ok_iff ..).2 ⟨by omega, List.getElem?_eq_getElem _⟩

/-- Two reports stored report by report, as the Core Specification's rule for arrayed parameters has it since version 5, are not read correctly. (`handleLEAdvertisingReport` drops every event of
more than one report, see C33.) -/
theorem report_rows_misread : ∃ r s : Report, r.Ok ∧ s.Ok ∧ address (encodeRows [r, s]) 0 ≠ .ok r.addr :=
  ⟨⟨0, 0, [1, 2, 3, 4, 5, 6], [], 0⟩, ⟨0, 0, [7, 8, 9, 10, 11, 12], [], 0⟩, by simp [Report.Ok], by simp [Report.Ok], by decide⟩

/-! ## The hypotheses are met -/

/-- Three reports, one without data. -/
example : let rs : List Report := [⟨0, 1, [1, 2, 3, 4, 5, 6], [2, 1, 6], 0xc0⟩, ⟨4, 0, [7, 8, 9, 10, 11, 12], [], 0xb0⟩, ⟨3, 0, [1, 1, 1, 1, 1, 1], [3, 0xff, 1, 2], 0xa0⟩]
    (∀ r ∈ rs, r.Ok) ∧ rs.length < 256 ∧ data (encodeColumns rs) 2 = .ok [3, 0xff, 1, 2] ∧ data (encodeColumns rs) 1 = .ok [] ∧ rssi (encodeColumns rs) 1 = .ok 0xb0 := by
  refine ⟨?_, by simp, by decide, by decide, by decide⟩
  simp [Report.Ok]

end Ble.Props
