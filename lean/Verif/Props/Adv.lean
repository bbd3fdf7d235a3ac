import Verif.Adv.Lemmas
set_option autoImplicit false

/-!
# C03–C07: advertising packets

`newPacket`, `Field.apply`, `appendAll` model `adv.NewPacket`, a field applied to a packet, and repeated `Packet.Append`;
`adParse` is `parser.Parse`, `newRawPacket` is `adv.NewRawPacket`. `Spec.Rec`, `Spec.kind`, `Spec.values`, … in
`Verif/Adv/Spec.lean` say what advertising records mean.
-/

namespace Ble.Props
open Spec

/-! ## C03: capacity -/

theorem pktAppend_le (p : Bytes) (t : UInt8) (b : Bytes) (h : p.length ≤ 31) : (pktAppend p t b).1.length ≤ 31 := by
  unfold pktAppend; split <;> simp_all <;> omega

theorem apply_le (p : Bytes) (f : Field) (h : p.length ≤ 31) : (f.apply p).1.length ≤ 31 := by
  cases f with
  | raw b => simp only [Field.apply]; split <;> simp_all <;> omega
  | iBeacon u a b c => simp only [Field.apply]; split <;> first | exact h | exact pktAppend_le _ _ _ h
  | allUUID u => simp only [Field.apply]; split <;> (try split) <;> exact pktAppend_le _ _ _ h
  | someUUID u => simp only [Field.apply]; split <;> (try split) <;> exact pktAppend_le _ _ _ h
  | serviceData16 id b =>
    simp only [Field.apply]
    have h1 := pktAppend_le p 0x03 (uuid16 id) h
    cases hh : pktAppend p 0x03 (uuid16 id) with
    | mk p' e => rw [hh] at h1; cases e with
      | none => exact pktAppend_le _ _ _ h1
      | some e => exact h1
  | _ => exact pktAppend_le _ _ _ h

/-- C03: whatever fields are appended, in whatever order, the packet never exceeds 31 bytes. -/
theorem packet_never_exceeds_31 (fs : List Field) (p : Bytes) (h : p.length ≤ 31) : (appendAll p fs).length ≤ 31 := by
  induction fs generalizing p with
  | nil => exact h
  | cons f fs ih => exact ih _ (apply_le p f h)

/-- C03: likewise for `NewPacket`. -/
theorem newPacket_le_31 (fs : List Field) (b : Bytes) (h : newPacket fs = .ok b) : b.length ≤ 31 := by
  have gen : ∀ (fs : List Field) (p : Bytes), p.length ≤ 31 → newPacketFrom p fs = .ok b → b.length ≤ 31 := by
    intro fs
    induction fs with
    | nil => intro p hp h; simp [newPacketFrom] at h; rwa [← h]
    | cons f fs ih =>
      intro p hp h
      simp only [newPacketFrom] at h
      have := apply_le p f hp
      cases hh : f.apply p with
      | mk p' e =>
        rw [hh] at h this
        cases e with
        | none => exact ih p' this h
        | some e => simp at h
  exact gen fs [] (by simp) h

/-- The records a field stands for (`Raw` stands for bytes, not records). -/
def fieldRecs : Field → List Rec
  | .raw _ => []
  | .iBeaconData md => [⟨0xFF, [0x4C, 0x00] ++ md⟩]
  | .iBeacon u major minor pwr =>
    [⟨0xFF, [0x4C, 0x00, 0x02, 0x15] ++ u.reverse ++
      [UInt8.ofNat (major / 256), UInt8.ofNat major, UInt8.ofNat (minor / 256), UInt8.ofNat minor, pwr]⟩]
  | .flags f => [⟨0x01, [f]⟩]
  | .shortName n => [⟨0x08, n⟩]
  | .completeName n => [⟨0x09, n⟩]
  | .manufacturerData id b => [⟨0xFF, [UInt8.ofNat id, UInt8.ofNat (id / 256)] ++ b⟩]
  | .allUUID u => [⟨if u.length = 2 then 0x03 else if u.length = 4 then 0x05 else 0x07, u⟩]
  | .someUUID u => [⟨if u.length = 2 then 0x02 else if u.length = 4 then 0x04 else 0x06, u⟩]
  | .serviceData16 id b =>
    [⟨0x03, [UInt8.ofNat id, UInt8.ofNat (id / 256)]⟩, ⟨0x16, [UInt8.ofNat id, UInt8.ofNat (id / 256)] ++ b⟩]

/-- The bytes a field stands for. -/
def fieldBytes : Field → Bytes
  | .raw b => b
  | f => (fieldRecs f).flatMap Rec.bytes

/-- The arguments are legal: an iBeacon needs a 16-byte UUID. -/
def fieldLegal : Field → Prop
  | .iBeacon u _ _ _ => u.length = 16
  | _ => True

theorem pktAppend_spec (p : Bytes) (t : UInt8) (b : Bytes) :
    pktAppend p t b = if p.length + (Rec.bytes ⟨t, b⟩).length ≤ 31 then (p ++ Rec.bytes ⟨t, b⟩, none)
      else (p, some .notFit) := by
  unfold pktAppend
  have e : (Rec.bytes ⟨t, b⟩).length = b.length + 2 := rec_bytes_length _
  by_cases h : p.length + (b.length + 2) ≤ 31
  · rw [if_neg (by omega), if_pos (by omega)]; simp [Rec.bytes]
  · rw [if_pos (by omega), if_neg (by omega)]

/-- C03: a field is appended whole when it fits and otherwise refused with `ErrNotFit` leaving the packet as it was — for every
field except `ServiceData16`, which consists of two records (next theorem). -/
theorem append_all_or_nothing_partial (p : Bytes) (f : Field) (hl : fieldLegal f)
    (hf : ∀ id b, f ≠ .serviceData16 id b) :
    f.apply p = if p.length + (fieldBytes f).length ≤ 31 then (p ++ fieldBytes f, none) else (p, some .notFit) := by
  cases f with
  | raw b =>
    have e : fieldBytes (.raw b) = b := rfl
    rw [e]
    simp only [Field.apply]
    by_cases h : p.length + b.length ≤ 31
    · rw [if_pos h, if_neg (by omega)]
    · rw [if_neg h, if_pos (by omega)]
  | iBeacon u a b c =>
    simp only [fieldLegal] at hl
    simp only [Field.apply, hl, ne_eq, not_true, if_false, pktMfg, pktAppend_spec, iBeaconBytes]
    simp [fieldBytes, fieldRecs]
  | allUUID u =>
    simp only [Field.apply, pktAppend_spec, fieldBytes, fieldRecs]
    by_cases h2 : u.length = 2
    · simp [h2]
    · by_cases h4 : u.length = 4
      · simp [h4]
      · simp [h2, h4]
  | someUUID u =>
    simp only [Field.apply, pktAppend_spec, fieldBytes, fieldRecs]
    by_cases h2 : u.length = 2
    · simp [h2]
    · by_cases h4 : u.length = 4
      · simp [h4]
      · simp [h2, h4]
  | serviceData16 id b => exact absurd rfl (hf id b)
  | iBeaconData md => simp only [Field.apply, pktMfg, pktAppend_spec]; simp [fieldBytes, fieldRecs]
  | flags x => simp only [Field.apply, pktAppend_spec]; simp [fieldBytes, fieldRecs]
  | shortName n => simp only [Field.apply, pktAppend_spec]; simp [fieldBytes, fieldRecs]
  | completeName n => simp only [Field.apply, pktAppend_spec]; simp [fieldBytes, fieldRecs]
  | manufacturerData id b => simp only [Field.apply, pktMfg, pktAppend_spec]; simp [fieldBytes, fieldRecs]

example : Field.apply (List.replicate 20 0) (.completeName (List.replicate 9 65)) =
    (List.replicate 20 0 ++ [10, 9] ++ List.replicate 9 65, none) ∧
    Field.apply (List.replicate 21 0) (.completeName (List.replicate 9 65)) = (List.replicate 21 0, some .notFit) := by decide

/-- C03 is violated by `ServiceData16`: a refused field leaves its UUID record behind. -/
theorem serviceData16_not_atomic : ∃ p id b, (Field.apply p (.serviceData16 id b)).2 = some .notFit ∧
    (Field.apply p (.serviceData16 id b)).1 ≠ p :=
  ⟨[], 0xFEAA, List.replicate 24 0, by decide⟩

/-- C03, exact behaviour of `ServiceData16`: whole, or refused intact, or refused after adding only the UUID record. -/
theorem serviceData16_cases (p : Bytes) (id : Nat) (b : Bytes) :
    Field.apply p (.serviceData16 id b) =
      if p.length + 4 > 31 then (p, some .notFit)
      else if p.length + 4 + (4 + b.length) > 31 then
        (p ++ Rec.bytes ⟨0x03, [UInt8.ofNat id, UInt8.ofNat (id / 256)]⟩, some .notFit)
      else (p ++ fieldBytes (.serviceData16 id b), none) := by
  simp only [Field.apply, pktAppend_spec, uuid16, put16, rec_bytes_length]
  by_cases h1 : p.length + 4 > 31
  · rw [if_pos h1, if_neg (by simp; omega)]
  · rw [if_neg h1, if_pos (by simp; omega)]
    by_cases h2 : p.length + 4 + (4 + b.length) > 31
    · rw [if_pos h2]; simp only [rec_bytes_length, List.length_append, List.length_cons, List.length_nil]
      rw [if_neg (by omega)]
    · rw [if_neg h2]; simp only [rec_bytes_length, List.length_append, List.length_cons, List.length_nil]
      rw [if_pos (by omega)]
      simp [fieldBytes, fieldRecs]

/-- A field that reports success has added exactly its bytes. -/
theorem apply_success (p : Bytes) (f : Field) (p' : Bytes) (h : f.apply p = (p', none)) :
    p' = p ++ fieldBytes f ∧ p'.length ≤ 31 := by
  by_cases hs : ∃ id b, f = .serviceData16 id b
  · obtain ⟨id, b, rfl⟩ := hs
    rw [serviceData16_cases] at h
    split at h
    · simp at h
    · split at h
      · simp at h
      · simp only [Prod.mk.injEq, and_true] at h
        refine ⟨h.symm, ?_⟩
        rw [← h]; simp [fieldBytes, fieldRecs, rec_bytes_length]; omega
  · by_cases hl : fieldLegal f
    · rw [append_all_or_nothing_partial p f hl (fun id b e => hs ⟨id, b, e⟩)] at h
      split at h
      · simp only [Prod.mk.injEq, and_true] at h; rw [← h]; exact ⟨rfl, by simp; omega⟩
      · simp at h
    · cases f <;> simp only [fieldLegal, not_true] at hl
      simp [Field.apply, hl] at h

/-- C03: a packet `NewPacket` returns is exactly the concatenation of its fields' bytes. -/
theorem newPacket_bytes (fs : List Field) (b : Bytes) (h : newPacket fs = .ok b) : b = fs.flatMap fieldBytes := by
  have gen : ∀ (fs : List Field) (p : Bytes), newPacketFrom p fs = .ok b → b = p ++ fs.flatMap fieldBytes := by
    intro fs
    induction fs with
    | nil => intro p h; simp [newPacketFrom] at h; simp [h]
    | cons f fs ih =>
      intro p h
      simp only [newPacketFrom] at h
      cases hh : f.apply p with
      | mk p' e =>
        rw [hh] at h
        cases e with
        | some e => simp at h
        | none => rw [ih p' h, (apply_success p f p' hh).1]; simp
  simpa using gen fs [] h

/-- C03: and it is returned whenever all fields are legal and fit together. -/
theorem newPacket_succeeds (fs : List Field) (hl : ∀ f ∈ fs, fieldLegal f) (hn : (fs.flatMap fieldBytes).length ≤ 31) :
    newPacket fs = .ok (fs.flatMap fieldBytes) := by
  have gen : ∀ (fs : List Field) (p : Bytes), (∀ f ∈ fs, fieldLegal f) → p.length + (fs.flatMap fieldBytes).length ≤ 31 →
      newPacketFrom p fs = .ok (p ++ fs.flatMap fieldBytes) := by
    intro fs
    induction fs with
    | nil => intro p _ _; simp [newPacketFrom]
    | cons f fs ih =>
      intro p hl hn
      simp only [List.flatMap_cons, List.length_append] at hn
      have : f.apply p = (p ++ fieldBytes f, none) := by
        by_cases hs : ∃ id b, f = .serviceData16 id b
        · obtain ⟨id, b, rfl⟩ := hs
          have e : (fieldBytes (.serviceData16 id b)).length = 8 + b.length := by
            simp [fieldBytes, fieldRecs, rec_bytes_length]; omega
          rw [serviceData16_cases, if_neg (by omega), if_neg (by omega)]
        · rw [append_all_or_nothing_partial p f (hl f (by simp)) (fun id b e => hs ⟨id, b, e⟩), if_pos (by omega)]
      simp only [newPacketFrom, this]
      rw [ih _ (fun g hg => hl g (by simp [hg])) (by rw [List.length_append]; omega)]
      simp
  simpa using! gen fs [] hl (by rw [List.length_nil]; omega)

/-! ## C05, C06: decoding -/

/-- C06: the parser accepts a packet exactly when it is tiled by well-formed records (one stray trailing byte is tolerated), and then
reports exactly what the records mean: flags, names and power are the records' values in order, the UUID lists are the listed
UUIDs in order, manufacturer data is the first value followed by later ones without the company id, and for each service UUID its
service-data values in order. -/
theorem parse_ok_iff (pdu : Bytes) (m : AdvMap) :
    adParse pdu = .ok m ↔
      pdu ≠ [] ∧ ∃ (rs : List Rec) (tail : Bytes),
        pdu = rs.flatMap Rec.bytes ++ tail ∧ tail.length ≤ 1 ∧ (∀ r ∈ rs, r.WellFormed) ∧ ¬ ShortExtraMfg rs ∧
        m.flags = concatenated (values isFlags rs) ∧
        m.localName = concatenated (values isName rs) ∧
        m.txpwr = concatenated (values isTx rs) ∧
        m.services = uuidList uuidSize rs ∧
        m.solicited = uuidList solSize rs ∧
        m.mfgdata = mfgData (values isMfg rs) ∧
        m.serviceData = (if hasServiceData rs then some (serviceValues rs) else none) := by
  have hm : ∀ rs, m = meaning rs ↔ (m.flags = concatenated (values isFlags rs) ∧
        m.localName = concatenated (values isName rs) ∧
        m.txpwr = concatenated (values isTx rs) ∧
        m.services = uuidList uuidSize rs ∧
        m.solicited = uuidList solSize rs ∧
        m.mfgdata = mfgData (values isMfg rs) ∧
        m.serviceData = (if hasServiceData rs then some (serviceValues rs) else none)) := by
    intro rs
    cases m
    simp only [meaning, AdvMap.mk.injEq]
    constructor
    · rintro ⟨h1, h2, h3, h4, h5, h6, h7⟩; exact ⟨h1, h5, h6, h2, h3, h7, h4⟩
    · rintro ⟨h1, h5, h6, h2, h3, h7, h4⟩; exact ⟨h1, h2, h3, h4, h5, h6, h7⟩
  simp only [← hm]
  unfold adParse
  by_cases hne : pdu = []
  · simp [hne]
  · have hlen : pdu.length ≠ 0 := fun h => hne (List.length_eq_zero_iff.1 h)
    rw [if_neg hlen]
    constructor
    · intro h
      have := adParseLoop_outcome pdu 0 {}
      rw [h] at this
      obtain ⟨rs, tail, h1, h2, h3, h4⟩ := this
      obtain ⟨h5, h6, h7⟩ := (foldRecs_spec rs h3).2 m h4
      exact ⟨hne, rs, tail, by simpa using h1, h2, h5, h6, h7⟩
    · rintro ⟨_, rs, tail, h1, h2, h3, h4, rfl⟩
      have hl : ∀ r ∈ rs, r.data.length ≤ 254 := fun r hr => (h3 r hr).1
      have := adParseLoop_recs rs hl tail [] {} _ ((foldRecs_spec rs hl).1 h3 h4)
      simp only [List.nil_append, List.length_nil, Nat.zero_add] at this
      rw [h1, this, adParseLoop, dif_neg (by simp; omega)]

/-- C06: and the records of a packet are determined by the packet. -/
theorem records_unique (rs ss : List Rec) (x y : Bytes) (hr : ∀ r ∈ rs, r.WellFormed) (hs : ∀ r ∈ ss, r.WellFormed)
    (hx : x.length ≤ 1) (hy : y.length ≤ 1) (h : rs.flatMap Rec.bytes ++ x = ss.flatMap Rec.bytes ++ y) : rs = ss ∧ x = y :=
  recs_unique rs ss x y (fun r h => (hr r h).1) (fun r h => (hs r h).1) hx hy h

example : ∃ m, adParse [2, 1, 6, 3, 3, 0x0F, 0x18, 3, 9, 65, 66] = .ok m ∧ m.services = some [[0x0F, 0x18]] ∧
    m.localName = some [65, 66] ∧ m.flags = some [6] :=
  ⟨_, (parse_ok_iff _ (meaning [⟨1, [6]⟩, ⟨3, [0x0F, 0x18]⟩, ⟨9, [65, 66]⟩])).2
    ⟨by simp, [⟨1, [6]⟩, ⟨3, [0x0F, 0x18]⟩, ⟨9, [65, 66]⟩], [], by decide, by simp,
      by simp [Rec.WellFormed, kind], by rintro ⟨v, hv, -⟩; simp [values, isMfg, kind] at hv, rfl, rfl, rfl, rfl, rfl, rfl, rfl⟩,
    by decide, by decide, by decide⟩

/-- C06: a packet is refused with an error only because, after a run of well-formed records whose meaning is what is still reported, a
record has length zero, is longer than what is left, or has a size its type does not allow. -/
theorem parse_err (pdu : Bytes) (e : AdErr) (m : AdvMap) (h : adParse pdu = .err (e, m)) :
    (pdu = [] ∧ e = .emptyPdu) ∨
    ∃ (rs : List Rec) (rest : Bytes), pdu = rs.flatMap Rec.bytes ++ rest ∧ (∀ r ∈ rs, r.WellFormed) ∧ m = meaning rs ∧
      ((∃ t xs, rest = 0 :: t :: xs) ∨
       (∃ (l t : UInt8) (xs : Bytes), rest = l :: t :: xs ∧ xs.length + 1 < l.toNat) ∨
       (∃ (r : Rec) (xs : Bytes), rest = r.bytes ++ xs ∧ ¬ r.WellFormed)) := by
  unfold adParse at h
  by_cases hlen : pdu.length = 0
  · rw [if_pos hlen] at h
    simp only [Go.err.injEq, Prod.mk.injEq] at h
    exact Or.inl ⟨List.length_eq_zero_iff.1 hlen, h.1.symm⟩
  · rw [if_neg hlen] at h
    right
    have := adParseLoop_outcome pdu 0 {}
    rw [h] at this
    obtain ⟨rs, rest, h1, h2, h3, h4⟩ := this
    obtain ⟨h5, h6, h7⟩ := (foldRecs_spec rs h2).2 m h3
    refine ⟨rs, rest, by simpa using h1, h5, h7, ?_⟩
    cases h4 with
    | zeroLength t xs => exact Or.inl ⟨t, xs, rfl⟩
    | overlong l t xs _ hl hl2 => exact Or.inr (Or.inl ⟨l, t, xs, rfl, hl2⟩)
    | badRecord _ r xs _ hl hr =>
      refine Or.inr (Or.inr ⟨r, xs, rfl, fun hw => ?_⟩)
      subst h7
      have hm := adRecord_meaning rs r hl
      by_cases hb : isMfg (kind r.typ) = true ∧ values isMfg rs ≠ [] ∧ r.data.length = 1
      · rw [hm.2.2 hb] at hr; simp at hr
      · rw [hm.1 hw hb] at hr; simp at hr

/-- C05: the parser panics exactly on packets in which, after well-formed records that include manufacturer data, there is another
manufacturer record with a one-byte value. -/
theorem parse_panics_iff (pdu : Bytes) :
    adParse pdu = .panic ↔
      ∃ (rs : List Rec) (b : UInt8) (rest : Bytes), pdu = rs.flatMap Rec.bytes ++ ([0x02, 0xFF, b] ++ rest) ∧
        (∀ r ∈ rs, r.WellFormed) ∧ ¬ ShortExtraMfg rs ∧ values isMfg rs ≠ [] := by
  unfold adParse
  constructor
  · intro h
    by_cases hlen : pdu.length = 0
    · rw [if_pos hlen] at h; simp at h
    · rw [if_neg hlen] at h
      have := adParseLoop_outcome pdu 0 {}
      rw [h] at this
      obtain ⟨rs, r, rest, m', h1, h2, h3, h4, h5⟩ := this
      obtain ⟨h6, h7, h8⟩ := (foldRecs_spec rs h2).2 m' h4
      subst h8
      have hm := adRecord_meaning rs r h3
      by_cases hb : isMfg (kind r.typ) = true ∧ values isMfg rs ≠ [] ∧ r.data.length = 1
      · obtain ⟨b, hb2⟩ := List.length_eq_one_iff.1 hb.2.2
        have ht : r.typ = 0xFF := by
          have := hb.1; unfold kind at this; grind (splits := 40) [isMfg]
        refine ⟨rs, b, rest, ?_, h6, h7, hb.2.1⟩
        have : r.bytes = [0x02, 0xFF, b] := by simp [Rec.bytes, hb2, ht]
        rw [← this]; simpa using h1
      · by_cases hw : r.WellFormed
        · rw [hm.1 hw hb] at h5; simp at h5
        · obtain ⟨e, he⟩ := hm.2.1 hw; rw [he] at h5; simp at h5
  · rintro ⟨rs, b, rest, h1, h2, h3, h4⟩
    have hl : ∀ r ∈ rs, r.data.length ≤ 254 := fun r hr => (h2 r hr).1
    have hb : ([0x02, 0xFF, b] : Bytes) = Rec.bytes ⟨0xFF, [b]⟩ := by simp [Rec.bytes]
    have hlen : pdu.length ≠ 0 := by rw [h1]; simp
    rw [if_neg hlen]
    have := adParseLoop_recs rs hl ([0x02, 0xFF, b] ++ rest) [] {} _ ((foldRecs_spec rs hl).1 h2 h3)
    simp only [List.nil_append, List.length_nil, Nat.zero_add] at this
    rw [h1, this, hb, adParseLoop_rec _ _ _ _ (by simp)]
    rw [(adRecord_meaning rs ⟨0xFF, [b]⟩ (by simp)).2.2 ⟨by simp [isMfg, kind], h4, by simp⟩]

/-- C05 is violated: an advertisement and a scan response that are each decoded without error crash the process when combined, which is
how `NewRawPacket` is called for an advertisement with its scan response. -/
theorem parser_panics_on_radio_input :
    (∃ m, adParse [4, 0xFF, 0x4C, 0, 1] = .ok m) ∧ (∃ m, adParse [2, 0xFF, 7] = .ok m) ∧
    newRawPacket [[4, 0xFF, 0x4C, 0, 1], [2, 0xFF, 7]] = .panic := by
  have e : newRawPacket [[4, 0xFF, 0x4C, 0, 1], [2, 0xFF, 7]] = .panic := by
    have : adParse ([[4, 0xFF, 0x4C, 0, 1], [2, 0xFF, 7]] : List Bytes).flatten = .panic := by
      rw [parse_panics_iff]
      exact ⟨[⟨0xFF, [0x4C, 0, 1]⟩], 7, [], by decide, by simp [Rec.WellFormed, kind],
        by rintro ⟨v, hv, -⟩; simp [values, isMfg, kind] at hv, by decide⟩
    simp only [newRawPacket, this]
  refine ⟨⟨meaning [⟨0xFF, [0x4C, 0, 1]⟩], ?_⟩, ⟨meaning [⟨0xFF, [7]⟩], ?_⟩, e⟩
  · exact (parse_ok_iff _ _).2 ⟨by simp, [⟨0xFF, [0x4C, 0, 1]⟩], [], by decide, by simp, by simp [Rec.WellFormed, kind],
      by rintro ⟨v, hv, -⟩; simp [values, isMfg, kind] at hv, rfl, rfl, rfl, rfl, rfl, rfl, rfl⟩
  · exact (parse_ok_iff _ _).2 ⟨by simp, [⟨0xFF, [7]⟩], [], by decide, by simp, by simp [Rec.WellFormed, kind],
      by rintro ⟨v, hv, -⟩; simp [values, isMfg, kind] at hv, rfl, rfl, rfl, rfl, rfl, rfl, rfl⟩

/-- C05, what holds: a packet without the byte pair `02 FF` (a one-byte manufacturer record) never makes the parser panic. -/
theorem parse_returns_partial (pdu : Bytes) (h : ∀ x b y, pdu ≠ x ++ ([0x02, 0xFF, b] ++ y)) : (adParse pdu).returns = true := by
  cases hp : adParse pdu with
  | ok _ => rfl
  | err _ => rfl
  | panic =>
    obtain ⟨rs, b, rest, h1, -⟩ := (parse_panics_iff pdu).1 hp
    exact absurd h1 (h _ _ _)

example : (adParse [3, 0xFF, 1, 2, 9, 9, 0]).returns = true := parse_returns_partial _ (by
  intro x b y h
  have : ∀ k : Nat, (x ++ ([0x02, 0xFF, b] ++ y))[x.length]? = some 0x02 ∧ (x ++ ([0x02, 0xFF, b] ++ y))[x.length + 1]? = some 0xFF := by
    intro k; simp [List.getElem?_append_right]
  have := this 0
  rw [← h] at this
  match hx : x.length with
  | 0 | 1 | 2 | 3 | 4 | 5 | 6 => rw [hx] at this; simp at this
  | n + 7 => rw [hx] at this; simp at this)

/-- C05: an error is returned exactly if the packet is not empty and nothing at all was decoded from it. -/
theorem newRawPacket_err (chunks : List Bytes) (e : AdErr) :
    newRawPacket chunks = .err e ↔ e ≠ .emptyPdu ∧ adParse chunks.flatten = .err (e, {}) := by
  simp only [newRawPacket]
  cases h : adParse chunks.flatten with
  | ok m => simp
  | panic => simp
  | err x =>
    obtain ⟨e', m⟩ := x
    have hm : m.nonEmpty = false ↔ m = {} := by
      cases m
      simp only [AdvMap.nonEmpty, AdvMap.mk.injEq, Bool.or_eq_false_iff, Option.isSome_eq_false_iff, Option.isNone_iff_eq_none]
      grind
    cases e' <;> simp only [reduceCtorEq, false_iff, Go.err.injEq, Prod.mk.injEq, not_and]
    case emptyPdu => rintro h1 h2; exact absurd h2.symm h1
    all_goals
      split
      · rename_i hne
        simp only [reduceCtorEq, false_iff, not_and]
        rintro - - hm'
        rw [hm.2 hm'] at hne; simp at hne
      · rename_i hne
        simp only [Bool.not_eq_true] at hne
        have := hm.1 hne
        subst this
        simp only [Go.err.injEq, and_true]
        grind

/-- The first byte of the first non-empty value. -/
def firstByte (vs : List Bytes) : Option UInt8 := vs.head?.bind List.head?

theorem firstByte_concatenated (p : Kind → Bool) (rs : List Rec) : (concatenated (values p rs)).bind List.head? = firstByte (values p rs) ∧
    (∀ v, concatenated (values p rs) = some v → v ≠ []) := by
  have hv : ∀ v ∈ values p rs, v ≠ [] := by
    intro v hv
    unfold values at hv
    obtain ⟨r, hr, rfl⟩ := List.mem_map.1 hv
    have := (List.mem_filter.1 hr).2
    simp at this
    exact this.2
  cases h : values p rs with
  | nil => simp [concatenated, firstByte]
  | cons a as =>
    have ha := hv a (by simp [h])
    cases a with
    | nil => exact absurd rfl ha
    | cons x xs => simp [concatenated, firstByte]

/-- C06: what a scanner's getters return, in terms of the records: `Flags()` the first byte of the first flags record, `TxPower()` that of the first power record, as a signed number, `LocalName()` the name records, `UUIDs()` and `ServiceSol()`
the listed UUIDs, `ManufacturerData()` the manufacturer records, and for a service UUID its service data. -/
theorem getters_exact (pdu : Bytes) (m : AdvMap) (h : adParse pdu = .ok m) :
    ∃ (rs : List Rec) (tail : Bytes), pdu = rs.flatMap Rec.bytes ++ tail ∧ tail.length ≤ 1 ∧
      getFlags m = .ok (firstByte (values isFlags rs)) ∧
      getTxPower m = .ok ((firstByte (values isTx rs)).map fun x => x.toInt8.toInt) ∧
      getLocalName m = (values isName rs).flatten ∧
      getUUIDs m = (uuidList uuidSize rs).getD [] ∧
      getServiceSol m = (uuidList solSize rs).getD [] ∧
      getMfg m = (mfgData (values isMfg rs)).getD [] ∧
      (∀ key u, uuidParse key = .ok u → getServiceData m key = (serviceValues rs key).map fun d => (u, d)) := by
  obtain ⟨-, rs, tail, h1, h2, -, -, hf, hn, ht, hu, hs, hm, hd⟩ := (parse_ok_iff pdu m).1 h
  refine ⟨rs, tail, h1, h2, ?_, ?_, ?_, by rw [getUUIDs, hu], by rw [getServiceSol, hs], by rw [getMfg, hm], ?_⟩
  · obtain ⟨k1, k2⟩ := firstByte_concatenated isFlags rs
    rw [← k1, getFlags, hf]
    cases hc : concatenated (values isFlags rs) with
    | none => rfl
    | some v => cases v with
      | nil => exact absurd rfl (k2 _ hc)
      | cons x xs => rfl
  · obtain ⟨k1, k2⟩ := firstByte_concatenated isTx rs
    rw [← k1, getTxPower, ht]
    cases hc : concatenated (values isTx rs) with
    | none => rfl
    | some v => cases v with
      | nil => exact absurd rfl (k2 _ hc)
      | cons x xs =>
        have key : ∀ x : UInt8, (if x.toNat < 128 then (x.toNat : Int) else (x.toNat : Int) - 256) = x.toInt8.toInt := by
          intro x
          rw [Int8.toInt, UInt8.toBitVec_toInt8, BitVec.toInt_eq_toNat_cond]
          have := x.toNat_lt
          simp only [UInt8.toNat_toBitVec]
          split <;> split <;> omega
        show Go.ok (some (if x.toNat < 128 then (x.toNat : Int) else (x.toNat : Int) - 256)) = _
        rw [key]; rfl
  · rw [getLocalName, hn]
    cases values isName rs <;> simp [concatenated]
  · intro key u hk
    simp only [getServiceData, hd, hk]
    by_cases hh : hasServiceData rs = true
    · simp [hh]
    · rw [if_neg hh]
      have : serviceValues rs key = [] := by
        unfold serviceValues
        rw [List.filterMap_eq_nil_iff]
        intro r hr
        have : ¬ ((svcElemSize (kind r.typ)).isSome && !r.data.isEmpty) = true := by
          intro hc
          exact hh (List.any_eq_true.2 ⟨r, hr, hc⟩)
        cases hsz : svcElemSize (kind r.typ) with
        | none => rfl
        | some n =>
          simp [hsz] at this
          simp [this]
      simp [this]

/-- C05: `NewRawPacket` panics only when the parser does, and hides no error: either everything was decoded, or the packet is empty, or the
error is recorded in the packet, or it is returned. -/
theorem newRawPacket_outcome (chunks : List Bytes) :
    (newRawPacket chunks = .panic ↔ adParse chunks.flatten = .panic) ∧
    (∀ p, newRawPacket chunks = .ok p → p.b = chunks.flatten ∧
      ((∃ m, adParse chunks.flatten = .ok m ∧ p.m = some m ∧ p.advError = none) ∨ (chunks.flatten = [] ∧ p.m = none) ∨
       (∃ e m, adParse chunks.flatten = .err (e, m) ∧ p.m = some m ∧ p.advError = some e))) := by
  have hE : ∀ m, adParse chunks.flatten = .err (.emptyPdu, m) → chunks.flatten = [] := by
    intro m h
    unfold adParse at h
    split at h
    · rename_i h0; exact List.length_eq_zero_iff.1 h0
    · have := adParseLoop_outcome chunks.flatten 0 {}
      rw [h] at this
      obtain ⟨_, _, _, _, _, h5⟩ := this
      cases h5 with
      | badRecord _ r xs _ hl hr =>
        exact absurd hr (adRecord_ne_empty _ _ _)
  simp only [newRawPacket]
  revert hE
  generalize adParse chunks.flatten = res
  intro hE
  cases res with
  | ok m =>
    refine ⟨by simp, fun p hp => ?_⟩
    simp only [Go.ok.injEq] at hp; subst hp
    exact ⟨rfl, Or.inl ⟨m, rfl, rfl, rfl⟩⟩
  | panic => simp
  | err em =>
    obtain ⟨e, m⟩ := em
    cases e with
    | emptyPdu =>
      refine ⟨by simp, fun p hp => ?_⟩
      simp only [Go.ok.injEq] at hp; subst hp
      exact ⟨rfl, Or.inr (Or.inl ⟨hE m rfl, rfl⟩)⟩
    | _ =>
      refine ⟨by simp only [reduceCtorEq, iff_false]; split <;> simp, fun p hp => ?_⟩
      simp only at hp
      split at hp
      · simp only [Go.ok.injEq] at hp; subst hp
        exact ⟨rfl, Or.inr (Or.inr ⟨_, m, rfl, rfl, rfl⟩)⟩
      · simp at hp

/-! ## C04: what is advertised is what is decoded -/

/-- Fields a peer can decode: service UUIDs have a legal size and there are no raw bytes. -/
def Decodable : Field → Prop
  | .raw _ => False
  | .allUUID u => u.length = 2 ∨ u.length = 4 ∨ u.length = 16
  | .someUUID u => u.length = 2 ∨ u.length = 4 ∨ u.length = 16
  | _ => True

theorem fieldRecs_wf (f : Field) (hd : Decodable f) (hl : (fieldBytes f).length ≤ 31) : ∀ r ∈ fieldRecs f, r.WellFormed := by
  intro r hr
  have hlen : r.data.length ≤ 254 := by
    have : r.bytes.length ≤ ((fieldRecs f).flatMap Rec.bytes).length := by
      have hp := List.length_flatMap (l := fieldRecs f) (f := Rec.bytes)
      rw [hp]
      exact le_sum_of_mem (List.mem_map_of_mem hr)
    have h2 : fieldBytes f = (fieldRecs f).flatMap Rec.bytes := by
      cases f <;> first | rfl | exact absurd hd (by simp [Decodable])
    rw [h2] at hl
    rw [rec_bytes_length] at this
    omega
  refine ⟨hlen, ?_⟩
  cases f with
  | raw b => simp [fieldRecs] at hr
  | allUUID u =>
    simp only [fieldRecs, List.mem_singleton] at hr; subst hr
    rcases hd with h | h | h <;> simp [h, kind]
  | someUUID u =>
    simp only [fieldRecs, List.mem_singleton] at hr; subst hr
    rcases hd with h | h | h <;> simp [h, kind]
  | serviceData16 id b =>
    simp only [fieldRecs, List.mem_cons, List.not_mem_nil, or_false] at hr
    rcases hr with rfl | rfl <;> simp [kind]
  | _ => simp only [fieldRecs, List.mem_singleton] at hr; subst hr; simp [kind]

theorem values_flatMap_mfg (fs : List Field) : ∀ v ∈ values isMfg (fs.flatMap fieldRecs), 2 ≤ v.length := by
  intro v hv
  unfold values at hv
  obtain ⟨r, hr, rfl⟩ := List.mem_map.1 hv
  obtain ⟨hr1, hr2⟩ := List.mem_filter.1 hr
  obtain ⟨f, hf, hrf⟩ := List.mem_flatMap.1 hr1
  cases f with
  | allUUID u =>
    simp only [fieldRecs, List.mem_singleton] at hrf; subst hrf
    by_cases h2 : u.length = 2 <;> by_cases h4 : u.length = 4 <;> simp [h2, h4, kind, isMfg] at hr2
  | someUUID u =>
    simp only [fieldRecs, List.mem_singleton] at hrf; subst hrf
    by_cases h2 : u.length = 2 <;> by_cases h4 : u.length = 4 <;> simp [h2, h4, kind, isMfg] at hr2
  | serviceData16 id b =>
    simp only [fieldRecs, List.mem_cons, List.not_mem_nil, or_false] at hrf
    rcases hrf with rfl | rfl <;> simp [kind, isMfg] at hr2
  | raw b => simp [fieldRecs] at hrf
  | _ =>
    simp only [fieldRecs, List.mem_singleton] at hrf; subst hrf
    first
      | simp [kind, isMfg] at hr2; done
      | simp

/-- C04: a packet built from decodable fields is decoded, without error or panic, to exactly what its fields say. -/
theorem advertised_is_decoded (fs : List Field) (b : Bytes) (hb : newPacket fs = .ok b) (hne : b ≠ [])
    (hd : ∀ f ∈ fs, Decodable f) : adParse b = .ok (meaning (fs.flatMap fieldRecs)) := by
  have hbytes := newPacket_bytes fs b hb
  have hle := newPacket_le_31 fs b hb
  have heq : fs.flatMap fieldBytes = (fs.flatMap fieldRecs).flatMap Rec.bytes := by
    rw [List.flatMap_assoc]
    apply flatMap_congr'
    intro f hf
    have := hd f hf
    cases f <;> first | rfl | exact absurd this (by simp [Decodable])
  rw [parse_ok_iff]
  refine ⟨hne, fs.flatMap fieldRecs, [], by rw [hbytes, heq]; simp, by simp, ?_, ?_, rfl, rfl, rfl, rfl, rfl, rfl, rfl⟩
  · intro r hr
    obtain ⟨f, hf, hrf⟩ := List.mem_flatMap.1 hr
    refine fieldRecs_wf f (hd f hf) ?_ r hrf
    have : (fieldBytes f).length ≤ (fs.flatMap fieldBytes).length := by
      rw [List.length_flatMap]
      exact le_sum_of_mem (List.mem_map_of_mem hf)
    rw [hbytes] at hle; omega
  · rintro ⟨v, hv, hlt⟩
    have := values_flatMap_mfg fs v (List.mem_of_mem_tail hv)
    omega

/-- The service UUIDs a list of fields announces, in order. -/
def announcedUUIDs (fs : List Field) : List Bytes := fs.flatMap fun
  | .allUUID u => [u]
  | .someUUID u => [u]
  | .serviceData16 id _ => [[UInt8.ofNat id, UInt8.ofNat (id / 256)]]
  | _ => []

theorem pieces_self (u : Bytes) (h : u.length ≠ 0) : pieces u.length u = [u] := by
  unfold pieces; rw [Nat.div_self (by omega)]; simp

theorem uuidList_flatMap (fs : List Field) (hd : ∀ f ∈ fs, Decodable f) :
    (uuidList uuidSize (fs.flatMap fieldRecs)).getD [] = announcedUUIDs fs := by
  have key : ∀ rs : List Rec, (uuidList uuidSize rs).getD [] =
      rs.flatMap fun r => if (uuidSize (kind r.typ)).isSome && !r.data.isEmpty then
        pieces ((uuidSize (kind r.typ)).getD 0) r.data else [] := by
    intro rs
    induction rs using list_snoc_induction with
    | nil => simp [uuidList]
    | snoc rs r ih =>
      rw [uuidList_append, List.flatMap_append]
      simp only [List.flatMap_cons, List.flatMap_nil, List.append_nil]
      split <;> simp [ih]
  rw [key, announcedUUIDs, List.flatMap_assoc]
  apply flatMap_congr'
  intro f hf
  have hd := hd f hf
  cases f with
  | raw b => simp [fieldRecs]
  | allUUID u =>
    have hp := pieces_self u
    rcases hd with h | h | h <;>
      (have hne : u ≠ [] := by (intro hu; subst hu; simp at h)
       rw [h] at hp
       simp [fieldRecs, h, kind, uuidSize, hne, hp])
  | someUUID u =>
    have hp := pieces_self u
    rcases hd with h | h | h <;>
      (have hne : u ≠ [] := by (intro hu; subst hu; simp at h)
       rw [h] at hp
       simp [fieldRecs, h, kind, uuidSize, hne, hp])
  | serviceData16 id b =>
    have hp := pieces_self [UInt8.ofNat id, UInt8.ofNat (id / 256)] (by simp)
    simp only [List.length_cons, List.length_nil] at hp
    simp [fieldRecs, kind, uuidSize, hp]
  | _ => simp [fieldRecs, kind, uuidSize]

/-- C04: in particular a scanner's `UUIDs()` are the UUIDs put in, in order … -/
theorem advertised_uuids (fs : List Field) (b : Bytes) (hb : newPacket fs = .ok b) (hne : b ≠ [])
    (hd : ∀ f ∈ fs, Decodable f) : ∃ m, adParse b = .ok m ∧ getUUIDs m = announcedUUIDs fs :=
  ⟨_, advertised_is_decoded fs b hb hne hd, uuidList_flatMap fs hd⟩

/-- The name bytes a list of fields announces. -/
def announcedName (fs : List Field) : Bytes := fs.flatMap fun
  | .shortName n => n
  | .completeName n => n
  | _ => []

/-- … `LocalName()` is the name put in (the concatenation, if several were) … -/
theorem advertised_name (fs : List Field) (b : Bytes) (hb : newPacket fs = .ok b) (hne : b ≠ [])
    (hd : ∀ f ∈ fs, Decodable f) : ∃ m, adParse b = .ok m ∧ getLocalName m = announcedName fs := by
  refine ⟨_, advertised_is_decoded fs b hb hne hd, ?_⟩
  simp only [getLocalName, meaning]
  have h1 : ∀ vs : List Bytes, (concatenated vs).getD [] = vs.flatten := by intro vs; cases vs <;> simp [concatenated]
  rw [h1, announcedName]
  have h2 : ∀ rs : List Rec, (values isName rs).flatten =
      rs.flatMap fun r => if isName (kind r.typ) then r.data else [] := by
    intro rs
    induction rs using list_snoc_induction with
    | nil => simp [values]
    | snoc rs r ih =>
      rw [values_append, List.flatten_append, ih, List.flatMap_append]
      congr 1
      by_cases h : isName (kind r.typ) = true
      · by_cases h' : r.data = [] <;> simp [h, h']
      · simp [h]
  rw [h2, List.flatMap_assoc]
  apply flatMap_congr'
  intro f hf
  cases f with
  | allUUID u =>
    by_cases h2 : u.length = 2 <;> by_cases h4 : u.length = 4 <;> simp [fieldRecs, h2, h4, kind, isName]
  | someUUID u =>
    by_cases h2 : u.length = 2 <;> by_cases h4 : u.length = 4 <;> simp [fieldRecs, h2, h4, kind, isName]
  | _ => simp [fieldRecs, kind, isName]

/-- … `ManufacturerData()` of a packet with one manufacturer field is company id and data … -/
theorem advertised_mfg (fs gs : List Field) (id : Nat) (md b : Bytes)
    (hb : newPacket (fs ++ .manufacturerData id md :: gs) = .ok b)
    (hd : ∀ f ∈ fs ++ .manufacturerData id md :: gs, Decodable f)
    (h1 : ∀ f ∈ fs ++ gs, (∀ i d, f ≠ .manufacturerData i d) ∧ (∀ d, f ≠ .iBeaconData d) ∧ (∀ u x y p, f ≠ .iBeacon u x y p)) :
    ∃ m, adParse b = .ok m ∧ getMfg m = [UInt8.ofNat id, UInt8.ofNat (id / 256)] ++ md := by
  have hbb := newPacket_bytes _ b hb
  have hne : b ≠ [] := by rw [hbb]; simp [fieldBytes, fieldRecs, Rec.bytes]
  refine ⟨_, advertised_is_decoded _ b hb hne hd, ?_⟩
  simp only [getMfg, meaning]
  have hz : ∀ l : List Field, (∀ f ∈ l, f ∈ fs ++ gs) → values isMfg (l.flatMap fieldRecs) = [] := by
    intro l hl
    unfold values
    rw [List.map_eq_nil_iff, List.filter_eq_nil_iff]
    intro r hr
    obtain ⟨f, hf, hrf⟩ := List.mem_flatMap.1 hr
    obtain ⟨a1, a2, a3⟩ := h1 f (hl f hf)
    cases f with
    | manufacturerData i d => exact absurd rfl (a1 i d)
    | iBeaconData d => exact absurd rfl (a2 d)
    | iBeacon u x y p => exact absurd rfl (a3 u x y p)
    | raw d => simp [fieldRecs] at hrf
    | allUUID u =>
      simp only [fieldRecs, List.mem_singleton] at hrf; subst hrf
      by_cases h2 : u.length = 2 <;> by_cases h4 : u.length = 4 <;> simp [h2, h4, kind, isMfg]
    | someUUID u =>
      simp only [fieldRecs, List.mem_singleton] at hrf; subst hrf
      by_cases h2 : u.length = 2 <;> by_cases h4 : u.length = 4 <;> simp [h2, h4, kind, isMfg]
    | serviceData16 i d =>
      simp only [fieldRecs, List.mem_cons, List.not_mem_nil, or_false] at hrf
      rcases hrf with rfl | rfl <;> simp [kind, isMfg]
    | _ => simp only [fieldRecs, List.mem_singleton] at hrf; subst hrf; simp [kind, isMfg]
  have hsplit : values isMfg ((fs ++ .manufacturerData id md :: gs).flatMap fieldRecs) =
      [[UInt8.ofNat id, UInt8.ofNat (id / 256)] ++ md] := by
    have e : ∀ a c : List Rec, values isMfg (a ++ c) = values isMfg a ++ values isMfg c := by
      intro a c; simp [values]
    rw [List.flatMap_append, List.flatMap_cons, e, e, hz fs (fun f hf => by simp [hf]), hz gs (fun f hf => by simp [hf])]
    simp [values, fieldRecs, kind, isMfg]
  rw [hsplit]
  simp [mfgData]

/-- … and `ServiceData()` of the UUID of a `ServiceData16` field lists its data. -/
theorem advertised_serviceData (fs gs : List Field) (id : Nat) (sd b : Bytes)
    (hb : newPacket (fs ++ .serviceData16 id sd :: gs) = .ok b)
    (hd : ∀ f ∈ fs ++ .serviceData16 id sd :: gs, Decodable f) :
    ∃ m, adParse b = .ok m ∧ (uuid16 id, sd) ∈ getServiceData m (uuidString (uuid16 id)) := by
  have hbb := newPacket_bytes _ b hb
  have hne : b ≠ [] := by rw [hbb]; simp [fieldBytes, fieldRecs, Rec.bytes]
  refine ⟨_, advertised_is_decoded _ b hb hne hd, ?_⟩
  have hp : uuidParse (uuidString (uuid16 id)) = .ok (uuid16 id) := by
    have hd : strip '-' (hexEncode (uuid16 id).reverse) = hexEncode (uuid16 id).reverse :=
      strip_hexEncode '-' (by left; decide) _
    simp only [uuidParse, uuidString, reverse_eq, hd, hexDecode_hexEncode]
    simp [uuid16, put16]
  have hmem : (⟨0x16, [UInt8.ofNat id, UInt8.ofNat (id / 256)] ++ sd⟩ : Rec) ∈
      (fs ++ .serviceData16 id sd :: gs).flatMap fieldRecs := by
    rw [List.mem_flatMap]
    exact ⟨.serviceData16 id sd, by simp, by simp [fieldRecs]⟩
  have hh : hasServiceData ((fs ++ .serviceData16 id sd :: gs).flatMap fieldRecs) = true := by
    unfold hasServiceData
    rw [List.any_eq_true]
    exact ⟨_, hmem, by simp [kind, svcElemSize]⟩
  simp only [getServiceData, meaning, hh, if_true, hp, List.mem_map]
  refine ⟨sd, ?_, rfl⟩
  unfold serviceValues
  rw [List.mem_filterMap]
  exact ⟨_, hmem, by simp [kind, svcElemSize, uuid16, put16]⟩

example : ∃ b m, newPacket [.flags 6, .completeName [65, 66], .serviceData16 0xFEAA [1, 2]] = .ok b ∧ b ≠ [] ∧
    adParse b = .ok m ∧ getLocalName m = [65, 66] ∧ getUUIDs m = [[0xAA, 0xFE]] := by
  have hb : newPacket [.flags 6, .completeName [65, 66], .serviceData16 0xFEAA [1, 2]] =
      .ok [2, 1, 6, 3, 9, 65, 66, 3, 3, 0xAA, 0xFE, 5, 0x16, 0xAA, 0xFE, 1, 2] := by decide
  refine ⟨_, _, hb, by simp, advertised_is_decoded _ _ hb (by simp) ?_, by decide, by decide⟩
  intro f hf; simp at hf; rcases hf with rfl | rfl | rfl <;> trivial

/-- … and `Flags()` is the first flags field put in. -/
theorem advertised_flags (fs : List Field) (b : Bytes) (hb : newPacket fs = .ok b) (hne : b ≠ [])
    (hd : ∀ f ∈ fs, Decodable f) : ∃ m, adParse b = .ok m ∧ getFlags m = .ok (fs.findSome? fun f => match f with | .flags x => some x | _ => none) := by
  refine ⟨_, advertised_is_decoded fs b hb hne hd, ?_⟩
  have hr : getFlags (meaning (fs.flatMap fieldRecs)) = .ok (firstByte (values isFlags (fs.flatMap fieldRecs))) := by
    obtain ⟨k1, k2⟩ := firstByte_concatenated isFlags (fs.flatMap fieldRecs)
    rw [← k1]
    simp only [getFlags, meaning]
    cases hc : concatenated (values isFlags (fs.flatMap fieldRecs)) with
    | none => rfl
    | some v => cases v with
      | nil => exact absurd rfl (k2 _ hc)
      | cons x xs => rfl
  rw [hr]
  congr 1
  clear hr hb hd
  induction fs with
  | nil => rfl
  | cons f fs ih =>
    have e : ∀ a c : List Rec, values isFlags (a ++ c) = values isFlags a ++ values isFlags c := by
      intro a c; simp [values]
    rw [List.flatMap_cons, e, List.findSome?_cons]
    cases f with
    | flags x => simp [fieldRecs, values, kind, isFlags, firstByte]
    | allUUID u =>
      have : values isFlags (fieldRecs (.allUUID u)) = [] := by
        by_cases h2 : u.length = 2 <;> by_cases h4 : u.length = 4 <;> simp [values, fieldRecs, h2, h4, kind, isFlags]
      simpa [this] using! ih
    | someUUID u =>
      have : values isFlags (fieldRecs (.someUUID u)) = [] := by
        by_cases h2 : u.length = 2 <;> by_cases h4 : u.length = 4 <;> simp [values, fieldRecs, h2, h4, kind, isFlags]
      simpa [this] using! ih
    | _ => simpa [fieldRecs, values, kind, isFlags] using! ih

/-! ## C187: all service data is reported -/

/-- C187, the full statement: every service data record of an accepted packet appears in `ServiceData()`, with its UUID. Proved: for 16 and 128 bit UUIDs. **Missing, and false of the code**: records with a 32 bit UUID, see
`serviceData32_lost`. -/
theorem serviceData_complete_partial (pdu : Bytes) (m : AdvMap) (h : adParse pdu = .ok m) :
    ∃ (rs : List Rec) (tail : Bytes), pdu = rs.flatMap Rec.bytes ++ tail ∧ tail.length ≤ 1 ∧
      ∀ r ∈ rs, ∀ n, kind r.typ = .serviceData n → n ≠ 4 → r.data ≠ [] →
        (r.data.take n, r.data.drop n) ∈ getServiceData m (uuidString (r.data.take n)) := by
  obtain ⟨-, rs, tail, h1, h2, hwf, -, -, -, -, -, -, -, hd⟩ := (parse_ok_iff pdu m).1 h
  refine ⟨rs, tail, h1, h2, ?_⟩
  intro r hr n hk hn hne
  have hn' : n = 2 ∨ n = 16 := by
    clear hwf hd h2 h1 hr
    unfold kind at hk
    grind (splits := 20)
  have hlen : (r.data.take n).length = n := by
    have := (hwf r hr).2
    rw [hk] at this
    simp only [hne, false_or] at this
    rw [List.length_take]; omega
  have hp : uuidParse (uuidString (r.data.take n)) = .ok (r.data.take n) := by
    have hd : strip '-' (hexEncode (r.data.take n).reverse) = hexEncode (r.data.take n).reverse := strip_hexEncode '-' (by left; decide) _
    simp only [uuidParse, uuidString, reverse_eq, hd, hexDecode_hexEncode]
    simp [hlen, hn']
  have hh : hasServiceData rs = true := List.any_eq_true.2 ⟨r, hr, by simp [hk, svcElemSize, hne]⟩
  simp only [getServiceData, hd, hh, if_true, hp, List.mem_map]
  refine ⟨r.data.drop n, ?_, rfl⟩
  unfold serviceValues
  rw [List.mem_filterMap]
  exact ⟨r, hr, by simp [hk, svcElemSize, hne]⟩

/-- C187. Nothing is invented: what `ServiceData()` lists for a key is the content of a service data record with that UUID. -/
theorem serviceData_sound (pdu : Bytes) (m : AdvMap) (h : adParse pdu = .ok m) :
    ∃ (rs : List Rec) (tail : Bytes), pdu = rs.flatMap Rec.bytes ++ tail ∧ tail.length ≤ 1 ∧
      ∀ key u d, (u, d) ∈ getServiceData m key → ∃ r ∈ rs, ∃ n, kind r.typ = .serviceData n ∧ r.data = u ++ d ∧ u.length = n ∧ n ≠ 4 := by
  obtain ⟨-, rs, tail, h1, h2, hwf, -, -, -, -, -, -, -, hd⟩ := (parse_ok_iff pdu m).1 h
  refine ⟨rs, tail, h1, h2, ?_⟩
  intro key u d hm
  simp only [getServiceData, hd] at hm
  by_cases hh : hasServiceData rs = true
  · rw [if_pos hh] at hm
    simp only at hm
    cases hp : uuidParse key with
    | err e => rw [hp] at hm; simp at hm
    | panic => rw [hp] at hm; simp at hm
    | ok v =>
      rw [hp] at hm
      simp only [List.mem_map, Prod.mk.injEq] at hm
      obtain ⟨d', hd', rfl, rfl⟩ := hm
      unfold serviceValues at hd'
      rw [List.mem_filterMap] at hd'
      obtain ⟨r, hr, hr2⟩ := hd'
      cases hs : svcElemSize (kind r.typ) with
      | none => rw [hs] at hr2; simp at hr2
      | some n =>
        rw [hs] at hr2
        simp only at hr2
        split at hr2
        · rename_i hc
          obtain ⟨hc1, hc2⟩ := hc
          simp only [Option.some.injEq] at hr2
          have hk : kind r.typ = .serviceData n := by
            cases hkk : kind r.typ <;> rw [hkk] at hs <;> simp [svcElemSize] at hs
            rw [hs]
          have hle : n ≤ r.data.length := by
            have := (hwf r hr).2
            rw [hk] at this
            simpa [hc1] using this
          have hdash : strip '-' (hexEncode (r.data.take n).reverse) = hexEncode (r.data.take n).reverse := strip_hexEncode '-' (by left; decide) _
          rw [← hc2] at hp
          simp only [uuidParse, uuidString, reverse_eq, hdash, hexDecode_hexEncode] at hp
          have hlen : (r.data.take n).length = n := by rw [List.length_take]; omega
          simp only [List.length_reverse, hlen, List.reverse_reverse] at hp
          split at hp
          · rename_i hl
            simp only [Go.ok.injEq] at hp
            refine ⟨r, hr, n, hk, ?_, by rw [← hp, hlen], by omega⟩
            rw [← hp, ← hr2, List.take_append_drop]
          · simp at hp
        · simp at hr2
  · rw [if_neg hh] at hm; simp at hm

/-- C187. **Service data of a 32 bit UUID is lost**: an accepted packet with such a record, for which `ServiceData()` is empty whatever the key. -/
theorem serviceData32_lost (u d : Bytes) (hu : u.length = 4) (hl : d.length ≤ 250) :
    ∃ m, adParse (Rec.bytes ⟨0x20, u ++ d⟩) = .ok m ∧ ∀ key, getServiceData m key = [] := by
  have hp : adParse (Rec.bytes ⟨0x20, u ++ d⟩) = .ok (meaning [⟨0x20, u ++ d⟩]) := by
    rw [parse_ok_iff]
    refine ⟨by simp [Rec.bytes], [⟨0x20, u ++ d⟩], [], by simp, by simp, ?_, ?_, rfl, rfl, rfl, rfl, rfl, rfl, rfl⟩
    · intro r hr
      simp only [List.mem_singleton] at hr; subst hr
      refine ⟨by simp; omega, Or.inr ?_⟩
      simp [kind, hu]
    · rintro ⟨v, hv, -⟩
      simp [values, kind, isMfg] at hv
  refine ⟨_, hp, ?_⟩
  intro key
  obtain ⟨rs, tail, h1, h2, h3⟩ := serviceData_sound _ _ hp
  cases hg : getServiceData (meaning [⟨0x20, u ++ d⟩]) key with
  | nil => rfl
  | cons x xs =>
    obtain ⟨r, hr, n, hk, hrd, hun, hn4⟩ := h3 key x.1 x.2 (by rw [hg]; simp)
    exfalso
    simp only [getServiceData, meaning] at hg
    split at hg
    · simp at hg
    · rename_i f hf
      split at hf
      · simp only [Option.some.injEq] at hf; subst hf
        split at hg
        · rename_i v hv
          by_cases hkey : uuidString u = key
          · rw [← hkey] at hv
            have hdash : strip '-' (hexEncode u.reverse) = hexEncode u.reverse := strip_hexEncode '-' (by left; decide) _
            simp only [uuidParse, uuidString, reverse_eq, hdash, hexDecode_hexEncode] at hv
            simp [hu] at hv
          · have : serviceValues [⟨0x20, u ++ d⟩] key = [] := by
              have ht : (u ++ d).take 4 = u := by rw [← hu]; simp
              simp [serviceValues, kind, svcElemSize, ht, hkey]
            rw [this] at hg; simp at hg
        · simp at hg
      · simp at hf

/-- Both cases occur: Eddystone service data is reported, the same under a 32 bit UUID is not. -/
theorem serviceData_example : (∃ m, adParse [5, 0x16, 0xAA, 0xFE, 1, 2] = .ok m ∧ getServiceData m (uuidString [0xAA, 0xFE]) = [([0xAA, 0xFE], [1, 2])]) ∧
    (∃ m, adParse [7, 0x20, 0xAA, 0xFE, 0, 0, 1, 2] = .ok m ∧ m.serviceData.isSome = true ∧ ∀ key, getServiceData m key = []) := by
  constructor
  · have hp : adParse [5, 0x16, 0xAA, 0xFE, 1, 2] = .ok (meaning [⟨0x16, [0xAA, 0xFE, 1, 2]⟩]) := by
      rw [parse_ok_iff]
      refine ⟨by simp, [⟨0x16, [0xAA, 0xFE, 1, 2]⟩], [], by decide, by simp, ?_, ?_, rfl, rfl, rfl, rfl, rfl, rfl, rfl⟩
      · intro r hr
        simp only [List.mem_singleton] at hr; subst hr
        refine ⟨by simp, Or.inr ?_⟩
        simp [kind]
      · rintro ⟨v, hv, -⟩
        simp [values, kind, isMfg] at hv
    exact ⟨_, hp, by decide⟩
  · obtain ⟨m, h1, h2⟩ := serviceData32_lost [0xAA, 0xFE, 0, 0] [1, 2] rfl (by simp)
    refine ⟨m, h1, ?_, h2⟩
    obtain ⟨-, rs, tail, g1, g2, gw, -, -, -, -, -, -, -, hd⟩ := (parse_ok_iff _ m).1 h1
    have : adParse (Rec.bytes ⟨0x20, [0xAA, 0xFE, 0, 0] ++ [1, 2]⟩) = .ok (meaning [⟨0x20, [0xAA, 0xFE, 0, 0] ++ [1, 2]⟩]) := by
      rw [parse_ok_iff]
      refine ⟨by simp [Rec.bytes], [⟨0x20, [0xAA, 0xFE, 0, 0, 1, 2]⟩], [], by simp, by simp, ?_, ?_, rfl, rfl, rfl, rfl, rfl, rfl, rfl⟩
      · intro r hr
        simp only [List.mem_singleton] at hr; subst hr
        refine ⟨by simp, Or.inr ?_⟩
        simp [kind]
      · rintro ⟨v, hv, -⟩
        simp [values, kind, isMfg] at hv
    rw [this] at h1
    simp only [Go.ok.injEq] at h1
    rw [← h1]
    decide

/-- Getters on a decoded packet never panic: the parser never stores an empty flags or power entry. -/
theorem getters_return (pdu : Bytes) (m : AdvMap) (h : adParse pdu = .ok m) :
    (getFlags m).returns = true ∧ (getTxPower m).returns = true := by
  obtain ⟨-, rs, tail, -, -, -, -, h1, h2, h3, -⟩ := (parse_ok_iff pdu m).1 h
  have key : ∀ p rs v, concatenated (values p rs) = some v → v ≠ [] := by
    intro p rs v hv
    unfold concatenated at hv
    split at hv
    · simp at hv
    · rename_i hne
      cases hvs : values p rs with
      | nil => simp [hvs] at hne
      | cons a as =>
        have ha : a ∈ values p rs := by simp [hvs]
        unfold values at ha
        obtain ⟨r, hr, rfl⟩ := List.mem_map.1 ha
        have := (List.mem_filter.1 hr).2
        rw [hvs] at hv
        simp only [Option.some.injEq] at hv
        subst hv
        simp at this
        simp [this.2]
  constructor
  · unfold getFlags
    cases hf : m.flags with
    | none => rfl
    | some v =>
      have := key isFlags rs v (by rw [← h1, hf])
      cases v <;> simp_all [Go.bind]
  · unfold getTxPower
    cases hf : m.txpwr with
    | none => rfl
    | some v =>
      have := key isTx rs v (by rw [← h3, hf])
      cases v <;> simp_all [Go.bind]

/-! ## C07: iBeacon -/

/-- C07: the bytes of an iBeacon advertisement. `u` is the UUID as the library stores it (least significant byte first). -/
theorem iBeacon_layout (u : Bytes) (major minor : Nat) (pwr : UInt8) (hu : u.length = 16) :
    newPacket [.iBeacon u major minor pwr] =
      .ok ([26, 0xFF, 0x4C, 0x00, 0x02, 0x15] ++ u.reverse ++
        [UInt8.ofNat (major / 256), UInt8.ofNat major, UInt8.ofNat (minor / 256), UInt8.ofNat minor, pwr]) := by
  have := newPacket_succeeds [.iBeacon u major minor pwr] (by simp [fieldLegal, hu])
    (by simp [fieldBytes, fieldRecs, rec_bytes_length, hu])
  rw [this]
  simp [fieldBytes, fieldRecs, Rec.bytes, hu]

/-- C07: different parameters give different packets. -/
theorem iBeacon_injective (u v : Bytes) (a b c d : Nat) (p q : UInt8) (hu : u.length = 16) (hv : v.length = 16)
    (ha : a < 65536) (hb : b < 65536) (hc : c < 65536) (hd : d < 65536)
    (h : newPacket [.iBeacon u a b p] = newPacket [.iBeacon v c d q]) : u = v ∧ a = c ∧ b = d ∧ p = q := by
  rw [iBeacon_layout u a b p hu, iBeacon_layout v c d q hv] at h
  simp only [Go.ok.injEq, List.append_assoc] at h
  have h := List.append_cancel_left h
  obtain ⟨h1, h2⟩ := List.append_inj h (by simp [hu, hv])
  simp only [List.cons.injEq, and_true] at h2
  obtain ⟨h3, h4, h5, h6, h7⟩ := h2
  refine ⟨by simpa using h1, ?_, ?_, h7⟩
  · exact put16_inj ha hc (by simp [put16, h3, h4])
  · exact put16_inj hb hd (by simp [put16, h5, h6])

example : (List.replicate 16 (7 : UInt8)).length = 16 ∧ (newPacket [.iBeacon (List.replicate 16 7) 1 2 0xC5]).returns = true := by
  decide

/-- C07: a UUID of another size is refused. -/
theorem iBeacon_bad_uuid (u : Bytes) (a b : Nat) (p : UInt8) (h : u.length ≠ 16) :
    newPacket [.iBeacon u a b p] = .err .invalid := by
  simp [newPacket, newPacketFrom, Field.apply, h]

end Ble.Props
