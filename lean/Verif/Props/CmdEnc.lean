import Verif.Hci.CmdTable
import Verif.Hci.CmdSpec
set_option autoImplicit false

/-! # C47: HCI commands on the wire -/

namespace Ble.Props.CmdEncAux
open Ble.HciCmd

theorem leBytes_length (n x : Nat) : (leBytes n x).length = n := by
  induction n generalizing x with
  | zero => rfl
  | succ n ih => simp [leBytes, ih]

theorem u64_shr (x : UInt64) (k : Nat) (hk : k < 64) : ((x >>> UInt64.ofNat k).toUInt8) = UInt8.ofNat (x.toNat / 2 ^ k) := by
  apply UInt8.toNat_inj.1
  simp only [UInt64.toNat_toUInt8, UInt64.toNat_shiftRight, UInt64.toNat_ofNat', UInt8.toNat_ofNat', Nat.shiftRight_eq_div_pow]
  have : k % 2 ^ 64 % 64 = k := by rw [Nat.mod_eq_of_lt (by omega : k < 2 ^ 64)]; omega
  rw [this]

theorem u8_of_mod (n : Nat) : UInt8.ofNat (n % 256) = UInt8.ofNat n := by
  apply UInt8.toNat_inj.1; simp

theorem encode_eq_octets (v : Val) : v.encode = v.octets := by
  cases v with
  | u8 x => simp [Val.encode, Val.octets, leBytes]
  | i8 x =>
    simp only [Val.encode, Val.octets, leBytes, List.cons.injEq, and_true]
    apply UInt8.toNat_inj.1
    simp only [UInt8.toNat_ofNat']
    have h1 : x.toInt = (x.toUInt8.toNat : Int).bmod 256 := BitVec.toInt_eq_toNat_bmod x.toBitVec
    have h2 := x.toUInt8.toNat_lt
    have h3 : (x.toUInt8.toNat : Int).bmod 256 % 256 = (x.toUInt8.toNat : Int) % 256 := Int.bmod_emod
    rw [h1, h3]
    omega
  | u16 x =>
    simp only [Val.encode, Val.octets, leBytes, List.cons.injEq, and_true]
    constructor
    · apply UInt8.toNat_inj.1; simp
    · apply UInt8.toNat_inj.1; simp [Nat.shiftRight_eq_div_pow]
  | u64 x =>
    have h0 : x.toUInt8 = UInt8.ofNat x.toNat := by apply UInt8.toNat_inj.1; simp
    simp only [Val.encode, Val.octets, leBytes, u8_of_mod, Nat.div_div_eq_div_mul]
    rw [h0]
    have := u64_shr x
    simp only [List.cons.injEq, and_true, true_and]
    exact ⟨this 8 (by omega), this 16 (by omega), this 24 (by omega), this 32 (by omega), this 40 (by omega), this 48 (by omega), this 56 (by omega)⟩
  | bytes b => rfl

theorem octets_length (v : Val) : v.octets.length = v.ty.size := by
  cases v <;> simp [Val.octets, Val.ty, Ty.size, leBytes_length]

theorem encode_length (v : Val) : v.encode.length = v.ty.size := by rw [encode_eq_octets, octets_length]

theorem or_shift (a b k : Nat) (ha : a < 2 ^ k) : a ||| b <<< k = a + b * 2 ^ k := by
  rw [Nat.or_comm, ← Nat.shiftLeft_add_eq_or_of_lt ha, Nat.shiftLeft_eq]; omega

theorem decode16 (x y : UInt8) : (x.toUInt16 ||| y.toUInt16 <<< 8).toNat = x.toNat + y.toNat * 256 := by
  have hx := x.toNat_lt; have hy := y.toNat_lt
  simp only [UInt16.toNat_or, UInt16.toNat_shiftLeft, UInt8.toNat_toUInt16, UInt16.toNat_ofNat]
  have : y.toNat <<< (8 % 2 ^ 16 % 16) % 2 ^ 16 = y.toNat <<< 8 := by
    have h8 : (2:Nat) ^ (8 % 2 ^ 16 % 16) = 256 := by decide
    rw [Nat.shiftLeft_eq, h8, Nat.mod_eq_of_lt (by omega)]
  rw [this, or_shift _ _ _ hx]

theorem decode_octets16 (x y : UInt8) : (Val.u16 (x.toUInt16 ||| y.toUInt16 <<< 8)).octets = [x, y] := by
  have hx := x.toNat_lt; have hy := y.toNat_lt
  simp only [Val.octets, decode16, leBytes, List.cons.injEq, and_true]
  constructor <;> apply UInt8.toNat_inj.1 <;> simp only [UInt8.toNat_ofNat'] <;> omega

theorem sh64 (y : UInt8) (k : Nat) (hk : k ≤ 56) : (y.toUInt64 <<< UInt64.ofNat k).toNat = y.toNat <<< k := by
  have hy := y.toNat_lt
  simp only [UInt64.toNat_shiftLeft, UInt8.toNat_toUInt64, UInt64.toNat_ofNat']
  have h1 : k % 2 ^ 64 % 64 = k := by rw [Nat.mod_eq_of_lt (by omega : k < 2 ^ 64)]; omega
  rw [h1]
  apply Nat.mod_eq_of_lt
  rw [Nat.shiftLeft_eq]
  have h2 : (2:Nat) ^ k ≤ 2 ^ 56 := Nat.pow_le_pow_right (by omega) hk
  calc y.toNat * 2 ^ k ≤ 255 * 2 ^ 56 := Nat.mul_le_mul (by omega) h2
    _ < 2 ^ 64 := by decide

theorem decode64 (a b c d e f g h : UInt8) :
    (a.toUInt64 ||| b.toUInt64 <<< 8 ||| c.toUInt64 <<< 16 ||| d.toUInt64 <<< 24 ||| e.toUInt64 <<< 32 ||| f.toUInt64 <<< 40 ||| g.toUInt64 <<< 48 ||| h.toUInt64 <<< 56).toNat =
      a.toNat + b.toNat * 2 ^ 8 + c.toNat * 2 ^ 16 + d.toNat * 2 ^ 24 + e.toNat * 2 ^ 32 + f.toNat * 2 ^ 40 + g.toNat * 2 ^ 48 + h.toNat * 2 ^ 56 := by
  have ha := a.toNat_lt; have hb := b.toNat_lt; have hc := c.toNat_lt; have hd := d.toNat_lt
  have he := e.toNat_lt; have hf := f.toNat_lt; have hg := g.toNat_lt; have hh := h.toNat_lt
  have s := fun (y : UInt8) (k : Nat) (hk : k ≤ 56) => sh64 y k hk
  have s1 := s b 8 (by omega); have s2 := s c 16 (by omega); have s3 := s d 24 (by omega); have s4 := s e 32 (by omega)
  have s5 := s f 40 (by omega); have s6 := s g 48 (by omega); have s7 := s h 56 (by omega)
  simp only [UInt64.toNat_or, UInt8.toNat_toUInt64]
  rw [show (b.toUInt64 <<< 8).toNat = _ from s1, show (c.toUInt64 <<< 16).toNat = _ from s2, show (d.toUInt64 <<< 24).toNat = _ from s3, show (e.toUInt64 <<< 32).toNat = _ from s4,
    show (f.toUInt64 <<< 40).toNat = _ from s5, show (g.toUInt64 <<< 48).toNat = _ from s6, show (h.toUInt64 <<< 56).toNat = _ from s7]
  rw [or_shift _ _ 8 (by omega), or_shift _ _ 16 (by omega), or_shift _ _ 24 (by omega), or_shift _ _ 32 (by omega), or_shift _ _ 40 (by omega), or_shift _ _ 48 (by omega), or_shift _ _ 56 (by omega)]

theorem decode_octets64 (a b c d e f g h : UInt8) :
    (Val.u64 (a.toUInt64 ||| b.toUInt64 <<< 8 ||| c.toUInt64 <<< 16 ||| d.toUInt64 <<< 24 ||| e.toUInt64 <<< 32 ||| f.toUInt64 <<< 40 ||| g.toUInt64 <<< 48 ||| h.toUInt64 <<< 56)).octets =
      [a, b, c, d, e, f, g, h] := by
  have ha := a.toNat_lt; have hb := b.toNat_lt; have hc := c.toNat_lt; have hd := d.toNat_lt
  have he := e.toNat_lt; have hf := f.toNat_lt; have hg := g.toNat_lt; have hh := h.toNat_lt
  simp only [Val.octets, decode64, leBytes, List.cons.injEq, and_true, Nat.div_div_eq_div_mul]
  refine ⟨?_, ?_, ?_, ?_, ?_, ?_, ?_, ?_⟩ <;> apply UInt8.toNat_inj.1 <;> simp only [UInt8.toNat_ofNat'] <;> omega

/-- Decoding the right number of bytes gives a value of the type with these octets. -/
theorem decode_spec (t : Ty) (b : Bytes) (h : b.length = t.size) : (t.decode b).ty = t ∧ (t.decode b).octets = b := by
  cases t with
  | u8 =>
    match b, h with
    | [x], _ => simp [Ty.decode, Val.ty, Val.octets, leBytes]
  | i8 =>
    match b, h with
    | [x], _ =>
      refine ⟨rfl, ?_⟩
      rw [← encode_eq_octets]; simp [Ty.decode, Val.encode]
  | u16 =>
    match b, h with
    | [x, y], _ => exact ⟨rfl, decode_octets16 x y⟩
  | u64 =>
    match b, h with
    | [a, b, c, d, e, f, g, h], _ => exact ⟨rfl, decode_octets64 a b c d e f g h⟩
  | bytes n => exact ⟨by simp only [Ty.decode, Val.ty]; rw [h]; rfl, rfl⟩

theorem octets_inj (v w : Val) (ht : v.ty = w.ty) (h : v.octets = w.octets) : v = w := by
  cases v <;> cases w <;> simp only [Val.ty, reduceCtorEq, Ty.bytes.injEq] at ht <;> simp only [Val.octets] at h
  case u8.u8 x y =>
    simp [leBytes] at h; rw [h]
  case i8.i8 x y =>
    have := encode_eq_octets (.i8 x); have h2 := encode_eq_octets (.i8 y)
    simp only [Val.octets] at this h2
    rw [← this, ← h2] at h
    simp only [Val.encode, List.cons.injEq, and_true] at h
    have := congrArg UInt8.toInt8 h
    simpa using this
  case u16.u16 x y =>
    have hx := x.toNat_lt; have hy := y.toNat_lt
    simp only [leBytes, List.cons.injEq, and_true] at h
    have h1 := congrArg UInt8.toNat h.1; have h2 := congrArg UInt8.toNat h.2
    simp only [UInt8.toNat_ofNat'] at h1 h2
    congr 1
    apply UInt16.toNat_inj.1; omega
  case u64.u64 x y =>
    have hx := x.toNat_lt; have hy := y.toNat_lt
    simp only [leBytes, List.cons.injEq, and_true] at h
    obtain ⟨h0, h1, h2, h3, h4, h5, h6, h7⟩ := h
    have h0 := congrArg UInt8.toNat h0; have h1 := congrArg UInt8.toNat h1; have h2 := congrArg UInt8.toNat h2; have h3 := congrArg UInt8.toNat h3
    have h4 := congrArg UInt8.toNat h4; have h5 := congrArg UInt8.toNat h5; have h6 := congrArg UInt8.toNat h6; have h7 := congrArg UInt8.toNat h7
    simp only [UInt8.toNat_ofNat'] at h0 h1 h2 h3 h4 h5 h6 h7
    congr 1
    apply UInt64.toNat_inj.1; omega
  case bytes.bytes => rw [h]

theorem decode_octets (v : Val) : v.ty.decode v.octets = v := by
  have h := decode_spec v.ty v.octets (octets_length v)
  exact octets_inj _ _ h.1 h.2

theorem decodeAll_octets (vs : List Val) (rest : Bytes) : decodeAll (vs.map Val.ty) (vs.flatMap Val.octets ++ rest) = vs := by
  induction vs with
  | nil => rfl
  | cons v vs ih =>
    have hl := octets_length v
    simp only [List.map_cons, decodeAll, List.flatMap_cons, List.append_assoc]
    rw [List.take_left' hl, List.drop_left' hl, ih, decode_octets]

theorem decodeAll_spec (ts : List Ty) (b : Bytes) (h : (ts.map Ty.size).sum ≤ b.length) :
    (decodeAll ts b).map Val.ty = ts ∧ (decodeAll ts b).map Val.octets = splitSizes (ts.map Ty.size) b := by
  induction ts generalizing b with
  | nil => simp [decodeAll, splitSizes]
  | cons t ts ih =>
    simp only [List.map_cons, List.sum_cons] at h
    have h1 := decode_spec t (b.take t.size) (by rw [List.length_take]; omega)
    have h2 := ih (b.drop t.size) (by rw [List.length_drop]; omega)
    simp only [decodeAll, List.map_cons, splitSizes, h1.1, h1.2, h2.1, h2.2, and_self]

theorem splitSizes_flatten (vs : List Val) (rest : Bytes) :
    splitSizes (vs.map (fun v => v.ty.size)) (vs.flatMap Val.octets ++ rest) = vs.map Val.octets := by
  induction vs with
  | nil => rfl
  | cons v vs ih =>
    have hl := octets_length v
    simp only [List.map_cons, splitSizes, List.flatMap_cons, List.append_assoc]
    rw [List.take_left' hl, List.drop_left' hl, ih]

theorem encodeAll_eq (vs : List Val) : encodeAll vs = vs.flatMap Val.octets := by
  simp [encodeAll, funext encode_eq_octets]

theorem octetsAll_length (vs : List Val) : (vs.flatMap Val.octets).length = ((vs.map Val.ty).map Ty.size).sum := by
  induction vs with
  | nil => rfl
  | cons v vs ih => simp [octets_length, ih]

theorem leBytes2 (n : Nat) : leBytes 2 n = [UInt8.ofNat n, UInt8.ofNat (n >>> 8)] := by
  simp only [leBytes, u8_of_mod, Nat.shiftRight_eq_div_pow]

theorem leBytes1 (n : Nat) : leBytes 1 n = [UInt8.ofNat n] := by simp only [leBytes, u8_of_mod]

theorem vendor_op (op : UInt16) : ((0x3f : UInt16) <<< (10 : UInt16) ||| op).toNat = 0x3f * 1024 + op.toNat % 1024 := by
  have h1 : ((0x3f : UInt16) <<< (10 : UInt16)).toNat = 63 <<< 10 := by decide
  rw [UInt16.toNat_or, h1]
  have hlt := op.toNat_lt
  have h2 : op.toNat = (op.toNat / 1024) <<< 10 ||| op.toNat % 1024 := by
    rw [← Nat.shiftLeft_add_eq_or_of_lt (by omega : op.toNat % 1024 < 2 ^ 10), Nat.shiftLeft_eq]; omega
  rw [h2, ← Nat.or_assoc, ← Nat.shiftLeft_or_distrib]
  have h3 : 63 ||| op.toNat / 1024 = 63 := by
    have : ∀ k < 64, 63 ||| k = 63 := by decide
    exact this _ (by omega)
  rw [h3, ← Nat.shiftLeft_add_eq_or_of_lt (by omega : op.toNat % 1024 < 2 ^ 10), Nat.shiftLeft_eq]
  rw [← Nat.shiftLeft_add_eq_or_of_lt (by omega : op.toNat % 1024 < 2 ^ 10), Nat.shiftLeft_eq]
  omega

/-- The packet builder, for any data. -/
theorem packet_ok (op len : Nat) (d buf : Bytes) (hb : buf.length = 64) (hl : len ≤ 60) :
    packet op len (some d) buf = .ok ([1] ++ leBytes 2 op ++ leBytes 1 len ++ bufferWrite (List.replicate len 0) d) := by
  have hm : (bufferWrite (List.replicate len 0) d).length = len := by
    simp only [bufferWrite]; split <;> simp_all
  match buf, hb with
  | a0 :: a1 :: a2 :: a3 :: t, hb =>
    have ht : t.length = 60 := by simpa using hb
    simp only [packet, marshal, List.length_replicate, Nat.lt_irrefl, if_false, leBytes2, leBytes1]
    generalize bufferWrite (List.replicate len 0) d = m at hm
    simp only [setAt, List.length_cons, ht, List.set_cons_zero, List.set_cons_succ, sliceFrom, slice]
    simp [hm, ht, hl, List.take_of_length_le]
    rw [Nat.add_comm 4 len]
    simp only [List.take_succ_cons, List.take_left' hm]

theorem packet_long (op len : Nat) (d buf : Bytes) (hb : buf.length = 64) (hl : 60 < len) : packet op len (some d) buf = .panic := by
  have hm : (bufferWrite (List.replicate len 0) d).length = len := by
    simp only [bufferWrite]; split <;> simp_all
  match buf, hb with
  | a0 :: a1 :: a2 :: a3 :: t, hb =>
    have ht : t.length = 60 := by simpa using hb
    simp only [packet, marshal, List.length_replicate, Nat.lt_irrefl, if_false]
    generalize bufferWrite (List.replicate len 0) d = m at hm
    simp only [setAt, List.length_cons, ht, List.set_cons_zero, List.set_cons_succ, sliceFrom, slice]
    simp [hm, ht]
    omega

end Ble.Props.CmdEncAux

namespace Ble.Props
open Ble.HciCmd CmdEncAux

/-- The commands whose opcode is not the one of the specification (see `hci_cmd_wrong_opcode`). -/
def wrongOpcode : List String := ["WriteDefaultLinkPolicySettings", "WriteAuthenticatedPayloadTimeout"]

set_option maxRecDepth 100000 in
private theorem table_ok : ∀ c ∈ commands, c.name ∉ wrongOpcode → ∃ s ∈ coreSpec, s.name = c.name ∧ s.ogf * 1024 + s.ocf = c.opCode ∧
    s.params.map (fun p => plain p.1) = c.fields.map (·.1) ∧ s.params.map (·.2) = c.tys.map Ty.size := by decide

set_option maxRecDepth 100000 in
private theorem table_len : ∀ c ∈ commands, (c.tys.map Ty.size).sum = c.len ∧ c.len ≤ 60 := by decide

/-- C47, every command: whatever the values of the fields, and whatever was in the transmit buffer, `send` writes the packet type, the opcode, the number of parameter octets, and the fields in
order, each as its octets; the count is the declared length. -/
theorem hci_cmd_packet (c : Command) (hc : c ∈ commands) (vs : List Val) (hv : vs.map Val.ty = c.tys) (buf : Bytes) (hb : buf.length = 64) :
    c.packet vs buf = .ok ([0x01] ++ leBytes 2 c.opCode ++ leBytes 1 (vs.flatMap Val.octets).length ++ vs.flatMap Val.octets) ∧
    (vs.flatMap Val.octets).length = c.len := by
  obtain ⟨h1, h2⟩ := table_len c hc
  have hlen : (vs.flatMap Val.octets).length = c.len := by rw [octetsAll_length, hv, h1]
  refine ⟨?_, hlen⟩
  rw [Command.packet, encodeAll_eq, packet_ok _ _ _ _ hb h2, hlen]
  simp [bufferWrite, hlen]

/-- C47 against the Core Specification, for every command but two: what is written is the specification's packet for the command of that name with those parameter values, and a controller that
splits the parameter octets by the specification's sizes finds each value in the parameter of the field's name. Missing: `WriteDefaultLinkPolicySettings` and `WriteAuthenticatedPayloadTimeout`
carry another opcode. -/
theorem hci_cmd_on_the_wire_partial (c : Command) (hc : c ∈ commands) (hn : c.name ∉ wrongOpcode) (vs : List Val) (hv : vs.map Val.ty = c.tys) (buf : Bytes) (hb : buf.length = 64) :
    ∃ s ∈ coreSpec, s.name = c.name ∧ s.params.map (fun p => plain p.1) = c.fields.map (·.1) ∧
      c.packet vs buf = .ok (s.packet (vs.map Val.octets)) ∧
      splitSizes (s.params.map (·.2)) (vs.map Val.octets).flatten = vs.map Val.octets := by
  obtain ⟨s, hs, h1, h2, h3, h4⟩ := table_ok c hc hn
  refine ⟨s, hs, h1, h3, ?_, ?_⟩
  · rw [(hci_cmd_packet c hc vs hv buf hb).1, SpecCmd.packet, h2, List.flatMap_def]
  · rw [h4, ← hv, List.map_map, ← List.flatMap_def]
    have := splitSizes_flatten vs []
    rwa [List.append_nil] at this

/-- C47: different values give different packets, and the fields can be read back. -/
theorem hci_cmd_decodes (c : Command) (hc : c ∈ commands) (vs : List Val) (hv : vs.map Val.ty = c.tys) (buf pkt : Bytes) (hb : buf.length = 64)
    (h : c.packet vs buf = .ok pkt) : decodeAll c.tys (pkt.drop 4) = vs := by
  rw [(hci_cmd_packet c hc vs hv buf hb).1] at h
  injection h with h
  rw [← h, ← hv, leBytes2, leBytes1]
  have := decodeAll_octets vs []
  simpa using this

set_option maxRecDepth 100000 in
/-- C47: no two commands share an opcode, so the opcode of a reply identifies the command. -/
theorem hci_cmd_opcodes_distinct : ∀ c ∈ commands, ∀ d ∈ commands, c.opCode = d.opCode → c = d := by decide

/-- C47 is false of two commands: for all values the packet of `WriteDefaultLinkPolicySettings` has the opcode of Write Link Policy Settings (OGF 2, OCF 0x000D), and the one of
`WriteAuthenticatedPayloadTimeout` has OGF 1 instead of 3; neither is the specification's packet for any parameter octets. -/
theorem hci_cmd_wrong_opcode (c : Command) (hc : c ∈ commands) (hn : c.name ∈ wrongOpcode) (vs : List Val) (hv : vs.map Val.ty = c.tys) (buf : Bytes) (hb : buf.length = 64) :
    ∃ s ∈ coreSpec, s.name = c.name ∧ ∀ ps, c.packet vs buf ≠ .ok (s.packet ps) := by
  have key : ∀ c ∈ commands, c.name ∈ wrongOpcode → ∃ s ∈ coreSpec, s.name = c.name ∧ leBytes 2 (s.ogf * 1024 + s.ocf) ≠ leBytes 2 c.opCode := by
    set_option maxRecDepth 100000 in decide
  obtain ⟨s, hs, h1, h2⟩ := key c hc hn
  refine ⟨s, hs, h1, fun ps h => ?_⟩
  rw [(hci_cmd_packet c hc vs hv buf hb).1] at h
  injection h with h
  simp only [SpecCmd.packet, List.append_assoc, List.cons_append, List.nil_append, List.cons.injEq, true_and] at h
  exact h2 ((List.append_inj h (by simp [leBytes_length])).1.symm)

/-- Non-vacuity: both exist. -/
example : ∃ c ∈ commands, c.name ∈ wrongOpcode ∧ c.packet [.u16 0x0102, .u16 0x0304] (List.replicate 64 0xAA) = .ok [1, 0x7c, 0x04, 4, 2, 1, 4, 3] :=
  ⟨{ name := "WriteAuthenticatedPayloadTimeout", opCode := 0x01 <<< 10 ||| 0x007c, len := 4, fields := [("ConnectionHandle", .u16), ("AuthenticatedPayloadTimeout", .u16)] },
    by set_option maxRecDepth 100000 in decide⟩
/-- Non-vacuity: the scan-parameters command, with its 64-byte buffer full of old bytes. -/
example : ∃ c ∈ commands, c.name ∉ wrongOpcode ∧ c.packet [.u8 1, .u16 0x1234, .u16 4, .u8 0, .u8 0] (List.replicate 64 0xAA) = .ok [1, 0x0b, 0x20, 7, 1, 0x34, 0x12, 4, 0, 0, 0] :=
  ⟨{ name := "LESetScanParameters", opCode := 0x08 <<< 10 ||| 0x000b, len := 7,
     fields := [("LEScanType", .u8), ("LEScanInterval", .u16), ("LEScanWindow", .u16), ("OwnAddressType", .u8), ("ScanningFilterPolicy", .u8)] },
    by set_option maxRecDepth 100000 in decide⟩

/-- The replies whose layout is not the one of the specification. -/
def wrongReply : List String := ["ReadTransmitPowerLevelRP", "ReadLocalSupportedCommandsRP", "LESetAdvertisingDataRP"]

set_option maxRecDepth 100000 in
private theorem reply_ok : ∀ r ∈ replies, r.name ∉ wrongReply → ∃ s ∈ coreSpec, r.name = s.name ++ "RP" ∧ s.ret = some (r.tys.map Ty.size) := by decide

/-- C47, replies, all but three types: `Unmarshal` fails exactly on replies shorter than the command's return parameters in the specification; otherwise each field has the octets of its parameter. -/
theorem hci_reply_partial (r : Reply) (hr : r ∈ replies) (hn : r.name ∉ wrongReply) :
    ∃ s ∈ coreSpec, r.name = s.name ++ "RP" ∧ ∃ sizes, s.ret = some sizes ∧ ∀ b : Bytes,
      if b.length < sizes.sum then r.unmarshal b = .err .eof
      else ∃ vs, r.unmarshal b = .ok vs ∧ vs.map Val.ty = r.tys ∧ vs.map Val.octets = splitSizes sizes b := by
  obtain ⟨s, hs, h1, h2⟩ := reply_ok r hr hn
  refine ⟨s, hs, h1, _, h2, fun b => ?_⟩
  split
  · rename_i h; simp [Reply.unmarshal, h]
  · rename_i h
    have := decodeAll_spec r.tys b (by omega)
    exact ⟨_, by simp [Reply.unmarshal, h], this⟩

set_option maxRecDepth 100000 in
/-- C47 is false of `LESetAdvertisingDataRP`: the reply to LE Set Advertising Data has one octet, and `Unmarshal` fails on every reply of fewer than four, so `Send` with this reply reports an
error although the controller accepted the command. (The package itself passes nil.) -/
theorem hci_reply_set_adv_data : ∃ r ∈ replies, r.name = "LESetAdvertisingDataRP" ∧
    (∃ s ∈ coreSpec, s.name = "LESetAdvertisingData" ∧ s.ret = some [1]) ∧ ∀ b : Bytes, b.length = 1 → r.unmarshal b = .err .eof ∧ ∃ e, afterReply b (some r) = .err e := by
  refine ⟨{ name := "LESetAdvertisingDataRP", fields := [("Status", .u8), ("HCLEDataPacketLength", .u16), ("HCTotalNumLEDataPackets", .u8)] }, by decide, rfl, by decide, fun b hb => ?_⟩
  have : Reply.unmarshal { name := "LESetAdvertisingDataRP", fields := [("Status", .u8), ("HCLEDataPacketLength", .u16), ("HCTotalNumLEDataPackets", .u8)] } b = .err .eof := by
    simp [Reply.unmarshal, Reply.tys, Ty.size, hb]
  refine ⟨this, ?_⟩
  simp only [afterReply, this]
  split <;> simp

set_option maxRecDepth 100000 in
/-- C47 is false of the other two: the power level and all but eight of the sixty-four octets of supported commands are lost: replies that differ in them decode to the same value. -/
theorem hci_reply_loses (lvl lvl' : UInt8) (st h0 h1 : UInt8) (first : Bytes) (hf : first.length = 8) (rest rest' : Bytes) :
    (∃ r ∈ replies, r.name = "ReadTransmitPowerLevelRP" ∧ r.unmarshal [st, h0, h1, lvl] = r.unmarshal [st, h0, h1, lvl'] ∧ (r.unmarshal [st, h0, h1, lvl]).returns) ∧
    (∃ r ∈ replies, r.name = "ReadLocalSupportedCommandsRP" ∧ r.unmarshal (st :: first ++ rest) = r.unmarshal (st :: first ++ rest') ∧ ∃ vs, r.unmarshal (st :: first ++ rest) = .ok vs) := by
  constructor
  · exact ⟨{ name := "ReadTransmitPowerLevelRP", fields := [("Status", .u8), ("ConnectionHandle", .u16)] }, by decide, rfl, rfl, rfl⟩
  · refine ⟨{ name := "ReadLocalSupportedCommandsRP", fields := [("Status", .u8), ("Supporteds", .u64)] }, by decide, rfl, ?_, ?_⟩
    · simp [Reply.unmarshal, Reply.tys, Ty.size, decodeAll, hf, List.take_left']
      simp [show ¬ (8 + rest.length + 1 < 9) by omega, show ¬ (8 + rest'.length + 1 < 9) by omega]
    · simp [Reply.unmarshal, Reply.tys, Ty.size, decodeAll, hf, List.take_left']
      simp [show ¬ (8 + rest.length + 1 < 9) by omega]

/-- C47, `Send`: a reply with a non-zero status is that error, whatever reply type was passed; an empty reply or status zero is success when no reply was asked for. -/
theorem hci_send_status (b : Bytes) (r : Option Reply) :
    (∀ st rest, b = st :: rest → st ≠ 0 → afterReply b r = .err (.command st)) ∧
    (b = [] ∨ (∃ rest, b = 0 :: rest) → afterReply b none = .ok none ∧ ∀ r', afterReply b (some r') = (r'.unmarshal b >>= fun vs => .ok (some vs))) := by
  constructor
  · rintro st rest rfl h; simp [afterReply, h]
  · rintro (rfl | ⟨rest, rfl⟩) <;> simp [afterReply]

/-- C47, vendor commands: with a payload that fits in the declared length, and at most 60 octets, the packet is the vendor opcode, the length, the payload, and zeros up to the length. -/
theorem hci_vendor_packet_partial (op : UInt16) (length : UInt8) (p buf : Bytes) (hb : buf.length = 64) (hl : length.toNat ≤ 60) (hp : p.length ≤ length.toNat) :
    vendorPacket op length (some p) buf =
      .ok ([0x01] ++ leBytes 2 (0x3f * 1024 + op.toNat % 1024) ++ [length] ++ p ++ List.replicate (length.toNat - p.length) 0) := by
  have hnot : ¬ length > 252 := by
    intro h; have := UInt8.lt_iff_toNat_lt.1 h; simp at this; omega
  rw [vendorPacket, if_neg hnot, packet_ok _ _ _ _ hb hl, vendor_op, leBytes1]
  simp [bufferWrite, hp]

/-- C47 is false of longer vendor commands: lengths from 61 to 252 pass the check and crash the program. -/
theorem hci_vendor_long_crashes (op : UInt16) (length : UInt8) (p buf : Bytes) (hb : buf.length = 64) (hl : 60 < length.toNat) (hl' : length.toNat ≤ 252) :
    vendorPacket op length (some p) buf = .panic := by
  have hnot : ¬ length > 252 := by
    intro h; have := UInt8.lt_iff_toNat_lt.1 h; simp at this; omega
  rw [vendorPacket, if_neg hnot, packet_long _ _ _ _ hb hl]

/-- C47 is false of vendor payloads longer than the declared length: nothing of the payload is sent, only zeros, and no error is reported. -/
theorem hci_vendor_payload_lost (op : UInt16) (length : UInt8) (p buf : Bytes) (hb : buf.length = 64) (hl : length.toNat ≤ 60) (hp : length.toNat < p.length) :
    vendorPacket op length (some p) buf = .ok ([0x01] ++ leBytes 2 (0x3f * 1024 + op.toNat % 1024) ++ [length] ++ List.replicate length.toNat 0) := by
  have hnot : ¬ length > 252 := by
    intro h; have := UInt8.lt_iff_toNat_lt.1 h; simp at this; omega
  rw [vendorPacket, if_neg hnot, packet_ok _ _ _ _ hb hl, vendor_op, leBytes1]
  simp [bufferWrite, show ¬ p.length ≤ length.toNat by omega]

/-- C47 is false of vendor payloads without a fixed size (a nil interface, a string, an `int`, a struct with a slice): the program crashes instead of returning the error. -/
theorem hci_vendor_unsized_crashes (op : UInt16) (length : UInt8) (buf : Bytes) (hl : length.toNat ≤ 252) : vendorPacket op length none buf = .panic := by
  have hnot : ¬ length > 252 := by
    intro h; have := UInt8.lt_iff_toNat_lt.1 h; simp at this; omega
  rw [vendorPacket, if_neg hnot]
  simp [packet, marshal]

example : vendorPacket 0x0001 3 (some [9, 8]) (List.replicate 64 7) = .ok [1, 0x01, 0xfc, 3, 9, 8, 0] := by decide
example : vendorPacket 0x0001 1 (some [9, 8]) (List.replicate 64 7) = .ok [1, 0x01, 0xfc, 1, 0] := by decide

end Ble.Props
