import Verif.Hci.Init
import Verif.Props.CmdEnc
import Verif.Props.L2cap
set_option autoImplicit false

/-! # C62: Init takes over the controller's address and buffers -/

namespace Ble.Props

open Ble.HciCmd Ble.HciInit

/-- A controller that answers the four questions of `Init` as the specification says: status 0 and the values, least significant byte first. -/
structure Answers (c : Ctl) (addr : Bytes) (aclLen aclCnt leLen leCnt : Nat) (power : UInt8) : Prop where
  /-- six bytes, most significant first -/
  addr6 : addr.length = 6
  bd : c 0x1009 = some (0 :: addr.reverse)
  acl : ∃ sco scoCnt, sco < 256 ∧ scoCnt < 65536 ∧ c 0x1005 = some (0 :: (put16 aclLen ++ [UInt8.ofNat sco] ++ put16 aclCnt ++ put16 scoCnt))
  le : c 0x2002 = some (0 :: (put16 leLen ++ [UInt8.ofNat leCnt]))
  tx : c 0x2007 = some [0, power]
  aclLen : aclLen < 65536
  aclCnt : aclCnt < 65536
  leLen : leLen < 65536
  leCnt : leCnt < 256

namespace InitAux

theorem u16_put (n : Nat) (h : n < 65536) : ((UInt8.ofNat n).toUInt16 ||| (UInt8.ofNat (n / 256)).toUInt16 <<< 8).toNat = n := by
  rw [CmdEncAux.decode16]
  simp
  omega

theorem u8_of (n : Nat) (h : n < 256) : (UInt8.ofNat n).toNat = n := by simp; omega

end InitAux

open InitAux

/-- The specification's rule for buffers (Vol 4, Part E, 4.1.1 and 7.8.2): if the controller has buffers for LE, these; otherwise LE data uses those for ACL data. -/
def dataBuffers (aclLen aclCnt leLen leCnt : Nat) : Nat × Nat := if leLen = 0 ∨ leCnt = 0 then (aclLen, aclCnt) else (leLen, leCnt)

/-- **C62** (part: the controller answers all four questions, and does not announce LE buffers of length zero). The adapter's address is the controller's. `Init` succeeds exactly if the controller has two or more
buffers for LE data; then the host uses one less than it has, and puts at most as many bytes in a packet as the controller takes. -/
theorem init_takes_controller_values_partial (c : Ctl) (addr : Bytes) (aclLen aclCnt leLen leCnt : Nat) (power : UInt8) (h : Answers c addr aclLen aclCnt leLen leCnt power)
    (hz : leLen = 0 → leCnt = 0) :
    (init c).addr = addr ∧
      (start c).map (·.2) = if (dataBuffers aclLen aclCnt leLen leCnt).2 ≤ 1 then none else
        some ⟨(dataBuffers aclLen aclCnt leLen leCnt).2 - 1, (dataBuffers aclLen aclCnt leLen leCnt).1⟩ := by
  obtain ⟨sco, scoCnt, hs1, hs2, hacl⟩ := h.acl
  have e1 : (init c).addr = addr := by
    have h6 := h.addr6
    match addr, h6 with
    | [b0, b1, b2, b3, b4, b5], _ =>
      simp [init, fields, h.bd, afterReply, Reply.unmarshal, bdaddrRP, Reply.tys, Ty.size, decodeAll, Ty.decode, addrOf]
  have e2 : aclBuf (fields c 0x1005 bufRP) = (aclLen, aclCnt) := by
    simp [fields, hacl, afterReply, Reply.unmarshal, bufRP, Reply.tys, Ty.size, decodeAll, Ty.decode, aclBuf, put16, u16_put _ h.aclLen, u16_put _ h.aclCnt]
  have e3 : leBuf (fields c 0x2002 leBufRP) = (leLen, leCnt) := by
    simp [fields, h.le, afterReply, Reply.unmarshal, leBufRP, Reply.tys, Ty.size, decodeAll, Ty.decode, leBuf, put16]
    exact ⟨u16_put _ h.leLen, by have := h.leCnt; omega⟩
  refine ⟨e1, ?_⟩
  simp only [start, newPool, init, e2, e3, dataBuffers]
  by_cases hc : leCnt = 0
  · simp [hc]; split <;> split <;> simp_all <;> omega
  · have : leLen ≠ 0 := fun hh => hc (hz hh)
    simp [hc, this]; split <;> split <;> simp_all <;> omega

/-- An ordinary controller: the hypotheses are met. -/
example : ∃ c, Answers c [0xDC, 0xA6, 0x32, 1, 2, 3] 1021 8 27 15 0xEC ∧ (start c).map (·.2) = some ⟨14, 27⟩ := by
  refine ⟨fun op => if op = 0x1009 then some [0, 3, 2, 1, 0x32, 0xA6, 0xDC] else if op = 0x1005 then some (0 :: (put16 1021 ++ [UInt8.ofNat 64] ++ put16 8 ++ put16 1)) else
    if op = 0x2002 then some (0 :: (put16 27 ++ [UInt8.ofNat 15])) else if op = 0x2007 then some [0, 0xEC] else none, ?_, by decide⟩
  exact ⟨rfl, rfl, ⟨64, 1, by decide, by decide, rfl⟩, rfl, rfl, by decide, by decide, by decide, by decide⟩

/-- **C62** fails (buffers of length zero). A controller that says "LE buffers: length 0, number n > 1" shares the ACL buffers (7.8.2), but the host makes buffers of length zero: `Init` succeeds and
`writePDU` does not end (`writePDU_zero_buffer_diverges`). -/
theorem init_zero_length_buffers (c : Ctl) (addr : Bytes) (aclLen aclCnt leCnt : Nat) (power : UInt8) (h : Answers c addr aclLen aclCnt 0 leCnt power) (hc : 1 < leCnt) :
    (start c).map (·.2) = some ⟨leCnt - 1, 0⟩ ∧ ∀ handle n (pdu : Bytes), pdu ≠ [] → (L2cap.writePDU handle 0 n pdu).2 = pdu := by
  have e3 : leBuf (fields c 0x2002 leBufRP) = (0, leCnt) := by
    simp [fields, h.le, afterReply, Reply.unmarshal, leBufRP, Reply.tys, Ty.size, decodeAll, Ty.decode, leBuf, put16]
    have := h.leCnt; omega
  refine ⟨?_, fun handle n pdu hp => (writePDU_zero_buffer_diverges handle n pdu hp).1⟩
  simp only [start, newPool, init, e3]
  have : leCnt ≠ 0 := by omega
  simp [this]
  omega

/-- **C62** fails (errors). The errors of the commands are dropped: whatever else it answers, a controller that does not answer the question for the address, or refuses it, gives an adapter with the
address 00:00:00:00:00:00, and `Init` succeeds with it. -/
theorem init_ignores_errors (c : Ctl) (h : c 0x1009 = none ∨ (∃ st rest, c 0x1009 = some (st :: rest) ∧ st ≠ 0)) :
    (init c).addr = [0, 0, 0, 0, 0, 0] ∧ ∀ a p, start c = some (a, p) → a.addr = [0, 0, 0, 0, 0, 0] := by
  have e : (init c).addr = [0, 0, 0, 0, 0, 0] := by
    rcases h with h | ⟨st, rest, h, hst⟩
    · simp only [init, fields, h]; rfl
    · simp only [init, fields, h]
      rw [show afterReply (st :: rest) (some bdaddrRP) = .err (.command st) from (hci_send_status _ _).1 st rest rfl hst]
      rfl
  refine ⟨e, fun a p hs => ?_⟩
  simp only [start, Option.map_eq_some_iff] at hs
  obtain ⟨q, -, hs⟩ := hs
  injection hs with hs _
  rw [← hs]; exact e

/-- **C62** fails (power). The power level is a signed number of dBm in the specification and is read as unsigned: any negative level p is 256 + p. -/
theorem init_power_unsigned (c : Ctl) (addr : Bytes) (aclLen aclCnt leLen leCnt : Nat) (p : Int8) (h : Answers c addr aclLen aclCnt leLen leCnt p.toUInt8) :
    (init c).txPower = if p < 0 then p.toInt + 256 else p.toInt := by
  have e : (init c).txPower = (p.toUInt8.toNat : Int) := by
    simp [init, fields, h.tx, afterReply, Reply.unmarshal, txPowerRP, Reply.tys, Ty.size, decodeAll, Ty.decode, powerOf]
  rw [e]
  have h1 : p.toInt = p.toBitVec.toInt := rfl
  have h2 : p.toUInt8.toNat = p.toBitVec.toNat := rfl
  rw [h1, h2, BitVec.toInt_eq_toNat_cond]
  have hlt := p.toBitVec.isLt
  have h3 : p < 0 ↔ p.toBitVec.toInt < 0 := by
    rw [Int8.lt_iff_toInt_lt]; rfl
  rw [BitVec.toInt_eq_toNat_cond] at h3
  by_cases hp : p < 0
  · rw [if_pos hp]; have := h3.1 hp; split at this <;> split <;> omega
  · rw [if_neg hp]
    split
    · rfl
    · exfalso; apply hp; apply h3.2; split <;> omega

end Ble.Props
