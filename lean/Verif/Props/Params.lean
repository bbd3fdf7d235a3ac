import Verif.Hci.Params
set_option autoImplicit false

/-!
# C35: validation of connection and scan parameters
-/

namespace Ble.Props

open Ble.Params

/-- The scan parameters the Bluetooth specification (4.0, Vol 2, Part E, 7.8.10) allows. -/
structure ScanAllowed (p : Params.Scan) : Prop where
  scanType : p.scanType = 0 ∨ p.scanType = 1
  interval : 4 ≤ p.interval.toNat ∧ p.interval.toNat ≤ 0x4000
  window : 4 ≤ p.window.toNat ∧ p.window.toNat ≤ 0x4000
  windowInInterval : p.window.toNat ≤ p.interval.toNat
  ownAddr : p.ownAddrType = 0 ∨ p.ownAddrType = 1
  filter : p.filterPolicy = 0 ∨ p.filterPolicy = 1

/-- The connection parameters the specification (7.8.12) allows, without the condition on the supervision timeout. -/
structure ConnRanges (p : Params.Conn) : Prop where
  scanInterval : 4 ≤ p.scanInterval.toNat ∧ p.scanInterval.toNat ≤ 0x4000
  scanWindow : 4 ≤ p.scanWindow.toNat ∧ p.scanWindow.toNat ≤ 0x4000
  windowInInterval : p.scanWindow.toNat ≤ p.scanInterval.toNat
  filter : p.filterPolicy = 0 ∨ p.filterPolicy = 1
  peer : p.peerAddrType = 0 ∨ p.peerAddrType = 1
  own : p.ownAddrType = 0 ∨ p.ownAddrType = 1
  intervalMin : 6 ≤ p.intervalMin.toNat
  intervals : p.intervalMin.toNat ≤ p.intervalMax.toNat
  intervalMax : p.intervalMax.toNat ≤ 0x0c80
  latency : p.latency.toNat ≤ 0x01f3
  timeout : 0x0a ≤ p.timeout.toNat ∧ p.timeout.toNat ≤ 0x0c80
  ce : p.ceMin.toNat ≤ p.ceMax.toNat

/-- "The Supervision_Timeout in milliseconds shall be larger than (1 + Conn_Latency) * Conn_Interval_Max * 2, where Conn_Interval_Max is given in milliseconds." The timeout is in units of
10 ms, the interval in units of 1.25 ms; both sides times four. -/
def SupervisionOk (p : Params.Conn) : Prop := 4 * (p.timeout.toNat * 10) > (1 + p.latency.toNat) * (p.intervalMax.toNat * 5) * 2

/-- What the library requires instead: "at least" for "larger than", and the latency is multiplied by 1.25 too (all times eight). -/
def SupervisionChecked (p : Params.Conn) : Prop := 16 * p.timeout.toNat ≥ (4 + 5 * p.latency.toNat) * p.intervalMax.toNat

/-- C35. Scan parameters are accepted exactly when the specification allows them. -/
theorem scan_params_exact (p : Params.Scan) : validateScan p = true ↔ ScanAllowed p := by
  have hgt : (p.window > p.interval) ↔ p.window.toNat > p.interval.toNat := UInt16.lt_iff_toNat_lt
  unfold validateScan
  constructor
  · intro h
    simp only [Bool.if_false_left, Bool.and_eq_true, Bool.not_eq_true', decide_eq_false_iff_not, Bool.or_eq_true, decide_eq_true_eq, hgt, Bool.and_true] at h
    obtain ⟨h1, h2, h3, h4, h5, h6⟩ := h
    refine ⟨?_, by omega, by omega, by omega, ?_, ?_⟩
    · apply Classical.byContradiction; intro hn; exact h1 ⟨fun h => hn (Or.inr h), fun h => hn (Or.inl h)⟩
    · apply Classical.byContradiction; intro hn; exact h5 ⟨fun h => hn (Or.inl h), fun h => hn (Or.inr h)⟩
    · apply Classical.byContradiction; intro hn; exact h6 ⟨fun h => hn (Or.inl h), fun h => hn (Or.inr h)⟩
  · intro ⟨h1, h2, h3, h4, h5, h6⟩
    simp only [Bool.if_false_left, Bool.and_eq_true, Bool.not_eq_true', decide_eq_false_iff_not, Bool.or_eq_true, decide_eq_true_eq, hgt, Bool.and_true]
    refine ⟨?_, by omega, by omega, by omega, ?_, ?_⟩
    · rcases h1 with h | h <;> simp [h]
    · rcases h5 with h | h <;> simp [h]
    · rcases h6 with h | h <;> simp [h]

/-- C35. Connection parameters are accepted exactly when they are in range and the library's own timeout condition holds. -/
theorem conn_params_accepted_iff (p : Params.Conn) : validateConn p = true ↔ ConnRanges p ∧ SupervisionChecked p := by
  have hgt : (p.scanWindow > p.scanInterval) ↔ p.scanWindow.toNat > p.scanInterval.toNat := UInt16.lt_iff_toNat_lt
  have hgt2 : (p.intervalMin > p.intervalMax) ↔ p.intervalMin.toNat > p.intervalMax.toNat := UInt16.lt_iff_toNat_lt
  have hgt3 : (p.ceMin > p.ceMax) ↔ p.ceMin.toNat > p.ceMax.toNat := UInt16.lt_iff_toNat_lt
  have hce := p.ceMin.toNat_lt
  have hce' := p.ceMax.toNat_lt
  have hsto : stoMs16 p.timeout.toNat < minStoMs16 p.latency.toNat p.intervalMax.toNat ↔ ¬ SupervisionChecked p := by
    unfold stoMs16 minStoMs16 SupervisionChecked
    generalize p.timeout.toNat = t
    generalize p.intervalMax.toNat = i
    rw [show 4 + 5 * p.latency.toNat = 4 + p.latency.toNat * 5 by omega]
    generalize 4 + p.latency.toNat * 5 = l
    have : l * (i * 5) * 2 = 10 * (l * i) := by
      rw [← Nat.mul_assoc]; omega
    rw [this]; omega
  unfold validateConn
  constructor
  · intro h
    simp only [Bool.if_false_left, Bool.and_eq_true, Bool.not_eq_true', decide_eq_false_iff_not, Bool.or_eq_true, decide_eq_true_eq, hgt, hgt2, hgt3, hsto, Bool.and_true] at h
    obtain ⟨h1, h2, h3, h4, h5, h6, h7, h8, h9, h10, h11, h12, h13, h14, h15⟩ := h
    refine ⟨⟨by omega, by omega, by omega, ?_, ?_, ?_, by omega, by omega, by omega, by omega, by omega, by omega⟩, Classical.not_not.1 h12⟩
    · apply Classical.byContradiction; intro hn; exact h4 ⟨fun h => hn (Or.inl h), fun h => hn (Or.inr h)⟩
    · apply Classical.byContradiction; intro hn; exact h6 ⟨fun h => hn (Or.inl h), fun h => hn (Or.inr h)⟩
    · apply Classical.byContradiction; intro hn; exact h5 ⟨fun h => hn (Or.inl h), fun h => hn (Or.inr h)⟩
  · rintro ⟨⟨h1, h2, h3, h4, h5, h6, h7, h8, h9, h10, h11, h12⟩, hs⟩
    simp only [Bool.if_false_left, Bool.and_eq_true, Bool.not_eq_true', decide_eq_false_iff_not, Bool.or_eq_true, decide_eq_true_eq, hgt, hgt2, hgt3, hsto, Bool.and_true]
    refine ⟨by omega, by omega, by omega, ?_, ?_, ?_, by omega, by omega, by omega, by omega, by omega, fun h => h hs, by omega, by omega, by omega⟩
    · rcases h4 with h | h <;> simp [h]
    · rcases h6 with h | h <;> simp [h]
    · rcases h5 with h | h <;> simp [h]

/-- C35 (partial). Accepted parameters are allowed by the specification, except that with latency 0 the supervision timeout may equal twice the interval instead of exceeding it. -/
theorem conn_params_sound_partial (p : Params.Conn) (h : validateConn p = true) :
    ConnRanges p ∧ (SupervisionOk p ∨ (p.latency = 0 ∧ p.timeout.toNat * 10 * 4 = p.intervalMax.toNat * 5 * 2)) := by
  obtain ⟨hr, hs⟩ := (conn_params_accepted_iff p).1 h
  refine ⟨hr, ?_⟩
  unfold SupervisionChecked at hs
  unfold SupervisionOk
  have hi := hr.intervalMin
  have hi2 := hr.intervals
  by_cases hl : p.latency = 0
  · have : p.latency.toNat = 0 := by rw [hl]; rfl
    rw [this] at hs ⊢
    have : p.timeout.toNat * 10 * 4 = p.intervalMax.toNat * 5 * 2 ∨ p.timeout.toNat * 10 * 4 ≠ p.intervalMax.toNat * 5 * 2 := Decidable.em _
    rcases this with h | h
    · exact Or.inr ⟨hl, h⟩
    · left; omega
  · left
    have hl' : 1 ≤ p.latency.toNat := by
      rcases Nat.eq_zero_or_pos p.latency.toNat with h | h
      · exact absurd (UInt16.toNat_inj.1 (by rw [h]; rfl)) hl
      · exact h
    generalize p.latency.toNat = l at *
    generalize p.intervalMax.toNat = i at *
    generalize p.timeout.toNat = t at *
    have h1 : (4 + 5 * l) * i = 4 * ((1 + l) * i) + l * i := by
      rw [← Nat.mul_assoc, ← Nat.add_mul]; congr 1; omega
    have h2 : (1 + l) * (i * 5) * 2 = 10 * ((1 + l) * i) := by
      rw [← Nat.mul_assoc]; omega
    have h3 : 0 < l * i := Nat.mul_pos hl' (by omega)
    rw [h1] at hs; rw [h2]; omega

/-- C35, negative. The boundary case is accepted: interval 50 ms, timeout 100 ms. -/
theorem supervision_boundary_accepted : ∃ p, validateConn p = true ∧ ¬ SupervisionOk p :=
  ⟨{ defaultConn with intervalMin := 40, intervalMax := 40, timeout := 10 }, by decide, by unfold SupervisionOk; decide⟩

/-- C35, negative. Allowed parameters are refused: interval 100 ms, latency 4, timeout 1100 ms (the specification asks for more than 1000 ms, the library for 1200 ms). -/
theorem allowed_conn_params_refused : ∃ p, ConnRanges p ∧ SupervisionOk p ∧ validateConn p = false :=
  ⟨{ defaultConn with intervalMin := 80, intervalMax := 80, latency := 4, timeout := 110 },
    ⟨by decide, by decide, by decide, by decide, by decide, by decide, by decide, by decide, by decide, by decide, by decide, by decide⟩, by unfold SupervisionOk; decide, by decide⟩

/-- C35 (partial). Without latency, allowed parameters are accepted. -/
theorem conn_params_complete_partial (p : Params.Conn) (h : ConnRanges p) (hs : SupervisionOk p) (hl : p.latency = 0) : validateConn p = true := by
  rw [conn_params_accepted_iff]
  refine ⟨h, ?_⟩
  have : p.latency.toNat = 0 := by rw [hl]; rfl
  unfold SupervisionOk at hs
  unfold SupervisionChecked
  rw [this] at hs ⊢
  omega

/-- What the defaults mean, in the units of the standard: active scanning, all the time (window = interval = 2.5 ms), accepting everything; connections with an interval of 7.5 ms, no latency and a supervision timeout of 10.24 s. -/
theorem default_params_meaning :
    defaultScan.scanType = 1 ∧ defaultScan.interval.toNat * 625 = 2500 ∧ defaultScan.window = defaultScan.interval ∧ defaultScan.ownAddrType = 0 ∧ defaultScan.filterPolicy = 0 ∧
    defaultConn.scanInterval.toNat * 625 = 40000 ∧ defaultConn.scanWindow = defaultConn.scanInterval ∧ defaultConn.filterPolicy = 0 ∧ defaultConn.peerAddrType = 0 ∧ defaultConn.ownAddrType = 0 ∧
    defaultConn.intervalMin.toNat * 1250 = 7500 ∧ defaultConn.intervalMax = defaultConn.intervalMin ∧ defaultConn.latency = 0 ∧ defaultConn.timeout.toNat * 10 = 10240 ∧
    defaultConn.ceMin = 0 ∧ defaultConn.ceMax = 0 := by decide

/-- The defaults are accepted. -/
theorem default_params_accepted : validateConn defaultConn = true ∧ validateScan defaultScan = true := by decide

end Ble.Props
