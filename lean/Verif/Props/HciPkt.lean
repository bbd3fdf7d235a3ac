import Verif.Hci.HciPkt
import Verif.Hci.ConnsSpec
import Verif.Props.AdvHist
set_option autoImplicit false

/-!
# C32 (HCI packets and events), C51 (events reach the connection they name), C52 (encryption state)
-/

namespace Ble.Props

open Ble.Evt Ble.AdvHist Ble.HciPkt

namespace HciAux

theorem orDefault_returns {α : Type} (d : α) (x : Go Unit α) (h : x.returns = true) : ∃ v, orDefault d x = .ok v := by
  cases x with
  | ok a => exact ⟨a, rfl⟩
  | err e => exact ⟨d, rfl⟩
  | panic => cases h

theorem getUint16_returns (b : Bytes) (i : Int) (h : 0 ≤ i) : (getUint16 b i).returns = true := by
  refine Go.returns_bind (EvtAux.getBytes_returns _ _ _ h) fun a ha => ?_
  obtain ⟨-, h1, h2, rfl⟩ := (EvtAux.getBytes_ok_iff ..).1 ha
  unfold le16At
  rw [index_of_lt (by simp; omega), index_of_lt (by simp; omega)]; rfl

theorem getUint16_ok_iff (b : Bytes) (i : Nat) (n : Nat) : getUint16 b i = .ok n ↔ ∃ x y, b[i]? = some x ∧ b[i + 1]? = some y ∧ n = le16 x y := by
  unfold getUint16
  rw [Go.bind_eq_ok]
  constructor
  · rintro ⟨bb, h, hx⟩
    obtain ⟨h0, h1, h2, rfl⟩ := (EvtAux.getBytes_ok_iff ..).1 h
    have hl : i + 1 < b.length := by omega
    unfold le16At at hx
    rw [index_of_lt (by simp; omega), index_of_lt (by simp; omega)] at hx
    simp at hx
    exact ⟨b[i], b[i + 1], List.getElem?_eq_getElem _, List.getElem?_eq_getElem _, hx.symm⟩
  · rintro ⟨x, y, h1, h2, rfl⟩
    have hl : i + 1 < b.length := by
      rcases Nat.lt_or_ge (i + 1) b.length with h | h
      · exact h
      · rw [List.getElem?_eq_none h] at h2; cases h2
    refine ⟨_, (EvtAux.getBytes_ok_iff ..).2 ⟨by omega, by omega, by omega, rfl⟩, ?_⟩
    unfold le16At
    rw [index_of_lt (by simp; omega), index_of_lt (by simp; omega)]
    rw [List.getElem?_eq_getElem (by omega)] at h1 h2
    simp at h1 h2
    simp [h1, h2]

theorem commandComplete_ok (b : Bytes) : ∃ es, commandComplete b = .ok es := by
  obtain ⟨n, hn⟩ := orDefault_returns (0 : UInt8) _ (EvtAux.getByte_returns b 0 (by omega))
  obtain ⟨oc, hoc⟩ := orDefault_returns (0xffff : Nat) _ (getUint16_returns b 1 (by omega))
  obtain ⟨ps, hps⟩ := orDefault_returns ([] : Bytes) _ (EvtAux.getBytes_returns b 3 none (by omega))
  exact ⟨[.complete n.toNat oc ps], by simp [commandComplete, ccNum, ccOpcode, ccParams, hn, hoc, hps]⟩

theorem completedLoop_ok (env : Env) (b : Bytes) (k : Nat) : ∃ es, completedLoop env b k = .ok es := by
  induction k with
  | zero => exact ⟨[], rfl⟩
  | succ k ih =>
    obtain ⟨es, hes⟩ := ih
    obtain ⟨h, hh⟩ := orDefault_returns (0xffff : Nat) _ (getUint16_returns b (1 + (k : Int) * 4) (by omega))
    obtain ⟨n, hn⟩ := orDefault_returns (0 : Nat) _ (getUint16_returns b (1 + (k : Int) * 4 + 2) (by omega))
    simp only [completedLoop, hes, Go.bind_ok, ncpHandle, hh, ncpPackets]
    cases env.conns h with
    | none => exact ⟨es, rfl⟩
    | some _ => simp only [hn, Go.bind_ok]; exact ⟨_, rfl⟩

theorem completedPackets_ok (env : Env) (b : Bytes) : ∃ es, completedPackets env b = .ok es := by
  obtain ⟨n, hn⟩ := orDefault_returns (0 : UInt8) _ (EvtAux.getByte_returns b 0 (by omega))
  obtain ⟨es, hes⟩ := completedLoop_ok env b n.toNat
  exact ⟨es, by simp [completedPackets, ncpCount, hn, hes]⟩

theorem le16At_panics_iff (b : Bytes) (i : Nat) : le16At (ε := Unit) b i = .panic ↔ b.length < i + 2 := by
  unfold le16At
  rcases Nat.lt_or_ge (i + 1) b.length with h | h
  · rw [index_of_lt (by omega), index_of_lt h]; simp; omega
  · rcases Nat.lt_or_ge i b.length with h' | h'
    · rw [index_of_lt h', index_of_ge h]; simp; omega
    · rw [index_of_ge h']; simp; omega

end HciAux

open HciAux

/-! ## C32 -/

/-- The LE Meta event parameters that crash the host. -/
def LeMetaCrashes (env : Env) (p : Bytes) : Prop :=
  -- no subevent code
  p = [] ∨
  -- LE Connection Complete without status, or successful and shorter than six bytes
  (p[0]? = some 0x01 ∧ (p.length < 2 ∨ (p[1]? = some 0x00 ∧ p.length < 6))) ∨
  -- LE Advertising Report whose data the parser cannot handle (`advertising_panics_iff`), or before `Scan`
  (p[0]? = some 0x02 ∧ env.handler = true ∧ AdvHist.handle env.scan p = .panic) ∨
  -- subevent 0x30, too short or for a connection without security manager
  (p[0]? = some 0x30 ∧ (p.length < 3 ∨ ∃ x y, p[1]? = some x ∧ p[2]? = some y ∧ env.conns (le16 x y) = some false))

/-- The event parameters that crash the host. -/
def EventCrashes (env : Env) (code : UInt8) (p : Bytes) : Prop :=
  -- Disconnection Complete of fewer than four bytes
  (code = 0x05 ∧ p.length < 4) ∨
  -- Encryption Change without handle, or for a known connection: without the enabled byte, or a failure for a connection without security manager
  (code = 0x08 ∧ (p.length < 3 ∨ ∃ x y smp, p[1]? = some x ∧ p[2]? = some y ∧ env.conns (le16 x y) = some smp ∧ (p.length < 4 ∨ (smp = false ∧ p[0]? ≠ some 0x00)))) ∨
  (code = 0x3e ∧ LeMetaCrashes env p)

/-- The packets that crash the host: the exact condition. -/
def PacketCrashes (env : Env) (b : Bytes) : Prop :=
  b = [] ∨
  -- ACL data without handle
  (∃ p, b = 0x02 :: p ∧ p.length < 2) ∨
  -- an event without length byte, or an event with the right length and crashing parameters
  (∃ p, b = 0x04 :: p ∧ (p.length < 2 ∨ ∃ code q, p = code :: UInt8.ofNat q.length :: q ∧ q.length < 256 ∧ EventCrashes env code q))

namespace HciAux

theorem keep_panic (env : Env) (r : Go Unit (List Eff)) : keep env r = .panic ↔ r = .panic := by
  cases r <;> simp [keep]

theorem disconnection_panics (b : Bytes) : disconnectionComplete b = .panic ↔ b.length < 4 := by
  unfold disconnectionComplete
  rw [Go.bind_eq_panic, le16At_panics_iff]
  constructor
  · rintro (h | ⟨ch, -, h⟩)
    · omega
    · rw [Go.bind_eq_panic] at h
      rcases h with h | ⟨r, -, h⟩
      · rcases Nat.lt_or_ge 3 b.length with h3 | h3
        · rw [index_of_lt h3] at h; cases h
        · omega
      · split at h <;> cases h
  · intro h
    rcases Nat.lt_or_ge b.length 3 with h3 | h3
    · left; omega
    · right
      refine ⟨le16 b[1] b[2], ?_, ?_⟩
      · simp [le16At, index_of_lt (b := b) (i := 1) (by omega), index_of_lt (b := b) (i := 2) (by omega)]
      · rw [index_of_ge (by omega)]; rfl

theorem connection_panics (b : Bytes) : connectionComplete b = .panic ↔ b.length < 2 ∨ (b[1]? = some 0x00 ∧ b.length < 6) := by
  unfold connectionComplete
  rcases Nat.lt_or_ge 1 b.length with h1 | h1
  · rw [index_of_lt h1, Go.bind_ok, List.getElem?_eq_getElem h1]
    by_cases hs : b[1] = 0
    · rw [if_neg (by simpa using hs)]
      simp only [hs, true_and]
      rcases Nat.lt_or_ge b.length 6 with h6 | h6
      · simp [sliceFrom, Nat.not_le.2 h6, h6]
      · rw [sliceFrom_of_le h6, Go.bind_ok]
        simp only [le16At, index_of_lt (b := b) (i := 2) (by omega), index_of_lt (b := b) (i := 3) (by omega), index_of_lt (b := b) (i := 4) (by omega), Go.bind_ok]
        have : ¬ (b.length < 2 ∨ b.length < 6) := by omega
        simp [this]
    · rw [if_pos (by simpa using hs)]
      simp [hs]; omega
  · rw [index_of_ge h1]; simp; omega

theorem keyRefresh_panics (env : Env) (b : Bytes) (h0 : b[0]? = some 0x30) :
    encryptionKeyRefresh env b = .panic ↔ b.length < 3 ∨ ∃ x y, b[1]? = some x ∧ b[2]? = some y ∧ env.conns (le16 x y) = some false := by
  unfold encryptionKeyRefresh
  rcases Nat.lt_or_ge b.length 3 with h3 | h3
  · rw [(le16At_panics_iff b 1).2 (by omega)]; simp [h3]
  · rw [List.getElem?_eq_getElem (by omega)] at h0
    injection h0 with h0
    have hl : le16At (ε := Unit) b 1 = .ok (le16 b[1] b[2]) := by
      simp [le16At, index_of_lt (b := b) (i := 1) (by omega), index_of_lt (b := b) (i := 2) (by omega)]
    rw [hl, Go.bind_ok]
    have : (b.length < 3 ∨ ∃ x y, b[1]? = some x ∧ b[2]? = some y ∧ env.conns (le16 x y) = some false) ↔ env.conns (le16 b[1] b[2]) = some false := by
      rw [List.getElem?_eq_getElem (by omega), List.getElem?_eq_getElem (by omega)]
      simp; omega
    rw [this]
    cases env.conns (le16 b[1] b[2]) with
    | none => simp
    | some smp =>
      simp only [index_of_lt (b := b) (i := 0) (by omega), Go.bind_ok, h0]
      cases smp <;> simp

theorem encryption_panics (env : Env) (b : Bytes) : encryptionChange env b = .panic ↔
    b.length < 3 ∨ ∃ x y smp, b[1]? = some x ∧ b[2]? = some y ∧ env.conns (le16 x y) = some smp ∧ (b.length < 4 ∨ (smp = false ∧ b[0]? ≠ some 0x00)) := by
  unfold encryptionChange
  rcases Nat.lt_or_ge b.length 3 with h3 | h3
  · rw [(le16At_panics_iff b 1).2 (by omega)]; simp [h3]
  · have hl : le16At (ε := Unit) b 1 = .ok (le16 b[1] b[2]) := by
      simp [le16At, index_of_lt (b := b) (i := 1) (by omega), index_of_lt (b := b) (i := 2) (by omega)]
    rw [hl, Go.bind_ok]
    have : (b.length < 3 ∨ ∃ x y smp, b[1]? = some x ∧ b[2]? = some y ∧ env.conns (le16 x y) = some smp ∧ (b.length < 4 ∨ (smp = false ∧ b[0]? ≠ some 0x00))) ↔
        ∃ smp, env.conns (le16 b[1] b[2]) = some smp ∧ (b.length < 4 ∨ (smp = false ∧ b[0] ≠ 0x00)) := by
      rw [List.getElem?_eq_getElem (by omega), List.getElem?_eq_getElem (by omega), List.getElem?_eq_getElem (by omega)]
      constructor
      · rintro (h | ⟨x, y, smp, hx, hy, h⟩)
        · omega
        · injection hx with hx; injection hy with hy; subst hx; subst hy
          exact ⟨smp, h.1, by simpa using h.2⟩
      · rintro ⟨smp, h⟩
        exact Or.inr ⟨_, _, smp, rfl, rfl, h.1, by simpa using h.2⟩
    rw [this]
    cases env.conns (le16 b[1] b[2]) with
    | none => simp
    | some smp =>
      simp only [index_of_lt (b := b) (i := 0) (by omega), Go.bind_ok, Option.some.injEq, exists_eq_left']
      rcases Nat.lt_or_ge b.length 4 with h4 | h4
      · rw [index_of_ge (by omega)]; simp [h4]
      · rw [index_of_lt (by omega), Go.bind_ok]
        by_cases hs : b[0] = 0
        · simp [hs]; omega
        · cases smp
          · simp [hs]
          · simp [hs]; omega

end HciAux

/-- C32. The exact condition under which a packet from the controller crashes the host. Every other packet is handled, ignored or reported. -/
theorem hci_packet_panics_iff (env : Env) (b : Bytes) : handlePkt env b = .panic ↔ PacketCrashes env b := by
  unfold PacketCrashes
  match b with
  | [] => simp [handlePkt]
  | t :: p =>
    simp only [handlePkt, List.cons.injEq, reduceCtorEq, false_or]
    by_cases h2 : t = 0x02
    · subst h2
      rw [if_pos rfl]
      have h24 : ¬ ((0x02 : UInt8) = 0x04) := by decide
      simp only [h24, false_and, exists_false, or_false, true_and, exists_eq_left']
      unfold handleACL
      match p with
      | [] => simp
      | [_] => simp
      | x :: y :: r =>
        simp only [List.length_cons]
        constructor
        · intro h; split at h <;> cases h
        · omega
    · rw [if_neg h2]
      by_cases h4 : t = 0x04
      · subst h4
        rw [if_pos rfl]
        simp only [h2, false_and, exists_false, false_or, true_and, exists_eq_left']
        match p with
        | [] => simp [handleEvt]
        | [_] => simp [handleEvt]
        | code :: plen :: q =>
          have hlen : ¬ (code :: plen :: q).length < 2 := by simp
          simp only [hlen, false_or, List.cons.injEq]
          -- parameters of the wrong length
          by_cases hpl : plen.toNat = q.length
          · have hR : (∃ code' q', (code = code' ∧ plen = UInt8.ofNat q'.length ∧ q = q') ∧ q'.length < 256 ∧ EventCrashes env code' q') ↔ EventCrashes env code q := by
              constructor
              · rintro ⟨_, _, ⟨rfl, -, rfl⟩, -, h⟩; exact h
              · intro h
                refine ⟨code, q, ⟨rfl, ?_, rfl⟩, ?_, h⟩
                · rw [← hpl]; simp
                · rw [← hpl]; exact plen.toNat_lt
            rw [hR]
            unfold handleEvt EventCrashes
            simp only [hpl, ne_eq, not_true_eq_false, if_false]
            by_cases c1 : code = 0x0e
            · subst c1; obtain ⟨es, hes⟩ := commandComplete_ok q; simp [hes, keep]
            rw [if_neg c1]
            by_cases c2 : code = 0x0f
            · subst c2
              rw [if_pos rfl, keep_panic]
              have : commandStatus q ≠ .panic := by
                unfold commandStatus
                split
                · simp
                · simp only [le16At, index_of_lt (b := q) (i := 0) (by omega), index_of_lt (b := q) (i := 1) (by omega), index_of_lt (b := q) (i := 2) (by omega), index_of_lt (b := q) (i := 3) (by omega)]
                  simp
              simp [this]
            rw [if_neg c2]
            by_cases c3 : code = 0x3e
            · subst c3
              rw [if_pos rfl]
              have e1 : ¬ ((0x3e : UInt8) = 0x05) := by decide
              have e2 : ¬ ((0x3e : UInt8) = 0x08) := by decide
              simp only [e1, e2, false_and, false_or, true_and]
              unfold leMeta LeMetaCrashes
              match q with
              | [] => simp
              | sub :: q' =>
                simp only [reduceCtorEq, false_or, List.getElem?_cons_zero, Option.some.injEq]
                by_cases s2 : sub = 0x02
                · subst s2
                  rw [if_pos rfl]
                  have e3 : ¬ ((0x02 : UInt8) = 0x01) := by decide
                  have e4 : ¬ ((0x02 : UInt8) = 0x30) := by decide
                  simp only [e3, e4, false_and, false_or, or_false, true_and]
                  unfold advertisingReport
                  cases env.handler
                  · simp
                  · simp only [if_true, true_and]
                    cases AdvHist.handle env.scan (0x02 :: q') <;> simp
                rw [if_neg s2]
                by_cases s1 : sub = 0x01
                · subst s1
                  have e4 : ¬ ((0x01 : UInt8) = 0x30) := by decide
                  rw [if_pos rfl, keep_panic, connection_panics]
                  simp [e4]
                rw [if_neg s1]
                by_cases s3 : sub = 0x03 ∨ sub = 0x06
                · rw [if_pos s3]
                  have e4 : ¬ (sub = 0x30) := by rcases s3 with rfl | rfl <;> decide
                  simp [s1, s2, e4]
                rw [if_neg s3]
                by_cases s30 : sub = 0x30
                · subst s30
                  rw [if_pos rfl, keep_panic, keyRefresh_panics env _ rfl]
                  simp [s1, s2]
                · rw [if_neg s30]; simp [s1, s2, s30]
            rw [if_neg c3]
            by_cases c5 : code = 0x05
            · subst c5
              rw [if_pos rfl, keep_panic, disconnection_panics]
              have e2 : ¬ ((0x05 : UInt8) = 0x08) := by decide
              simp [e2, c3]
            rw [if_neg c5]
            by_cases c13 : code = 0x13
            · subst c13
              obtain ⟨es, hes⟩ := completedPackets_ok env q
              simp [hes, keep]
            rw [if_neg c13]
            by_cases c8 : code = 0x08
            · subst c8
              rw [if_pos rfl, keep_panic, encryption_panics]
              simp [c5, c3]
            · rw [if_neg c8]
              split <;> simp [c5, c8, c3]
          · have h1 : handleEvt env (code :: plen :: q) = .err () := by simp [handleEvt, hpl]
            rw [h1]
            simp only [reduceCtorEq, false_iff]
            rintro ⟨_, q', ⟨-, rfl, rfl⟩, hl, -⟩
            apply hpl
            simp [UInt8.toNat_ofNat']; omega
      · rw [if_neg h4]; simp [h2, h4]

/-- C32. Packets of the sizes the Bluetooth specification prescribes never crash the host when the security manager is on; for advertising reports see `report_before_scan_crashes` and
`advertising_pair_crashes`. -/
theorem hci_spec_sized_packets_safe (env : Env) (hsmp : ∀ h, env.conns h ≠ some false) (code : UInt8) (p : Bytes) (hl : p.length < 256)
    (h05 : code = 0x05 → p.length = 4) (h08 : code = 0x08 → p.length = 4)
    (h3e : code = 0x3e → p ≠ [] ∧ (p[0]? = some 0x01 → p.length = 19) ∧ p[0]? ≠ some 0x30 ∧ (p[0]? = some 0x02 → AdvHist.handle env.scan p ≠ .panic)) :
    handlePkt env (HciSpec.evtPkt code p) ≠ .panic := by
  intro hp
  rw [hci_packet_panics_iff] at hp
  unfold PacketCrashes at hp
  rcases hp with hp | ⟨q, hq, -⟩ | ⟨q, hq, hp⟩
  · cases hp
  · simp [HciSpec.evtPkt] at hq
  · simp only [HciSpec.evtPkt, List.cons.injEq, true_and] at hq
    subst hq
    rcases hp with hp | ⟨code', q', h1, -, hp⟩
    · simp only [List.length_cons] at hp; omega
    · simp only [List.cons.injEq] at h1
      obtain ⟨rfl, -, rfl⟩ := h1
      rcases hp with ⟨hc, hp⟩ | ⟨hc, hp⟩ | ⟨hc, hp⟩
      · have := h05 hc; omega
      · have := h08 hc
        rcases hp with hp | ⟨x, y, smp, -, -, he, hp⟩
        · omega
        · rcases hp with hp | ⟨rfl, -⟩
          · omega
          · exact hsmp _ he
      · obtain ⟨n1, n2, n3, n4⟩ := h3e hc
        rcases hp with hp | ⟨hs, hp⟩ | ⟨hs, -, hp⟩ | ⟨hs, -⟩
        · exact n1 hp
        · have := n2 hs; omega
        · exact n4 hs hp
        · exact n3 hs

/-- C32. Examples of packets that do crash the host: ACL data of two bytes, a truncated Disconnection Complete, a truncated LE Connection Complete. -/
theorem hci_crashes (env : Env) :
    handlePkt env [0x02, 0x40] = .panic ∧
    handlePkt env [0x04, 0x05, 0x03, 0x00, 0x40, 0x00] = .panic ∧
    handlePkt env [0x04, 0x3e, 0x05, 0x01, 0x00, 0x40, 0x00, 0x00] = .panic := by
  refine ⟨rfl, rfl, rfl⟩

/-- C32. A failed encryption of a connection without security manager crashes the host. -/
theorem encryption_failure_crashes (env : Env) (h : Nat) (hh : h < 65536) (hc : env.conns h = some false) (status enabled : UInt8) (hs : status ≠ 0) :
    handlePkt env (HciSpec.encChange status h enabled) = .panic := by
  rw [hci_packet_panics_iff]
  right; right
  refine ⟨_, rfl, Or.inr ⟨0x08, status :: put16 h ++ [enabled], rfl, by simp, ?_⟩⟩
  right; left
  refine ⟨rfl, Or.inr ⟨_, _, false, rfl, rfl, ?_, Or.inr ⟨rfl, ?_⟩⟩⟩
  · rw [le16_put16 h hh]; exact hc
  · simpa using hs

end Ble.Props
