import Verif.Props.HciPkt
set_option autoImplicit false

/-!
# C162: exactly what each received packet does
-/

namespace Ble.PktEff

open Ble.Evt Ble.AdvHist Ble.HciPkt Ble.Props

/-! ## Specification -/

/-- A 16-bit parameter at an offset, if the packet has it. -/
def word (p : Bytes) (i : Nat) : Option Nat := match p[i]?, p[i + 1]? with | some x, some y => some (le16 x y) | _, _ => none

/-- Number Of Completed Packets: entries of four octets, handle and number, behind their count. A handle that is missing counts as 0xFFFF, a number as 0. -/
def credits (env : Env) (p : Bytes) : List Eff :=
  (List.range (p.headD 0).toNat).filterMap fun i =>
    if (env.conns ((word p (1 + 4 * i)).getD 0xffff)).isSome then some (.completed ((word p (1 + 4 * i)).getD 0xffff) ((word p (1 + 4 * i + 2)).getD 0)) else none

/-- LE events, by subevent code. -/
def leActs (env : Env) (p : Bytes) : List Eff :=
  match p with
  | [] => []
  | sub :: q =>
    if sub = 0x01 then
      -- Connection Complete: status, handle, role, address type, address
      match q with
      | st :: lo :: hi :: role :: _ :: addr => if st = 0 then [.connected (le16 lo hi) role ((addr ++ List.replicate 6 0).take 6)] else []
      | _ => []
    else if sub = 0x02 then
      -- Advertising Report: see C33
      if env.handler then match AdvHist.handle env.scan p with | .ok o => (o.sent.map Eff.advertisement).toList | _ => [] else []
    else if sub = 0x30 then
      -- not an LE event of the specification
      match q with
      | lo :: hi :: _ => if (env.conns (le16 lo hi)).isSome then [.encryption (le16 lo hi) true true] else []
      | _ => []
    else []

/-- Events, by code. -/
def evtActs (env : Env) (code : UInt8) (p : Bytes) : List Eff :=
  if code = 0x0e then [.complete (p.headD 0).toNat ((word p 1).getD 0xffff) (p.drop 3)]
  else if code = 0x0f then match p with | st :: n :: lo :: hi :: _ => [.status n.toNat (le16 lo hi) st] | _ => []
  else if code = 0x05 then match p with | _ :: lo :: hi :: reason :: _ => if reason = 0x16 then [] else [.disconnect (le16 lo hi)] | _ => []
  else if code = 0x13 then credits env p
  else if code = 0x08 then
    match p with | st :: lo :: hi :: en :: _ => if (env.conns (le16 lo hi)).isSome then [.encryption (le16 lo hi) (st ≠ 0) (en = 1)] else [] | _ => []
  else if code = 0x3e then leActs env p
  else if code = 0xff then [.vendor]
  else []

/-- Packets, by type. -/
def acts (env : Env) (b : Bytes) : List Eff :=
  match b with
  | [] => []
  | t :: q =>
    if t = 0x02 then
      match q with
      | lo :: hi :: _ => if (env.conns (lo.toNat + 256 * (hi.toNat % 16))).isSome then [.acl (lo.toNat + 256 * (hi.toNat % 16)) q] else []
      | _ => []
    else if t = 0x04 then
      match q with
      | code :: len :: p => if len.toNat = p.length then evtActs env code p else []
      | _ => []
    else []

/-- What the host did: nothing if the packet was refused. -/
def done (r : Go Unit (List Eff × Scan)) : List Eff := match r with | .ok (es, _) => es | _ => []

/-! ## Proof -/

namespace Aux

theorem word_spec (p : Bytes) (i : Nat) : orDefault 0xffff (getUint16 p i) = .ok ((word p i).getD 0xffff) ∧ orDefault 0 (getUint16 p i) = .ok ((word p i).getD 0) := by
  cases h : getUint16 p i with
  | ok n =>
    obtain ⟨x, y, h1, h2, rfl⟩ := (HciAux.getUint16_ok_iff p i n).1 h
    simp [orDefault, word, h1, h2]
  | panic => have := HciAux.getUint16_returns p i (by omega); rw [h] at this; cases this
  | err e =>
    have : word p i = none := by
      unfold word
      split
      · rename_i x y h1 h2
        have := (HciAux.getUint16_ok_iff p i (le16 x y)).2 ⟨x, y, h1, h2, rfl⟩
        rw [this] at h; cases h
      · rfl
    simp [orDefault, this]

theorem first_spec (p : Bytes) : orDefault 0 (getByte p 0) = .ok (p.headD 0) := by
  cases p with
  | nil => rfl
  | cons x t =>
    have : getByte (x :: t) 0 = .ok x := by
      unfold getByte getBytes
      simp
      rw [if_neg (by omega), if_neg (by omega)]
      rfl
    rw [this]; rfl

theorem rest_spec (p : Bytes) : orDefault [] (getBytes p 3 none) = .ok (p.drop 3) := by
  unfold getBytes
  by_cases h : (p.length : Int) ≤ 3
  · rw [if_pos h]
    simp only [orDefault]
    rw [List.drop_eq_nil_of_le (by omega)]
  · rw [if_neg h]
    simp [orDefault]

theorem credits_loop (env : Env) (p : Bytes) (k : Nat) :
    completedLoop env p k = .ok ((List.range k).filterMap fun i =>
      if (env.conns ((word p (1 + 4 * i)).getD 0xffff)).isSome then some (.completed ((word p (1 + 4 * i)).getD 0xffff) ((word p (1 + 4 * i + 2)).getD 0)) else none) := by
  induction k with
  | zero => rfl
  | succ k ih =>
    have e1 : ncpHandle p k = .ok ((word p (1 + 4 * k)).getD 0xffff) := by
      have := (word_spec p (1 + 4 * k)).1
      unfold ncpHandle
      rw [← this]; congr 2; push_cast; omega
    have e2 : ncpPackets p k = .ok ((word p (1 + 4 * k + 2)).getD 0) := by
      have := (word_spec p (1 + 4 * k + 2)).2
      unfold ncpPackets
      rw [← this]; congr 2; push_cast; omega
    rw [List.range_succ, List.filterMap_append]
    simp only [completedLoop, ih, e1, e2, Go.bind_ok]
    cases hc : env.conns ((word p (1 + 4 * k)).getD 0xffff) with
    | none => simp [hc]
    | some b => simp [hc]

theorem le16At_cons (x lo hi : UInt8) (t : Bytes) : le16At (ε := Unit) (x :: lo :: hi :: t) 1 = .ok (le16 lo hi) := rfl

end Aux

open Aux

/-- **C162.** Every packet that does not crash the host (C32) does exactly what the specification above says, whatever connections there are; and it changes the memory of earlier advertisements only if it is an advertising report. -/
theorem packet_does_exactly (env : Env) (b : Bytes) (h : ¬ PacketCrashes env b) :
    done (handlePkt env b) = acts env b ∧ ∀ es sc, handlePkt env b = .ok (es, sc) → (∀ t, b ≠ 0x04 :: 0x3e :: t) → sc = env.scan := by
  rw [← hci_packet_panics_iff] at h
  match b with
  | [] => exact absurd rfl h
  | t :: q =>
    by_cases h2 : t = 0x02
    · subst h2
      match q with
      | [] => exact absurd rfl h
      | [x] => exact absurd rfl h
      | lo :: hi :: r =>
        simp only [handlePkt, handleACL, acts, if_true]
        cases hc : env.conns (lo.toNat + 256 * (hi.toNat % 16)) with
        | none => exact ⟨by simp [done], by rintro es sc ⟨⟩ _; rfl⟩
        | some s => exact ⟨by simp [done], by rintro es sc ⟨⟩ _; rfl⟩
    · by_cases h4 : t = 0x04
      · subst h4
        match q with
        | [] => exact absurd rfl h
        | [x] => exact absurd rfl h
        | code :: len :: p =>
          have e0 : handlePkt env (0x04 :: code :: len :: p) = handleEvt env (code :: len :: p) := rfl
          have e1 : acts env (0x04 :: code :: len :: p) = if len.toNat = p.length then evtActs env code p else [] := rfl
          rw [e0] at h ⊢
          rw [e1]
          by_cases hl : len.toNat = p.length
          · rw [if_pos hl]
            have hk : ∀ r : Go Unit (List Eff), ∀ es sc, keep env r = .ok (es, sc) → sc = env.scan := by
              intro r es sc hr
              cases r <;> cases hr
              rfl
            have hd : ∀ es, done (keep env (.ok es)) = es := fun _ => rfl
            have hde : ∀ x, done (keep env (.err x)) = [] := fun _ => rfl
            unfold handleEvt at h ⊢
            simp only [hl, ne_eq, not_true_eq_false, if_false] at h ⊢
            unfold evtActs
            split
            · refine ⟨?_, fun es sc hr _ => hk _ _ _ hr⟩
              rw [commandComplete, ccNum, ccOpcode, ccParams, first_spec, rest_spec, show (1 : Int) = ((1 : Nat) : Int) from rfl, (word_spec p 1).1]
              rfl
            · rename_i hE
              rw [if_neg hE] at h
              split
              · refine ⟨?_, fun es sc hr _ => hk _ _ _ hr⟩
                unfold commandStatus
                match p with
                | [] => rfl
                | [_] => rfl
                | [_, _] => rfl
                | [_, _, _] => rfl
                | st :: n :: lo :: hi :: _ =>
                  rw [if_neg (by simp)]
                  rfl
              · rename_i hF
                rw [if_neg hF] at h
                by_cases h3e : code = 0x3e
                · subst h3e
                  simp only [show ¬ ((0x3e : UInt8) = 0x05) by decide, show ¬ ((0x3e : UInt8) = 0x13) by decide, show ¬ ((0x3e : UInt8) = 0x08) by decide, if_true, if_false] at h ⊢
                  refine ⟨?_, fun es sc _ hn => absurd rfl (hn _)⟩
                  match p, h with
                  | [], h => exact absurd rfl h
                  | sub :: q, h =>
                    unfold leActs
                    simp only [leMeta] at h ⊢
                    by_cases s2 : sub = 0x02
                    · subst s2
                      simp only [show ¬ ((0x02 : UInt8) = 0x01) by decide, if_true, if_false, advertisingReport] at h ⊢
                      split
                      · split <;> rename_i hh <;> rw [hh] <;> rfl
                      · rfl
                    · by_cases s1 : sub = 0x01
                      · subst s1
                        simp only [show ¬ ((0x01 : UInt8) = 0x02) by decide, if_true, if_false] at h ⊢
                        match q, h with
                        | [], h => exact absurd rfl h
                        | st :: q, h =>
                          by_cases hst : st = 0
                          · subst hst
                            match q, h with
                            | [], h => exact absurd rfl h
                            | [_], h => exact absurd rfl h
                            | [_, _], h => exact absurd rfl h
                            | [_, _, _], h => exact absurd rfl h
                            | lo :: hi :: role :: at' :: addr, h =>
                              rfl
                          · have : connectionComplete (0x01 :: st :: q) = .ok [] := by
                              simp only [connectionComplete]
                              rw [show index (ε := Unit) (0x01 :: st :: q) 1 = .ok st from rfl, Go.bind_ok, if_pos hst]
                              rfl
                            rw [this, hd]
                            split
                            · rename_i hq
                              cases hq
                              rw [if_neg hst]
                            · rfl
                      · simp only [s1, s2, if_false] at h ⊢
                        by_cases s3 : sub = 0x03 ∨ sub = 0x06
                        · rw [if_pos s3]
                          rcases s3 with rfl | rfl <;> rfl
                        · rw [if_neg s3] at h ⊢
                          by_cases s30 : sub = 0x30
                          · subst s30
                            simp only [if_true] at h ⊢
                            match q, h with
                            | [], h => exact absurd rfl h
                            | [_], h => exact absurd rfl h
                            | lo :: hi :: r, h =>
                              simp only [encryptionKeyRefresh, le16At_cons, Go.bind_ok] at h ⊢
                              cases hc : env.conns (le16 lo hi) with
                              | none => simp [keep, done]
                              | some smp =>
                                rw [hc] at h
                                cases smp with
                                | false => exact absurd rfl h
                                | true => rfl
                          · simp only [s30, if_false]
                            rfl
                · simp only [h3e, if_false] at h ⊢
                  split
                  · rename_i h5
                    rw [if_pos h5] at h
                    refine ⟨?_, fun es sc hr _ => hk _ _ _ hr⟩
                    match p, h with
                    | [], h => exact absurd rfl h
                    | [_], h => exact absurd rfl h
                    | [_, _], h => exact absurd rfl h
                    | [_, _, _], h => exact absurd rfl h
                    | _ :: lo :: hi :: reason :: _, h =>
                      simp only [disconnectionComplete, le16At_cons, Go.bind_ok]
                      rw [show ∀ (a b c d : UInt8) (t : Bytes), index (ε := Unit) (a :: b :: c :: d :: t) 3 = .ok d from fun _ _ _ _ _ => rfl, Go.bind_ok]
                      split <;> rfl
                  · rename_i h5
                    rw [if_neg h5] at h
                    split
                    · refine ⟨?_, fun es sc hr _ => hk _ _ _ hr⟩
                      rw [completedPackets, ncpCount, first_spec]
                      rw [Go.bind_ok]
                      show done (keep env (completedLoop env p _)) = _
                      rw [credits_loop]
                      rfl
                    · rename_i h13
                      rw [if_neg h13] at h
                      split
                      · rename_i h8
                        rw [if_pos h8] at h
                        refine ⟨?_, fun es sc hr _ => hk _ _ _ hr⟩
                        have hx : ∀ (a b c d : UInt8) (t : Bytes), index (ε := Unit) (a :: b :: c :: d :: t) 3 = .ok d := fun _ _ _ _ _ => rfl
                        have hx0 : ∀ (a : UInt8) (t : Bytes), index (ε := Unit) (a :: t) 0 = .ok a := fun _ _ => rfl
                        match p, h with
                        | [], h => exact absurd rfl h
                        | [_], h => exact absurd rfl h
                        | [_, _], h => exact absurd rfl h
                        | [st, lo, hi], h =>
                          simp only [encryptionChange, le16At_cons, Go.bind_ok] at h ⊢
                          cases hc : env.conns (le16 lo hi) with
                          | none => rfl
                          | some smp => rw [hc] at h; exact absurd rfl h
                        | st :: lo :: hi :: en :: r, h =>
                          simp only [encryptionChange, le16At_cons, Go.bind_ok, hx, hx0] at h ⊢
                          cases hc : env.conns (le16 lo hi) with
                          | none => rfl
                          | some smp =>
                            rw [hc] at h
                            dsimp only at h ⊢
                            by_cases hst : st = 0
                            · simp [hst, keep, done]
                            · rw [if_pos hst] at h ⊢
                              cases smp with
                              | false => exact absurd rfl h
                              | true => simp [hst, keep, done]
                      · rename_i h8
                        rw [if_neg h8] at h
                        split
                        · exact ⟨rfl, by rintro es sc ⟨⟩ _; rfl⟩
                        · exact ⟨rfl, by rintro es sc ⟨⟩ _⟩
          · rw [if_neg hl]
            unfold handleEvt
            simp only [ne_eq, hl, not_false_eq_true, if_true]
            exact ⟨rfl, by rintro es sc ⟨⟩ _⟩
      · refine ⟨?_, ?_⟩
        · simp [handlePkt, acts, h2, h4, done]
        · intro es sc hr
          simp [handlePkt, h2, h4] at hr

/-- A host with connections 0x40 and 0x41. -/
def exEnv : Env := ⟨fun h => if h = 0x40 ∨ h = 0x41 then some true else none, false, ⟨[], 0⟩⟩

/-- Packets that meet the hypothesis: credits for two connections, the second known; ACL data with flags; a failed encryption; an event of the wrong length. -/
theorem pkteff_example :
    (∀ b ∈ [[0x04, 0x13, 9, 2, 0x50, 0, 3, 0, 0x41, 0, 2, 0], [0x02, 0x40, 0x20, 1, 0, 7], [0x04, 0x08, 4, 6, 0x40, 0, 0], [0x04, 0x05, 5, 0, 0x40, 0, 0x13]], ¬ PacketCrashes exEnv b) ∧
    acts exEnv [0x04, 0x13, 9, 2, 0x50, 0, 3, 0, 0x41, 0, 2, 0] = [.completed 0x41 2] ∧
    acts exEnv [0x02, 0x40, 0x20, 1, 0, 7] = [.acl 0x40 [0x40, 0x20, 1, 0, 7]] ∧
    acts exEnv [0x04, 0x08, 4, 6, 0x40, 0, 0] = [.encryption 0x40 true false] ∧
    acts exEnv [0x04, 0x05, 5, 0, 0x40, 0, 0x13] = [] := by
  refine ⟨?_, rfl, rfl, rfl, rfl⟩
  intro b hb
  rw [← hci_packet_panics_iff]
  intro h
  simp only [List.mem_cons, List.not_mem_nil, or_false] at hb
  rcases hb with rfl | rfl | rfl | rfl <;> cases h

end Ble.PktEff
