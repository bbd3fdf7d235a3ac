import Verif.Hci.Conns
import Verif.Props.HciPkt
set_option autoImplicit false

/-!
# C51 (events and data reach exactly the connection they name), C52 (encryption state), C53 (life of a connection)
-/

namespace Ble.Props

open Ble.Evt Ble.HciPkt Ble.Conns Ble.HciSpec

namespace ConnsAux

/-- The handle an effect is for. -/
def handleOf : Eff → Option Nat
  | .acl h _ | .completed h _ | .encryption h _ _ | .disconnect h | .connected h _ _ => some h
  | _ => none

theorem keep_ok {env : Env} {r : Go Unit (List Eff)} {es sc} : keep env r = .ok (es, sc) ↔ r = .ok es ∧ sc = env.scan := by
  cases r <;> simp [keep, eq_comm]

theorem le16At_ok_iff (b : Bytes) (i n : Nat) : le16At (ε := Unit) b i = .ok n ↔ Field16 b i n := by
  unfold le16At Field16
  rcases Nat.lt_or_ge (i + 1) b.length with h | h
  · rw [index_of_lt (by omega), index_of_lt h, List.getElem?_eq_getElem h, List.getElem?_eq_getElem (by omega)]
    simp [eq_comm]
  · rw [List.getElem?_eq_none h]
    rcases Nat.lt_or_ge i b.length with h' | h'
    · rw [index_of_lt h', index_of_ge h]; simp
    · rw [index_of_ge h']; simp

theorem index_ok_iff (b : Bytes) (i : Nat) (x : UInt8) : index (ε := Unit) b i = .ok x ↔ b[i]? = some x := by
  rcases Nat.lt_or_ge i b.length with h | h
  · rw [index_of_lt h, List.getElem?_eq_getElem h]; simp
  · rw [index_of_ge h, List.getElem?_eq_none h]; simp

/-- A handled packet is an ACL packet or a well-formed event. -/
theorem handlePkt_ok_form {env : Env} {b : Bytes} {r} (h : handlePkt env b = .ok r) :
    (∃ x y q, b = 0x02 :: x :: y :: q) ∨ ∃ code p, b = evtPkt code p ∧ p.length < 256 := by
  match b with
  | [] => cases h
  | t :: p =>
    simp only [handlePkt] at h
    split at h
    · rename_i ht; subst ht
      match p with
      | x :: y :: q => exact Or.inl ⟨x, y, q, rfl⟩
      | [] => cases h
      | [_] => cases h
    · split at h
      · rename_i ht; subst ht
        match p with
        | code :: plen :: q =>
          right
          unfold handleEvt at h
          simp only at h
          split at h
          · cases h
          · rename_i hpl
            have hpl : plen.toNat = q.length := by simpa using hpl
            refine ⟨code, q, ?_, ?_⟩
            · simp [evtPkt, ← hpl]
            · rw [← hpl]; exact plen.toNat_lt
        | [] => cases h
        | [_] => cases h
      · cases h

/-- The table of events. -/
def body (env : Env) (code : UInt8) (p : Bytes) : Go Unit (List Eff × AdvHist.Scan) :=
  if code = 0x0e then keep env (commandComplete p)
  else if code = 0x0f then keep env (commandStatus p)
  else if code = 0x3e then leMeta env p
  else if code = 0x05 then keep env (disconnectionComplete p)
  else if code = 0x13 then keep env (completedPackets env p)
  else if code = 0x08 then keep env (encryptionChange env p)
  else if code = 0xff then .ok ([.vendor], env.scan)
  else .err ()

theorem handlePkt_evt (env : Env) (code : UInt8) (p : Bytes) (hl : p.length < 256) : handlePkt env (evtPkt code p) = body env code p := by
  have h1 : (UInt8.ofNat p.length).toNat = p.length := by simp [UInt8.toNat_ofNat']; omega
  simp [handlePkt, evtPkt, handleEvt, body, h1]

theorem completedLoop_names {env : Env} {b : Bytes} {k : Nat} {es} (h : completedLoop env b k = .ok es) :
    ∀ e ∈ es, ∃ (hd n : Nat), e = .completed hd n ∧ (hd = 0xffff ∨ ∃ i, i < k ∧ Field16 b (1 + 4 * i) hd) := by
  induction k generalizing es with
  | zero => simp only [completedLoop] at h; cases h; simp
  | succ k ih =>
    simp only [completedLoop, Go.bind_eq_ok] at h
    obtain ⟨l, hl, hd, hhd, h⟩ := h
    have old : ∀ e ∈ l, ∃ (hd n : Nat), e = .completed hd n ∧ (hd = 0xffff ∨ ∃ i, i < k + 1 ∧ Field16 b (1 + 4 * i) hd) := by
      intro e he
      obtain ⟨hd, n, h1, h2⟩ := ih hl e he
      refine ⟨hd, n, h1, h2.imp_right ?_⟩
      rintro ⟨i, hi, hf⟩
      exact ⟨i, by omega, hf⟩
    have hnew : hd = 0xffff ∨ ∃ i, i < k + 1 ∧ Field16 b (1 + 4 * i) hd := by
      unfold ncpHandle at hhd
      have e1 : (1 + (k : Int) * 4) = ((1 + 4 * k : Nat) : Int) := by omega
      rw [e1] at hhd
      cases hg : getUint16 b ((1 + 4 * k : Nat) : Int) with
      | panic => rw [hg] at hhd; cases hhd
      | err _ => rw [hg] at hhd; cases hhd; exact Or.inl rfl
      | ok v =>
        rw [hg] at hhd; cases hhd
        exact Or.inr ⟨k, by omega, (HciAux.getUint16_ok_iff ..).1 hg⟩
    cases hc : env.conns hd with
    | none => rw [hc] at h; cases h; exact old
    | some smp =>
      rw [hc] at h
      simp only [Go.bind_eq_ok] at h
      obtain ⟨n, -, h⟩ := h
      cases h
      intro e he
      rcases List.mem_append.1 he with he | he
      · exact old e he
      · simp only [List.mem_singleton] at he
        exact ⟨hd, n, he, hnew⟩

/-- Which packets have which effects. -/
inductive Cause : Bytes → Eff → Prop
  | acl (x y : UInt8) (r : Bytes) : Cause (0x02 :: x :: y :: r) (.acl (x.toNat + 256 * (y.toNat % 16)) (x :: y :: r))
  | disconnect (p : Bytes) (h : Nat) (r : UInt8) : Field16 p 1 h → p[3]? = some r → r ≠ 0x16 → Cause (evtPkt 0x05 p) (.disconnect h)
  | encryption (p : Bytes) (h : Nat) (x : UInt8) (d : Bool) : Field16 p 1 h → p[3]? = some x → Cause (evtPkt 0x08 p) (.encryption h d (x = 1))
  | subevent30 (r : Bytes) (h : Nat) (d : Bool) : Field16 (0x30 :: r) 1 h → Cause (evtPkt 0x3e (0x30 :: r)) (.encryption h d true)
  | connected (r : Bytes) (h : Nat) (role : UInt8) (a : Bytes) : Field16 (0x01 :: r) 2 h → Cause (evtPkt 0x3e (0x01 :: r)) (.connected h role a)
  | completed (p : Bytes) (h n : Nat) : Names (evtPkt 0x13 p) h → Cause (evtPkt 0x13 p) (.completed h n)
  | other (b : Bytes) (e : Eff) : handleOf e = none → Cause b e

theorem Cause.names {b : Bytes} {e : Eff} (h : Cause b e) : ∀ hd, handleOf e = some hd → Names b hd := by
  intro hd hh
  cases h with
  | acl x y r => cases hh; exact .acl x y r
  | disconnect p h r hf _ _ => cases hh; exact .disconnection p _ hf
  | encryption p h x d hf _ => cases hh; exact .encryption p _ hf
  | subevent30 r h d hf => cases hh; exact .subevent30 r _ hf
  | connected r h role a hf => cases hh; exact .connection r _ hf
  | completed p h n hn => cases hh; exact hn
  | other b e h => rw [h] at hh; cases hh

theorem effects_cause {env : Env} {b : Bytes} {es sc} (h : handlePkt env b = .ok (es, sc)) : ∀ e ∈ es, Cause b e := by
  intro e he
  rcases handlePkt_ok_form h with ⟨x, y, q, rfl⟩ | ⟨code, p, rfl, hl⟩
  · simp only [handlePkt, if_pos, handleACL] at h
    cases hc : env.conns (x.toNat + 256 * (y.toNat % 16)) with
    | none => rw [hc] at h; cases h; cases he
    | some _ =>
      rw [hc] at h; cases h
      simp only [List.mem_singleton] at he
      subst he
      exact .acl x y q
  · rw [handlePkt_evt env code p hl] at h
    unfold body at h
    split at h
    · obtain ⟨h, -⟩ := keep_ok.1 h
      simp only [commandComplete, Go.bind_eq_ok] at h
      obtain ⟨_, -, _, -, _, -, h⟩ := h
      cases h
      simp only [List.mem_singleton] at he; subst he; exact .other _ _ rfl
    split at h
    · obtain ⟨h, -⟩ := keep_ok.1 h
      unfold commandStatus at h
      split at h
      · cases h
      · simp only [Go.bind_eq_ok] at h
        obtain ⟨_, -, _, -, _, -, h⟩ := h
        cases h
        simp only [List.mem_singleton] at he; subst he; exact .other _ _ rfl
    split at h
    · rename_i hcode; subst hcode
      unfold leMeta at h
      match p with
      | [] => cases h
      | sub :: q =>
        simp only at h
        split at h
        · unfold advertisingReport at h
          split at h
          · split at h
            · cases h
              rename_i o _
              cases ho : o.sent with
              | none => rw [ho] at he; cases he
              | some a => rw [ho] at he; simp at he; subst he; exact .other _ _ rfl
            · cases h
            · cases h
          · cases h; cases he
        split at h
        · rename_i hsub; subst hsub
          obtain ⟨h, -⟩ := keep_ok.1 h
          simp only [connectionComplete, Go.bind_eq_ok] at h
          obtain ⟨st, -, h⟩ := h
          split at h
          · cases h; cases he
          · simp only [Go.bind_eq_ok] at h
            obtain ⟨pa, -, ch, hch, role, -, h⟩ := h
            cases h
            simp only [List.mem_singleton] at he; subst he
            exact .connected q _ _ _ ((le16At_ok_iff ..).1 hch)
        split at h
        · cases h; cases he
        split at h
        · rename_i hsub; subst hsub
          obtain ⟨h, -⟩ := keep_ok.1 h
          simp only [encryptionKeyRefresh, Go.bind_eq_ok] at h
          obtain ⟨ch, hch, h⟩ := h
          have hn := fun d => Cause.subevent30 q ch d ((le16At_ok_iff ..).1 hch)
          cases hc : env.conns ch with
          | none => rw [hc] at h; cases h
          | some smp =>
            rw [hc] at h
            simp only [Go.bind_eq_ok] at h
            obtain ⟨st, -, h⟩ := h
            split at h
            · split at h
              · cases h; simp only [List.mem_singleton] at he; subst he; exact hn _
              · cases h
            · cases h; simp only [List.mem_singleton] at he; subst he; exact hn _
        · cases h
    split at h
    · rename_i hcode; subst hcode
      obtain ⟨h, -⟩ := keep_ok.1 h
      simp only [disconnectionComplete, Go.bind_eq_ok] at h
      obtain ⟨ch, hch, r, hr, h⟩ := h
      split at h
      · cases h; cases he
      · rename_i hr16
        cases h; simp only [List.mem_singleton] at he; subst he
        exact .disconnect p _ r ((le16At_ok_iff ..).1 hch) ((index_ok_iff ..).1 hr) hr16
    split at h
    · rename_i hcode; subst hcode
      obtain ⟨h, -⟩ := keep_ok.1 h
      simp only [completedPackets, Go.bind_eq_ok] at h
      obtain ⟨n, hn, h⟩ := h
      obtain ⟨hd', k, rfl, hcase⟩ := completedLoop_names h e he
      refine .completed p _ _ ?_
      rcases hcase with rfl | ⟨i, hi, hf⟩
      · exact .completedMissing p
      · refine .completed p i _ (fun n' hn' => ?_) hf
        have : getByte p 0 = .ok n' := (EvtAux.getByte_ok_iff ..).2 ⟨by omega, hn'⟩
        simp only [ncpCount, this, orDefault, Go.bind_ok] at hn
        cases hn
        exact hi
    split at h
    · rename_i hcode; subst hcode
      obtain ⟨h, -⟩ := keep_ok.1 h
      simp only [encryptionChange, Go.bind_eq_ok] at h
      obtain ⟨ch, hch, h⟩ := h
      cases hc : env.conns ch with
      | none => rw [hc] at h; cases h
      | some smp =>
        rw [hc] at h
        simp only [Go.bind_eq_ok] at h
        obtain ⟨st, -, en, hen, h⟩ := h
        have hn := fun d => Cause.encryption p ch en d ((le16At_ok_iff ..).1 hch) ((index_ok_iff ..).1 hen)
        split at h
        · split at h
          · cases h; simp only [List.mem_singleton] at he; subst he; exact hn _
          · cases h
        · cases h; simp only [List.mem_singleton] at he; subst he; exact hn _
    split at h
    · cases h; simp only [List.mem_singleton] at he; subst he; exact .other _ _ rfl
    · cases h

end ConnsAux

open ConnsAux

/-! ## The invariant -/

/-- Every entry of the table is a connection with that handle whose channels are open; a connection announced as closed has its input closed. -/
structure ConnInv (s : State) : Prop where
  listed : ∀ h i, s.table h = some i → ∃ c, s.conns[i]? = some c ∧ c.handle = h ∧ c.done = false ∧ c.rxClosed = false
  done : ∀ (i : Nat) c, s.conns[i]? = some c → c.done = true → c.rxClosed = true

/-- The states a history from `Init` leads to. -/
def ConnReachable (s : State) : Prop := ∃ smp handler scan es, run (init smp handler scan) es = .ok s

namespace ConnsAux

theorem modify_conns_ne (s : State) (i j : Nat) (f) (h : i ≠ j) : (s.modify i f).conns[j]? = s.conns[j]? := by
  unfold State.modify
  cases hc : s.conns[i]? with
  | none => rfl
  | some c => simp only; exact List.getElem?_set_ne h

theorem modify_conns_self (s : State) (i : Nat) (f) : (s.modify i f).conns[i]? = (s.conns[i]?).map f := by
  unfold State.modify
  cases hc : s.conns[i]? with
  | none => simpa using hc
  | some c =>
    have : i < s.conns.length := (List.getElem?_eq_some_iff.1 hc).1
    simp only [Option.map_some]
    rw [List.getElem?_set_self this]

theorem modify_length (s : State) (i : Nat) (f) : (s.modify i f).conns.length = s.conns.length := by
  unfold State.modify
  split <;> simp

theorem inv_modify {s : State} (hs : ConnInv s) (i : Nat) (f : Conn → Conn)
    (hf : ∀ c, (f c).handle = c.handle ∧ (f c).done = c.done ∧ (f c).rxClosed = c.rxClosed) : ConnInv (s.modify i f) := by
  constructor
  · intro h j hj
    obtain ⟨c, h1, h2, h3, h4⟩ := hs.listed h j hj
    by_cases hij : i = j
    · subst hij
      rw [modify_conns_self, h1]
      exact ⟨f c, rfl, by rw [(hf c).1, h2], by rw [(hf c).2.1, h3], by rw [(hf c).2.2, h4]⟩
    · rw [modify_conns_ne _ _ _ _ hij]; exact ⟨c, h1, h2, h3, h4⟩
  · intro j c hc hd
    by_cases hij : i = j
    · subst hij
      rw [modify_conns_self] at hc
      cases hci : s.conns[i]? with
      | none => rw [hci] at hc; cases hc
      | some c0 =>
        rw [hci] at hc; cases hc
        rw [(hf c0).2.2]; rw [(hf c0).2.1] at hd
        exact hs.done _ _ hci hd
    · rw [modify_conns_ne _ _ _ _ hij] at hc; exact hs.done _ _ hc hd

/-- What `cleanup` does, in a state satisfying the invariant. -/
theorem cleanup_spec {s : State} (hs : ConnInv s) (h : Nat) :
    (s.table h = none ∧ cleanup s h = .ok s) ∨
    ∃ i c, s.table h = some i ∧ s.conns[i]? = some c ∧
      cleanup s h = .ok ({ s with table := fun x => if x = h then none else s.table x }.modify i
        fun c => { c with done := c.done || (s.isOpen || !c.slave), rxClosed := true }) := by
  cases ht : s.table h with
  | none => left; simp [cleanup, ht]
  | some i =>
    right
    obtain ⟨c, h1, h2, h3, h4⟩ := hs.listed h i ht
    refine ⟨i, c, rfl, h1, ?_⟩
    unfold cleanup
    simp only [ht, h1]
    by_cases hb : (!s.isOpen && c.slave) = true
    · rw [if_pos hb, if_neg (by simp [h4])]
      simp only [Bool.and_eq_true, Bool.not_eq_true'] at hb
      unfold State.modify
      simp only [h1, hb.1, hb.2, h3]
      rfl
    · rw [if_neg hb, if_neg (by simp [h3, h4])]
      unfold State.modify
      simp only [h1]
      have : (s.isOpen || !c.slave) = true := by
        cases ho : s.isOpen <;> cases hsl : c.slave <;> simp_all
      simp [this]

theorem inv_cleanup {s s' : State} (hs : ConnInv s) {h : Nat} (hc : cleanup s h = .ok s') : ConnInv s' := by
  rcases cleanup_spec hs h with ⟨-, h1⟩ | ⟨i, c, ht, h1, h2⟩
  · rw [h1] at hc; cases hc; exact hs
  · rw [h2] at hc; cases hc
    constructor
    · intro x j hj
      simp only [State.modify] at hj
      split at hj
      · cases hj
      · rename_i hx
        obtain ⟨d, d1, d2, d3, d4⟩ := hs.listed x j hj
        have hij : i ≠ j := by
          rintro rfl
          obtain ⟨e, e1, e2, -⟩ := hs.listed h i ht
          rw [d1] at e1; cases e1
          exact hx (d2.symm.trans e2)
        rw [modify_conns_ne _ _ _ _ hij]
        exact ⟨d, d1, d2, d3, d4⟩
    · intro j d hd hdone
      by_cases hij : i = j
      · subst hij
        rw [modify_conns_self] at hd
        simp only [h1, Option.map_some, Option.some.injEq] at hd
        subst hd; rfl
      · rw [modify_conns_ne _ _ _ _ hij] at hd
        exact hs.done _ _ hd hdone

theorem effect_ok {s : State} (hs : ConnInv s) (e : Eff) : ∃ s', effect s e = .ok s' ∧ ConnInv s' := by
  have keep : ∀ i f, (∀ c : Conn, (f c).handle = c.handle ∧ (f c).done = c.done ∧ (f c).rxClosed = c.rxClosed) → ConnInv (s.modify i f) := fun i f hf => inv_modify hs i f hf
  cases e with
  | acl h p =>
    cases ht : s.table h with
    | none => exact ⟨s, by simp [effect, ht], hs⟩
    | some i =>
      obtain ⟨c, h1, h2, h3, h4⟩ := hs.listed h i ht
      exact ⟨_, by simp [effect, ht, h1, h4], keep i (fun c => { c with rx := c.rx ++ [p] }) fun _ => ⟨rfl, rfl, rfl⟩⟩
  | completed h n =>
    cases ht : s.table h with
    | none => exact ⟨s, by simp [effect, ht], hs⟩
    | some i => exact ⟨_, by simp only [effect, ht], keep i (fun c => { c with returned := c.returned + n }) fun _ => ⟨rfl, rfl, rfl⟩⟩
  | encryption h d en =>
    cases ht : s.table h with
    | none => exact ⟨s, by simp [effect, ht], hs⟩
    | some i => exact ⟨_, by simp only [effect, ht], keep i (fun c => { c with enc := en }) fun _ => ⟨rfl, rfl, rfl⟩⟩
  | disconnect h =>
    have : ∃ s', cleanup s h = .ok s' := by
      rcases cleanup_spec hs h with ⟨-, h1⟩ | ⟨i, c, -, -, h1⟩ <;> exact ⟨_, h1⟩
    obtain ⟨s', h1⟩ := this
    exact ⟨s', h1, inv_cleanup hs h1⟩
  | connected h role addr =>
    refine ⟨_, rfl, ?_, ?_⟩
    · intro x j hj
      simp only at hj ⊢
      split at hj
      · cases hj
        rename_i hx
        exact ⟨_, List.getElem?_concat_length, hx.symm, rfl, rfl⟩
      · obtain ⟨d, d1, d2⟩ := hs.listed x j hj
        refine ⟨d, ?_, d2⟩
        rw [List.getElem?_append_left (List.getElem?_eq_some_iff.1 d1).1]; exact d1
    · intro j c hc hd
      simp only at hc
      rcases Nat.lt_or_ge j s.conns.length with hj | hj
      · rw [List.getElem?_append_left hj] at hc; exact hs.done _ _ hc hd
      · rw [List.getElem?_append_right hj] at hc
        cases hk : j - s.conns.length with
        | zero => rw [hk] at hc; simp at hc; subst hc; cases hd
        | succ k => rw [hk] at hc; simp at hc
  | complete _ _ _ => exact ⟨s, rfl, hs⟩
  | status _ _ _ => exact ⟨s, rfl, hs⟩
  | vendor => exact ⟨s, rfl, hs⟩
  | advertisement _ => exact ⟨s, rfl, hs⟩

theorem effects_ok {s : State} (hs : ConnInv s) (es : List Eff) : ∃ s', effects s es = .ok s' ∧ ConnInv s' := by
  induction es generalizing s with
  | nil => exact ⟨s, rfl, hs⟩
  | cons e es ih =>
    obtain ⟨s1, h1, hs1⟩ := effect_ok hs e
    obtain ⟨s2, h2, hs2⟩ := ih hs1
    exact ⟨s2, by simp [effects, h1, h2], hs2⟩

theorem scan_inv {s : State} (hs : ConnInv s) (scan) : ConnInv { s with scan := scan } := ⟨hs.listed, hs.done⟩

theorem step_inv {s s' : State} (hs : ConnInv s) {e : Ev} (h : step s e = .ok s') : ConnInv s' := by
  cases e with
  | packet b =>
    simp only [step, Conns.packet] at h
    split at h
    · obtain ⟨s2, h2, hs2⟩ := effects_ok (scan_inv hs _) _
      rw [h2] at h; cases h; exact hs2
    · cases h; exact hs
    · cases h
  | close i =>
    simp only [step] at h
    split at h
    · cases h; exact hs
    · exact inv_cleanup hs h
  | readerFailed i =>
    simp only [step] at h
    split at h
    · cases h; exact hs
    · exact inv_cleanup hs h
  | hciClose => simp only [step] at h; cases h; exact ⟨hs.listed, hs.done⟩
  | cleanupHandle x => exact inv_cleanup hs h

theorem run_inv {s s' : State} (hs : ConnInv s) {es : List Ev} (h : run s es = .ok s') : ConnInv s' := by
  induction es generalizing s with
  | nil => cases h; exact hs
  | cons e es ih =>
    simp only [run, Go.bind_eq_ok] at h
    obtain ⟨s1, h1, h2⟩ := h
    exact ih (step_inv hs h1) h2

theorem reachable_inv {s : State} (h : ConnReachable s) : ConnInv s := by
  obtain ⟨smp, hd, sc, es, h⟩ := h
  refine run_inv ⟨?_, ?_⟩ h
  · intro h i hh; cases hh
  · intro i c hc; simp [init] at hc

theorem modify_open (s : State) (i : Nat) (f) : (s.modify i f).isOpen = s.isOpen := rfl

theorem cleanup_open {s s' : State} {h : Nat} (hc : cleanup s h = .ok s') : s'.isOpen = s.isOpen := by
  unfold cleanup at hc
  repeat' split at hc
  all_goals first | (cases hc; rfl) | cases hc

theorem effect_open {s s' : State} {e : Eff} (he : effect s e = .ok s') : s'.isOpen = s.isOpen := by
  cases e <;> simp only [effect] at he <;> (repeat' split at he) <;> first | exact cleanup_open he | (cases he; rfl) | cases he

theorem effects_open {es : List Eff} {s s' : State} (he : effects s es = .ok s') : s'.isOpen = s.isOpen := by
  induction es generalizing s with
  | nil => cases he; rfl
  | cons e es ih =>
    simp only [effects, Go.bind_eq_ok] at he
    obtain ⟨s1, h1, h2⟩ := he
    rw [ih h2, effect_open h1]

theorem run_open {es : List Ev} {s s' : State} (h : run s es = .ok s') : s'.isOpen = true ↔ s.isOpen = true ∧ Ev.hciClose ∉ es := by
  induction es generalizing s with
  | nil => cases h; simp
  | cons e es ih =>
    simp only [run, Go.bind_eq_ok] at h
    obtain ⟨s1, h1, h2⟩ := h
    have hn : e ≠ .hciClose → s1.isOpen = s.isOpen := by
      intro he
      cases e with
      | packet b =>
        simp only [step, Conns.packet] at h1
        split at h1
        · rw [effects_open h1]
        · cases h1; rfl
        · cases h1
      | close i =>
        simp only [step] at h1
        split at h1
        · cases h1; rfl
        · exact cleanup_open h1
      | readerFailed i =>
        simp only [step] at h1
        split at h1
        · cases h1; rfl
        · exact cleanup_open h1
      | hciClose => exact absurd rfl he
      | cleanupHandle x => exact cleanup_open h1
    rw [ih h2]
    by_cases he : e = .hciClose
    · subst he
      simp only [step] at h1
      cases h1
      simp
    · rw [hn he]
      simp [Ne.symm he]

end ConnsAux

open ConnsAux in
/-- The HCI is open exactly until `Close` is called: no packet and no failure closes it as the connections see it. -/
theorem open_until_closed (smp handler : Bool) (scan : AdvHist.Scan) (es : List Ev) (s : State) (h : run (init smp handler scan) es = .ok s) : s.isOpen = true ↔ Ev.hciClose ∉ es := by
  rw [run_open h]
  simp [init]


namespace ConnsAux

/-- A step that touches only the handles in `H`, from the point of view of the connections existing before it. -/
structure Local (H : Nat → Prop) (s s' : State) : Prop where
  table : ∀ h, ¬ H h → s'.table h = s.table h
  conns : ∀ i, i < s.conns.length → (∀ h, s.table h = some i → ¬ H h) → s'.conns[i]? = s.conns[i]?
  back : ∀ h i, i < s.conns.length → s'.table h = some i → s.table h = some i
  length : s.conns.length ≤ s'.conns.length

theorem Local.refl (H) (s : State) : Local H s s := ⟨fun _ _ => rfl, fun _ _ _ => rfl, fun _ _ _ h => h, Nat.le_refl _⟩

theorem Local.trans {H} {s s1 s2 : State} (a : Local H s s1) (b : Local H s1 s2) : Local H s s2 := by
  refine ⟨?_, ?_, ?_, Nat.le_trans a.length b.length⟩
  · intro h hh; rw [b.table h hh, a.table h hh]
  · intro i hi hh
    rw [b.conns i (Nat.lt_of_lt_of_le hi a.length) (fun h ht => hh h (a.back h i hi ht)), a.conns i hi hh]
  · intro h i hi ht
    exact a.back h i hi (b.back h i (Nat.lt_of_lt_of_le hi a.length) ht)

theorem Local.mono {H H' : Nat → Prop} {s s' : State} (a : Local H s s') (h : ∀ x, H x → H' x) : Local H' s s' :=
  ⟨fun x hx => a.table x fun y => hx (h x y), fun i hi hh => a.conns i hi fun x hx y => hh x hx (h x y), a.back, a.length⟩

theorem local_modify {s : State} {h i : Nat} (ht : s.table h = some i) (f : Conn → Conn) : Local (· = h) s (s.modify i f) := by
  refine ⟨fun _ _ => rfl, ?_, fun _ _ _ h => h, Nat.le_of_eq (modify_length ..).symm⟩
  intro j hj hh
  refine modify_conns_ne _ _ _ _ ?_
  rintro rfl
  exact hh h ht rfl

theorem local_cleanup {s s' : State} (hs : ConnInv s) {h : Nat} (hc : cleanup s h = .ok s') : Local (· = h) s s' := by
  rcases cleanup_spec hs h with ⟨-, h1⟩ | ⟨i, c, ht, h1, h2⟩
  · rw [h1] at hc; cases hc; exact .refl _ _
  · rw [h2] at hc; cases hc
    refine ⟨?_, ?_, ?_, Nat.le_of_eq (modify_length ..).symm⟩
    · intro x hx; simp [State.modify, hx]
    · intro j hj hh
      refine modify_conns_ne _ _ _ _ ?_
      rintro rfl
      exact hh h ht rfl
    · intro x j hj hx
      simp only [State.modify] at hx
      split at hx
      · cases hx
      · exact hx

theorem local_effect {s s' : State} (hs : ConnInv s) {e : Eff} (he : effect s e = .ok s') : Local (fun h => handleOf e = some h) s s' := by
  have hm : ∀ h (f : Conn → Conn), handleOf e = some h → (∀ i, s.table h = some i → s' = s.modify i f) → (s.table h = none → s' = s) → Local (fun h => handleOf e = some h) s s' := by
    intro h f hh h1 h2
    cases ht : s.table h with
    | none => rw [h2 ht]; exact .refl _ _
    | some i => rw [h1 i ht]; exact (local_modify ht f).mono fun x hx => by rw [hx]; exact hh
  cases e with
  | acl h p =>
    refine hm h (fun c => { c with rx := c.rx ++ [p] }) rfl ?_ ?_
    · intro i ht
      obtain ⟨c, h1, -, -, h4⟩ := hs.listed h i ht
      simp [effect, ht, h1, h4] at he; exact he.symm
    · intro ht; simp [effect, ht] at he; exact he.symm
  | completed h n =>
    refine hm h (fun c => { c with returned := c.returned + n }) rfl ?_ ?_ <;> intros <;> simp_all [effect]
  | encryption h d en =>
    refine hm h (fun c => { c with enc := en }) rfl ?_ ?_ <;> intros <;> simp_all [effect]
  | disconnect h =>
    exact (local_cleanup hs he).mono fun x hx => by rw [hx]; rfl
  | connected h role addr =>
    simp only [effect] at he
    cases he
    refine ⟨?_, ?_, ?_, by simp⟩
    · intro x hx
      have : x ≠ h := fun e => hx (by rw [e]; rfl)
      simp [this]
    · intro i hi _; exact List.getElem?_append_left hi
    · intro x i hi hx
      simp only at hx
      split at hx
      · cases hx; omega
      · exact hx
  | complete _ _ _ => cases he; exact .refl _ _
  | status _ _ _ => cases he; exact .refl _ _
  | vendor => cases he; exact .refl _ _
  | advertisement _ => cases he; exact .refl _ _

theorem local_effects {s s' : State} (hs : ConnInv s) {es : List Eff} (he : effects s es = .ok s') : Local (fun h => ∃ e ∈ es, handleOf e = some h) s s' := by
  induction es generalizing s with
  | nil => cases he; exact .refl _ _
  | cons e es ih =>
    simp only [effects, Go.bind_eq_ok] at he
    obtain ⟨s1, h1, h2⟩ := he
    obtain ⟨s1', h1', hs1⟩ := effect_ok hs e
    rw [h1] at h1'; cases h1'
    refine ((local_effect hs h1).mono ?_).trans ((ih hs1 h2).mono ?_)
    · intro x hx; exact ⟨e, by simp, hx⟩
    · rintro x ⟨e', he', hx⟩; exact ⟨e', by simp [he'], hx⟩

/-- The handles a step may touch. -/
def Touches (s : State) : Ev → Nat → Prop
  | .packet b, h => Names b h
  | .close i, h | .readerFailed i, h => ∃ c, s.conns[i]? = some c ∧ c.handle = h
  | .hciClose, _ => False
  | .cleanupHandle h', h => h = h'

theorem local_packet {s s' : State} (hs : ConnInv s) {b : Bytes} (h : Conns.packet s b = .ok s') : Local (Names b) s s' := by
  unfold Conns.packet at h
  split at h
  · rename_i es sc hp
    have hl := local_effects (scan_inv hs sc) h
    have hl : Local (fun h => ∃ e ∈ es, handleOf e = some h) s s' := ⟨hl.table, hl.conns, hl.back, hl.length⟩
    refine hl.mono ?_
    rintro x ⟨e, he, hx⟩
    exact (effects_cause hp e he).names x hx
  · cases h; exact .refl _ _
  · cases h

theorem local_step {s s' : State} (hs : ConnInv s) {e : Ev} (h : step s e = .ok s') : Local (Touches s e) s s' := by
  cases e with
  | packet b => exact local_packet hs h
  | close i =>
    simp only [step] at h
    split at h
    · cases h; exact .refl _ _
    · rename_i c hc
      exact (local_cleanup hs h).mono fun x hx => ⟨c, hc, hx.symm⟩
  | readerFailed i =>
    simp only [step] at h
    split at h
    · cases h; exact .refl _ _
    · rename_i c hc
      exact (local_cleanup hs h).mono fun x hx => ⟨c, hc, hx.symm⟩
  | hciClose => simp only [step] at h; cases h; exact ⟨fun _ _ => rfl, fun _ _ _ => rfl, fun _ _ _ h => h, Nat.le_refl _⟩
  | cleanupHandle x => exact local_cleanup hs h

end ConnsAux

/-! ## C51 -/

/-- C51. A packet from the controller leaves every handle it does not name alone: the table entry, and everything about the connection listed there. Connections no longer listed under any
handle are not changed by any packet. -/
theorem packet_touches_named_only (s s' : State) (hs : ConnReachable s) (b : Bytes) (hb : Conns.packet s b = .ok s') :
    (∀ h, ¬ Names b h → s'.table h = s.table h ∧ ∀ i, s.table h = some i → s'.conns[i]? = s.conns[i]?) ∧
    (∀ i, i < s.conns.length → (∀ h, s.table h ≠ some i) → s'.conns[i]? = s.conns[i]?) := by
  have hi := reachable_inv hs
  have hl := local_packet hi hb
  refine ⟨fun h hh => ⟨hl.table h hh, fun i ht => ?_⟩, fun i hlt hh => hl.conns i hlt fun h ht => absurd ht (hh h)⟩
  obtain ⟨c, h1, h2, -⟩ := hi.listed h i ht
  refine hl.conns i (List.getElem?_eq_some_iff.1 h1).1 fun h' ht' => ?_
  obtain ⟨c', h1', h2', -⟩ := hi.listed h' i ht'
  rw [h1] at h1'; cases h1'
  rw [← h2', h2]; exact hh

/-- C51. ACL data reaches the connection with the handle it carries, unchanged and in order; data for a handle without connection is dropped. -/
theorem acl_reaches_connection (s : State) (hs : ConnReachable s) (h flags : Nat) (hh : h < 4096) (hf : flags < 16) (rest : Bytes) :
    (s.table h = none → Conns.packet s (aclPkt h flags rest) = .ok s) ∧
    (∀ i, s.table h = some i → ∃ c, s.conns[i]? = some c ∧
      Conns.packet s (aclPkt h flags rest) = .ok { s with conns := s.conns.set i { c with rx := c.rx ++ [(aclPkt h flags rest).drop 1] } }) := by
  have hi := reachable_inv hs
  have e1 : (UInt8.ofNat h).toNat + 256 * ((UInt8.ofNat (h / 256 + 16 * flags)).toNat % 16) = h := by
    simp only [UInt8.toNat_ofNat']; omega
  have hp : ∀ env : Env, handlePkt env (aclPkt h flags rest) = match env.conns h with
      | some _ => .ok ([.acl h ((aclPkt h flags rest).drop 1)], env.scan)
      | none => .ok ([], env.scan) := by
    intro env
    simp only [handlePkt, aclPkt, if_pos, handleACL, e1, List.drop_succ_cons, List.drop_zero]
    rfl
  constructor
  · intro ht
    have : s.env.conns h = none := by simp [State.env, ht]
    simp only [Conns.packet, hp, this, effects]
    rfl
  · intro i ht
    obtain ⟨c, h1, h2, h3, h4⟩ := hi.listed h i ht
    refine ⟨c, h1, ?_⟩
    have : s.env.conns h = some c.smp := by simp [State.env, ht, h1]
    simp only [Conns.packet, hp, this, effects, effect, ht, h1, h4]
    simp [State.modify, h1, State.env, h4]

namespace ConnsAux

theorem field_put16 (h : Nat) (hh : h < 65536) (x : UInt8) (r : Bytes) : le16At (ε := Unit) (x :: (put16 h ++ r)) 1 = .ok h := by
  have := le16_put16 h hh
  simp [le16At, put16, le16] at this ⊢
  exact this

theorem put16_len1 (x : UInt8) (h : Nat) (y : UInt8) : (x :: (put16 h ++ [y])).length < 256 := by simp

end ConnsAux

/-- C51. A Disconnection Complete event closes the connection it names (`Disconnected()` fires) and removes it from the table, unless the reason is "terminated by local host", which `Close`
has dealt with already. The status of the event is not looked at. -/
theorem disconnect_reaches_connection (s : State) (hs : ConnReachable s) (status reason : UInt8) (h : Nat) (hh : h < 65536) :
    (reason = 0x16 ∨ s.table h = none → Conns.packet s (disconnection status h reason) = .ok s) ∧
    (reason ≠ 0x16 → ∀ i, s.table h = some i → ∃ c s', s.conns[i]? = some c ∧ Conns.packet s (disconnection status h reason) = .ok s' ∧
      s'.table h = none ∧ ∃ c', s'.conns[i]? = some c' ∧ c'.rxClosed = true ∧ (s.isOpen = true ∨ c.slave = false → c'.done = true)) := by
  have hi := reachable_inv hs
  have hp : handlePkt s.env (disconnection status h reason) = if reason = 0x16 then .ok ([], s.scan) else .ok ([.disconnect h], s.scan) := by
    unfold disconnection
    have hl : (status :: put16 h ++ [reason]).length < 256 := put16_len1 ..
    rw [handlePkt_evt _ _ _ hl]
    rw [show body s.env 0x05 (status :: put16 h ++ [reason]) = keep s.env (disconnectionComplete (status :: put16 h ++ [reason])) from rfl]
    simp only [disconnectionComplete, List.cons_append, field_put16 h hh]
    have : index (ε := Unit) (status :: (put16 h ++ [reason])) 3 = .ok reason := rfl
    simp only [Go.bind_ok, this]
    split <;> rfl
  constructor
  · intro hc
    unfold Conns.packet
    rw [hp]
    by_cases hr : reason = 0x16
    · simp [hr, effects]
    · rw [if_neg hr]
      have ht := hc.resolve_left hr
      simp [effects, effect, cleanup, ht]
  · intro hr i ht
    unfold Conns.packet
    rw [hp, if_neg hr]
    simp only [effects, effect]
    rcases cleanup_spec (scan_inv hi s.scan) h with ⟨h0, -⟩ | ⟨j, c, hj, h1, h2⟩
    · rw [show s.table h = none from h0] at ht; cases ht
    · rw [show s.table h = some j from hj] at ht; cases ht
      refine ⟨c, _, h1, by rw [h2]; rfl, by simp [State.modify], ?_⟩
      refine ⟨{ c with done := c.done || (s.isOpen || !c.slave), rxClosed := true }, by rw [modify_conns_self]; simp only [h1, Option.map_some], rfl, ?_⟩
      intro ho
      rcases ho with ho | ho <;> simp [ho]

/-- C51, C52. An Encryption Change event sets the encryption state of the connection it names; a failure is only handled when the security manager is on (`encryption_failure_crashes`). -/
theorem encryption_reaches_connection (s : State) (hs : ConnReachable s) (status enabled : UInt8) (h : Nat) (hh : h < 65536) :
    (s.table h = none → Conns.packet s (encChange status h enabled) = .ok s) ∧
    (∀ i c, s.table h = some i → s.conns[i]? = some c → status = 0 ∨ c.smp = true →
      Conns.packet s (encChange status h enabled) = .ok { s with conns := s.conns.set i { c with enc := enabled = 1 } }) := by
  have hi := reachable_inv hs
  have hp : ∀ env : Env, handlePkt env (encChange status h enabled) = keep env (match env.conns h with
      | none => .err ()
      | some smp => if status ≠ 0 then if smp then .ok [.encryption h true (enabled = 1)] else .panic else .ok [.encryption h false (enabled = 1)]) := by
    intro env
    unfold encChange
    have hl : (status :: put16 h ++ [enabled]).length < 256 := put16_len1 ..
    rw [handlePkt_evt _ _ _ hl]
    rw [show body env 0x08 (status :: put16 h ++ [enabled]) = keep env (encryptionChange env (status :: put16 h ++ [enabled])) from rfl]
    simp only [encryptionChange, List.cons_append, field_put16 h hh]
    have : index (ε := Unit) (status :: (put16 h ++ [enabled])) 3 = .ok enabled := rfl
    have h0 : index (ε := Unit) (status :: (put16 h ++ [enabled])) 0 = .ok status := rfl
    simp only [Go.bind_ok, this, h0]
    rfl
  constructor
  · intro ht
    have : s.env.conns h = none := by simp [State.env, ht]
    simp only [Conns.packet, hp, this, keep]
  · intro i c ht h1 hok
    have : s.env.conns h = some c.smp := by simp [State.env, ht, h1]
    simp only [Conns.packet, hp, this]
    by_cases h0 : status = 0
    · simp [h0, keep, effects, effect, ht, State.modify, h1, State.env]
    · have hsmp := hok.resolve_left h0
      simp [h0, hsmp, keep, effects, effect, ht, State.modify, h1, State.env]


/-- C51. A successful LE Connection Complete event creates a connection with the given handle and role and lists it, whatever the host did before. A failed one changes nothing. -/
theorem connection_event_creates (s : State) (status role addrType : UInt8) (h : Nat) (hh : h < 65536) (addr rest : Bytes) (hl : addr.length + rest.length < 240) :
    Conns.packet s (leConnection status h role addrType addr rest) =
      if status ≠ 0 then .ok s
      else .ok { s with
        conns := s.conns ++ [{ handle := h, slave := role ≠ 0, smp := s.smpEnabled }]
        table := fun x => if x = h then some s.conns.length else s.table x } := by
  have hl' : ([0x01, status] ++ put16 h ++ [role, addrType] ++ addr ++ rest).length < 256 := by simp; omega
  have hp : handlePkt s.env (leConnection status h role addrType addr rest) = keep s.env (connectionComplete ([0x01, status] ++ put16 h ++ [role, addrType] ++ addr ++ rest)) := by
    unfold leConnection
    rw [handlePkt_evt _ _ _ hl']
    rfl
  unfold Conns.packet
  rw [hp]
  have hc : connectionComplete ([0x01, status] ++ put16 h ++ [role, addrType] ++ addr ++ rest) =
      if status ≠ 0 then .ok [] else .ok [.connected h role ((addr ++ rest ++ List.replicate 6 0).take 6)] := by
    have hch : le16At (ε := Unit) ([0x01, status] ++ put16 h ++ [role, addrType] ++ addr ++ rest) 2 = .ok h := by
      have := le16_put16 h hh
      simp only [le16At, put16, List.cons_append, List.nil_append, List.append_assoc] at this ⊢
      exact congrArg _ this
    unfold connectionComplete
    rw [hch]
    simp [put16, sliceFrom]
  rw [hc]
  by_cases h0 : status = 0
  · simp [h0, keep, effects, effect, State.env]
  · simp [h0, keep, effects, State.env]

namespace ConnsAux

theorem entries_length (l : List (Nat × Nat)) : (l.flatMap fun e => put16 e.1 ++ put16 e.2).length = 4 * l.length := by
  induction l with
  | nil => rfl
  | cons a t ih => rw [List.flatMap_cons, List.length_append, ih]; simp; omega

theorem ncpHandle_entry (pre post : List (Nat × Nat)) (e : Nat × Nat) (n : UInt8) (h : e.1 < 65536) :
    ncpHandle (n :: (pre ++ e :: post).flatMap fun e => put16 e.1 ++ put16 e.2) (pre.length : Int) = .ok e.1 := by
  unfold ncpHandle
  have e1 : (1 + (pre.length : Int) * 4) = ((1 + 4 * pre.length : Nat) : Int) := by omega
  rw [e1]
  have hlen : (pre.flatMap fun e => put16 e.1 ++ put16 e.2).length = 4 * pre.length := by
    exact entries_length pre
  have : getUint16 (n :: (pre ++ e :: post).flatMap fun e => put16 e.1 ++ put16 e.2) ((1 + 4 * pre.length : Nat) : Int) = .ok e.1 := by
    rw [HciAux.getUint16_ok_iff]
    refine ⟨UInt8.ofNat e.1, UInt8.ofNat (e.1 / 256), ?_, ?_, ?_⟩
    · rw [Nat.add_comm, List.getElem?_cons_succ, List.flatMap_append, List.getElem?_append_right (by omega), hlen, Nat.sub_self]
      rfl
    · rw [show 1 + 4 * pre.length + 1 = (4 * pre.length + 1) + 1 by omega, List.getElem?_cons_succ, List.flatMap_append, List.getElem?_append_right (by omega), hlen, Nat.add_sub_cancel_left]
      rfl
    · exact (le16_put16 e.1 h).symm
  rw [this]; rfl

theorem ncpPackets_entry (pre post : List (Nat × Nat)) (e : Nat × Nat) (n : UInt8) (h : e.2 < 65536) :
    ncpPackets (n :: (pre ++ e :: post).flatMap fun e => put16 e.1 ++ put16 e.2) (pre.length : Int) = .ok e.2 := by
  unfold ncpPackets
  have e1 : (1 + (pre.length : Int) * 4 + 2) = ((4 * pre.length + 3 : Nat) : Int) := by omega
  rw [e1]
  have hlen : (pre.flatMap fun e => put16 e.1 ++ put16 e.2).length = 4 * pre.length := by
    exact entries_length pre
  have : getUint16 (n :: (pre ++ e :: post).flatMap fun e => put16 e.1 ++ put16 e.2) ((4 * pre.length + 3 : Nat) : Int) = .ok e.2 := by
    rw [HciAux.getUint16_ok_iff]
    refine ⟨UInt8.ofNat e.2, UInt8.ofNat (e.2 / 256), ?_, ?_, ?_⟩
    · rw [show 4 * pre.length + 3 = (4 * pre.length + 2) + 1 by omega, List.getElem?_cons_succ, List.flatMap_append, List.getElem?_append_right (by omega), hlen, Nat.add_sub_cancel_left]
      rfl
    · rw [show 4 * pre.length + 3 + 1 = (4 * pre.length + 3) + 1 by omega, List.getElem?_cons_succ, List.flatMap_append, List.getElem?_append_right (by omega), hlen, Nat.add_sub_cancel_left]
      rfl
    · exact (le16_put16 e.2 h).symm
  rw [this]; rfl

theorem completedLoop_eq (env : Env) (n : UInt8) (l : List (Nat × Nat)) (hl : ∀ e ∈ l, e.1 < 65536 ∧ e.2 < 65536) (k : Nat) (hk : k ≤ l.length) :
    completedLoop env (n :: l.flatMap fun e => put16 e.1 ++ put16 e.2) k =
      .ok ((l.take k).filterMap fun e => (env.conns e.1).map fun _ => Eff.completed e.1 e.2) := by
  induction k with
  | zero => rfl
  | succ k ih =>
    have hk' : k < l.length := by omega
    have hsplit : l = l.take k ++ l[k] :: l.drop (k + 1) := by
      rw [← List.drop_eq_getElem_cons hk', List.take_append_drop]
    have hlen : (l.take k).length = k := by simp; omega
    have hm := hl l[k] (List.getElem_mem hk')
    have h1 := ncpHandle_entry (l.take k) (l.drop (k + 1)) l[k] n hm.1
    have h2 := ncpPackets_entry (l.take k) (l.drop (k + 1)) l[k] n hm.2
    rw [← hsplit, hlen] at h1 h2
    simp only [completedLoop, ih (by omega), Go.bind_ok, h1]
    rw [List.take_succ_eq_append_getElem hk', List.filterMap_append]
    cases hc : env.conns l[k].1 with
    | none => simp [hc]
    | some _ => simp [hc, h2]

/-- Buffers returned to connection `i` by the effects. -/
theorem effects_completed (s s' : State) (l : List (Nat × Nat)) (i h : Nat) (ht : s.table h = some i) (hinj : ∀ h', s.table h' = some i → h' = h) (c : Conn) (hc : s.conns[i]? = some c)
    (env : Env) (henv : ∀ e ∈ l, (s.table e.1).isSome → (env.conns e.1).isSome)
    (he : effects s (l.filterMap fun e => (env.conns e.1).map fun _ => Eff.completed e.1 e.2) = .ok s') :
    s'.table = s.table ∧ s'.conns[i]? = some { c with returned := c.returned + ((l.filter (·.1 = h)).map (·.2)).sum } := by
  induction l generalizing s c with
  | nil => cases he; exact ⟨rfl, by simpa using hc⟩
  | cons e l ih =>
    have henv' : ∀ e ∈ l, (s.table e.1).isSome → (env.conns e.1).isSome := fun e he => henv e (by simp [he])
    cases hx : env.conns e.1 with
    | none =>
      rw [List.filterMap_cons_none (by simp [hx])] at he
      have := ih s ht hinj c hc henv' he
      have hne : e.1 ≠ h := by
        intro heq
        have := henv e (by simp) (by rw [heq, ht]; rfl)
        rw [hx] at this; cases this
      rw [List.filter_cons_of_neg (by simpa using hne)]
      exact this
    | some _ =>
      rw [List.filterMap_cons_some (b := Eff.completed e.1 e.2) (by simp [hx])] at he
      simp only [effects, Go.bind_eq_ok] at he
      obtain ⟨s1, h1, he⟩ := he
      simp only [effect] at h1
      cases hte : s.table e.1 with
      | none =>
        rw [hte] at h1; cases h1
        have hne : e.1 ≠ h := by rintro heq; rw [heq, ht] at hte; cases hte
        rw [List.filter_cons_of_neg (by simpa using hne)]
        exact ih s ht hinj c hc henv' he
      | some j =>
        rw [hte] at h1; cases h1
        by_cases heq : e.1 = h
        · rw [heq, ht] at hte; cases hte
          have := ih (s.modify i fun c => { c with returned := c.returned + e.2 }) ht hinj { c with returned := c.returned + e.2 } (by rw [modify_conns_self, hc]; rfl) henv' he
          refine ⟨this.1, ?_⟩
          rw [this.2, List.filter_cons_of_pos (by simpa using heq)]
          simp [Nat.add_assoc]
        · have hij : j ≠ i := by rintro rfl; exact heq (hinj _ hte)
          have := ih (s.modify j fun c => { c with returned := c.returned + e.2 }) ht hinj c (by rw [modify_conns_ne _ _ _ _ hij]; exact hc) henv' he
          rw [List.filter_cons_of_neg (by simpa using heq)]
          exact this

end ConnsAux

/-- C51. A Number Of Completed Packets event returns to each connection exactly the buffers it lists for the connection's handle, however the entries are ordered. -/
theorem completed_reaches_connections (s : State) (hs : ConnReachable s) (l : List (Nat × Nat)) (hl : ∀ e ∈ l, e.1 < 65536 ∧ e.2 < 65536) (hn : l.length < 64) :
    ∃ s', Conns.packet s (HciSpec.completed l) = .ok s' ∧ s'.table = s.table ∧
      ∀ h i c, s.table h = some i → s.conns[i]? = some c → s'.conns[i]? = some { c with returned := c.returned + ((l.filter (·.1 = h)).map (·.2)).sum } := by
  have hi := reachable_inv hs
  have hlen : (UInt8.ofNat l.length :: l.flatMap fun e => put16 e.1 ++ put16 e.2).length < 256 := by
    simp only [List.length_cons, entries_length]; omega
  have hp : handlePkt s.env (HciSpec.completed l) = .ok (l.filterMap fun e => (s.env.conns e.1).map fun _ => Eff.completed e.1 e.2, s.scan) := by
    unfold HciSpec.completed
    rw [handlePkt_evt _ _ _ hlen]
    rw [show body s.env 0x13 _ = keep s.env (completedPackets s.env _) from rfl]
    have hcount : ncpCount (UInt8.ofNat l.length :: l.flatMap fun e => put16 e.1 ++ put16 e.2) = .ok l.length := by
      have : getByte (UInt8.ofNat l.length :: l.flatMap fun e => put16 e.1 ++ put16 e.2) 0 = .ok (UInt8.ofNat l.length) := (EvtAux.getByte_ok_iff ..).2 ⟨by omega, rfl⟩
      simp only [ncpCount, this, orDefault, Go.bind_ok, Go.pure_def, Go.ok.injEq, UInt8.toNat_ofNat']
      omega
    rw [completedPackets, hcount, Go.bind_ok, completedLoop_eq s.env _ l hl l.length (Nat.le_refl _), List.take_length]
    rfl
  obtain ⟨s', h1, -⟩ := effects_ok (scan_inv hi s.scan) (l.filterMap fun e => (s.env.conns e.1).map fun _ => Eff.completed e.1 e.2)
  have hinj : ∀ h i, s.table h = some i → ∀ h', s.table h' = some i → h' = h := by
    intro h i ht h' ht'
    obtain ⟨c, c1, c2, -⟩ := hi.listed h i ht
    obtain ⟨c', c1', c2', -⟩ := hi.listed h' i ht'
    rw [c1] at c1'; cases c1'
    exact c2'.symm.trans c2
  have henv : ∀ e ∈ l, (s.table e.1).isSome → (s.env.conns e.1).isSome := by
    intro e _ ht
    obtain ⟨i, ht⟩ := Option.isSome_iff_exists.1 ht
    obtain ⟨c, c1, -⟩ := hi.listed _ i ht
    simp [State.env, ht, c1]
  refine ⟨s', by simp only [Conns.packet, hp]; exact h1, ?_, ?_⟩
  · -- no entry of the table changes
    have : ∀ (l : List (Nat × Nat)) (s s' : State), effects s (l.filterMap fun e => (s.env.conns e.1).map fun _ => Eff.completed e.1 e.2) = .ok s' → s'.table = s.table := by
      suffices ∀ (es : List Eff) (s s' : State), (∀ e ∈ es, ∃ h n, e = Eff.completed h n) → effects s es = .ok s' → s'.table = s.table by
        intro l s s' he
        refine this _ s s' ?_ he
        intro e hm
        obtain ⟨a, -, ha⟩ := List.mem_filterMap.1 hm
        cases hx : s.env.conns a.1 with
        | none => rw [hx] at ha; cases ha
        | some _ => rw [hx] at ha; cases ha; exact ⟨_, _, rfl⟩
      intro es
      induction es with
      | nil => intro s s' _ he; cases he; rfl
      | cons e es ih =>
        intro s s' hall he
        simp only [effects, Go.bind_eq_ok] at he
        obtain ⟨s1, h1, he⟩ := he
        rw [ih s1 s' (fun e hm => hall e (by simp [hm])) he]
        obtain ⟨h, n, rfl⟩ := hall e (by simp)
        simp only [effect] at h1
        split at h1 <;> cases h1 <;> rfl
    exact this l s s' h1
  · intro h i c ht hc
    exact (effects_completed s s' l i h ht (hinj h i ht) c hc s.env henv h1).2

/-! ## C53: the life of a connection -/

/-- C53. Neither the events of the controller nor `Close`, a failing reader, or shutting down ever close a connection's channels twice or send on a closed one: whatever the history, a step
crashes only on one of the packets of `hci_packet_panics_iff`. -/
theorem connection_steps_crash_iff (s : State) (hs : ConnReachable s) (e : Ev) : step s e = .panic ↔ ∃ b, e = .packet b ∧ PacketCrashes s.env b := by
  have hi := reachable_inv hs
  have hcl : ∀ h, cleanup s h ≠ .panic := by
    intro h
    rcases cleanup_spec hi h with ⟨-, h1⟩ | ⟨i, c, -, -, h1⟩ <;> rw [h1] <;> simp
  cases e with
  | packet b =>
    simp only [Ev.packet.injEq, exists_eq_left']
    rw [← hci_packet_panics_iff]
    simp only [step, Conns.packet]
    cases hp : handlePkt s.env b with
    | panic => simp
    | err _ => simp
    | ok r =>
      obtain ⟨es, sc⟩ := r
      obtain ⟨s', h1, -⟩ := effects_ok (scan_inv hi sc) es
      simp [h1]
  | close i =>
    simp only [step]
    cases s.conns[i]? with
    | none => simp
    | some c => simp [hcl]
  | readerFailed i =>
    simp only [step]
    cases s.conns[i]? with
    | none => simp
    | some c => simp [hcl]
  | hciClose => simp [step]
  | cleanupHandle h => simp [step, hcl]

/-- C53. A connection that is not listed under its handle stays exactly as it is, in every continuation: no more data, no change of its encryption state, and `Disconnected()` fires no more. -/
theorem unlisted_connection_frozen (s s' : State) (hs : ConnReachable s) (i : Nat) (c : Conn) (hc : s.conns[i]? = some c) (hu : s.table c.handle ≠ some i) (es : List Ev) (h : run s es = .ok s') :
    s'.conns[i]? = some c ∧ s'.table c.handle ≠ some i := by
  have hi := reachable_inv hs
  clear hs
  induction es generalizing s with
  | nil => cases h; exact ⟨hc, hu⟩
  | cons e es ih =>
    simp only [run, Go.bind_eq_ok] at h
    obtain ⟨s1, h1, h2⟩ := h
    have hl := local_step hi h1
    have hlt : i < s.conns.length := (List.getElem?_eq_some_iff.1 hc).1
    have hall : ∀ x, s.table x ≠ some i := by
      intro x hx
      obtain ⟨c', e1, e2, -⟩ := hi.listed x i hx
      rw [hc] at e1; cases e1
      exact hu (by rw [e2]; exact hx)
    refine ih s1 ?_ ?_ h2 (step_inv hi h1)
    · rw [hl.conns i hlt fun x hx => absurd hx (hall x)]; exact hc
    · intro hx; exact hall _ (hl.back _ i hlt hx)

/-- C53. A connection whose `Disconnected()` has fired receives nothing more and is never listed again. -/
theorem closed_connection_frozen (s s' : State) (hs : ConnReachable s) (i : Nat) (c : Conn) (hc : s.conns[i]? = some c) (hd : c.done = true) (es : List Ev) (h : run s es = .ok s') :
    s'.conns[i]? = some c := by
  refine (unlisted_connection_frozen s s' hs i c hc ?_ es h).1
  intro ht
  obtain ⟨c', e1, -, e3, -⟩ := (reachable_inv hs).listed _ i ht
  rw [hc] at e1; cases e1
  rw [hd] at e3; cases e3

/-- C53. `Close` closes a listed connection: `Disconnected()` fires, unless the HCI is shut down and the connection is in the slave role. -/
theorem close_closes (s : State) (hs : ConnReachable s) (i : Nat) (c : Conn) (hc : s.conns[i]? = some c) (hl : s.table c.handle = some i) (ho : s.isOpen = true ∨ c.slave = false) :
    ∃ s' c', step s (.close i) = .ok s' ∧ s'.table c.handle = none ∧ s'.conns[i]? = some c' ∧ c'.done = true := by
  have hi := reachable_inv hs
  simp only [step, hc]
  rcases cleanup_spec hi c.handle with ⟨h0, -⟩ | ⟨j, d, hj, h1, h2⟩
  · rw [h0] at hl; cases hl
  · rw [hj] at hl; cases hl
    rw [hc] at h1; cases h1
    refine ⟨_, { c with done := c.done || (s.isOpen || !c.slave), rxClosed := true }, h2, by simp [State.modify], by rw [modify_conns_self]; simp only [hc, Option.map_some], ?_⟩
    rcases ho with ho | ho <;> simp [ho]

/-- **C53, the part that holds.** Missing: a connection whose handle was reused before it was removed (`reused_handle_closes_wrong_connection`) and slave connections after shutdown (`slave_never_announced_after_shutdown`). -/
theorem close_closes_partial (s : State) (hs : ConnReachable s) (i : Nat) (c : Conn) (hc : s.conns[i]? = some c) (hl : s.table c.handle = some i) (ho : s.isOpen = true ∨ c.slave = false) :
    ∃ s' c', step s (.close i) = .ok s' ∧ s'.table c.handle = none ∧ s'.conns[i]? = some c' ∧ c'.done = true :=
  close_closes s hs i c hc hl ho

namespace ConnsAux

theorem effect_done {s s' : State} (hs : ConnInv s) {e : Eff} (he : effect s e = .ok s') {i : Nat} {c c' : Conn} (hc : s.conns[i]? = some c) (hc' : s'.conns[i]? = some c')
    (hd : c.done = false) (hd' : c'.done = true) : e = .disconnect c.handle ∧ s.table c.handle = some i := by
  have hl := local_effect hs he
  have hlt : i < s.conns.length := (List.getElem?_eq_some_iff.1 hc).1
  have hne : s'.conns[i]? ≠ s.conns[i]? := by
    rw [hc, hc']; intro h; injection h with h; subst h; rw [hd] at hd'; cases hd'
  have : ∃ h, s.table h = some i ∧ handleOf e = some h := by
    apply Classical.byContradiction
    intro hn
    exact hne (hl.conns i hlt fun h ht hh => hn ⟨h, ht, hh⟩)
  obtain ⟨h, ht, hh⟩ := this
  obtain ⟨c0, e1, e2, -, e4⟩ := hs.listed h i ht
  rw [hc] at e1; cases e1
  have hmod : ∀ f : Conn → Conn, s' = s.modify i f → (f c).done = c.done → False := by
    rintro f rfl hf
    rw [modify_conns_self, hc] at hc'
    cases hc'
    rw [hf, hd] at hd'; cases hd'
  cases e with
  | acl h' p =>
    cases hh
    simp [effect, ht, hc, e4] at he
    exact (hmod _ he.symm rfl).elim
  | completed h' n =>
    cases hh
    simp [effect, ht] at he
    exact (hmod _ he.symm rfl).elim
  | encryption h' d en =>
    cases hh
    simp [effect, ht] at he
    exact (hmod _ he.symm rfl).elim
  | disconnect h' =>
    cases hh
    rw [e2]; exact ⟨rfl, ht⟩
  | connected h' role addr =>
    simp only [effect] at he
    cases he
    rw [List.getElem?_append_left hlt] at hc'
    rw [hc] at hc'; cases hc'
    rw [hd] at hd'; cases hd'
  | complete _ _ _ => cases hh
  | status _ _ _ => cases hh
  | vendor => cases hh
  | advertisement _ => cases hh

theorem effects_done {s s' : State} (hs : ConnInv s) {es : List Eff} (he : effects s es = .ok s') {i : Nat} {c c' : Conn} (hc : s.conns[i]? = some c) (hc' : s'.conns[i]? = some c')
    (hd : c.done = false) (hd' : c'.done = true) : .disconnect c.handle ∈ es ∧ s.table c.handle = some i := by
  induction es generalizing s c with
  | nil => cases he; rw [hc] at hc'; cases hc'; rw [hd] at hd'; cases hd'
  | cons e es ih =>
    simp only [effects, Go.bind_eq_ok] at he
    obtain ⟨s1, h1, h2⟩ := he
    obtain ⟨s1', h1', hs1⟩ := effect_ok hs e
    rw [h1] at h1'; cases h1'
    have hl := local_effect hs h1
    have hlt : i < s.conns.length := (List.getElem?_eq_some_iff.1 hc).1
    obtain ⟨c1, hc1⟩ : ∃ c1, s1.conns[i]? = some c1 := ⟨_, List.getElem?_eq_getElem (Nat.lt_of_lt_of_le hlt hl.length)⟩
    have hhandle : c1.handle = c.handle := by
      by_cases hx : s1.conns[i]? = s.conns[i]?
      · rw [hc, hc1] at hx; cases hx; rfl
      · obtain ⟨h, ht, hh⟩ : ∃ h, s.table h = some i ∧ handleOf e = some h := by
          apply Classical.byContradiction
          intro hn
          exact hx (hl.conns i hlt fun h ht hh => hn ⟨h, ht, hh⟩)
        have hmod : ∀ f : Conn → Conn, s1.conns[i]? = (s.conns[i]?).map f → (f c).handle = c.handle → c1.handle = c.handle := by
          intro f hf hfc
          rw [hc1, hc] at hf
          cases hf; exact hfc
        cases e with
        | acl h' p =>
          cases hh
          obtain ⟨c0, e1, -, -, e4⟩ := hs.listed _ i ht
          simp [effect, ht, e1, e4] at h1
          exact hmod _ (by rw [← h1, modify_conns_self]) rfl
        | completed h' n =>
          cases hh
          simp [effect, ht] at h1
          exact hmod _ (by rw [← h1, modify_conns_self]) rfl
        | encryption h' d en =>
          cases hh
          simp [effect, ht] at h1
          exact hmod _ (by rw [← h1, modify_conns_self]) rfl
        | disconnect h' =>
          cases hh
          rcases cleanup_spec hs h with ⟨h0, -⟩ | ⟨j, d, hj, -, h3⟩
          · rw [h0] at ht; cases ht
          · rw [hj] at ht; cases ht
            rw [show cleanup s h = .ok s1 from h1] at h3; cases h3
            exact hmod _ (by rw [modify_conns_self]) rfl
        | connected h' role addr =>
          simp only [effect] at h1
          cases h1
          exact absurd (List.getElem?_append_left hlt) hx
        | complete _ _ _ => cases hh
        | status _ _ _ => cases hh
        | vendor => cases hh
        | advertisement _ => cases hh
    cases hd1 : c1.done with
    | true =>
      obtain ⟨h3, h4⟩ := effect_done hs h1 hc hc1 hd hd1
      exact ⟨by rw [← h3]; simp, h4⟩
    | false =>
      obtain ⟨h3, h4⟩ := ih hs1 h2 hc1 hd1
      rw [hhandle] at h3 h4
      exact ⟨by simp [h3], hl.back _ i hlt h4⟩

end ConnsAux

/-- C53. `Disconnected()` fires only for a listed connection, and only because of: a Disconnection Complete event for its handle (with a reason other than "local host"), `Close` or a reader
failure of a connection with this handle, or the shutdown of the HCI. -/
theorem disconnected_only_if (s s' : State) (hs : ConnReachable s) (e : Ev) (he : step s e = .ok s') (i : Nat) (c c' : Conn) (hc : s.conns[i]? = some c) (hc' : s'.conns[i]? = some c')
    (hd : c.done = false) (hd' : c'.done = true) :
    s.table c.handle = some i ∧
    ((∃ p r, e = .packet (evtPkt 0x05 p) ∧ Field16 p 1 c.handle ∧ p[3]? = some r ∧ r ≠ 0x16) ∨
     (∃ j d, (e = .close j ∨ e = .readerFailed j) ∧ s.conns[j]? = some d ∧ d.handle = c.handle) ∨
     e = .cleanupHandle c.handle) := by
  have hi := reachable_inv hs
  have hcl : ∀ h, cleanup s h = .ok s' → s.table c.handle = some i ∧ h = c.handle := by
    intro h hh
    obtain ⟨h1, h2⟩ := effect_done (e := .disconnect h) hi hh hc hc' hd hd'
    exact ⟨h2, by injection h1⟩
  cases e with
  | packet b =>
    simp only [step, Conns.packet] at he
    split at he
    · rename_i es sc hp
      obtain ⟨h1, h2⟩ := effects_done (scan_inv hi sc) he hc hc' hd hd'
      refine ⟨h2, Or.inl ?_⟩
      have := effects_cause hp _ h1
      cases this with
      | disconnect p h r a1 a2 a3 => exact ⟨p, r, rfl, a1, a2, a3⟩
      | other b e h => cases h
    · cases he; rw [hc] at hc'; cases hc'; rw [hd] at hd'; cases hd'
    · cases he
  | close j =>
    simp only [step] at he
    split at he
    · cases he; rw [hc] at hc'; cases hc'; rw [hd] at hd'; cases hd'
    · rename_i d hj
      obtain ⟨h1, h2⟩ := hcl _ he
      exact ⟨h1, Or.inr (Or.inl ⟨j, d, Or.inl rfl, hj, h2⟩)⟩
  | readerFailed j =>
    simp only [step] at he
    split at he
    · cases he; rw [hc] at hc'; cases hc'; rw [hd] at hd'; cases hd'
    · rename_i d hj
      obtain ⟨h1, h2⟩ := hcl _ he
      exact ⟨h1, Or.inr (Or.inl ⟨j, d, Or.inr rfl, hj, h2⟩)⟩
  | hciClose => simp only [step] at he; cases he; rw [hc] at hc'; cases hc'; rw [hd] at hd'; cases hd'
  | cleanupHandle h =>
    obtain ⟨h1, h2⟩ := hcl h he
    exact ⟨h1, Or.inr (Or.inr (by rw [h2]))⟩


namespace ConnsAux

theorem run_reachable {s s' : State} (hs : ConnReachable s) {es : List Ev} (h : run s es = .ok s') : ConnReachable s' := by
  obtain ⟨a, b, c, es0, h0⟩ := hs
  refine ⟨a, b, c, es0 ++ es, ?_⟩
  generalize init a b c = s0 at h0 ⊢
  induction es0 generalizing s0 with
  | nil => cases h0; exact h
  | cons e es0 ih =>
    simp only [run, Go.bind_eq_ok] at h0
    obtain ⟨s1, h1, h2⟩ := h0
    simp only [List.cons_append, run, h1, Go.bind_ok]
    exact ih s1 h2

theorem step_reachable {s s' : State} (hs : ConnReachable s) {e : Ev} (h : step s e = .ok s') : ConnReachable s' :=
  run_reachable hs (es := [e]) (by simp [run, h])

end ConnsAux

/-- C53, negative. When the controller reuses a handle before the host has removed the old connection (say, between the Disconnect command of `Close` and its cleanup: the Disconnection Complete
event with reason "local host" does not remove it), the old connection's `Disconnected()` never fires, whatever happens later, and the pending `Close` of the old connection closes the new
one. -/
theorem reused_handle_closes_wrong_connection (s : State) (hs : ConnReachable s) (ho : s.isOpen = true) (i : Nat) (c : Conn) (hc : s.conns[i]? = some c) (hl : s.table c.handle = some i)
    (hh : c.handle < 65536) (role addrType : UInt8) (addr rest : Bytes) (hlen : addr.length + rest.length < 240) :
    ∃ s1, Conns.packet s (leConnection 0 c.handle role addrType addr rest) = .ok s1 ∧
      (∀ es s', run s1 es = .ok s' → s'.conns[i]? = some c ∧ c.done = false) ∧
      ∃ s2 n, step s1 (.close i) = .ok s2 ∧ s2.conns[s.conns.length]? = some n ∧ n.done = true := by
  have hi := reachable_inv hs
  obtain ⟨c0, e1, -, e3, -⟩ := hi.listed _ i hl
  rw [hc] at e1; cases e1
  have hp := connection_event_creates s 0 role addrType c.handle hh addr rest hlen
  rw [if_neg (by simp)] at hp
  have hlt : i < s.conns.length := (List.getElem?_eq_some_iff.1 hc).1
  have hr1 := step_reachable hs (e := .packet (leConnection 0 c.handle role addrType addr rest)) hp
  refine ⟨_, hp, ?_, ?_⟩
  · intro es s' h
    refine ⟨(unlisted_connection_frozen _ s' hr1 i c ?_ ?_ es h).1, e3⟩
    · simp only; rw [List.getElem?_append_left hlt]; exact hc
    · simp; omega
  · obtain ⟨s2, n, h1, -, h3, h4⟩ := close_closes _ hr1 s.conns.length { handle := c.handle, slave := role ≠ 0, smp := s.smpEnabled } (by simp) (by simp) (Or.inl ho)
    refine ⟨s2, n, ?_, h3, h4⟩
    rw [← h1]
    simp only [step]
    rw [List.getElem?_append_left hlt, hc]
    simp

/-- C53, negative. A slave connection that is still listed when the HCI is shut down is never announced as closed: not by the shutdown, not by `Close`, not by any event. -/
theorem slave_never_announced_after_shutdown (s s' : State) (hs : ConnReachable s) (ho : s.isOpen = false) (i : Nat) (c : Conn) (hc : s.conns[i]? = some c) (hsl : c.slave = true)
    (hd : c.done = false) (es : List Ev) (h : run s es = .ok s') : ∃ c', s'.conns[i]? = some c' ∧ c'.done = false := by
  -- shut down stays shut down, and the connection stays a slave
  have hi := reachable_inv hs
  clear hs
  have hmodify : ∀ (s : State) j f, (∀ d : Conn, (f d).slave = d.slave ∧ (d.slave = true → (f d).done = d.done)) →
      ∀ c, s.conns[i]? = some c → c.slave = true → c.done = false → ∃ c', (s.modify j f).conns[i]? = some c' ∧ c'.slave = true ∧ c'.done = false := by
    intro s j f hf c hc hsl hd
    by_cases hji : j = i
    · subst hji
      rw [modify_conns_self, hc]
      exact ⟨f c, rfl, by rw [(hf c).1, hsl], by rw [(hf c).2 hsl, hd]⟩
    · rw [modify_conns_ne _ _ _ _ hji]; exact ⟨c, hc, hsl, hd⟩
  have hcleanup : ∀ (s s' : State) x, ConnInv s → cleanup s x = .ok s' → s.isOpen = false → ∀ c, s.conns[i]? = some c → c.slave = true → c.done = false →
      s'.isOpen = false ∧ ∃ c', s'.conns[i]? = some c' ∧ c'.slave = true ∧ c'.done = false := by
    intro s s' x hi hx ho c hc hsl hd
    rcases cleanup_spec hi x with ⟨-, h1⟩ | ⟨j, d, -, -, h1⟩
    · rw [h1] at hx; cases hx; exact ⟨ho, c, hc, hsl, hd⟩
    · rw [h1] at hx; cases hx
      refine ⟨ho, ?_⟩
      refine hmodify _ j _ ?_ c hc hsl hd
      intro d; exact ⟨rfl, fun hd => by simp [ho, hd]⟩
  have heffect : ∀ (s s' : State) e, ConnInv s → effect s e = .ok s' → s.isOpen = false → ∀ c, s.conns[i]? = some c → c.slave = true → c.done = false →
      s'.isOpen = false ∧ ∃ c', s'.conns[i]? = some c' ∧ c'.slave = true ∧ c'.done = false := by
    intro s s' e hi he ho c hc hsl hd
    cases e with
    | acl x p =>
      simp only [effect] at he
      split at he
      · cases he; exact ⟨ho, c, hc, hsl, hd⟩
      · split at he
        · cases he
        · split at he
          · cases he
          · cases he; exact ⟨ho, hmodify _ _ (fun c => { c with rx := c.rx ++ [p] }) (fun d => ⟨rfl, fun _ => rfl⟩) c hc hsl hd⟩
    | completed x n =>
      simp only [effect] at he
      split at he
      · cases he; exact ⟨ho, c, hc, hsl, hd⟩
      · cases he; exact ⟨ho, hmodify _ _ (fun c => { c with returned := c.returned + n }) (fun d => ⟨rfl, fun _ => rfl⟩) c hc hsl hd⟩
    | encryption x d en =>
      simp only [effect] at he
      split at he
      · cases he; exact ⟨ho, c, hc, hsl, hd⟩
      · cases he; exact ⟨ho, hmodify _ _ (fun c => { c with enc := en }) (fun d => ⟨rfl, fun _ => rfl⟩) c hc hsl hd⟩
    | disconnect x => exact hcleanup s s' x hi he ho c hc hsl hd
    | connected x role addr =>
      cases he
      refine ⟨ho, c, ?_, hsl, hd⟩
      simp only
      rw [List.getElem?_append_left (List.getElem?_eq_some_iff.1 hc).1]; exact hc
    | complete _ _ _ => cases he; exact ⟨ho, c, hc, hsl, hd⟩
    | status _ _ _ => cases he; exact ⟨ho, c, hc, hsl, hd⟩
    | vendor => cases he; exact ⟨ho, c, hc, hsl, hd⟩
    | advertisement _ => cases he; exact ⟨ho, c, hc, hsl, hd⟩
  have heffects : ∀ es (s s' : State), ConnInv s → effects s es = .ok s' → s.isOpen = false → ∀ c, s.conns[i]? = some c → c.slave = true → c.done = false →
      s'.isOpen = false ∧ ∃ c', s'.conns[i]? = some c' ∧ c'.slave = true ∧ c'.done = false := by
    intro es
    induction es with
    | nil => intro s s' _ he ho c hc hsl hd; cases he; exact ⟨ho, c, hc, hsl, hd⟩
    | cons e es ih =>
      intro s s' hi he ho c hc hsl hd
      simp only [effects, Go.bind_eq_ok] at he
      obtain ⟨s1, h1, h2⟩ := he
      obtain ⟨s1', h1', hs1⟩ := effect_ok hi e
      rw [h1] at h1'; cases h1'
      obtain ⟨ho1, c1, a1, a2, a3⟩ := heffect s s1 e hi h1 ho c hc hsl hd
      exact ih s1 s' hs1 h2 ho1 c1 a1 a2 a3
  induction es generalizing s c with
  | nil => cases h; exact ⟨c, hc, hd⟩
  | cons e es ih =>
    simp only [run, Go.bind_eq_ok] at h
    obtain ⟨s1, h1, h2⟩ := h
    have : s1.isOpen = false ∧ ∃ c', s1.conns[i]? = some c' ∧ c'.slave = true ∧ c'.done = false := by
      cases e with
      | packet b =>
        simp only [step, Conns.packet] at h1
        split at h1
        · exact heffects _ _ _ (scan_inv hi _) h1 ho c hc hsl hd
        · cases h1; exact ⟨ho, c, hc, hsl, hd⟩
        · cases h1
      | close j =>
        simp only [step] at h1
        split at h1
        · cases h1; exact ⟨ho, c, hc, hsl, hd⟩
        · exact hcleanup _ _ _ hi h1 ho c hc hsl hd
      | readerFailed j =>
        simp only [step] at h1
        split at h1
        · cases h1; exact ⟨ho, c, hc, hsl, hd⟩
        · exact hcleanup _ _ _ hi h1 ho c hc hsl hd
      | hciClose => simp only [step] at h1; cases h1; exact ⟨rfl, c, hc, hsl, hd⟩
      | cleanupHandle x => exact hcleanup _ _ _ hi h1 ho c hc hsl hd
    obtain ⟨ho1, c1, a1, a2, a3⟩ := this
    exact ih s1 ho1 c1 a1 a2 a3 h2 (step_inv hi h1)

/-- A history in which two connections are made, one receives data and is closed by the peer, the other is encrypted, in which all hypotheses above are met. -/
def exampleHistory : List Ev := [
  .packet (leConnection 0 0x40 0 0 [1, 2, 3, 4, 5, 6] [0, 0, 0, 0, 0, 0, 0]),
  .packet (leConnection 0 0x41 1 0 [1, 2, 3, 4, 5, 7] [0, 0, 0, 0, 0, 0, 0]),
  .packet (aclPkt 0x40 2 [3, 0, 9, 9, 9]),
  .packet (encChange 0 0x41 1),
  .packet (HciSpec.completed [(0x41, 2), (0x40, 1), (0x41, 1)]),
  .packet (disconnection 0 0x40 0x13)]

theorem example_history : ∃ s, run (init false true AdvHist.initial) exampleHistory = .ok s ∧ s.table 0x40 = none ∧ s.table 0x41 = some 1 ∧
    s.conns = [{ handle := 0x40, slave := false, smp := false, rx := [[0x40, 0x20, 3, 0, 9, 9, 9]], returned := 1, done := true, rxClosed := true },
               { handle := 0x41, slave := true, smp := false, returned := 3, enc := true }] := by
  refine ⟨_, rfl, rfl, rfl, rfl⟩


/-! ## C52 -/

/-- C52, negative. The Encryption Key Refresh Complete event is never noticed: its event code has no handler (the handler is registered as an LE Meta subevent). -/
theorem key_refresh_event_ignored (s : State) (status : UInt8) (h : Nat) : Conns.packet s (keyRefresh status h) = .ok s := by
  have hp : handlePkt s.env (keyRefresh status h) = .err () := by
    unfold keyRefresh
    rw [handlePkt_evt _ _ _ (by simp)]
    rfl
  simp [Conns.packet, hp]

namespace ConnsAux

theorem news_cases {b : Bytes} {h : Nat} {x : Bool} (hb : encryptionNews b = some (h, x)) :
    (∃ st lo hi en r, b = evtPkt 0x08 (st :: lo :: hi :: en :: r) ∧ (st :: lo :: hi :: en :: r).length < 256 ∧ h = le16 lo hi ∧ x = (en = 1 : Bool)) ∨
    (∃ lo hi r, b = evtPkt 0x3e (0x30 :: lo :: hi :: r) ∧ (0x30 :: lo :: hi :: r).length < 256 ∧ h = le16 lo hi ∧ x = true) := by
  unfold encryptionNews at hb
  split at hb
  · rename_i code n p
    split at hb
    · cases hb
    · rename_i hn
      have hn : n.toNat = p.length := by simpa using hn
      have hn2 : n = UInt8.ofNat p.length := by rw [← hn]; simp
      have hlt : p.length < 256 := by rw [← hn]; exact n.toNat_lt
      split at hb
      · rename_i st lo hi en r _
        injection hb with hb; injection hb with h1 h2
        exact Or.inl ⟨st, lo, hi, en, r, by rw [hn2]; rfl, hlt, h1.symm, h2.symm⟩
      · rename_i lo hi r _
        injection hb with hb; injection hb with h1 h2
        exact Or.inr ⟨lo, hi, r, by rw [hn2]; rfl, hlt, h1.symm, h2.symm⟩
      · cases hb
  · cases hb

theorem cause_news {b : Bytes} {h : Nat} {d en : Bool} (hl : ∀ code p, b = evtPkt code p → p.length < 256) (hc : Cause b (.encryption h d en)) : encryptionNews b = some (h, en) := by
  cases hc with
  | encryption p h x d hf hx =>
    obtain ⟨lo, hi, f1, f2, rfl⟩ := hf
    have hlt := hl _ _ rfl
    match p, f1, f2, hx with
    | st :: lo' :: hi' :: x' :: r, f1, f2, hx =>
      simp at f1 f2 hx
      subst f1; subst f2; subst hx
      have : (UInt8.ofNat (st :: lo' :: hi' :: x' :: r).length).toNat = (st :: lo' :: hi' :: x' :: r).length := by
        rw [UInt8.toNat_ofNat']; omega
      simp only [evtPkt, encryptionNews, this]
      simp
  | subevent30 r h d hf =>
    obtain ⟨lo, hi, f1, f2, rfl⟩ := hf
    have hlt := hl _ _ rfl
    match r, f1, f2 with
    | lo' :: hi' :: r, f1, f2 =>
      simp at f1 f2
      subst f1; subst f2
      have : (UInt8.ofNat (0x30 :: lo' :: hi' :: r).length).toNat = (0x30 :: lo' :: hi' :: r).length := by
        rw [UInt8.toNat_ofNat']; omega
      simp only [evtPkt, encryptionNews, this]
      simp
  | other _ _ h => cases h

/-- The encryption events have their effect. -/
theorem news_effect {env : Env} {b : Bytes} {h : Nat} {x : Bool} (hb : encryptionNews b = some (h, x)) (hc : (env.conns h).isSome) {es sc} (hp : handlePkt env b = .ok (es, sc)) :
    ∃ d, es = [.encryption h d x] := by
  obtain ⟨smp, hc⟩ := Option.isSome_iff_exists.1 hc
  rcases news_cases hb with ⟨st, lo, hi, en, r, rfl, hlt, rfl, rfl⟩ | ⟨lo, hi, r, rfl, hlt, rfl, rfl⟩
  · rw [handlePkt_evt _ _ _ hlt] at hp
    rw [show body env 0x08 _ = keep env (encryptionChange env _) from rfl] at hp
    obtain ⟨hp, -⟩ := keep_ok.1 hp
    have h1 : le16At (ε := Unit) (st :: lo :: hi :: en :: r) 1 = .ok (le16 lo hi) := rfl
    have h2 : index (ε := Unit) (st :: lo :: hi :: en :: r) 0 = .ok st := rfl
    have h3 : index (ε := Unit) (st :: lo :: hi :: en :: r) 3 = .ok en := rfl
    simp only [encryptionChange, h1, h2, h3, Go.bind_ok, hc] at hp
    split at hp
    · split at hp
      · cases hp; exact ⟨_, rfl⟩
      · cases hp
    · cases hp; exact ⟨_, rfl⟩
  · rw [handlePkt_evt _ _ _ hlt] at hp
    rw [show body env 0x3e _ = keep env (encryptionKeyRefresh env _) from rfl] at hp
    obtain ⟨hp, -⟩ := keep_ok.1 hp
    have h1 : le16At (ε := Unit) (0x30 :: lo :: hi :: r) 1 = .ok (le16 lo hi) := rfl
    have h2 : index (ε := Unit) (0x30 :: lo :: hi :: r) 0 = .ok 0x30 := rfl
    simp only [encryptionKeyRefresh, h1, h2, Go.bind_ok, hc] at hp
    split at hp
    · split at hp
      · cases hp; exact ⟨_, rfl⟩
      · cases hp
    · cases hp; exact ⟨_, rfl⟩

theorem effect_enc {s s' : State} (hs : ConnInv s) {e : Eff} (he : effect s e = .ok s') {i : Nat} {c c' : Conn} (hc : s.conns[i]? = some c) (hc' : s'.conns[i]? = some c')
    (hne : ∀ d x, e ≠ .encryption c.handle d x) : c'.enc = c.enc ∧ c'.handle = c.handle := by
  have hlt : i < s.conns.length := (List.getElem?_eq_some_iff.1 hc).1
  have hmod : ∀ j (f : Conn → Conn), s'.conns = (s.modify j f).conns → (j = i → (f c).enc = c.enc ∧ (f c).handle = c.handle) → c'.enc = c.enc ∧ c'.handle = c.handle := by
    intro j f hf hx
    rw [hf] at hc'
    by_cases hji : j = i
    · subst hji
      rw [modify_conns_self, hc] at hc'
      cases hc'; exact hx rfl
    · rw [modify_conns_ne _ _ _ _ hji, hc] at hc'; cases hc'; exact ⟨rfl, rfl⟩
  have hsame : s'.conns = s.conns → c'.enc = c.enc ∧ c'.handle = c.handle := by
    intro h; rw [h, hc] at hc'; cases hc'; exact ⟨rfl, rfl⟩
  cases e with
  | acl x p =>
    simp only [effect] at he
    split at he
    · cases he; exact hsame rfl
    · split at he
      · cases he
      · split at he
        · cases he
        · cases he; exact hmod _ (fun c => { c with rx := c.rx ++ [p] }) rfl fun _ => ⟨rfl, rfl⟩
  | completed x n =>
    simp only [effect] at he
    split at he
    · cases he; exact hsame rfl
    · cases he; exact hmod _ (fun c => { c with returned := c.returned + n }) rfl fun _ => ⟨rfl, rfl⟩
  | encryption x d en =>
    simp only [effect] at he
    split at he
    · cases he; exact hsame rfl
    · rename_i j ht
      cases he
      refine hmod _ (fun c => { c with enc := en }) rfl fun hj => ?_
      subst hj
      obtain ⟨c0, e1, e2, -⟩ := hs.listed _ j ht
      rw [hc] at e1; cases e1
      exact absurd (by rw [e2]) (hne d en)
  | disconnect x =>
    rcases cleanup_spec hs x with ⟨-, h1⟩ | ⟨j, d, -, -, h1⟩
    · rw [show effect s (.disconnect x) = cleanup s x from rfl, h1] at he; cases he; exact hsame rfl
    · rw [show effect s (.disconnect x) = cleanup s x from rfl, h1] at he; cases he
      exact hmod j (fun c => { c with done := c.done || (s.isOpen || !c.slave), rxClosed := true }) rfl fun _ => ⟨rfl, rfl⟩
  | connected x role addr =>
    cases he
    rw [List.getElem?_append_left hlt, hc] at hc'
    cases hc'; exact ⟨rfl, rfl⟩
  | complete _ _ _ => cases he; exact hsame rfl
  | status _ _ _ => cases he; exact hsame rfl
  | vendor => cases he; exact hsame rfl
  | advertisement _ => cases he; exact hsame rfl

theorem effects_enc {s s' : State} (hs : ConnInv s) {es : List Eff} (he : effects s es = .ok s') {i : Nat} {c c' : Conn} (hc : s.conns[i]? = some c) (hc' : s'.conns[i]? = some c')
    (hne : ∀ d x, .encryption c.handle d x ∉ es) : c'.enc = c.enc ∧ c'.handle = c.handle := by
  induction es generalizing s c with
  | nil => cases he; rw [hc] at hc'; cases hc'; exact ⟨rfl, rfl⟩
  | cons e es ih =>
    simp only [effects, Go.bind_eq_ok] at he
    obtain ⟨s1, h1, h2⟩ := he
    obtain ⟨s1', h1', hs1⟩ := effect_ok hs e
    rw [h1] at h1'; cases h1'
    have hlt : i < s.conns.length := (List.getElem?_eq_some_iff.1 hc).1
    obtain ⟨c1, hc1⟩ : ∃ c1, s1.conns[i]? = some c1 := ⟨_, List.getElem?_eq_getElem (Nat.lt_of_lt_of_le hlt (local_effect hs h1).length)⟩
    obtain ⟨a1, a2⟩ := effect_enc hs h1 hc hc1 fun d x hx => hne d x (by simp [hx])
    obtain ⟨b1, b2⟩ := ih hs1 h2 hc1 (by intro d x hx; rw [a2] at hx; exact hne d x (by simp [hx]))
    exact ⟨b1.trans a1, b2.trans a2⟩

/-- One step. -/
theorem step_enc {s s' : State} (hs : ConnInv s) {e : Ev} (he : step s e = .ok s') {i : Nat} {c c' : Conn} (hc : s.conns[i]? = some c) (hl : s.table c.handle = some i) (hc' : s'.conns[i]? = some c') :
    c'.handle = c.handle ∧ c'.enc = (match e with
      | .packet b => (match encryptionNews b with | some (h', x) => if h' = c.handle then x else c.enc | none => c.enc)
      | _ => c.enc) := by
  have hcl : ∀ x, cleanup s x = .ok s' → c'.enc = c.enc ∧ c'.handle = c.handle := fun x hx => effect_enc (e := .disconnect x) hs hx hc hc' (by intro _ _ h; cases h)
  cases e with
  | packet b =>
    simp only [step, Conns.packet] at he
    simp only
    split at he
    · rename_i es sc hp
      have hlen : ∀ code p, b = evtPkt code p → p.length < 256 := by
        rintro code p rfl
        rcases handlePkt_ok_form hp with ⟨x, y, q, h⟩ | ⟨code', p', h, hlt⟩
        · simp [evtPkt] at h
        · simp only [evtPkt, List.cons.injEq, true_and] at h
          rw [h.2.2]; exact hlt
      by_cases hnews : ∃ x, encryptionNews b = some (c.handle, x)
      · obtain ⟨x, hx⟩ := hnews
        obtain ⟨d, rfl⟩ := news_effect (env := s.env) hx (by simp [State.env, hl, hc]) hp
        rw [hx]
        simp only [effects, effect, hl] at he
        cases he
        rw [modify_conns_self] at hc'
        simp only [hc, Option.map_some, Option.some.injEq] at hc'
        subst hc'
        simp
      · have := effects_enc (scan_inv hs sc) he hc hc' fun d x hx => hnews ⟨x, cause_news hlen (effects_cause hp _ hx)⟩
        refine ⟨this.2, this.1.trans ?_⟩
        split
        · rename_i h' x hn
          split
          · rename_i hh; subst hh; exact absurd ⟨x, hn⟩ hnews
          · rfl
        · rfl
    · rename_i hp
      cases he
      rw [hc] at hc'; cases hc'
      refine ⟨rfl, ?_⟩
      split
      · rename_i h' x hn
        split
        · rename_i hh; subst hh
          -- an encryption event for a listed connection is not an error
          rcases news_cases hn with ⟨st, lo, hi, en, r, rfl, hlt, h1, -⟩ | ⟨lo, hi, r, rfl, hlt, h1, -⟩
          · rw [handlePkt_evt _ _ _ hlt] at hp
            rw [show body s.env 0x08 _ = keep s.env (encryptionChange s.env _) from rfl] at hp
            have e0 : le16At (ε := Unit) (st :: lo :: hi :: en :: r) 1 = .ok (le16 lo hi) := rfl
            have e1 : index (ε := Unit) (st :: lo :: hi :: en :: r) 0 = .ok st := rfl
            have e2 : index (ε := Unit) (st :: lo :: hi :: en :: r) 3 = .ok en := rfl
            have e3 : s.env.conns (le16 lo hi) = some c.smp := by rw [← h1]; simp [State.env, hl, hc]
            simp only [encryptionChange, e0, e1, e2, e3, Go.bind_ok] at hp
            split at hp
            · split at hp <;> cases hp
            · cases hp
          · rw [handlePkt_evt _ _ _ hlt] at hp
            rw [show body s.env 0x3e _ = keep s.env (encryptionKeyRefresh s.env _) from rfl] at hp
            have e0 : le16At (ε := Unit) (0x30 :: lo :: hi :: r) 1 = .ok (le16 lo hi) := rfl
            have e1 : index (ε := Unit) (0x30 :: lo :: hi :: r) 0 = .ok 0x30 := rfl
            have e3 : s.env.conns (le16 lo hi) = some c.smp := by rw [← h1]; simp [State.env, hl, hc]
            simp only [encryptionKeyRefresh, e0, e1, e3, Go.bind_ok] at hp
            split at hp
            · split at hp <;> cases hp
            · cases hp
        · rfl
      · rfl
    · cases he
  | close j =>
    simp only [step] at he
    split at he
    · cases he; rw [hc] at hc'; cases hc'; exact ⟨rfl, rfl⟩
    · exact ⟨(hcl _ he).2, (hcl _ he).1⟩
  | readerFailed j =>
    simp only [step] at he
    split at he
    · cases he; rw [hc] at hc'; cases hc'; exact ⟨rfl, rfl⟩
    · exact ⟨(hcl _ he).2, (hcl _ he).1⟩
  | hciClose => simp only [step] at he; cases he; rw [hc] at hc'; cases hc'; exact ⟨rfl, rfl⟩
  | cleanupHandle x => exact ⟨(hcl _ he).2, (hcl _ he).1⟩

end ConnsAux

/-- The packets of a history. -/
def packetsOf (es : List Ev) : List Bytes := es.filterMap fun | .packet b => some b | _ => none

/-- C52 (partial: see `key_refresh_event_ignored`). As long as a connection is listed, its encryption state is what the last event about its encryption said; before the first such event it is
unencrypted (`connection_event_creates`). Missing: Encryption Key Refresh Complete (`key_refresh_event_ignored`: false). -/
theorem encryption_follows_events_partial (s s' : State) (hs : ConnReachable s) (i : Nat) (c c' : Conn) (hc : s.conns[i]? = some c) (hl : s.table c.handle = some i)
    (es : List Ev) (h : run s es = .ok s') (hc' : s'.conns[i]? = some c') (hl' : s'.table c'.handle = some i) :
    c'.enc = encryptionAfter c.handle c.enc (packetsOf es) := by
  induction es generalizing s c with
  | nil => cases h; rw [hc] at hc'; cases hc'; rfl
  | cons e es ih =>
    have hi := reachable_inv hs
    simp only [run, Go.bind_eq_ok] at h
    obtain ⟨s1, h1, h2⟩ := h
    have hlt : i < s.conns.length := (List.getElem?_eq_some_iff.1 hc).1
    obtain ⟨c1, hc1⟩ : ∃ c1, s1.conns[i]? = some c1 := ⟨_, List.getElem?_eq_getElem (Nat.lt_of_lt_of_le hlt (local_step hi h1).length)⟩
    obtain ⟨a1, a2⟩ := step_enc hi h1 hc hl hc1
    have hr1 := step_reachable hs h1
    have hl1 : s1.table c1.handle = some i := by
      apply Classical.byContradiction
      intro hn
      obtain ⟨b1, b2⟩ := unlisted_connection_frozen s1 s' hr1 i c1 hc1 hn es h2
      rw [hc'] at b1; cases b1
      exact b2 hl'
    have := ih s1 hr1 c1 hc1 hl1 h2
    rw [this, a1, a2]
    cases e <;> rfl


/-! ## C31: the answers to commands -/

/-- C31. A Command Complete event yields exactly the allowance, opcode and return parameters it carries. (What then happens to them: `Cmd`.) -/
theorem command_complete_fields (env : Env) (num : UInt8) (opcode : Nat) (ho : opcode < 65536) (params : Bytes) (hl : params.length < 253) :
    handlePkt env (evtPkt 0x0e (num :: put16 opcode ++ params)) = .ok ([.complete num.toNat opcode params], env.scan) := by
  rw [handlePkt_evt _ _ _ (by simp; omega)]
  rw [show body env 0x0e _ = keep env (commandComplete _) from rfl]
  have h1 : getByte (num :: put16 opcode ++ params) 0 = .ok num := (EvtAux.getByte_ok_iff ..).2 ⟨by omega, rfl⟩
  have h2 : getUint16 (num :: put16 opcode ++ params) ((1 : Nat) : Int) = .ok opcode := by
    rw [HciAux.getUint16_ok_iff]
    exact ⟨_, _, rfl, rfl, (le16_put16 opcode ho).symm⟩
  have h3 : orDefault [] (getBytes (num :: put16 opcode ++ params) 3 none) = .ok params := by
    unfold getBytes
    cases params with
    | nil => rfl
    | cons x t =>
      rw [if_neg (by simp; omega)]
      rfl
  have h2' : getUint16 (num :: put16 opcode ++ params) 1 = .ok opcode := h2
  unfold commandComplete ccNum ccOpcode ccParams
  rw [h3, h1, h2']
  rfl

/-- C31. A Command Status event yields its status, allowance and opcode. -/
theorem command_status_fields (env : Env) (status num : UInt8) (opcode : Nat) (ho : opcode < 65536) :
    handlePkt env (evtPkt 0x0f (status :: num :: put16 opcode)) = .ok ([.status num.toNat opcode status], env.scan) := by
  rw [handlePkt_evt _ _ _ (by simp)]
  rw [show body env 0x0f _ = keep env (commandStatus _) from rfl]
  have h2 : le16At (ε := Unit) (status :: num :: put16 opcode) 2 = .ok opcode := congrArg Go.ok (le16_put16 opcode ho)
  simp only [commandStatus, h2]
  rfl

/-- C51. The address of a new connection is the six bytes of the event. -/
theorem connection_event_fields (env : Env) (role addrType : UInt8) (h : Nat) (hh : h < 65536) (addr rest : Bytes) (ha : addr.length = 6) (hl : rest.length < 230) :
    handlePkt env (leConnection 0 h role addrType addr rest) = .ok ([.connected h role addr], env.scan) := by
  unfold leConnection
  rw [handlePkt_evt _ _ _ (by simp; omega)]
  rw [show body env 0x3e _ = keep env (connectionComplete ([0x01, 0] ++ put16 h ++ [role, addrType] ++ addr ++ rest)) from rfl]
  have hch : le16At (ε := Unit) ([0x01, 0] ++ put16 h ++ [role, addrType] ++ addr ++ rest) 2 = .ok h := by
    have := le16_put16 h hh
    simp only [le16At, put16, List.cons_append, List.nil_append, List.append_assoc] at this ⊢
    exact congrArg _ this
  unfold connectionComplete
  rw [hch]
  simp [put16, sliceFrom, keep, ha]

end Ble.Props
