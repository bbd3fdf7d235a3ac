import Verif.Hci.Readers
import Verif.Props.Conns
import Verif.Props.L2cap
set_option autoImplicit false

/-!
# C188: a connection is not closed because of an earlier one
-/

namespace Ble.Readers

open Ble.Conns Ble.Props Ble.Props.ConnsAux Ble.HciPkt Ble.HciSpec Ble.L2cap Ble.L2capSpec

/-! ## Every history is a history of the connection table -/

theorem step_base {s s' : State} {e : Ev} (h : step s e = some s') : Conns.run s.base (project [e]) = .ok s'.base := by
  cases e with
  | base e =>
    simp only [step] at h
    split at h
    · cases h
    · split at h
      · rename_i b hb
        cases h
        simp [project, Conns.run, hb]
      · cases h
  | read i mps =>
    simp only [step] at h
    split at h
    · cases h
    · split at h
      · split at h
        · cases h; rfl
        · split at h
          · split at h <;> cases h <;> rfl
          · cases h
        · cases h; rfl
        · cases h
      · cases h
  | clean i =>
    simp only [step] at h
    split at h
    · cases h
    · rename_i c hc
      split at h
      · split at h
        · rename_i b hb
          cases h
          simp [project, Conns.run, Conns.step, hc, hb]
        · cases h
      · cases h
  | stop i =>
    simp only [step] at h
    split at h
    · cases h; rfl
    · cases h

theorem conns_run_append {a b : List Conns.Ev} {s s' : Conns.State} : Conns.run s (a ++ b) = .ok s' ↔ ∃ t, Conns.run s a = .ok t ∧ Conns.run t b = .ok s' := by
  induction a generalizing s with
  | nil => simp [Conns.run]
  | cons e es ih =>
    simp only [List.cons_append, Conns.run, Go.bind_eq_ok]
    constructor
    · rintro ⟨s1, h1, h2⟩
      obtain ⟨t, h3, h4⟩ := ih.1 h2
      exact ⟨t, ⟨s1, h1, h3⟩, h4⟩
    · rintro ⟨t, ⟨s1, h1, h3⟩, h4⟩
      exact ⟨s1, h1, ih.2 ⟨t, h3, h4⟩⟩

theorem project_append (a b : List Ev) : project (a ++ b) = project a ++ project b := by
  induction a with
  | nil => rfl
  | cons e es ih => cases e <;> simp [project, ih]

/-- C188. What the connections go through is a history of the connection table (`Conns`), so that everything proved there holds here. -/
theorem is_conns_history {s0 s : State} {es : List Ev} (h : run s0 es = some s) : Conns.run s0.base (project es) = .ok s.base := by
  refine runT_ind (P := fun es s => Conns.run s0.base (project es) = .ok s.base) rfl ?_ es s h
  intro es s e s' _ hp he
  rw [project_append]
  exact conns_run_append.2 ⟨_, hp, step_base he⟩

/-- The states a history from `Init` leads to. -/
def Reachable (s : State) : Prop := ∃ smp handler scan es, run (init smp handler scan) es = some s

theorem reachable_conns {s : State} (h : Reachable s) : ConnReachable s.base := by
  obtain ⟨a, b, c, es, h⟩ := h
  exact ⟨a, b, c, _, is_conns_history h⟩

/-! ## Why a reader fails -/

theorem collect_fail_append {p : Bytes} {dlen : Nat} {x : List Bytes} (y : List Bytes) (h : collect p dlen x = .fail) : collect p dlen (x ++ y) = .fail := by
  induction x generalizing p with
  | nil => simp only [collect] at h; split at h <;> cases h
  | cons q qs ih =>
    simp only [List.cons_append, collect] at h ⊢
    by_cases hc : p.length < 4 + dlen
    · rw [if_pos hc] at h ⊢
      cases hq : pktPbf q with
      | none => rw [hq] at h; cases h
      | some f =>
        rw [hq] at h
        simp only at h ⊢
        by_cases hf : f &&& 1 = 0
        · rw [if_pos hf]
        · rw [if_neg hf] at h ⊢
          cases hd : pktData q with
          | none => rw [hd] at h; cases h
          | some d => rw [hd] at h; exact ih h
    · rw [if_neg hc] at h; cases h

theorem collect_done_append {p q : Bytes} {dlen : Nat} {x rest : List Bytes} (y : List Bytes) (h : collect p dlen x = .done q rest) : collect p dlen (x ++ y) = .done q (rest ++ y) := by
  induction x generalizing p with
  | nil =>
    simp only [collect] at h
    split at h
    · cases h
    · rename_i hc
      injection h with h1 h2
      subst h1; subst h2
      cases y with
      | nil => simp [collect, hc]
      | cons a as => simp [collect, hc]
  | cons a as ih =>
    simp only [List.cons_append, collect] at h ⊢
    by_cases hc : p.length < 4 + dlen
    · rw [if_pos hc] at h ⊢
      cases hq : pktPbf a with
      | none => rw [hq] at h; cases h
      | some f =>
        rw [hq] at h
        simp only at h ⊢
        by_cases hf : f &&& 1 = 0
        · rw [if_pos hf] at h; cases h
        · rw [if_neg hf] at h ⊢
          cases hd : pktData a with
          | none => rw [hd] at h; cases h
          | some d => rw [hd] at h; exact ih h
    · rw [if_neg hc] at h ⊢
      injection h with h1 h2
      subst h1; subst h2
      rfl

theorem recombine_fail_append {m : Nat} {x : List Bytes} (y : List Bytes) (h : recombine m x = .fail) : recombine m (x ++ y) = .fail := by
  cases x with
  | nil => simp [recombine] at h
  | cons a as =>
    simp only [List.cons_append, recombine] at h ⊢
    cases hd : pktData a with
    | none => rw [hd] at h; cases h
    | some p =>
      rw [hd] at h
      simp only at h ⊢
      cases hc : pduCid p with
      | none => rw [hc] at h; cases h
      | some cid =>
        cases hl : pduLen p with
        | none => rw [hc, hl] at h; cases h
        | some dlen =>
          rw [hc, hl] at h
          simp only at h ⊢
          by_cases hx : cid = cidAtt ∧ dlen > m
          · rw [if_pos hx]
          · rw [if_neg hx] at h ⊢; exact collect_fail_append y h

theorem recombine_done_append {m : Nat} {x rest : List Bytes} {q : Bytes} (y : List Bytes) (h : recombine m x = .done q rest) : recombine m (x ++ y) = .done q (rest ++ y) := by
  cases x with
  | nil => simp [recombine] at h
  | cons a as =>
    simp only [List.cons_append, recombine] at h ⊢
    cases hd : pktData a with
    | none => rw [hd] at h; cases h
    | some p =>
      rw [hd] at h
      simp only at h ⊢
      cases hc : pduCid p with
      | none => rw [hc] at h; cases h
      | some cid =>
        cases hl : pduLen p with
        | none => rw [hc, hl] at h; cases h
        | some dlen =>
          rw [hc, hl] at h
          simp only at h ⊢
          by_cases hx : cid = cidAtt ∧ dlen > m
          · rw [if_pos hx] at h; cases h
          · rw [if_neg hx] at h ⊢; exact collect_done_append y h

/-! ## How connections change -/

/-- Connections only receive more, keep their handle, and once their queue is closed it stays as it is. -/
def Grows (a b : Conns.State) : Prop :=
  ∀ (i : Nat) c, a.conns[i]? = some c → ∃ c', b.conns[i]? = some c' ∧ c'.handle = c.handle ∧ (∃ y, c'.rx = c.rx ++ y) ∧ (c.rxClosed = true → c'.rxClosed = true ∧ c'.rx = c.rx)

theorem Grows.refl (a : Conns.State) : Grows a a := fun _ c h => ⟨c, h, rfl, ⟨[], by simp⟩, fun h => ⟨h, rfl⟩⟩

theorem Grows.trans {a b c : Conns.State} (h1 : Grows a b) (h2 : Grows b c) : Grows a c := by
  intro i x hx
  obtain ⟨x1, a1, a2, ⟨y1, a3⟩, a4⟩ := h1 i x hx
  obtain ⟨x2, b1, b2, ⟨y2, b3⟩, b4⟩ := h2 i x1 a1
  exact ⟨x2, b1, by rw [b2, a2], ⟨y1 ++ y2, by rw [b3, a3, List.append_assoc]⟩, fun h => ⟨(b4 (a4 h).1).1, by rw [(b4 (a4 h).1).2, (a4 h).2]⟩⟩

theorem grows_modify (s : Conns.State) (j : Nat) (f : Conn → Conn) (hf : ∀ c : Conn, s.conns[j]? = some c → (f c).handle = c.handle ∧ (∃ y, (f c).rx = c.rx ++ y) ∧ (c.rxClosed = true → (f c).rxClosed = true ∧ (f c).rx = c.rx)) : Grows s (s.modify j f) := by
  intro i c hc
  by_cases hij : j = i
  · subst hij
    exact ⟨f c, by rw [modify_conns_self, hc]; rfl, hf c hc⟩
  · exact ⟨c, by rw [modify_conns_ne _ _ _ _ hij]; exact hc, rfl, ⟨[], by simp⟩, fun h => ⟨h, rfl⟩⟩

theorem grows_of_conns {s s' t : Conns.State} (h : s'.conns = s.conns) (hg : Grows s' t) : Grows s t := by
  intro i c hc
  exact hg i c (by rw [h]; exact hc)

theorem grows_cleanup {s s' : Conns.State} {h : Nat} (hc : cleanup s h = .ok s') : Grows s s' := by
  unfold cleanup at hc
  split at hc
  · cases hc; exact Grows.refl _
  · split at hc
    · cases hc
    · split at hc
      · split at hc
        · cases hc
        · cases hc
          exact grows_of_conns rfl (grows_modify { s with table := fun x => if x = h then none else s.table x } _ _ fun c _ => ⟨rfl, ⟨[], by simp⟩, fun _ => ⟨rfl, rfl⟩⟩)
      · split at hc
        · cases hc
        · cases hc
          exact grows_of_conns rfl (grows_modify { s with table := fun x => if x = h then none else s.table x } _ _ fun c _ => ⟨rfl, ⟨[], by simp⟩, fun _ => ⟨rfl, rfl⟩⟩)

theorem grows_effect {s s' : Conns.State} {e : Eff} (h : effect s e = .ok s') : Grows s s' := by
  cases e with
  | acl hd p =>
    simp only [effect] at h
    split at h
    · cases h; exact Grows.refl _
    · split at h
      · cases h
      · rename_i c0 hc0
        split at h
        · cases h
        · rename_i hcl
          cases h
          refine grows_modify _ _ _ fun c hc => ⟨rfl, ⟨[p], rfl⟩, fun h => ?_⟩
          rw [hc0] at hc; cases hc
          exact absurd h hcl
  | completed hd n =>
    simp only [effect] at h
    split at h <;> cases h
    · exact Grows.refl _
    · exact grows_modify _ _ _ fun c _ => ⟨rfl, ⟨[], by simp⟩, fun h => ⟨h, rfl⟩⟩
  | encryption hd d en =>
    simp only [effect] at h
    split at h <;> cases h
    · exact Grows.refl _
    · exact grows_modify _ _ _ fun c _ => ⟨rfl, ⟨[], by simp⟩, fun h => ⟨h, rfl⟩⟩
  | disconnect hd => exact grows_cleanup h
  | connected hd role addr =>
    simp only [effect] at h; cases h
    intro i c hc
    exact ⟨c, by
      have : i < s.conns.length := (List.getElem?_eq_some_iff.1 hc).1
      simp only
      rw [List.getElem?_append_left this]; exact hc, rfl, ⟨[], by simp⟩, fun h => ⟨h, rfl⟩⟩
  | complete _ _ _ => cases h; exact Grows.refl _
  | status _ _ _ => cases h; exact Grows.refl _
  | vendor => cases h; exact Grows.refl _
  | advertisement _ => cases h; exact Grows.refl _

theorem grows_effects {es : List Eff} {s s' : Conns.State} (h : effects s es = .ok s') : Grows s s' := by
  induction es generalizing s with
  | nil => cases h; exact Grows.refl _
  | cons e es ih =>
    simp only [effects, Go.bind_eq_ok] at h
    obtain ⟨s1, h1, h2⟩ := h
    exact (grows_effect h1).trans (ih h2)

theorem grows_step {s s' : Conns.State} {e : Conns.Ev} (h : Conns.step s e = .ok s') : Grows s s' := by
  cases e with
  | packet b =>
    simp only [Conns.step, Conns.packet] at h
    split at h
    · rename_i es sc hp
      exact grows_of_conns (s' := { s with scan := sc }) rfl (grows_effects h)
    · cases h; exact Grows.refl _
    · cases h
  | close i =>
    simp only [Conns.step] at h
    split at h
    · cases h; exact Grows.refl _
    · exact grows_cleanup h
  | readerFailed i =>
    simp only [Conns.step] at h
    split at h
    · cases h; exact Grows.refl _
    · exact grows_cleanup h
  | hciClose => simp only [Conns.step] at h; cases h; exact grows_of_conns (s' := { s with isOpen := false }) rfl (Grows.refl _)
  | cleanupHandle x => exact grows_cleanup h

/-! ## The latest connection of a handle is listed -/

/-- If a connection is listed under a handle, all others with this handle are older. -/
def Latest (s : Conns.State) : Prop := ∀ h i, s.table h = some i → ∀ (k : Nat) c, s.conns[k]? = some c → c.handle = h → k ≤ i

theorem latest_modify {s : Conns.State} (hs : Latest s) (j : Nat) (f : Conn → Conn) (hf : ∀ c : Conn, (f c).handle = c.handle) : Latest (s.modify j f) := by
  intro h i ht k c hc hh
  by_cases hij : j = k
  · subst hij
    rw [modify_conns_self] at hc
    cases hk : s.conns[j]? with
    | none => rw [hk] at hc; cases hc
    | some c0 =>
      rw [hk] at hc; cases hc
      exact hs h i ht j c0 hk (by rw [← hh, hf])
  · rw [modify_conns_ne _ _ _ _ hij] at hc
    exact hs h i ht k c hc hh

theorem latest_remove {s : Conns.State} (hs : Latest s) (x : Nat) : Latest { s with table := fun y => if y = x then none else s.table y } := by
  intro h i ht k c hc hh
  simp only at ht
  split at ht
  · cases ht
  · exact hs h i ht k c hc hh

theorem latest_cleanup {s s' : Conns.State} (hs : Latest s) {h : Nat} (hc : cleanup s h = .ok s') : Latest s' := by
  unfold cleanup at hc
  split at hc
  · cases hc; exact hs
  · split at hc
    · cases hc
    · split at hc
      · split at hc <;> cases hc
        exact latest_modify (latest_remove hs h) _ _ fun _ => rfl
      · split at hc <;> cases hc
        exact latest_modify (latest_remove hs h) _ _ fun _ => rfl

theorem latest_effect {s s' : Conns.State} (hs : Latest s) {e : Eff} (h : effect s e = .ok s') : Latest s' := by
  cases e with
  | acl hd p =>
    simp only [effect] at h
    split at h
    · cases h; exact hs
    · split at h
      · cases h
      · split at h <;> cases h
        exact latest_modify hs _ _ fun _ => rfl
  | completed hd n =>
    simp only [effect] at h
    split at h <;> cases h
    · exact hs
    · exact latest_modify hs _ _ fun _ => rfl
  | encryption hd d en =>
    simp only [effect] at h
    split at h <;> cases h
    · exact hs
    · exact latest_modify hs _ _ fun _ => rfl
  | disconnect hd => exact latest_cleanup hs h
  | connected hd role addr =>
    simp only [effect] at h; cases h
    intro x i ht k c hc hh
    simp only at ht hc
    have hk : k < s.conns.length + 1 := by
      have := (List.getElem?_eq_some_iff.1 hc).1
      simpa using this
    split at ht
    · cases ht; omega
    · rename_i hne
      by_cases hkl : k < s.conns.length
      · rw [List.getElem?_append_left hkl] at hc
        exact hs x i ht k c hc hh
      · have : k = s.conns.length := by omega
        subst this
        simp at hc
        subst hc
        exact absurd hh.symm hne
  | complete _ _ _ => cases h; exact hs
  | status _ _ _ => cases h; exact hs
  | vendor => cases h; exact hs
  | advertisement _ => cases h; exact hs

theorem latest_effects {es : List Eff} {s s' : Conns.State} (hs : Latest s) (h : effects s es = .ok s') : Latest s' := by
  induction es generalizing s with
  | nil => cases h; exact hs
  | cons e es ih =>
    simp only [effects, Go.bind_eq_ok] at h
    obtain ⟨s1, h1, h2⟩ := h
    exact ih (latest_effect hs h1) h2

theorem latest_step {s s' : Conns.State} (hs : Latest s) {e : Conns.Ev} (h : Conns.step s e = .ok s') : Latest s' := by
  cases e with
  | packet b =>
    simp only [Conns.step, Conns.packet] at h
    split at h
    · rename_i es sc hp
      exact latest_effects (s := { s with scan := sc }) hs h
    · cases h; exact hs
    · cases h
  | close i =>
    simp only [Conns.step] at h
    split at h
    · cases h; exact hs
    · exact latest_cleanup hs h
  | readerFailed i =>
    simp only [Conns.step] at h
    split at h
    · cases h; exact hs
    · exact latest_cleanup hs h
  | hciClose => simp only [Conns.step] at h; cases h; exact hs
  | cleanupHandle x => exact latest_cleanup hs h

theorem latest_run {es : List Conns.Ev} {s s' : Conns.State} (hs : Latest s) (h : Conns.run s es = .ok s') : Latest s' := by
  induction es generalizing s with
  | nil => cases h; exact hs
  | cons e es ih =>
    simp only [Conns.run, Go.bind_eq_ok] at h
    obtain ⟨s1, h1, h2⟩ := h
    exact ih (latest_step hs h1) h2

theorem reachable_latest {s : State} (h : Reachable s) : Latest s.base := by
  obtain ⟨a, b, c, es, h⟩ := reachable_conns h
  refine latest_run ?_ h
  intro x i ht
  cases ht

/-! ## The readers -/

theorem collect_suffix {p q : Bytes} {dlen : Nat} {x rest : List Bytes} (h : collect p dlen x = .done q rest) : ∃ pre, x = pre ++ rest := by
  induction x generalizing p with
  | nil =>
    simp only [collect] at h
    split at h
    · cases h
    · injection h with h1 h2
      exact ⟨[], by simp [h2]⟩
  | cons a as ih =>
    simp only [collect] at h
    split at h
    · split at h
      · cases h
      · split at h
        · cases h
        · split at h
          · cases h
          · obtain ⟨pre, hp⟩ := ih h
            exact ⟨a :: pre, by rw [hp]; rfl⟩
    · injection h with h1 h2
      exact ⟨[], by simp [h2]⟩

theorem recombine_suffix {m : Nat} {q : Bytes} {x rest : List Bytes} (h : recombine m x = .done q rest) : ∃ pre, x = pre ++ rest := by
  cases x with
  | nil => simp [recombine] at h
  | cons a as =>
    simp only [recombine] at h
    split at h
    · cases h
    · split at h
      · split at h
        · cases h
        · obtain ⟨pre, hp⟩ := collect_suffix h
          exact ⟨a :: pre, by rw [hp]; rfl⟩
      · cases h

/-- Complete PDUs lead from the queue `x` to the queue `y`. -/
inductive Cut (m : Nat) : List Bytes → List Bytes → Prop
  | refl (x) : Cut m x x
  | next {x y rest : List Bytes} {p : Bytes} {mps : Nat} : Cut m x y → m ≤ mps → recombine mps y = .done p rest → Cut m x rest

theorem Cut.append {m : Nat} {x y : List Bytes} (h : Cut m x y) (z : List Bytes) : Cut m (x ++ z) (y ++ z) := by
  induction h with
  | refl => exact .refl _
  | next _ hm hr ih => exact .next ih hm (recombine_done_append z hr)

/-- Why a reader fails: what it has not read yet starts with something that is no PDU (or an ATT PDU that is too long), or the queue was closed within a PDU. -/
def WhyFailed (m : Nat) (c : Conn) (pos : Nat) : Prop :=
  ∃ mps, m ≤ mps ∧ (recombine mps (c.rx.drop pos) = .fail ∨ (recombine mps (c.rx.drop pos) = .wait ∧ c.rx.drop pos ≠ [] ∧ c.rxClosed = true))

/-- The invariant about the reader of connection `i`. -/
def RInv (m : Nat) (i : Nat) (s : State) : Prop :=
  (s.base.conns.length ≤ i → s.rd i = {}) ∧
  ∀ c, s.base.conns[i]? = some c → (s.rd i).pos ≤ c.rx.length ∧ Cut m c.rx (c.rx.drop (s.rd i).pos) ∧ ((s.rd i).st = .failing → WhyFailed m c (s.rd i).pos)

/-- All readings of connection `i` allow PDUs of `m` bytes. -/
def ReadsAllow (m i : Nat) (es : List Ev) : Prop := ∀ mps, Ev.read i mps ∈ es → m ≤ mps

theorem rinv_grows {m i : Nat} {s : State} {b : Conns.State} (hs : RInv m i s) (hg : Grows s.base b) :
    RInv m i { s with base := b } := by
  constructor
  · intro hi
    refine hs.1 ?_
    apply Classical.byContradiction
    intro hlt
    obtain ⟨c', h1, -⟩ := hg i _ (List.getElem?_eq_getElem (Nat.lt_of_not_le hlt))
    have := (List.getElem?_eq_some_iff.1 h1).1
    simp only at hi
    omega
  · intro c hc
    by_cases hlt : i < s.base.conns.length
    · obtain ⟨c', h1, -, ⟨y, h3⟩, h4⟩ := hg i _ (List.getElem?_eq_getElem hlt)
      simp only at hc ⊢
      rw [hc] at h1; cases h1
      obtain ⟨g1, g2, g3⟩ := hs.2 _ (List.getElem?_eq_getElem hlt)
      have hd : (s.base.conns[i].rx ++ y).drop (s.rd i).pos = s.base.conns[i].rx.drop (s.rd i).pos ++ y := by
        rw [List.drop_append_of_le_length g1]
      refine ⟨by rw [h3, List.length_append]; omega, by rw [h3, hd]; exact g2.append y, ?_⟩
      intro hf
      obtain ⟨mps, k1, k2⟩ := g3 hf
      refine ⟨mps, k1, ?_⟩
      rcases k2 with k2 | ⟨k2, k3, k4⟩
      · left; rw [h3, hd]; exact recombine_fail_append y k2
      · right
        obtain ⟨k5, k6⟩ := h4 k4
        rw [k6]; exact ⟨k2, k3, k5⟩
    · have hle : s.base.conns.length ≤ i := by omega
      have hr := hs.1 hle
      simp only at hc ⊢
      rw [hr]
      exact ⟨by simp, .refl _, fun h => by cases h⟩

theorem setRd_ne (s : State) {i j : Nat} (r : Reader) (h : j ≠ i) : (setRd s i r).rd j = s.rd j := by simp [setRd, h]

theorem setRd_self (s : State) (i : Nat) (r : Reader) : (setRd s i r).rd i = r := by simp [setRd]

theorem rinv_setRd_ne {m i j : Nat} {s : State} (r : Reader) (h : i ≠ j) (hs : RInv m i s) : RInv m i (setRd s j r) := by
  unfold RInv
  rw [setRd_ne s r h]
  exact hs

theorem rinv_step {m i : Nat} {s s' : State} {e : Ev} (hs : RInv m i s) (hm : ∀ mps, e = .read i mps → m ≤ mps) (h : step s e = some s') : RInv m i s' := by
  cases e with
  | base e =>
    simp only [step] at h
    split at h
    · cases h
    · split at h
      · rename_i b hb
        cases h
        exact rinv_grows hs (grows_step hb)
      · cases h
  | read j mps =>
    simp only [step] at h
    split at h
    · cases h
    · rename_i c hc
      split at h
      · rename_i hrun
        by_cases hij : i = j
        · subst hij
          have hlt : i < s.base.conns.length := (List.getElem?_eq_some_iff.1 hc).1
          have hm' := hm mps rfl
          obtain ⟨g1, g2, g3⟩ := hs.2 c hc
          have mkr : ∀ r : Reader, r.pos ≤ c.rx.length → Cut m c.rx (c.rx.drop r.pos) → (r.st = .failing → WhyFailed m c r.pos) → RInv m i (setRd s i r) := by
            intro r h1 h2 h3
            refine ⟨fun hi => ?_, fun c' hc' => ?_⟩
            · simp only [setRd] at hi; omega
            · rw [setRd_self]
              rw [show (setRd s i r).base.conns[i]? = s.base.conns[i]? from rfl, hc] at hc'; cases hc'
              exact ⟨h1, h2, h3⟩
          split at h
          · rename_i p rest hr
            cases h
            obtain ⟨pre, hpre⟩ := recombine_suffix hr
            have hlen : (c.rx.drop (s.rd i).pos).length = pre.length + rest.length := by rw [hpre, List.length_append]
            rw [List.length_drop] at hlen
            have hdrop : c.rx.drop (c.rx.length - rest.length) = rest := by
              have : c.rx.length - rest.length = (s.rd i).pos + pre.length := by omega
              rw [this, ← List.drop_drop, hpre]; simp
            exact mkr _ (by simp) (by simp only; rw [hdrop]; exact .next g2 hm' hr) (fun h => by cases h)
          · rename_i hw
            split at h
            · rename_i hcl
              split at h
              · cases h
                exact mkr _ g1 g2 (fun h => by cases h)
              · rename_i hne
                cases h
                exact mkr _ g1 g2 fun _ => ⟨mps, hm', Or.inr ⟨hw, hne, hcl⟩⟩
            · cases h
          · rename_i hf
            cases h
            exact mkr _ g1 g2 fun _ => ⟨mps, hm', Or.inl hf⟩
          · cases h
        · split at h
          · cases h; exact rinv_setRd_ne _ hij hs
          · split at h
            · split at h <;> cases h <;> exact rinv_setRd_ne _ hij hs
            · cases h
          · cases h; exact rinv_setRd_ne _ hij hs
          · cases h
      · cases h
  | clean j =>
    simp only [step] at h
    split at h
    · cases h
    · rename_i c hc
      split at h
      · split at h
        · rename_i b hb
          cases h
          refine rinv_grows (s := setRd s j { s.rd j with st := .ended }) ?_ (grows_cleanup hb)
          by_cases hij : i = j
          · subst hij
            have hlt : i < s.base.conns.length := (List.getElem?_eq_some_iff.1 hc).1
            refine ⟨fun hi => ?_, fun c' hc' => ?_⟩
            · simp only [setRd] at hi; omega
            · rw [setRd_self]
              obtain ⟨g1, g2, g3⟩ := hs.2 c' hc'
              exact ⟨g1, g2, fun h => by cases h⟩
          · exact rinv_setRd_ne _ hij hs
        · cases h
      · cases h
  | stop j =>
    simp only [step] at h
    split at h
    · rename_i hcond
      cases h
      by_cases hij : i = j
      · subst hij
        refine ⟨fun hi => ?_, fun c' hc' => ?_⟩
        · simp only [setRd] at hi; omega
        · rw [setRd_self]
          obtain ⟨g1, g2, g3⟩ := hs.2 c' hc'
          exact ⟨g1, g2, fun h => by cases h⟩
      · exact rinv_setRd_ne _ hij hs
    · cases h

theorem rinv_run (m i : Nat) (smp handler : Bool) (scan : AdvHist.Scan) : ∀ es s, run (init smp handler scan) es = some s → ReadsAllow m i es → RInv m i s := by
  refine runT_ind (P := fun es s => ReadsAllow m i es → RInv m i s) ?_ ?_
  · intro _
    exact ⟨fun _ => rfl, fun c hc => by simp [init, Conns.init] at hc⟩
  · intro es s e s' _ ih he hall
    refine rinv_step (ih fun mps hmem => hall mps (by simp [hmem])) (fun mps he => hall mps (by simp [he])) he

theorem reachable_rinv {s : State} (h : Reachable s) (i : Nat) : RInv 0 i s := by
  obtain ⟨a, b, c, es, h⟩ := h
  exact rinv_run 0 i a b c es s h (fun _ _ => Nat.zero_le _)

/-! ## C188 -/

/-- C188. **Exactly why a connection can be closed**: `Disconnected()` of connection `j` fires only while `j` is the connection listed under its handle, and only because of a Disconnection Complete event for its handle, `Close` of a connection that has
or had its handle, the end of the HCI, data on this very connection that is no L2CAP PDU, or because the reading goroutine of an *older* connection with the same handle failed and only now cleans up. -/
theorem closed_only_if (s s' : State) (hs : Reachable s) (e : Ev) (he : step s e = some s') (j : Nat) (c c' : Conn) (hc : s.base.conns[j]? = some c) (hc' : s'.base.conns[j]? = some c')
    (hd : c.done = false) (hd' : c'.done = true) :
    s.base.table c.handle = some j ∧
    ((∃ p r, e = .base (.packet (evtPkt 0x05 p)) ∧ Field16 p 1 c.handle ∧ p[3]? = some r ∧ r ≠ 0x16) ∨
     (∃ k d, e = .base (.close k) ∧ s.base.conns[k]? = some d ∧ d.handle = c.handle ∧ k ≤ j) ∨
     e = .base (.cleanupHandle c.handle) ∨
     (e = .clean j ∧ ∃ mps pre bad, c.rx = pre ++ bad ∧ recombine mps bad = .fail) ∨
     (∃ k d, e = .clean k ∧ k < j ∧ s.base.conns[k]? = some d ∧ d.handle = c.handle ∧ (s.rd k).st = .failing)) := by
  have hr := reachable_conns hs
  have hlat := reachable_latest hs
  have hb := step_base he
  have one : ∀ x, project [e] = [x] → Conns.step s.base x = .ok s'.base := by
    intro x hx
    rw [hx] at hb
    simpa [Conns.run, Go.bind_eq_ok] using hb
  cases e with
  | base e =>
    obtain ⟨h1, h2⟩ := disconnected_only_if s.base s'.base hr e (one e rfl) j c c' hc hc' hd hd'
    refine ⟨h1, ?_⟩
    rcases h2 with ⟨p, r, rfl, h3⟩ | ⟨k, d, hk, h3, h4⟩ | h2
    · exact Or.inl ⟨p, r, rfl, h3⟩
    · rcases hk with rfl | rfl
      · exact Or.inr (Or.inl ⟨k, d, rfl, h3, h4, hlat _ _ h1 k d h3 h4⟩)
      · simp [step] at he
    · subst h2; exact Or.inr (Or.inr (Or.inl rfl))
  | read i mps =>
    rw [show project [Ev.read i mps] = [] from rfl] at hb
    have hb : s.base = s'.base := by simpa [Conns.run] using hb
    rw [← hb, hc] at hc'; cases hc'; rw [hd] at hd'; cases hd'
  | stop i =>
    rw [show project [Ev.stop i] = [] from rfl] at hb
    have hb : s.base = s'.base := by simpa [Conns.run] using hb
    rw [← hb, hc] at hc'; cases hc'; rw [hd] at hd'; cases hd'
  | clean i =>
    obtain ⟨h1, h2⟩ := disconnected_only_if s.base s'.base hr _ (one _ rfl) j c c' hc hc' hd hd'
    refine ⟨h1, ?_⟩
    rcases h2 with ⟨p, r, hx, -⟩ | ⟨k, d, hk, h3, h4⟩ | h2
    · cases hx
    · have hki : k = i := by rcases hk with hk | hk <;> cases hk; rfl
      subst hki
      have hf : (s.rd k).st = .failing := by
        simp only [step, h3] at he
        split at he
        · assumption
        · cases he
      have hle := hlat _ _ h1 k d h3 h4
      by_cases hkj : k = j
      · subst hkj
        rw [hc] at h3; cases h3
        obtain ⟨-, -, hw⟩ := (reachable_rinv hs k).2 c hc
        obtain ⟨mps, -, hw⟩ := hw hf
        rcases hw with hw | ⟨-, -, hw⟩
        · exact Or.inr (Or.inr (Or.inr (Or.inl ⟨rfl, mps, c.rx.take (s.rd k).pos, _, (List.take_append_drop _ _).symm, hw⟩)))
        · obtain ⟨c0, e1, -, -, e4⟩ := (reachable_inv hr).listed _ _ h1
          rw [hc] at e1; cases e1
          rw [e4] at hw; cases hw
      · exact Or.inr (Or.inr (Or.inr (Or.inr ⟨k, d, rfl, by omega, h3, h4, hf⟩)))
    · cases h2

/-- C188, the full statement: a connection is closed only because of itself: an event of the controller about it, `Close` called on it, the end of the HCI, or malformed data of its own peer. Proved: if no older connection with the same handle
has a reader that failed and has not cleaned up yet, and no `Close` of such a connection is in progress. **Missing, and false of the code**: `stale_reader_closes_new_connection`. -/
theorem closed_by_itself_partial (s s' : State) (hs : Reachable s) (e : Ev) (he : step s e = some s') (j : Nat) (c c' : Conn) (hc : s.base.conns[j]? = some c) (hc' : s'.base.conns[j]? = some c')
    (hd : c.done = false) (hd' : c'.done = true)
    (hold : ∀ k d, k < j → s.base.conns[k]? = some d → d.handle = c.handle → (s.rd k).st ≠ .failing ∧ e ≠ .base (.close k)) :
    (∃ p r, e = .base (.packet (evtPkt 0x05 p)) ∧ Field16 p 1 c.handle ∧ p[3]? = some r ∧ r ≠ 0x16) ∨
    e = .base (.close j) ∨ e = .base (.cleanupHandle c.handle) ∨
    (e = .clean j ∧ ∃ mps pre bad, c.rx = pre ++ bad ∧ recombine mps bad = .fail) := by
  obtain ⟨-, h⟩ := closed_only_if s s' hs e he j c c' hc hc' hd hd'
  rcases h with h | ⟨k, d, h1, h2, h3, h4⟩ | h | h | ⟨k, d, h1, h2, h3, h4, h5⟩
  · exact Or.inl h
  · by_cases hkj : k = j
    · subst hkj; exact Or.inr (Or.inl h1)
    · exact absurd h1 (hold k d (by omega) h2 h3).2
  · exact Or.inr (Or.inr (Or.inl h))
  · exact Or.inr (Or.inr (Or.inr h))
  · exact absurd h5 (hold k d h2 h3 h4).1

theorem cut_frames {m : Nat} {x y : List Bytes} (h : Cut m x y) (as : List Arrival) (ha : ∀ a ∈ as, a.ok m) (hx : x = as.flatMap (·.pkts)) :
    ∃ bs : List Arrival, (∀ a ∈ bs, a.ok m) ∧ y = bs.flatMap (·.pkts) := by
  subst hx
  induction h with
  | refl => exact ⟨as, ha, rfl⟩
  | next _ hm hr ih =>
    obtain ⟨bs, hb1, hb2⟩ := ih
    cases bs with
    | nil => rw [hb2] at hr; simp [recombine] at hr
    | cons a bs =>
      obtain ⟨h1, ⟨frags, h2, h3⟩, h4⟩ := hb1 a (by simp)
      have := recombine_returns_frame _ a.cid a.info a.p a.pkts (bs.flatMap (·.pkts)) frags h1 h2 h3 (fun hc => Nat.le_trans (h4 hc) hm)
      rw [hb2, List.flatMap_cons, this] at hr
      injection hr with e1 e2
      exact ⟨bs, fun a ha => hb1 a (by simp [ha]), e2.symm⟩

/-- C188. **A peer that sends whole L2CAP frames does no harm**: if what was received on a connection is a sequence of complete frames (fragmented in any way, ATT frames of at most the size allowed), its reading goroutine never fails, so it cleans up
nothing when the connection has ended. -/
theorem whole_frames_never_fail (smp handler : Bool) (scan : AdvHist.Scan) (es : List Ev) (s : State) (h : run (init smp handler scan) es = some s) (i m : Nat) (hm : ReadsAllow m i es)
    (c : Conn) (hc : s.base.conns[i]? = some c) (as : List Arrival) (ha : ∀ a ∈ as, a.ok m) (hrx : c.rx = as.flatMap (·.pkts)) : (s.rd i).st ≠ .failing := by
  intro hf
  obtain ⟨-, hcut, hw⟩ := (rinv_run m i smp handler scan es s h hm).2 c hc
  obtain ⟨mps, hmp, hw⟩ := hw hf
  obtain ⟨bs, hb1, hb2⟩ := cut_frames hcut as ha hrx
  cases bs with
  | nil =>
    rw [List.flatMap_nil] at hb2
    rcases hw with hw | ⟨-, hw, -⟩
    · rw [hb2] at hw; simp [recombine] at hw
    · exact hw hb2
  | cons a bs =>
    obtain ⟨h1, ⟨frags, h2, h3⟩, h4⟩ := hb1 a (by simp)
    have := recombine_returns_frame mps a.cid a.info a.p a.pkts (bs.flatMap (·.pkts)) frags h1 h2 h3 (fun hc => Nat.le_trans (h4 hc) hmp)
    rw [hb2, List.flatMap_cons, this] at hw
    rcases hw with hw | ⟨hw, -⟩ <;> cases hw

theorem wait_mid_frame (mps dlen cid : Nat) (h0 h1 l0 l1 : UInt8) (q : Bytes) (hdl : dlen < 65536) (hcid : cid < 65536) (hq : q.length < dlen) (hatt : cid = 4 → dlen ≤ mps) :
    recombine mps [h0 :: h1 :: l0 :: l1 :: (put16 dlen ++ put16 cid ++ q)] = .wait := by
  have e1 := le16_put16 dlen hdl
  have e2 := le16_put16 cid hcid
  have hd : pktData (h0 :: h1 :: l0 :: l1 :: (put16 dlen ++ put16 cid ++ q)) = some (put16 dlen ++ put16 cid ++ q) := by simp [pktData]
  have hl : pduLen (put16 dlen ++ put16 cid ++ q) = some dlen := by simp [pduLen, put16, e1]
  have hc : pduCid (put16 dlen ++ put16 cid ++ q) = some cid := by simp [pduCid, put16, e2]
  simp only [recombine, hd, hl, hc]
  rw [if_neg (by rintro ⟨a, b⟩; have := hatt a; omega)]
  rw [collect, if_pos (by simp [put16]; omega)]

theorem disconnect_exact {s : Conns.State} (hi : ConnInv s) (status reason : UInt8) (h : Nat) (hh : h < 65536) (hre : reason ≠ 0x16) {i : Nat} (ht : s.table h = some i) :
    Conns.packet s (disconnection status h reason) = .ok ({ s with table := fun x => if x = h then none else s.table x }.modify i
        fun c => { c with done := c.done || (s.isOpen || !c.slave), rxClosed := true }) := by
  have hp : handlePkt s.env (disconnection status h reason) = .ok ([.disconnect h], s.scan) := by
    unfold disconnection
    have hl : (status :: put16 h ++ [reason]).length < 256 := put16_len1 ..
    rw [handlePkt_evt _ _ _ hl]
    rw [show body s.env 0x05 (status :: put16 h ++ [reason]) = keep s.env (disconnectionComplete (status :: put16 h ++ [reason])) from rfl]
    simp only [disconnectionComplete, List.cons_append, field_put16 h hh]
    have : index (ε := Unit) (status :: (put16 h ++ [reason])) 3 = .ok reason := rfl
    simp only [Go.bind_ok, this, if_neg hre]
    rfl
  unfold Conns.packet
  rw [hp]
  simp only [effects, effect]
  rcases cleanup_spec (scan_inv hi s.scan) h with ⟨h0, -⟩ | ⟨j, d, hj, h1, h2⟩
  · rw [show s.table h = none from h0] at ht; cases ht
  · rw [show s.table h = some j from hj] at ht; cases ht
    rw [h2]; rfl

/-- C188. **A connection is closed because an earlier one ended within a PDU**: connection `i` has been read completely, then the first fragment of a longer PDU arrives, the peer disconnects, and another device connects and gets the same handle; now the
reading goroutine of `i` finds its queue closed within a PDU, takes this for an error and cleans up by handle: it is the new connection whose `Disconnected()` fires, though nothing has happened on it, and whose data and events are dropped from now on. -/
theorem stale_reader_closes_new_connection (s : State) (hs : Reachable s) (ho : s.base.isOpen = true) (i : Nat) (c : Conn) (hc : s.base.conns[i]? = some c) (hl : s.base.table c.handle = some i)
    (hh : c.handle < 4096) (hrun : (s.rd i).st = .running) (hall : (s.rd i).pos = c.rx.length)
    (l0 l1 : UInt8) (dlen cid mps : Nat) (q : Bytes) (hdl : dlen < 65536) (hcid : cid < 65536) (hq : q.length < dlen) (hatt : cid = 4 → dlen ≤ mps)
    (status reason : UInt8) (hre : reason ≠ 0x16) (role addrType : UInt8) (addr rest : Bytes) (hlen : addr.length + rest.length < 240) :
    ∃ s', run s [.base (.packet (aclPkt c.handle 2 (l0 :: l1 :: (put16 dlen ++ put16 cid ++ q)))), .base (.packet (disconnection status c.handle reason)),
        .base (.packet (leConnection 0 c.handle role addrType addr rest)), .read i mps, .clean i] = some s' ∧
      s'.base.table c.handle = none ∧ ∃ n, s'.base.conns[s.base.conns.length]? = some n ∧ n.rx = [] ∧ n.done = true := by
  have hr := reachable_conns hs
  have hlt : i < s.base.conns.length := (List.getElem?_eq_some_iff.1 hc).1
  -- the fragment
  obtain ⟨c0, a1, a2⟩ := (acl_reaches_connection s.base hr c.handle 2 hh (by omega) (l0 :: l1 :: (put16 dlen ++ put16 cid ++ q))).2 i hl
  rw [hc] at a1; cases a1
  generalize hpk : (aclPkt c.handle 2 (l0 :: l1 :: (put16 dlen ++ put16 cid ++ q))).drop 1 = pk at a2
  generalize hc1 : ({ c with rx := c.rx ++ [pk] } : Conn) = c1 at a2
  generalize hb1 : ({ s.base with conns := s.base.conns.set i c1 } : Conns.State) = b1 at a2
  have hr1 : ConnReachable b1 := step_reachable hr (e := .packet _) a2
  have t1 : b1.table c.handle = some i := by rw [← hb1]; exact hl
  have hci1 : b1.conns[i]? = some c1 := by rw [← hb1]; simp only; rw [List.getElem?_set_self hlt]
  have hlen1 : b1.conns.length = s.base.conns.length := by rw [← hb1]; simp
  have ho1 : b1.isOpen = true := by rw [← hb1]; exact ho
  have hh1 : c1.handle = c.handle := by rw [← hc1]
  -- the disconnection
  have d2 := disconnect_exact (reachable_inv hr1) status reason c.handle (by omega) hre t1
  generalize hb2 : ({ b1 with table := fun x => if x = c.handle then none else b1.table x } : Conns.State).modify i
        (fun c => { c with done := c.done || (b1.isOpen || !c.slave), rxClosed := true }) = b2 at d2
  have hr2 : ConnReachable b2 := step_reachable hr1 (e := .packet _) d2
  have hlen2 : b2.conns.length = s.base.conns.length := by rw [← hb2, modify_length]; exact hlen1
  have ho2 : b2.isOpen = true := by rw [← hb2, modify_open]; exact ho1
  obtain ⟨c2, d4, d5, d6, d7⟩ : ∃ c2, b2.conns[i]? = some c2 ∧ c2.rxClosed = true ∧ c2.rx = c.rx ++ [pk] ∧ c2.handle = c.handle := by
    refine ⟨{ c1 with done := c1.done || (b1.isOpen || !c1.slave), rxClosed := true }, ?_, rfl, by rw [← hc1], by rw [← hc1]⟩
    rw [← hb2, modify_conns_self, show ({ b1 with table := fun x => if x = c.handle then none else b1.table x } : Conns.State).conns[i]? = b1.conns[i]? from rfl, hci1]
    rfl
  -- the new connection
  have hp := connection_event_creates b2 0 role addrType c.handle (by omega) addr rest hlen
  rw [if_neg (by simp)] at hp
  generalize hn : ({ handle := c.handle, slave := role ≠ 0, smp := b2.smpEnabled } : Conn) = n at hp
  generalize hb3 : ({ b2 with
        conns := b2.conns ++ [n]
        table := fun x => if x = c.handle then some b2.conns.length else b2.table x } : Conns.State) = b3 at hp
  have hr3 : ConnReachable b3 := step_reachable hr2 (e := .packet _) hp
  have t3 : b3.table c.handle = some s.base.conns.length := by rw [← hb3, ← hlen2]; simp
  have ho3 : b3.isOpen = true := by rw [← hb3]; exact ho2
  have hci3 : b3.conns[i]? = some c2 := by
    rw [← hb3]; simp only
    rw [List.getElem?_append_left (by omega)]; exact d4
  have hcn3 : b3.conns[s.base.conns.length]? = some n := by
    rw [← hb3, ← hlen2]; simp
  -- the reader
  have hdrop : c2.rx.drop (s.rd i).pos = [pk] := by rw [d6, hall]; simp
  have hw : recombine mps (c2.rx.drop (s.rd i).pos) = .wait := by
    rw [hdrop, ← hpk]
    exact wait_mid_frame mps dlen cid _ _ l0 l1 q hdl hcid hq hatt
  rcases cleanup_spec (reachable_inv hr3) c.handle with ⟨h0, -⟩ | ⟨j, d, hj, h1, h2⟩
  · rw [h0] at t3; cases t3
  · rw [hj] at t3; cases t3
    rw [hcn3] at h1; cases h1
    have t4 : (({ b3 with table := fun x => if x = c.handle then none else b3.table x } : Conns.State).modify s.base.conns.length
        (fun c => { c with done := c.done || (b3.isOpen || !c.slave), rxClosed := true })).table c.handle = none := by simp [State.modify]
    have n4 : (({ b3 with table := fun x => if x = c.handle then none else b3.table x } : Conns.State).modify s.base.conns.length
        (fun c => { c with done := c.done || (b3.isOpen || !c.slave), rxClosed := true })).conns[s.base.conns.length]? = some { n with done := n.done || (b3.isOpen || !n.slave), rxClosed := true } := by
      rw [modify_conns_self, show ({ b3 with table := fun x => if x = c.handle then none else b3.table x } : Conns.State).conns[s.base.conns.length]? = b3.conns[s.base.conns.length]? from rfl, hcn3]
      rfl
    generalize ({ b3 with table := fun x => if x = c.handle then none else b3.table x } : Conns.State).modify s.base.conns.length
        (fun c => { c with done := c.done || (b3.isOpen || !c.slave), rxClosed := true }) = b4 at h2 t4 n4
    refine ⟨⟨b4, fun x => if x = i then { s.rd i with st := .ended } else s.rd x⟩, ?_, t4, _, n4, by rw [← hn], by rw [ho3]; simp⟩
    have s1 : step s (.base (.packet (aclPkt c.handle 2 (l0 :: l1 :: (put16 dlen ++ put16 cid ++ q))))) = some ⟨b1, s.rd⟩ := by
      simp only [step, Conns.step, a2]
    have s2 : step ⟨b1, s.rd⟩ (.base (.packet (disconnection status c.handle reason))) = some ⟨b2, s.rd⟩ := by
      simp only [step, Conns.step, d2]
    have s3 : step ⟨b2, s.rd⟩ (.base (.packet (leConnection 0 c.handle role addrType addr rest))) = some ⟨b3, s.rd⟩ := by
      simp only [step, Conns.step, hp]
    have s4 : step ⟨b3, s.rd⟩ (.read i mps) = some (setRd ⟨b3, s.rd⟩ i { s.rd i with st := .failing }) := by
      simp only [step, hci3, hrun, hw, d5, if_true]
      rw [if_neg (by rw [hdrop]; simp)]
    have s5 : step (setRd ⟨b3, s.rd⟩ i { s.rd i with st := .failing }) (.clean i) = some ⟨b4, fun x => if x = i then { s.rd i with st := .ended } else s.rd x⟩ := by
      have e1 : (setRd ⟨b3, s.rd⟩ i { s.rd i with st := .failing }).base = b3 := rfl
      simp only [step, e1, hci3, setRd_self, if_true, d7, h2]
      congr 1
      simp only [setRd, State.mk.injEq, true_and]
      funext x
      by_cases hx : x = i <;> simp [hx]
    simp only [run, runT, s1, s2, s3, s4, s5]

/-- The history of `stale_reader_closes_new_connection` from the start: a central is connected, sends the first fragment of a PDU of 30 bytes and disconnects; another one connects, and its connection is closed by the first one's reader. The second
history is one with whole frames: the reader ends and the new connection stays. -/
theorem stale_reader_example :
    (∃ s, run (init false false AdvHist.initial) [.base (.packet (leConnection 0 0x40 1 0 [1, 2, 3, 4, 5, 6] [0, 0, 0, 0, 0, 0, 0])), .base (.packet (aclPkt 0x40 2 [8, 0, 30, 0, 6, 0, 1, 2, 3, 4])),
      .base (.packet (disconnection 0 0x40 0x13)), .base (.packet (leConnection 0 0x40 1 0 [1, 2, 3, 4, 5, 7] [0, 0, 0, 0, 0, 0, 0])), .read 0 23, .clean 0] = some s ∧
      s.base.table 0x40 = none ∧ s.base.conns.map (·.done) = [true, true]) ∧
    (∃ s, run (init false false AdvHist.initial) [.base (.packet (leConnection 0 0x40 1 0 [1, 2, 3, 4, 5, 6] [0, 0, 0, 0, 0, 0, 0])), .base (.packet (aclPkt 0x40 2 [7, 0, 3, 0, 4, 0, 1, 2, 3])),
      .base (.packet (disconnection 0 0x40 0x13)), .base (.packet (leConnection 0 0x40 1 0 [1, 2, 3, 4, 5, 7] [0, 0, 0, 0, 0, 0, 0])), .read 0 23, .read 0 23] = some s ∧
      s.base.table 0x40 = some 1 ∧ s.base.conns.map (·.done) = [true, false] ∧ (s.rd 0).st = .ended) := by
  exact ⟨⟨_, rfl, rfl, rfl⟩, ⟨_, rfl, rfl, rfl, rfl⟩⟩

end Ble.Readers
