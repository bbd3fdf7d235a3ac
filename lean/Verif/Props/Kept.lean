import Verif.Props.Pipe
set_option autoImplicit false

/-!
# C182, C183: data a write handler keeps after it has returned

The data of a request is a part of the buffer the request was read into (server.go:160, 663-683): an application that keeps the slice looks at that memory later.
-/

namespace Ble.Pipe

open Ble.Att

variable {σ : Type}

/-- What an application that kept the bytes of the request in buffer `b`, `n` of them, sees in them in state `s`. -/
def St.kept (s : St σ) (b n : Nat) : Bytes := (s.mem b).take n

namespace KeptAux
open PipeAux

/-- Buffer `b` has been handed to the handler, and the reader will not get it before it has handed over another request. -/
def Safe (b : Nat) (s : St σ) : Prop :=
  rdBuf s.rd ≠ some b ∧ (hdBuf s.hd = some b ∨ s.pool.head? ≠ some b ∨ rdBuf s.rd ≠ none ∨ s.rd = .done)

theorem two_bufs {s0 : Server σ} {s : St σ} (i : Inv s0 s) (hc : s.crashed = false) (hrd : s.rd = .start ∨ s.rd = .swap) {b : Nat} (hb : hdBuf s.hd = some b) : ∃ c, c ≠ b ∧ s.pool = [c] := by
  have h1 := i.bufs hc b
  have h2 := i.room hc
  have h3 : rdBuf s.rd = none := by rcases hrd with h | h <;> rw [h] <;> rfl
  have h4 : s.rd ≠ .done := by rcases hrd with h | h <;> rw [h] <;> simp
  rw [h3, hb] at h1 h2
  rw [if_neg h4] at h2
  simp only [if_true, Option.isSome_none, Bool.false_eq_true, if_false, Option.isSome_some, reduceCtorEq] at h1 h2
  match hp : s.pool, h2 with
  | [c], _ =>
    refine ⟨c, ?_, rfl⟩
    rintro rfl
    rw [hp] at h1
    simp only [List.count_cons_self, List.count_nil] at h1
    split at h1 <;> omega
  | [], h => simp at h
  | _ :: _ :: _, h => simp at h

/-- What stays true until the next request is handed over. -/
structure Keeps (s0 : Server σ) (b : Nat) (m : Bytes) (l : Nat) (n : Nat) (s : St σ) : Prop where
  inv : Inv s0 s
  more : n ≤ s.seen.length
  same : s.seen.length = n → s.mem b = m ∧ s.len b = l ∧ (s.crashed = false → rdBuf s.rd ≠ some b ∧ (hdBuf s.hd = some b ∨ ((s.rd = .start ∨ s.rd = .swap) → ∃ c r, c ≠ b ∧ s.pool = c :: r)))

theorem keeps_step {s0 : Server σ} {b l n : Nat} {m : Bytes} {s s' : St σ} {e : Ev} (k : Keeps s0 b m l n s) (h : step s e = some s') : Keeps s0 b m l n s' := by
  have hi := inv_step k.inv h
  have hi0 := k.inv
  obtain ⟨_, hmore, hsame⟩ := k
  refine ⟨hi, ?_, ?_⟩
  · cases e <;> simp only [step] at h <;> (repeat' split at h) <;> simp only [Option.some.injEq, reduceCtorEq] at h <;> subst h <;> simp only [List.length_append, List.length_singleton] <;> omega
  · intro hn
    cases e with
    | arrive p =>
      simp only [step] at h
      split at h <;> simp only [Option.some.injEq, reduceCtorEq] at h
      subst h; exact hsame hn
    | down => simp only [step, Option.some.injEq] at h; subst h; exact hsame hn
    | getBuf =>
      cases hc : s.crashed with
      | true =>
        have := (hi0.dead hc).2.1
        simp [step, this] at h
      | false =>
        have key : (s.rd = .start ∨ s.rd = .swap) → ∀ c r, s.pool = c :: r → s' = { s with rd := .hold c, pool := r } →
            s'.mem b = m ∧ s'.len b = l ∧ (s'.crashed = false → rdBuf s'.rd ≠ some b ∧ (hdBuf s'.hd = some b ∨ ((s'.rd = .start ∨ s'.rd = .swap) → ∃ c r, c ≠ b ∧ s'.pool = c :: r))) := by
          intro hrd c r hp he
          subst he
          obtain ⟨h1, h2, h3⟩ := hsame hn
          obtain ⟨_, h4⟩ := h3 hc
          have hcb : c ≠ b := by
            rcases h4 with h4 | h4
            · obtain ⟨d, hd, hpd⟩ := two_bufs hi0 hc hrd h4
              rw [hp] at hpd
              simp only [List.cons.injEq] at hpd
              rw [hpd.1]; exact hd
            · obtain ⟨d, r', hd, hpd⟩ := h4 hrd
              rw [hp] at hpd
              simp only [List.cons.injEq] at hpd
              rw [hpd.1]; exact hd
          refine ⟨h1, h2, fun _ => ⟨?_, Or.inr (by simp)⟩⟩
          simp only [rdBuf]
          intro hx
          exact hcb (by simpa using hx)
        simp only [step] at h
        split at h
        · rename_i c r hrd hp
          simp only [Option.some.injEq] at h
          exact key (Or.inl hrd) c r hp h.symm
        · rename_i c r hrd hp
          simp only [Option.some.injEq] at h
          exact key (Or.inr hrd) c r hp h.symm
        · simp at h
    | read =>
      have hseen : s'.seen = s.seen := by
        simp only [step] at h
        split at h
        · (repeat' split at h) <;> simp only [Option.some.injEq] at h <;> subst h <;> rfl
        · simp at h
      obtain ⟨h1, h2, h3⟩ := hsame (by rw [← hseen]; exact hn)
      simp only [step] at h
      split at h
      · rename_i x p r hrd hq
        cases hc : s.crashed with
        | true => have := (hi0.dead hc).2.1; rw [hrd] at this; simp at this
        | false =>
        obtain ⟨h4, h5⟩ := h3 hc
        rw [hrd] at h4
        have hx : b ≠ x := by intro hx; apply h4; rw [hx]; rfl
        have hb1 : (fun i => if i = x then p ++ (s.mem x).drop p.length else s.mem i) b = m := by simp only [hx, if_false]; exact h1
        have hb2 : (fun i => if i = x then p.length else s.len i) b = l := by simp only [hx, if_false]; exact h2
        have hxb : rdBuf (Rd.hold x) ≠ some b := h4
        have hxo : rdBuf (Rd.offer x) ≠ some b := h4
        by_cases hp0 : p.length = 0
        · rw [if_pos hp0] at h
          simp only [Option.some.injEq] at h
          subst h
          exact ⟨hb1, h2, fun _ => ⟨by simp [rdBuf], h5.imp id (fun _ => by simp)⟩⟩
        · rw [if_neg hp0] at h
          simp only [if_true] at h
          by_cases hcf : (p ++ (s.mem x).drop p.length).head? = some 0x1E
          · rw [if_pos hcf] at h
            cases hh : s.hd with
            | indicating c =>
              rw [hh] at h h5
              simp only [Option.some.injEq] at h
              subst h
              refine ⟨hb1, h2, fun _ => ⟨?_, ?_⟩⟩
              · show rdBuf s.rd ≠ some b
                rw [hrd]; exact hxb
              · exact h5
            | idle => rw [hh] at h h5; simp only [Option.some.injEq] at h; subst h; exact ⟨hb1, h2, fun _ => ⟨by (show rdBuf s.rd ≠ some b; rw [hrd]; exact hxb), h5⟩⟩
            | handling c => rw [hh] at h h5; simp only [Option.some.injEq] at h; subst h; exact ⟨hb1, h2, fun _ => ⟨by (show rdBuf s.rd ≠ some b; rw [hrd]; exact hxb), h5⟩⟩
            | giving c => rw [hh] at h h5; simp only [Option.some.injEq] at h; subst h; exact ⟨hb1, h2, fun _ => ⟨by (show rdBuf s.rd ≠ some b; rw [hrd]; exact hxb), h5⟩⟩
            | ended => rw [hh] at h h5; simp only [Option.some.injEq] at h; subst h; exact ⟨hb1, h2, fun _ => ⟨by (show rdBuf s.rd ≠ some b; rw [hrd]; exact hxb), h5⟩⟩
          · rw [if_neg hcf] at h
            simp only [Option.some.injEq] at h
            subst h
            exact ⟨hb1, hb2, fun _ => ⟨hxo, h5.imp id (fun _ => by simp)⟩⟩
      · simp at h
    | readErr =>
      simp only [step] at h
      (repeat' split at h) <;> simp only [Option.some.injEq, reduceCtorEq] at h
      subst h
      obtain ⟨h1, h2, h3⟩ := hsame hn
      exact ⟨h1, h2, fun hc => ⟨by simp [rdBuf], (h3 hc).2.imp id (fun _ => by simp)⟩⟩
    | hand =>
      simp only [step] at h
      (repeat' split at h) <;> simp only [Option.some.injEq, reduceCtorEq] at h
      subst h
      simp only [List.length_append, List.length_singleton] at hn
      omega
    | indicate =>
      simp only [step] at h
      split at h <;> simp only [Option.some.injEq, reduceCtorEq] at h
      rename_i hh
      subst h
      obtain ⟨h1, h2, h3⟩ := hsame hn
      rw [hh] at h3
      exact ⟨h1, h2, h3⟩
    | timeout =>
      simp only [step] at h
      split at h <;> simp only [Option.some.injEq, reduceCtorEq] at h
      rename_i hh
      subst h
      obtain ⟨h1, h2, h3⟩ := hsame hn
      rw [hh] at h3
      exact ⟨h1, h2, h3⟩
    | indClosed =>
      simp only [step] at h
      split at h <;> simp only [Option.some.injEq, reduceCtorEq] at h
      rename_i hh _
      subst h
      obtain ⟨h1, h2, h3⟩ := hsame hn
      rw [hh] at h3
      exact ⟨h1, h2, h3⟩
    | finish =>
      simp only [step] at h
      split at h
      · rename_i x hh
        split at h <;> simp only [Option.some.injEq] at h
        · subst h
          obtain ⟨h1, h2, h3⟩ := hsame hn
          rw [hh] at h3
          exact ⟨h1, h2, h3⟩
        · subst h
          obtain ⟨h1, h2, h3⟩ := hsame hn
          exact ⟨h1, h2, fun hc => by simp at hc⟩
      · simp at h
    | give =>
      simp only [step] at h
      split at h
      · rename_i x hh
        split at h <;> simp only [Option.some.injEq, reduceCtorEq] at h
        subst h
        obtain ⟨h1, h2, h3⟩ := hsame hn
        refine ⟨h1, h2, fun hc => ⟨(h3 hc).1, Or.inr fun hrd => ?_⟩⟩
        rcases (h3 hc).2 with h5 | h5
        · obtain ⟨c, hcb, hp⟩ := two_bufs hi0 hc hrd h5
          exact ⟨c, [x], hcb, by rw [hp]; rfl⟩
        · obtain ⟨c, r, hcb, hp⟩ := h5 hrd
          exact ⟨c, r ++ [x], hcb, by rw [hp]; rfl⟩
      · simp at h
    | stop =>
      simp only [step] at h
      split at h <;> simp only [Option.some.injEq, reduceCtorEq] at h
      rename_i hh hr
      subst h
      obtain ⟨h1, h2, h3⟩ := hsame hn
      refine ⟨h1, h2, fun hc => ⟨(h3 hc).1, Or.inr ?_⟩⟩
      rw [hr]; simp

end KeptAux

open KeptAux PipeAux

/-- C183: data a write handler has been given stays the same, in every schedule, until the server hands the next request to a handler. -/
theorem kept_until_next (s0 : Server σ) (es : List Ev) (s : St σ) (h : runT step (init s0) es = some s) (b : Nat) (hb : s.hd = .handling b ∨ s.hd = .indicating b) (fs : List Ev) (s' : St σ) (h' : runT step s fs = some s')
    (hn : s'.seen = s.seen) : s'.kept b (s.len b) = s.slice b := by
  have i := PipeAux.inv_run h
  have hbuf : hdBuf s.hd = some b := by rcases hb with hb | hb <;> rw [hb] <;> rfl
  have k0 : Keeps s0 b (s.mem b) (s.len b) s.seen.length s := by
    refine ⟨i, Nat.le_refl _, fun _ => ⟨rfl, rfl, fun _ => ⟨?_, Or.inl hbuf⟩⟩⟩
    have := pipe_buffer_stable s0 es s h b hb
    intro hr
    cases hh : s.rd <;> rw [hh] at hr <;> simp only [rdBuf, Option.some.injEq, reduceCtorEq] at hr
    · exact this.2.1 (by rw [hh, hr])
    · exact this.2.2.1 (by rw [hh, hr])
  have k := runT_ind (step := step) (s0 := s) (P := fun _ t => Keeps s0 b (s.mem b) (s.len b) s.seen.length t) k0 (fun _ _ _ _ _ hp hs => keeps_step hp hs) fs s' h'
  have := (k.same (by rw [hn])).1
  simp only [St.kept, St.slice, this]

/-- C182, the full statement: data a write handler has been given stays the same for as long as the application keeps it. Proved: it does, in every schedule, until the server handles the next request. **Missing, and false of the code**: afterwards it is
overwritten by what arrives, see `kept_overwritten`. -/
theorem kept_data_partial (s0 : Server σ) (es : List Ev) (s : St σ) (h : runT step (init s0) es = some s) (b : Nat) (hb : s.hd = .handling b ∨ s.hd = .indicating b) (fs : List Ev) (s' : St σ) (h' : runT step s fs = some s')
    (hn : s'.seen = s.seen) : s'.kept b (s.len b) = s.slice b := kept_until_next s0 es s h b hb fs s' h' hn

/-- C182. **Kept data is overwritten**: the application keeps the data of a request; while the next request is being handled, the PDU after it is read over the data. For any three requests that do not crash the server, on any server. -/
theorem kept_overwritten (s0 : Server σ) (p q r : Bytes) (hp : 0 < p.length ∧ p.length ≤ 515 ∧ p.head? ≠ some 0x1E) (hq : 0 < q.length ∧ q.length ≤ 515 ∧ q.head? ≠ some 0x1E) (hr : 0 < r.length ∧ r.length ≤ 515 ∧ r.head? ≠ some 0x1E)
    (hok : ∃ x, loopStep s0 p = .ok x) :
    ∃ s s', runT step (init s0) [.arrive p, .arrive q, .arrive r, .getBuf, .read, .hand] = some s ∧ s.hd = .handling 0 ∧ s.kept 0 (s.len 0) = p ∧
      runT step s [.finish, .give, .getBuf, .read, .hand, .getBuf, .read] = some s' ∧ s'.crashed = false ∧ s'.kept 0 p.length = (r ++ p.drop r.length).take p.length := by
  obtain ⟨⟨srv', out⟩, hok⟩ := hok
  match p, q, r with
  | [], _, _ => simp at hp
  | _ :: _, [], _ => simp at hq
  | _ :: _, _ :: _, [] => simp at hr
  | a :: p, c :: q, d :: r =>
  have hp2 : p.length + 1 ≤ 515 := hp.2.1
  have hq2 : q.length + 1 ≤ 515 := hq.2.1
  have hr2 : r.length + 1 ≤ 515 := hr.2.1
  have ha : a ≠ 0x1E := fun h => hp.2.2 (by rw [h]; rfl)
  have hc : c ≠ 0x1E := fun h => hq.2.2 (by rw [h]; rfl)
  have hd : d ≠ 0x1E := fun h => hr.2.2 (by rw [h]; rfl)
  generalize hz : List.replicate 515 (0 : UInt8) = z
  have hs1 : runT step (init s0) [.arrive (a :: p), .arrive (c :: q), .arrive (d :: r), .getBuf, .read, .hand] = some { srv := s0, mem := fun i => if i = 0 then a :: p ++ z.drop (p.length + 1) else z, len := fun i => if i = 0 then p.length + 1 else 0, pool := [1], rd := .swap, hd := .handling 0, inq := [c :: q, d :: r], recv := [a :: p, c :: q, d :: r], seen := [a :: p] } := by
    simp [runT, step, init, hp2, hq2, hr2, hz, ha, St.slice]
  obtain ⟨s', h1, h2, h3⟩ : ∃ s', runT step { srv := s0, mem := fun i => if i = 0 then a :: p ++ z.drop (p.length + 1) else z, len := fun i => if i = 0 then p.length + 1 else 0, pool := [1], rd := .swap, hd := .handling 0, inq := [c :: q, d :: r], recv := [a :: p, c :: q, d :: r], seen := [a :: p] }
      [.finish, .give, .getBuf, .read, .hand, .getBuf, .read] = some s' ∧ s'.crashed = false ∧ s'.kept 0 (a :: p).length = (d :: r ++ (a :: p).drop (d :: r).length).take (a :: p).length := by
    refine ⟨_, by (simp [runT, step, St.slice, hok, hc, hd]; rfl), rfl, ?_⟩
    simp [St.kept, List.drop_append, List.take_append]
    rw [List.take_of_length_le (by simp)]
  exact ⟨_, s', hs1, rfl, by simp [St.kept], h1, h2, h3⟩

set_option maxRecDepth 100000 in
/-- The hypotheses of `kept_until_next` are met: the handler has returned and a further PDU has been read, but not handed over. -/
theorem kept_example : ∃ s s', runT step (init bare) [.arrive [0x12, 1, 0, 7, 8], .arrive [0x0A, 1, 0], .getBuf, .read, .hand] = some s ∧ s.hd = .handling 0 ∧ runT step s [.finish, .give, .getBuf, .read] = some s' ∧ s'.seen = s.seen ∧
    s'.kept 0 (s.len 0) = [0x12, 1, 0, 7, 8] := ⟨_, _, rfl, rfl, rfl, rfl, rfl⟩

end Ble.Pipe
