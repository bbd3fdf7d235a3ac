import Verif.Att.ExecBuf
set_option autoImplicit false

/-!
# C185: data of a queued write that a handler keeps
-/

namespace Ble.ExecBuf

open Ble.Queue (handle prepared)

/-- What has been prepared after these PDUs (the specification of C155, which holds of the server). -/
def queueAfter (w : Nat → Bool) (bs : List Bytes) : Option (Nat × Bytes) := bs.foldl (prepared w) none

namespace Aux

/-- Slices given away and the buffer itself lie within their arrays. -/
structure Inv (w : Nat → Bool) (m : Mem) (q : Option (Nat × Bytes)) : Prop where
  fits : m.len ≤ (m.arrs m.arr).length
  old : m.arr < m.next
  same : m.pending = q.isSome
  data : ∀ p, q = some p → m.bytes (m.arr, m.len) = p.2
  given : ∀ x ∈ m.given, x.1 < m.next ∧ x.2 ≤ (m.arrs x.1).length

theorem write_inv (g : Nat → Nat → Nat) (m : Mem) (p : Bytes) (hf : m.len ≤ (m.arrs m.arr).length) (ho : m.arr < m.next) (hg : ∀ x ∈ m.given, x.1 < m.next ∧ x.2 ≤ (m.arrs x.1).length) :
    (write g m p).len ≤ ((write g m p).arrs (write g m p).arr).length ∧ (write g m p).arr < (write g m p).next ∧ (write g m p).pending = m.pending ∧ (write g m p).given = m.given ∧
    (write g m p).bytes ((write g m p).arr, (write g m p).len) = m.bytes (m.arr, m.len) ++ p ∧ (∀ x ∈ (write g m p).given, x.1 < (write g m p).next ∧ x.2 ≤ ((write g m p).arrs x.1).length) := by
  unfold write
  split
  · rename_i h
    refine ⟨?_, ho, rfl, rfl, ?_, ?_⟩
    · simp only [if_true, List.length_append, List.length_take, List.length_drop]; omega
    · simp only [Mem.bytes, if_true]
      rw [List.take_append_of_le_length (by simp only [List.length_append, List.length_take]; omega), List.take_of_length_le (by simp only [List.length_append, List.length_take]; omega)]
    · intro x hx
      obtain ⟨h1, h2⟩ := hg x hx
      refine ⟨h1, ?_⟩
      simp only []
      split
      · rename_i e
        simp only [List.length_append, List.length_take, List.length_drop]
        rw [e] at h2 ⊢
        omega
      · exact h2
  · rename_i h
    refine ⟨?_, Nat.lt_succ_self _, rfl, rfl, ?_, ?_⟩
    · simp only [if_true, List.length_append, List.length_take, List.length_replicate]; omega
    · simp only [Mem.bytes, if_true]
      rw [List.take_append_of_le_length (by simp only [List.length_append, List.length_take]; omega), List.take_of_length_le (by simp only [List.length_append, List.length_take]; omega)]
    · intro x hx
      obtain ⟨h1, h2⟩ := hg x hx
      refine ⟨Nat.lt_succ_of_lt h1, ?_⟩
      simp only []
      rw [if_neg (by omega)]
      exact h2

theorem inv_step {g : Nat → Nat → Nat} {w : Nat → Bool} {m : Mem} {q : Option (Nat × Bytes)} (i : Inv w m q) (b : Bytes) : Inv w (step g w m b) (prepared w q b) := by
  unfold step
  split
  · rename_i lo hi o1 o2 v
    simp only [prepared]
    by_cases hw : w (handle lo hi) = true
    · simp only [hw, if_true]
      cases hq : q with
      | some p =>
        have hp : m.pending = true := by rw [i.same, hq]; rfl
        rw [if_pos hp]
        obtain ⟨h1, h2, h3, h4, h5, h6⟩ := write_inv g m v i.fits i.old i.given
        refine ⟨h1, h2, by rw [h3, hp]; rfl, ?_, h6⟩
        intro p' hp'
        cases hp'
        rw [h5, i.data p hq]
      | none =>
        have hp : m.pending = false := by rw [i.same, hq]; rfl
        rw [if_neg (by rw [hp]; simp)]
        obtain ⟨h1, h2, h3, h4, h5, h6⟩ := write_inv g { m with pending := true, len := 0 } v (Nat.zero_le _) i.old i.given
        refine ⟨h1, h2, by rw [h3]; rfl, ?_, h6⟩
        intro p' hp'
        cases hp'
        rw [h5]; simp [Mem.bytes]
    · simp only [Bool.not_eq_true] at hw
      simp only [hw, Bool.false_eq_true, if_false]
      exact i
  · exact ⟨i.fits, i.old, rfl, fun p hp => (nomatch hp), i.given⟩
  · split
    · refine ⟨i.fits, i.old, rfl, fun p hp => (nomatch hp), ?_⟩
      intro x hx
      rcases List.mem_append.1 hx with hx | hx
      · exact i.given x hx
      · simp only [List.mem_singleton] at hx
        subst hx
        exact ⟨i.old, i.fits⟩
    · rename_i hp
      exact ⟨i.fits, i.old, (by simpa using hp : m.pending = false), fun p hp => (nomatch hp), i.given⟩
  · rename_i h1 h2 h3
    have : prepared w q b = q := by
      unfold prepared
      split
      · exact absurd rfl (h1 _ _ _ _ _)
      · exact absurd rfl (h2 _)
      · exact absurd rfl (h3 _)
      · rfl
    rw [this]
    exact i

theorem inv_run {g : Nat → Nat → Nat} {w : Nat → Bool} (bs : List Bytes) : Inv w (run g w {} bs) (queueAfter w bs) := by
  suffices ∀ (bs : List Bytes) (m : Mem) (q : Option (Nat × Bytes)), Inv w m q → Inv w (run g w m bs) (bs.foldl (prepared w) q) from
    this bs {} none ⟨Nat.le_refl _, Nat.zero_lt_one, rfl, fun p hp => (nomatch hp), fun x hx => (nomatch hx)⟩
  intro bs
  induction bs with
  | nil => intro m q i; exact i
  | cons b bs ih => intro m q i; exact ih _ _ (inv_step i b)

theorem run_append {g : Nat → Nat → Nat} {w : Nat → Bool} {m : Mem} {a b : List Bytes} : run g w m (a ++ b) = run g w (run g w m a) b := by simp [run]

/-- No PDU but an accepted Prepare Write touches the memory. -/
theorem step_arrs {g : Nat → Nat → Nat} {w : Nat → Bool} {m : Mem} {b : Bytes} (hb : b.head? ≠ some 0x16) : (step g w m b).arrs = m.arrs := by
  unfold step
  split
  · simp at hb
  · rfl
  · split <;> rfl
  · rfl

theorem run_arrs {g : Nat → Nat → Nat} {w : Nat → Bool} (bs : List Bytes) (m : Mem) (hb : ∀ b ∈ bs, b.head? ≠ some 0x16) : (run g w m bs).arrs = m.arrs := by
  induction bs generalizing m with
  | nil => rfl
  | cons b bs ih =>
    simp only [run, List.foldl_cons]
    have := ih (step g w m b) (fun c hc => hb c (List.mem_cons_of_mem _ hc))
    simp only [run] at this
    rw [this, step_arrs (hb b List.mem_cons_self)]

end Aux

open Aux

/-- C185. **What the handler gets on Execute Write**: after any PDUs, an Execute Write hands over the memory of the queue if something is prepared, and that memory then has exactly the bytes that were prepared. -/
theorem execute_gives (g : Nat → Nat → Nat) (w : Nat → Bool) (bs : List Bytes) (t : Bytes) :
    let m := run g w {} bs
    let m' := run g w {} (bs ++ [0x18 :: 0x01 :: t])
    match queueAfter w bs with
    | some p => m'.given = m.given ++ [(m.arr, m.len)] ∧ m'.bytes (m.arr, m.len) = p.2
    | none => m'.given = m.given := by
  have i := inv_run (g := g) (w := w) bs
  simp only [run_append]
  generalize run g w {} bs = m at i
  cases hq : queueAfter w bs with
  | none =>
    have hp : m.pending = false := by rw [i.same, hq]; rfl
    simp only [run, List.foldl_cons, List.foldl_nil, step, hp, Bool.false_eq_true, if_false]
  | some p =>
    have hp : m.pending = true := by rw [i.same, hq]; rfl
    simp only [run, List.foldl_cons, List.foldl_nil, step, hp, if_true]
    exact ⟨trivial, i.data p hq⟩

/-- C185. **It stays the same until the next Prepare Write**: whatever else the peer sends, for any number of PDUs. -/
theorem execute_kept (g : Nat → Nat → Nat) (w : Nat → Bool) (bs cs : List Bytes) (hc : ∀ b ∈ cs, b.head? ≠ some 0x16) (x : Nat × Nat) (_hx : x ∈ (run g w {} bs).given) :
    (run g w {} (bs ++ cs)).bytes x = (run g w {} bs).bytes x := by
  rw [run_append]
  simp only [Mem.bytes, run_arrs cs _ hc]

/-- C182. **A later Prepare Write overwrites it**: data given to a handler by an Execute Write, and then a write of no more bytes is prepared. The kept slice then has the new bytes in front. For every history in which this was the last array used. -/
theorem execute_overwritten (g : Nat → Nat → Nat) (w : Nat → Bool) (bs : List Bytes) (t : Bytes) (p : Nat × Bytes) (hq : queueAfter w bs = some p) (lo hi o1 o2 : UInt8) (hw : w (handle lo hi) = true) (v : Bytes)
    (hv : v.length ≤ p.2.length) :
    let x := ((run g w {} bs).arr, (run g w {} bs).len)
    (run g w {} (bs ++ [0x18 :: 0x01 :: t])).bytes x = p.2 ∧
    (run g w {} (bs ++ [0x18 :: 0x01 :: t] ++ [0x16 :: lo :: hi :: o1 :: o2 :: v])).bytes x = v ++ p.2.drop v.length := by
  have i := inv_run (g := g) (w := w) bs
  have hg := execute_gives g w bs t
  rw [hq] at hg
  refine ⟨hg.2, ?_⟩
  rw [run_append, run_append]
  generalize run g w {} bs = m at i
  have hp : m.pending = true := by rw [i.same, hq]; rfl
  have hd := i.data p hq
  have hlen : p.2.length = m.len := by
    rw [← hd]; simp only [Mem.bytes, List.length_take]; have := i.fits; omega
  simp only [run, List.foldl_cons, List.foldl_nil, step, hp, if_true, hw, Bool.false_eq_true, if_false, write]
  have hf := i.fits
  rw [if_pos (by omega)]
  simp only [Mem.bytes, if_true, List.take_zero, List.nil_append, Nat.zero_add]
  simp only [Mem.bytes] at hd
  rw [List.take_append, List.take_of_length_le (by omega), ← hd, List.drop_take]

/-- The hypotheses are met: two values are prepared and executed, and kept; other requests do not harm them; the next prepared value does. -/
theorem execbuf_example :
    let w : Nat → Bool := fun h => h = 3
    let bs : List Bytes := [[0x16, 3, 0, 0, 0, 7], [0x16, 3, 0, 1, 0, 8, 9]]
    queueAfter w bs = some (3, [7, 8, 9]) ∧ (run (fun _ _ => 0) w {} (bs ++ [[0x18, 1]])).given = [(2, 3)] ∧
    (run (fun _ _ => 0) w {} (bs ++ [[0x18, 1]] ++ [[0x12, 3, 0, 5], [0x18, 0]])).bytes (2, 3) = [7, 8, 9] ∧
    (run (fun _ _ => 0) w {} (bs ++ [[0x18, 1]] ++ [[0x16, 3, 0, 0, 0, 5]])).bytes (2, 3) = [5, 8, 9] := ⟨rfl, rfl, rfl, rfl⟩

end Ble.ExecBuf
