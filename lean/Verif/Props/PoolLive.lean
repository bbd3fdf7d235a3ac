import Verif.Props.Pool
set_option autoImplicit false

/-!
# C202: disconnections while data are written

The model is that of C30 and C80 (Hci/Pool.lean): `lock` is the write that has the pool of buffers, `cleaning` the clean-up of a connection, which has the connection table and needs the pool. As long as it waits, the goroutine that
handles the controller's packets waits too: at its own clean-up, or, if `Close` has made it, at the next packet that needs the table.
-/

namespace Ble.PoolLive

open Ble.Pool

/-! ## Specification -/

/-- A write has the pool, waits for a buffer, and there is none; and a clean-up waits for the pool. -/
def Hung (s : St) : Prop := s.free = [] ∧ (∃ w, s.lock = some w ∧ 0 < w.left ∧ w.hasBuf = false) ∧ s.cleaning ≠ none

/-- The steps of the write that has the pool, and of the clean-up. -/
def Own : Act → Bool
  | .wGet _ | .wXmit _ | .wStop _ | .wFail _ | .cleanupEnd => true
  | _ => false

/-- Writes fail only because their connection is closed, not because of the socket. -/
def Orderly : St → List Act → Prop
  | _, [] => True
  | s, a :: as => (∀ c, a = .wFail c → s.closed c = true) ∧ ∀ s', step s a = some s' → Orderly s' as

/-- The buffers that are free are enough for the write in progress: for all that is left of it, or, if its connection is closed, for one fragment (after which it looks). -/
def Enough (s : St) : Prop :=
  match s.lock with
  | none => True
  | some w => if s.closed w.conn = true then w.left = 0 ∨ w.hasBuf = true ∨ s.free ≠ [] else w.left ≤ s.free.length + (if w.hasBuf then 1 else 0)

/-- The number of steps that a write and a clean-up can have left. -/
def work (s : St) : Nat :=
  (match s.lock with
   | none => 0
   | some w => if w.hasBuf then (if w.left = 0 then 2 else 2 * w.left) else 2 * w.left + 1) + (if s.cleaning = none then 0 else 1)

/-! ## Steps -/

theorem hung_step {s s' : St} {a : Act} (h : Hung s) (hs : step s a = some s') : Hung s' ∧ s'.lock = s.lock ∧ s'.cleaning = s.cleaning ∧ s'.conns = s.conns ∧ s'.sent = s.sent := by
  obtain ⟨hf, ⟨w, hl, hw1, hw2⟩, hc⟩ := h
  cases a <;> simp only [step, hl, hf, hc] at hs
  case connect => simp at hs
  case wStart => simp at hs
  case wGet => cases hs
  case wXmit => simp [hw2] at hs
  case wStop =>
    split at hs
    · next hh => omega
    · cases hs
  case wFail => simp [hw2] at hs
  case complete => simp at hs
  case linkDown => simp at hs
  case linkDownLocal =>
    split at hs
    · obtain rfl := Option.some.inj hs; exact ⟨⟨rfl, ⟨w, rfl, hw1, hw2⟩, hc⟩, hl.symm, rfl, rfl, rfl⟩
    · cases hs
  case localCleanup => simp at hs
  case cleanupEnd =>
    split at hs
    · next h1 => cases h1
    · cases hs
  case hciClose => obtain rfl := Option.some.inj hs; exact ⟨⟨rfl, ⟨w, rfl, hw1, hw2⟩, hc⟩, hl.symm, rfl, rfl, rfl⟩

theorem hung_run {s s' : St} {as : List Act} (h : Hung s) (hr : run s as = some s') : Hung s' ∧ s'.lock = s.lock ∧ s'.cleaning = s.cleaning ∧ s'.conns = s.conns ∧ s'.sent = s.sent :=
  run_induct (fun t => Hung t ∧ t.lock = s.lock ∧ t.cleaning = s.cleaning ∧ t.conns = s.conns ∧ t.sent = s.sent)
    (fun t t' a h1 h2 => by
      obtain ⟨k1, k2, k3, k4, k5⟩ := hung_step h1.1 h2
      exact ⟨k1, k2.trans h1.2.1, k3.trans h1.2.2.1, k4.trans h1.2.2.2.1, k5.trans h1.2.2.2.2⟩)
    as s s' ⟨h, rfl, rfl, rfl, rfl⟩ hr

/-- A clean-up that waits: a step of the write or the clean-up can be taken if the buffers are enough. -/
theorem own_step {s : St} (hc : s.cleaning ≠ none) (he : Enough s) : ∃ a s', Own a = true ∧ (∀ c, a = .wFail c → s.closed c = true) ∧ step s a = some s' := by
  obtain ⟨d, hd⟩ := Option.ne_none_iff_exists'.1 hc
  unfold Enough at he
  cases hl : s.lock with
  | none => exact ⟨.cleanupEnd, _, rfl, by simp, by simp only [step, hd, hl]; rfl⟩
  | some w =>
    rw [hl] at he
    simp only at he
    by_cases hb : w.hasBuf = true
    · by_cases hcl : s.closed w.conn = true
      · exact ⟨.wFail w.conn, _, rfl, by intro c e; cases e; exact hcl, by simp only [step, hl]; rw [if_pos ⟨trivial, hb⟩]⟩
      · exact ⟨.wXmit w.conn, _, rfl, by simp, by simp only [step, hl]; rw [if_pos ⟨trivial, hb, by simpa using hcl⟩]⟩
    · have hb : w.hasBuf = false := by simpa using hb
      by_cases h0 : w.left = 0
      · exact ⟨.wStop w.conn, _, rfl, by simp, by simp only [step, hl]; rw [if_pos ⟨trivial, h0, hb⟩]⟩
      · cases hf : s.free with
        | nil =>
          rw [hf] at he
          split at he
          · rcases he with h | h | h
            · exact absurd h h0
            · rw [hb] at h; cases h
            · exact absurd rfl h
          · simp [hb] at he; exact absurd he h0
        | cons b r => exact ⟨.wGet w.conn, _, rfl, by simp, by simp only [step, hl, hf]; rw [if_pos ⟨trivial, by omega, hb⟩]⟩

/-- What a step does while a clean-up waits: the clean-up ends, or the buffers are enough if they were and fewer steps are left (if it is a step of the write) — and if they were not, they are not. -/
theorem waiting_step {s s' : St} {a : Act} {d : Nat} (hc : s.cleaning = some d) (ho : ∀ c, a = .wFail c → s.closed c = true) (hs : step s a = some s') :
    (Enough s ∧ s'.cleaning = none ∧ a = .cleanupEnd) ∨
    (s'.cleaning = some d ∧ ((∀ c n, a ≠ .wStart c n) → (Enough s → Enough s') ∧ work s' + (if Own a then 1 else 0) ≤ work s) ∧ (Enough s' → Enough s)) := by
  cases a with
  | connect h sl => simp [step, hc] at hs
  | wStart c n =>
    refine Or.inr ⟨?_, fun h => absurd rfl (h c n), ?_⟩
    · simp only [step] at hs
      split at hs
      · split at hs <;> (obtain rfl := Option.some.inj hs; exact hc)
      · cases hs
    · intro _
      simp only [step] at hs
      split at hs
      · next hh => simp [Enough, hh.2]
      · cases hs
  | wGet c =>
    simp only [step] at hs
    cases hl : s.lock with
    | none => simp [hl] at hs
    | some w =>
      cases hf : s.free with
      | nil => simp [hl, hf] at hs
      | cons b r =>
        simp only [hl, hf] at hs
        split at hs
        · next hh =>
          obtain rfl := Option.some.inj hs
          obtain ⟨h1, h2, h3⟩ := hh
          refine Or.inr ⟨hc, fun _ => ⟨?_, ?_⟩, ?_⟩
          · simp only [Enough, hl, hf, h3]
            split <;> simp <;> omega
          · simp only [work, hl, h3, hc, Own]
            simp
            split <;> omega
          · simp only [Enough, hl, hf, h3]
            split <;> simp <;> omega
        · cases hs
  | wXmit c =>
    simp only [step] at hs
    cases hl : s.lock with
    | none => simp [hl] at hs
    | some w =>
      simp only [hl] at hs
      split at hs
      · next hh =>
        obtain rfl := Option.some.inj hs
        obtain ⟨h1, h2, h3⟩ := hh
        subst h1
        refine Or.inr ⟨hc, fun _ => ⟨?_, ?_⟩, ?_⟩
        · simp only [Enough, hl, h3, h2]
          simp
        · simp only [work, hl, h2, hc, Own]
          simp
          split <;> omega
        · simp only [Enough, hl, h3, h2]
          simp
      · cases hs
  | wStop c =>
    simp only [step] at hs
    cases hl : s.lock with
    | none => simp [hl] at hs
    | some w =>
      simp only [hl] at hs
      split at hs
      · next hh =>
        obtain rfl := Option.some.inj hs
        obtain ⟨h1, h2, h3⟩ := hh
        refine Or.inr ⟨hc, fun _ => ⟨fun _ => trivial, ?_⟩, ?_⟩
        · simp [work, hl, h2, h3, hc, Own]
        · intro _
          simp only [Enough, hl, h2, h3]
          split <;> simp
      · cases hs
  | wFail c =>
    simp only [step] at hs
    cases hl : s.lock with
    | none => simp [hl] at hs
    | some w =>
      simp only [hl] at hs
      split at hs
      · next hh =>
        obtain rfl := Option.some.inj hs
        obtain ⟨h1, h2⟩ := hh
        subst h1
        have h3 := ho _ rfl
        refine Or.inr ⟨hc, fun _ => ⟨fun _ => trivial, ?_⟩, ?_⟩
        · simp only [work, hl, h2, hc, Own]
          simp
          split <;> omega
        · intro _
          simp only [Enough, hl, h3, h2]
          simp
      · cases hs
  | complete c k => simp [step, hc] at hs
  | linkDown c => simp [step, hc] at hs
  | linkDownLocal c =>
    simp only [step] at hs
    split at hs
    · obtain rfl := Option.some.inj hs
      exact Or.inr ⟨hc, fun _ => ⟨id, Nat.le_refl _⟩, id⟩
    · cases hs
  | localCleanup c => simp [step, hc] at hs
  | cleanupEnd =>
    simp only [step, hc] at hs
    cases hl : s.lock with
    | none =>
      simp only [hl] at hs
      obtain rfl := Option.some.inj hs
      exact Or.inl ⟨by simp [Enough, hl], rfl, rfl⟩
    | some w => simp [hl] at hs
  | hciClose =>
    simp only [step] at hs
    obtain rfl := Option.some.inj hs
    exact Or.inr ⟨hc, fun _ => ⟨id, Nat.le_refl _⟩, id⟩

/-! ## Theorems -/

/-- C202. **A hung adapter stays hung**: the write never returns, the clean-up never ends, no buffer comes back, the controller's events (new connections, completed packets, disconnections) are never handled, and no other write and no
other clean-up begins. -/
theorem hung_for_ever {s s' : St} {as : List Act} (h : Hung s) (hr : run s as = some s') :
    s'.free = [] ∧ s'.lock = s.lock ∧ s'.cleaning = s.cleaning ∧ s'.conns = s.conns ∧ s'.sent = s.sent ∧
    ∀ a t, step s' a = some t → a = .hciClose ∨ ∃ c, a = .linkDownLocal c := by
  obtain ⟨h1, h2, h3, h4, h5⟩ := hung_run h hr
  refine ⟨h1.1, h2, h3, h4, h5, ?_⟩
  obtain ⟨hf, ⟨w, hl, hw1, hw2⟩, hc⟩ := h1
  intro a t ht
  obtain ⟨d, hd⟩ := Option.ne_none_iff_exists'.1 hc
  cases a <;> first | exact Or.inl rfl | exact Or.inr ⟨_, rfl⟩ | skip
  all_goals exfalso
  all_goals simp [step, hl, hf, hd, hw2] at ht
  all_goals omega

/-- C202. **Exactly when**: a clean-up that waits for the pool will wait for ever, whatever happens, even if the socket fails, exactly if the adapter is hung. -/
theorem waits_for_ever_iff (s : St) (hc : s.cleaning ≠ none) : (∀ as s', run s as = some s' → s'.cleaning ≠ none) ↔ Hung s := by
  obtain ⟨d, hd⟩ := Option.ne_none_iff_exists'.1 hc
  constructor
  · intro h
    cases hl : s.lock with
    | none => exact absurd rfl (h [.cleanupEnd] _ (by simp only [run, step, hd, hl]; rfl))
    | some w =>
      by_cases hb : w.hasBuf = true
      · exact absurd rfl (h [.wFail w.conn, .cleanupEnd] _ (by simp only [run, step, hl]; rw [if_pos ⟨trivial, hb⟩]; simp only [Option.bind_some, hd]; rfl))
      · have hb : w.hasBuf = false := by simpa using hb
        by_cases h0 : w.left = 0
        · exact absurd rfl (h [.wStop w.conn, .cleanupEnd] _ (by simp only [run, step, hl]; rw [if_pos ⟨trivial, h0, hb⟩]; simp only [Option.bind_some, hd]; rfl))
        · cases hf : s.free with
          | nil => exact ⟨hf, ⟨w, hl, by omega, hb⟩, hc⟩
          | cons b r =>
            exact absurd rfl (h [.wGet w.conn, .wFail w.conn, .cleanupEnd] _ (by
              simp only [run, step, hl, hf]; rw [if_pos ⟨trivial, by omega, hb⟩]; simp only [Option.bind_some]; rw [if_pos (by simp)]; simp only [Option.bind_some, hd]; rfl))
  · intro h as s' hr
    rw [(hung_run h hr).2.2.1]
    exact hc

/-- C202. **Exactly when a disconnection can be handled**: as long as the socket works, a clean-up that waits for the pool can end exactly if the buffers that are free when it begins are enough for the write in progress: buffers that the
controller gives back meanwhile do not count. -/
theorem cleanup_ends_iff (s : St) (hc : s.cleaning ≠ none) : (∃ as s', Orderly s as ∧ run s as = some s' ∧ s'.cleaning = none) ↔ Enough s := by
  constructor
  · rintro ⟨as, s', ho, hr, hn⟩
    induction as generalizing s with
    | nil => obtain rfl := Option.some.inj hr; exact absurd hn hc
    | cons a as ih =>
      obtain ⟨t, ht, hr⟩ := Option.bind_eq_some_iff.1 hr
      obtain ⟨d, hd⟩ := Option.ne_none_iff_exists'.1 hc
      rcases waiting_step hd ho.1 ht with h | ⟨h1, _, h3⟩
      · exact h.1
      · exact h3 (ih t (by rw [h1]; exact fun e => nomatch e) (ho.2 t ht) hr)
  · intro he
    have key : ∀ (n : Nat) (s : St), work s ≤ n → s.cleaning ≠ none → Enough s → ∃ as s', Orderly s as ∧ run s as = some s' ∧ s'.cleaning = none := by
      intro n
      induction n with
      | zero =>
        intro s hw hc _
        simp only [work, hc, if_false] at hw
        omega
      | succ n ih =>
        intro s hw hc he
        obtain ⟨d, hd⟩ := Option.ne_none_iff_exists'.1 hc
        obtain ⟨a, t, ha, ho, ht⟩ := own_step hc he
        rcases waiting_step hd ho ht with h | ⟨h1, h2, _⟩
        · exact ⟨[a], t, ⟨ho, fun _ _ => trivial⟩, by simp only [run, ht]; rfl, h.2.1⟩
        · obtain ⟨h3, h4⟩ := h2 (by intro c k e; subst e; cases ha)
          rw [if_pos ha] at h4
          obtain ⟨as, s', g1, g2, g3⟩ := ih t (by omega) (by rw [h1]; exact fun e => nomatch e) (h3 he)
          exact ⟨a :: as, s', ⟨ho, fun t' ht' => by rw [ht] at ht'; cases ht'; exact g1⟩, by simp only [run, ht]; exact g2, g3⟩
    exact key _ s (Nat.le_refl _) hc he

/-- C202, the part that holds: **a disconnection is handled if the free buffers are enough for the write in progress** and no further write begins before: the clean-up ends after a bounded number of steps of the write, one of which is
always possible. Missing: writes in progress that need more buffers than are free (`link_loss_hangs_adapter`: false), and other writes that get hold of the pool first. -/
theorem disconnection_handled_partial (s s' : St) (as : List Act) (hc : s.cleaning ≠ none) (he : Enough s) (ho : Orderly s as) (hn : ∀ c n, Act.wStart c n ∉ as) (hr : run s as = some s') :
    (∃ as1 as2 t, as = as1 ++ as2 ∧ run s as1 = some t ∧ t.cleaning = none) ∨
    (as.countP Own ≤ work s ∧ ∃ a t, Own a = true ∧ (∀ c, a = .wFail c → s'.closed c = true) ∧ step s' a = some t) := by
  induction as generalizing s with
  | nil =>
    obtain rfl := Option.some.inj hr
    exact Or.inr ⟨Nat.zero_le _, own_step hc he⟩
  | cons a as ih =>
    obtain ⟨t, ht, hr⟩ := Option.bind_eq_some_iff.1 hr
    obtain ⟨d, hd⟩ := Option.ne_none_iff_exists'.1 hc
    rcases waiting_step hd ho.1 ht with h | ⟨h1, h2, _⟩
    · exact Or.inl ⟨[a], as, t, rfl, by simp only [run, ht]; rfl, h.2.1⟩
    · obtain ⟨h3, h4⟩ := h2 (by intro c k e; subst e; exact hn c k (List.mem_cons_self ..))
      rcases ih t (by rw [h1]; exact fun e => nomatch e) (h3 he) (ho.2 t ht) (fun c n hm => hn c n (List.mem_cons_of_mem _ hm)) hr with ⟨as1, as2, u, e1, e2, e3⟩ | ⟨e1, e2⟩
      · exact Or.inl ⟨a :: as1, as2, u, by rw [e1]; rfl, by simp only [run, ht]; exact e2, e3⟩
      · refine Or.inr ⟨?_, e2⟩
        rw [List.countP_cons]
        omega

/-- C202. A write that waits for a buffer while no clean-up waits gets one as soon as the controller reports a packet of a connection that has packets with it. -/
theorem waiting_write_is_served (s s' : St) (c k : Nat) (hc : s.conns (s.handleOf c) = some c) (hk : 0 < k) (hs : s.sent c ≠ []) (h : step s (.complete c k) = some s') :
    s'.free ≠ [] ∧ s'.lock = s.lock ∧ ∀ w, s.lock = some w → 0 < w.left → w.hasBuf = false → ∃ t, step s' (.wGet w.conn) = some t := by
  simp only [step] at h
  split at h
  · simp only [hc] at h
    obtain rfl := Option.some.inj h
    have hne : (s.free ++ (s.sent c).take k) ≠ [] := by
      cases hsc : s.sent c with
      | nil => exact absurd hsc hs
      | cons b r =>
        cases k with
        | zero => omega
        | succ k => simp
    refine ⟨hne, rfl, ?_⟩
    intro w hl hw hb
    cases hf : s.free ++ (s.sent c).take k with
    | nil => exact absurd hf hne
    | cons b r =>
      apply Option.isSome_iff_exists.1
      simp only [step, putN, hl, hf]
      rw [if_pos ⟨trivial, hw, hb⟩]
      rfl
  · cases h

/-- C202, not in the code. **A lost link hangs the adapter**: one connection, all buffers full of its packets, one more write that waits for a buffer, and the link is lost. Every number of buffers. This is how links are lost: a peer
that is out of reach acknowledges nothing, so the buffers fill up, the next write waits, and then the controller gives the link up. -/
theorem link_loss_hangs_adapter (cnt : Nat) : ∃ as s, run (init cnt) as = some s ∧ s.next = 1 ∧ s.closed 0 = true ∧ s.lock = some ⟨0, 1, false⟩ ∧ (s.sent 0).length = cnt ∧ Hung s := by
  let s1 : St := { init cnt with conns := upd (init cnt).conns 0 (some 0), next := 1, handleOf := upd (init cnt).handleOf 0 0, slave := upd (init cnt).slave 0 false, link := upd (init cnt).link 0 true }
  have hr1 : run (init cnt) [.connect 0 false] = some s1 := by simp [run, step, init, s1]
  have hlen : (List.range cnt).length = cnt := List.length_range
  have h2 := Ble.Props.run_sendPdu 0 (List.range cnt) [] s1 (by simp [s1, init]) rfl rfl rfl (Nat.zero_lt_succ 0)
  rw [hlen] at h2
  let s2 : St := { s1 with free := [], sent := upd s1.sent 0 (s1.sent 0 ++ List.range cnt), ctl := upd s1.ctl 0 (s1.ctl 0 + cnt) }
  let s3 : St := { s2 with lock := some ⟨0, 1, false⟩, link := upd s2.link 0 false, ctl := upd s2.ctl 0 0, conns := upd s2.conns 0 none, closed := upd s2.closed 0 true, cleaning := some 0 }
  have h3 : run s2 [.wStart 0 1, .linkDown 0] = some s3 := by
    simp [run, step, cleanupStart, s3, s2, s1, init, upd]
  refine ⟨[.connect 0 false] ++ (Ble.Props.sendPdu 0 cnt ++ [.wStart 0 1, .linkDown 0]), s3, ?_, rfl, by simp [s3], rfl, ?_, ?_⟩
  · rw [run_append, hr1, Option.bind_some, run_append, h2, Option.bind_some]
    exact h3
  · simp [s3, s2, s1, init]
  · exact ⟨rfl, ⟨⟨0, 1, false⟩, rfl, by decide, rfl⟩, by simp [s3]⟩

/-- Non-vacuity: with two buffers, a connection that is writing a PDU of two fragments, the first sent, is disconnected; the clean-up begins with enough buffers, and ends. With three fragments of another connection it does not. -/
theorem live_example :
    (∃ as s s', run (init 2) as = some s ∧ s.cleaning = some 0 ∧ s.lock ≠ none ∧ Enough s ∧ run s [.wGet 0, .wFail 0, .cleanupEnd] = some s' ∧ s'.cleaning = none ∧ s'.free.length = 2) ∧
    (∃ as s, run (init 2) as = some s ∧ s.cleaning = some 0 ∧ s.lock = some ⟨1, 2, false⟩ ∧ s.free.length = 1 ∧ ¬ Enough s ∧ ¬ Hung s) := by
  refine ⟨⟨[.connect 0 false, .wStart 0 2, .wGet 0, .wXmit 0, .linkDown 0], _, _, rfl, rfl, (fun h => nomatch (h : some _ = none)), Or.inr (Or.inr (fun h => nomatch (h : [1] = []))), rfl, rfl, rfl⟩,
    ⟨[.connect 0 false, .connect 1 false, .wStart 1 3, .wGet 1, .wXmit 1, .linkDown 0], _, rfl, rfl, rfl, rfl, ?_, ?_⟩⟩
  · intro h
    have h : (2 : Nat) ≤ 1 + 0 := h
    omega
  · intro h
    exact nomatch (h.1 : [1] = [])

end Ble.PoolLive
