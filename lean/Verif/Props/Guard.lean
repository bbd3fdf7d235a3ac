import Verif.Locks.Check
set_option autoImplicit false

/-!
# C199, C200, C201: mutexes and shared variables

The programs: any number of goroutines, each of which runs functions of the library in any order, for any clients, connections and opcodes, in any interleaving (`Program`, `Reaches`). Functions of the application that the
library calls (notification handlers, the error handler) are taken to call no function of the library: what happens otherwise is C131, C141 and C149.
-/

namespace Ble.Props.GuardSpec

open Ble.Locks

/-- Two goroutines are about to use the variable, one of them to write it. If it is a map, the Go runtime may end the process ("concurrent map writes"). -/
def Race (s : St) (v : Var × Nat) : Prop :=
  ∃ (i j : Nat) (t u : Thread) (as bs : List Step), i ≠ j ∧ s[i]? = some t ∧ s[j]? = some u ∧ t.todo = .write v :: as ∧ (u.todo = .write v :: bs ∨ u.todo = .read v :: bs)

/-- The goroutine wants a mutex, for writing or reading, that some goroutine (or itself) holds in any way. (A `sync.RWMutex` that is held for reading is not always refused to another reader; this includes the cases that it is.) -/
def Waits (s : St) (i : Nat) : Prop :=
  ∃ (t : Thread) (m : Mutex × Nat) (as : List Step), s[i]? = some t ∧ (t.todo = .lock m :: as ∨ t.todo = .rlock m :: as) ∧ Held s m

/-- The tables of the library: commands, connections, opcode mutexes, signalling requests, credit-based channels and their next identifier, subscriptions, the cache file. -/
def Table : List Var := [.sent, .conns, .opcodes, .sigRsp, .channels, .nextCid, .subs, .cacheFile]

end Ble.Props.GuardSpec

namespace Ble.Props

open Ble.Locks GuardSpec

namespace GuardAux

theorem guarded {v : Var × Nat} (h : v.1 ∈ Table) : ∃ m, guardC v = some m := by
  rcases v with ⟨v, n⟩
  cases v <;> first | exact ⟨_, rfl⟩ | (simp [Table] at h)

/-- What a goroutine holds that is about to write, or to read. -/
theorem at_write {s : St} (hi : Inv s) {i : Nat} {t : Thread} {v m : _} {as : List Step} (ht : s[i]? = some t) (hw : t.todo = .write v :: as) (hg : guardC v = some m) : (m, true) ∈ t.held := by
  obtain ⟨k, h1, _⟩ := follow_cons (hi.ok i t ht) hw
  simp only [disc, hg] at h1
  split at h1
  · assumption
  · cases h1

theorem at_read {s : St} (hi : Inv s) {i : Nat} {t : Thread} {v m : _} {as : List Step} (ht : s[i]? = some t) (hw : t.todo = .read v :: as) (hg : guardC v = some m) : ∃ b, (m, b) ∈ t.held := by
  obtain ⟨k, h1, _⟩ := follow_cons (hi.ok i t ht) hw
  simp only [disc, hg] at h1
  split at h1
  · next h => rcases h with h | h
              · exact ⟨_, h⟩
              · exact ⟨_, h⟩
  · cases h1

/-- A goroutine that wants a mutex holds only mutexes that come before it. -/
theorem at_lock {s : St} (hi : Inv s) {i : Nat} {t : Thread} {m : Mutex × Nat} {as : List Step} (ht : s[i]? = some t) (hw : t.todo = .lock m :: as ∨ t.todo = .rlock m :: as)
    {m' : Mutex × Nat} {b : Bool} (hm : (m', b) ∈ t.held) : rankC m' < rankC m := by
  have key : t.held.all (fun x => decide (rankC x.1 < rankC m)) = true := by
    rcases hw with hw | hw
    · obtain ⟨k, h1, _⟩ := follow_cons (hi.ok i t ht) hw
      simp only [disc] at h1
      split at h1
      · assumption
      · cases h1
    · obtain ⟨k, h1, _⟩ := follow_cons (hi.ok i t ht) hw
      simp only [disc] at h1
      split at h1
      · assumption
      · cases h1
  have := List.all_eq_true.1 key _ hm
  simpa using this

theorem rank_le (m : Mutex × Nat) : rankC m ≤ 15 := by rcases m with ⟨m, n⟩; cases m <;> simp [rankC, rank]

theorem top {s : St} (hi : Inv s) : ∀ (n : Nat) (m : Mutex × Nat), 15 ≤ rankC m + n → Held s m → ∃ (j : Nat) (t : Thread), s[j]? = some t ∧ t.held ≠ [] ∧ ¬ Waits s j
  | 0, m, hn, ⟨j, t, b, hj, hb⟩ => by
    refine ⟨j, t, hj, List.ne_nil_of_mem hb, ?_⟩
    rintro ⟨u, m', as, hu, hw, _⟩
    rw [hj] at hu; cases hu
    have h1 := at_lock hi hj hw hb
    have h2 := rank_le m'
    omega
  | n + 1, m, hn, ⟨j, t, b, hj, hb⟩ => by
    refine Classical.byCases (fun hw : Waits s j => ?_) (fun hw => ⟨j, t, hj, List.ne_nil_of_mem hb, hw⟩)
    obtain ⟨u, m', as, hu, hw', hheld⟩ := hw
    rw [hj] at hu; cases hu
    have h1 := at_lock hi hj hw' hb
    exact top hi n m' (by omega) hheld

theorem next_of {s : St} {j : Nat} {t : Thread} (ht : s[j]? = some t) (hne : t.todo ≠ []) (hw : ¬ Waits s j) : ∃ s', Next s j s' := by
  cases htd : t.todo with
  | nil => exact absurd htd hne
  | cons a rest =>
    cases a with
    | lock m => exact ⟨_, .lock t m rest ht htd (fun hh => hw ⟨t, m, rest, ht, Or.inl htd, hh⟩)⟩
    | rlock m => exact ⟨_, .rlock t m rest ht htd (fun ⟨k, u, hk, hm⟩ => hw ⟨t, m, rest, ht, Or.inr htd, k, u, true, hk, hm⟩)⟩
    | unlock m => exact ⟨_, .unlock t m rest ht htd⟩
    | runlock m => exact ⟨_, .runlock t m rest ht htd⟩
    | read v => exact ⟨_, .read t v rest ht htd⟩
    | write v => exact ⟨_, .write t v rest ht htd⟩
    | other => exact ⟨_, .other t rest ht htd⟩

/-- Some sequences of steps of a function, with at most one round of each loop. -/
def paths : Prog → List (List (Act Mutex Var))
  | .nil => [[]]
  | .act a => [[a]]
  | .seq p q => (paths p).flatMap fun as => (paths q).map fun bs => as ++ bs
  | .alt p q => paths p ++ paths q
  | .star p => [] :: paths p

theorem path_of : ∀ {p : Prog} {as : List (Act Mutex Var)}, as ∈ paths p → p.Path as
  | .nil, as, h => by rw [List.mem_singleton.1 h]; exact .nil
  | .act a, as, h => by rw [List.mem_singleton.1 h]; exact .act a
  | .seq p q, as, h => by
    obtain ⟨bs, hb, h⟩ := List.mem_flatMap.1 h
    obtain ⟨cs, hc, rfl⟩ := List.mem_map.1 h
    exact .seq (path_of hb) (path_of hc)
  | .alt p q, as, h => by
    rcases List.mem_append.1 h with h | h
    · exact .left (path_of h)
    · exact .right (path_of h)
  | .star p, as, h => by
    rcases List.mem_cons.1 h with rfl | h
    · exact .none
    · have := Prog.Path.more (path_of h) (Prog.Path.none (p := p))
      rwa [List.append_nil] at this

/-- The goroutine that runs these steps of a function. -/
def thread (as : List (Act Mutex Var)) : Thread := { todo := as.map (Act.on {}) }

theorem runs_one {p : Prog} {as : List (Act Mutex Var)} (hp : p ∈ library) (h : p.Path as) : Runs (thread as).todo := by
  have := Runs.call {} hp h .nil
  rwa [List.append_nil] at this

theorem trans {a b c : St} (h1 : Reaches a b) (h2 : Reaches b c) : Reaches a c := by
  induction h2 with
  | start => exact h1
  | step _ hn ih => exact .step ih hn

/-- A goroutine takes steps while the others, which hold nothing, wait. -/
theorem solo (i : Nat) : ∀ (pre : List Step) (s : St) (h h' : List ((Mutex × Nat) × Bool)) (rest : List Step), (∀ (j : Nat) (t : Thread), j ≠ i → s[j]? = some t → t.held = []) →
    s[i]? = some ⟨h, pre ++ rest⟩ → follow rankC guardC h pre = some h' → Reaches s (s.set i ⟨h', rest⟩)
  | [], s, h, h', rest, _, hi, hf => by
    obtain rfl := Option.some.inj hf
    have : s.set i ⟨h, rest⟩ = s := by
      apply List.ext_getElem?
      intro j
      rw [List.getElem?_set]
      split
      · next e =>
        subst e
        split
        · exact hi.symm
        · next hl => rw [List.getElem?_eq_none (by omega)] at hi; cases hi
      · rfl
    rw [this]; exact .start _
  | x :: pre, s, h, h', rest, hn, hi, hf => by
    obtain ⟨k, h1, h2⟩ := Option.bind_eq_some_iff.1 (show (disc rankC guardC h x).bind _ = some h' from hf)
    have hlt : i < s.length := (List.getElem?_eq_some_iff.1 hi).1
    have hn' : ∀ (j : Nat) (t : Thread), j ≠ i → (s.set i ⟨k, pre ++ rest⟩)[j]? = some t → t.held = [] := by
      intro j t hj ht
      rw [List.getElem?_set_ne (fun e => hj e.symm)] at ht
      exact hn j t hj ht
    have ih := solo i pre (s.set i ⟨k, pre ++ rest⟩) k h' rest hn' (by rw [List.getElem?_set_self hlt]) h2
    rw [List.set_set] at ih
    refine trans ?_ ih
    have free : ∀ m, (h.all (fun x => decide (rankC x.1 < rankC m)) = true) → ¬ Held s m := by
      rintro m hall ⟨j, t, b, hj, hm⟩
      by_cases e : j = i
      · subst e
        rw [hi] at hj; cases hj
        have := List.all_eq_true.1 hall _ hm
        simp at this
      · rw [hn j t e hj] at hm; cases hm
    cases x with
    | lock m =>
      simp only [disc] at h1
      split at h1
      · next hc => obtain rfl := Option.some.inj h1; exact .step (.start _) (.lock _ m (pre ++ rest) hi rfl (free m hc))
      · cases h1
    | rlock m =>
      simp only [disc] at h1
      split at h1
      · next hc => obtain rfl := Option.some.inj h1; exact .step (.start _) (.rlock _ m (pre ++ rest) hi rfl (fun ⟨j, t, hj, hm⟩ => free m hc ⟨j, t, true, hj, hm⟩))
      · cases h1
    | unlock m =>
      simp only [disc] at h1
      split at h1
      · next hc => obtain rfl := Option.some.inj h1; exact .step (.start _) (.unlock _ m (pre ++ rest) hi rfl)
      · cases h1
    | runlock m =>
      simp only [disc] at h1
      split at h1
      · next hc => obtain rfl := Option.some.inj h1; exact .step (.start _) (.runlock _ m (pre ++ rest) hi rfl)
      · cases h1
    | read v =>
      have : k = h := by
        simp only [disc] at h1
        split at h1
        · exact (Option.some.inj h1).symm
        · split at h1
          · exact (Option.some.inj h1).symm
          · cases h1
      rw [this]; exact .step (.start _) (.read _ v (pre ++ rest) hi rfl)
    | write v =>
      have : k = h := by
        simp only [disc] at h1
        split at h1
        · exact (Option.some.inj h1).symm
        · split at h1
          · exact (Option.some.inj h1).symm
          · cases h1
      rw [this]; exact .step (.start _) (.write _ v (pre ++ rest) hi rfl)
    | other =>
      obtain rfl := Option.some.inj h1
      exact .step (.start _) (.other _ (pre ++ rest) hi rfl)

/-- A race of two functions: the first gets to its use of the variable holding nothing, then the second. -/
theorem race_of {p q : Prog} (v : Var) {x a : Act Mutex Var} (pre1 as pre2 bs : List (Act Mutex Var)) (hp : p ∈ library) (hq : q ∈ library) (h1 : pre1 ++ x :: as ∈ paths p)
    (h2 : pre2 ++ a :: bs ∈ paths q) (hxa : (x = .write v ∧ (a = .write v ∨ a = .read v)) ∨ (x = .read v ∧ a = .write v)) (hv : v.of {} = 0) (hf1 : follow rank guard [] pre1 = some [])
    (hf2 : (follow rank guard [] pre2).isSome = true) : ∃ s0 s : St, Program s0 ∧ s0.length = 2 ∧ Reaches s0 s ∧ Race s (v, 0) := by
  obtain ⟨h', hf⟩ := Option.isSome_iff_exists.1 hf2
  let A : Thread := ⟨[], (x :: as).map (Act.on {})⟩
  let B : Thread := ⟨h'.map (at_ {}), (a :: bs).map (Act.on {})⟩
  refine ⟨[thread (pre1 ++ x :: as), thread (pre2 ++ a :: bs)], [A, B], ?_, rfl, ?_, ?_⟩
  · intro t ht
    rcases List.mem_cons.1 ht with rfl | ht
    · exact ⟨rfl, runs_one hp (path_of h1)⟩
    · rw [List.mem_singleton.1 ht]; exact ⟨rfl, runs_one hq (path_of h2)⟩
  · have r1 := solo 0 (pre1.map (Act.on {})) [thread (pre1 ++ x :: as), thread (pre2 ++ a :: bs)] [] [] ((x :: as).map (Act.on {})) ?_ ?_ (follow_on {} pre1 hf1)
    · have r2 := solo 1 (pre2.map (Act.on {})) [A, thread (pre2 ++ a :: bs)] [] (h'.map (at_ {})) ((a :: bs).map (Act.on {})) ?_ ?_ (follow_on {} pre2 hf)
      · exact trans r1 r2
      · intro j t hj ht
        match j, hj, ht with
        | 0, _, ht => cases ht; rfl
        | 1, hj, _ => exact absurd rfl hj
        | n + 2, _, ht => simp at ht
      · simp [thread]
    · intro j t hj ht
      match j, hj, ht with
      | 0, hj, _ => exact absurd rfl hj
      | 1, _, ht => cases ht; rfl
      | n + 2, _, ht => simp at ht
    · simp [thread]
  · rcases hxa with ⟨rfl, ha⟩ | ⟨rfl, rfl⟩
    · refine ⟨0, 1, A, B, as.map (Act.on {}), bs.map (Act.on {}), by decide, rfl, rfl, ?_, ?_⟩
      · simp [A, Act.on, hv]
      · rcases ha with rfl | rfl <;> simp [B, Act.on, hv]
    · refine ⟨1, 0, B, A, bs.map (Act.on {}), as.map (Act.on {}), by decide, rfl, rfl, ?_, ?_⟩
      · simp [B, Act.on, hv]
      · simp [A, Act.on, hv]

/-- As `race_of`, with the beginnings of the sequences only. -/
theorem race {p q : Prog} (v : Var) {x a : Act Mutex Var} (pre1 pre2 : List (Act Mutex Var)) (hp : p ∈ library) (hq : q ∈ library) (h1 : ∃ as ∈ paths p, as.take (pre1.length + 1) = pre1 ++ [x])
    (h2 : ∃ as ∈ paths q, as.take (pre2.length + 1) = pre2 ++ [a]) (hxa : (x = .write v ∧ (a = .write v ∨ a = .read v)) ∨ (x = .read v ∧ a = .write v)) (hv : v.of {} = 0)
    (hf1 : follow rank guard [] pre1 = some []) (hf2 : (follow rank guard [] pre2).isSome = true) : ∃ s0 s : St, Program s0 ∧ s0.length = 2 ∧ Reaches s0 s ∧ Race s (v, 0) := by
  obtain ⟨as, ha, e1⟩ := h1
  obtain ⟨bs, hb, e2⟩ := h2
  have f1 : pre1 ++ x :: as.drop (pre1.length + 1) = as := by
    rw [show pre1 ++ x :: as.drop (pre1.length + 1) = (pre1 ++ [x]) ++ as.drop (pre1.length + 1) by simp, ← e1, List.take_append_drop]
  have f2 : pre2 ++ a :: bs.drop (pre2.length + 1) = bs := by
    rw [show pre2 ++ a :: bs.drop (pre2.length + 1) = (pre2 ++ [a]) ++ bs.drop (pre2.length + 1) by simp, ← e2, List.take_append_drop]
  exact race_of v pre1 _ pre2 _ hp hq (f1 ▸ ha) (f2 ▸ hb) hxa hv hf1 hf2

end GuardAux

open GuardAux

/-- C199. **No two goroutines use a table of the library at the same time, one of them changing it.** In every interleaving of any number of goroutines that run any functions of the library (so the Go runtime never ends the
process because of concurrent use of one of these maps). -/
theorem tables_never_shared (s0 s : St) (hp : Program s0) (hr : Reaches s0 s) (v : Var) (n : Nat) (hv : v ∈ Table) : ¬ Race s (v, n) := by
  rintro ⟨i, j, t, u, as, bs, hij, hi, hj, hw, hu⟩
  have inv := inv_reaches hr (inv_start hp)
  obtain ⟨m, hg⟩ := guarded (v := (v, n)) hv
  have h1 := at_write inv hi hw hg
  rcases hu with hu | hu
  · exact inv.excl i j t u m true hij hi hj h1 (at_write inv hj hu hg)
  · obtain ⟨b, hb⟩ := at_read inv hj hu hg
    exact inv.excl i j t u m b hij hi hj h1 hb

/-- C199, C200. The same as a partial answer for all shared variables. Missing: the variables that are not in `Table` (see `unguarded_variables_race`). -/
theorem variables_never_shared_partial (s0 s : St) (hp : Program s0) (hr : Reaches s0 s) (v : Var × Nat) (hv : v.1 ∈ Table) : ¬ Race s v := tables_never_shared s0 s hp hr v.1 v.2 hv

set_option maxRecDepth 100000 in
/-- C200, not in the code. **The other shared variables are used by two goroutines at the same time, one of them writing**: whether to advertise (`StopAdvertising` while a central connects), the services (`AddService` while
`Dial` looks at the database), the profile of a client (`DiscoverServices` and `DiscoverProfile`), the signalling identifier (two calls of `Signal`), the remembered advertisements and the handler (`Scan`, `SetAdvHandler` while a report
arrives), the address to dial (two calls of `Dial`), the error of the device (a call that sends a command while the device ends), the channel of new connections (`Dial` while the device ends), the advertising and scan data and the scan
parameters (two calls), and the file of the bonds (two calls of `Find`, which both hold the mutex for reading only). -/
theorem unguarded_variables_race (v : Var) (hv : v ∉ Table) : ∃ s0 s : St, Program s0 ∧ s0.length = 2 ∧ Reaches s0 s ∧ Race s (v, 0) := by
  cases v with
  | sent => exact absurd (by decide) hv
  | conns => exact absurd (by decide) hv
  | opcodes => exact absurd (by decide) hv
  | sigRsp => exact absurd (by decide) hv
  | channels => exact absurd (by decide) hv
  | nextCid => exact absurd (by decide) hv
  | subs => exact absurd (by decide) hv
  | cacheFile => exact absurd (by decide) hv
  | profile =>
    exact race (p := discoverProfile) (q := discoverServices) .profile (x := .read .profile) (a := .write .profile) [] [.lock .client, .read .profile]
      (by simp [library]) (by simp [library]) (by decide) (by decide) (Or.inr ⟨rfl, rfl⟩) rfl rfl (by decide)
  | services =>
    exact race (p := dial3) (q := setServices) .services (x := .read .services) (a := .write .services) [] [.lock .server, .read .services]
      (by simp [library]) (by simp [library]) (by decide) (by decide) (Or.inr ⟨rfl, rfl⟩) rfl rfl (by decide)
  | bondFile =>
    let path : List (Act Mutex Var) := [.rlock .bond, .read .bondFile, .write .bondFile, .runlock .bond]
    have hm : path ∈ paths bondFind := by decide
    let s0 : St := [thread path, thread path]
    let T : Thread := ⟨[((.bond, 0), false)], [.write (.bondFile, 0), .runlock (.bond, 0)]⟩
    refine ⟨s0, [T, T], ?_, rfl, ?_, ?_⟩
    · intro t ht
      have : t = thread path := by simpa [s0] using ht
      rw [this]
      exact ⟨rfl, runs_one (by simp [library]) (path_of hm)⟩
    · have nobody : ∀ s : St, (∀ t ∈ s, ((Mutex.bond, 0), true) ∉ t.held) → ¬ HeldExcl s (.bond, 0) := fun s h ⟨j, t, hj, hx⟩ => h t (List.mem_of_getElem? hj) hx
      let T' : Thread := ⟨[((.bond, 0), false)], [.read (.bondFile, 0), .write (.bondFile, 0), .runlock (.bond, 0)]⟩
      have n1 : Next [thread path, thread path] 0 [T', thread path] := by
        refine .rlock (i := 0) (thread path) (.bond, 0) [.read (.bondFile, 0), .write (.bondFile, 0), .runlock (.bond, 0)] rfl rfl (nobody _ ?_)
        intro t ht
        have : t = thread path := by simpa using ht
        rw [this]; simp [thread]
      have n2 : Next [T', thread path] 0 [T, thread path] := .read (i := 0) T' (.bondFile, 0) [.write (.bondFile, 0), .runlock (.bond, 0)] rfl rfl
      have n3 : Next [T, thread path] 1 [T, T'] := by
        refine .rlock (i := 1) (thread path) (.bond, 0) [.read (.bondFile, 0), .write (.bondFile, 0), .runlock (.bond, 0)] rfl rfl (nobody _ ?_)
        intro t ht
        rcases List.mem_cons.1 ht with rfl | ht
        · simp [T]
        · rw [List.mem_singleton.1 ht]; simp [thread]
      have n4 : Next [T, T'] 1 [T, T] := .read (i := 1) T' (.bondFile, 0) [.write (.bondFile, 0), .runlock (.bond, 0)] rfl rfl
      exact .step (.step (.step (.step (.start _) n1) n2) n3) n4
    · exact ⟨0, 1, T, T, [.runlock (.bond, 0)], [.runlock (.bond, 0)], by decide, rfl, rfl, rfl, Or.inl rfl⟩
  | advEnable =>
    exact race (p := stopAdvertising) (q := processLoop) .advEnable (x := .write .advEnable) (a := .read .advEnable) []
      [.read .err, .other, .other, .lock .conns, .write .conns, .unlock .conns, .other, .rlock .params]
      (by simp [library]) (by simp [library]) (by decide) (by decide) (Or.inl ⟨rfl, Or.inr rfl⟩) rfl rfl (by decide)
  | advData =>
    exact race (p := setAdvertisement1) (q := setAdvertisement1) .advData (x := .write .advData) (a := .write .advData) [] []
      (by simp [library]) (by simp [library]) (by decide) (by decide) (Or.inl ⟨rfl, Or.inl rfl⟩) rfl rfl (by decide)
  | scanRsp =>
    exact race (p := setAdvertisement2) (q := setAdvertisement2) .scanRsp (x := .write .scanRsp) (a := .write .scanRsp) [] []
      (by simp [library]) (by simp [library]) (by decide) (by decide) (Or.inl ⟨rfl, Or.inl rfl⟩) rfl rfl (by decide)
  | scanEnable =>
    exact race (p := stopScanning) (q := scan) .scanEnable (x := .write .scanEnable) (a := .write .scanEnable) [] []
      (by simp [library]) (by simp [library]) (by decide) (by decide) (Or.inl ⟨rfl, Or.inl rfl⟩) rfl rfl (by decide)
  | connParams =>
    exact race (p := dial1) (q := dial1) .connParams (x := .write .connParams) (a := .write .connParams) [] []
      (by simp [library]) (by simp [library]) (by decide) (by decide) (Or.inl ⟨rfl, Or.inl rfl⟩) rfl rfl (by decide)
  | adHist =>
    exact race (p := scan) (q := processLoop) .adHist (x := .write .adHist) (a := .read .adHist) [.write .scanEnable] [.read .err, .other, .read .advHandler, .other]
      (by simp [library]) (by simp [library]) (by decide) (by decide) (Or.inl ⟨rfl, Or.inr rfl⟩) rfl rfl (by decide)
  | advHandler =>
    exact race (p := setAdvHandler) (q := processLoop) .advHandler (x := .write .advHandler) (a := .read .advHandler) [] [.read .err, .other]
      (by simp [library]) (by simp [library]) (by decide) (by decide) (Or.inl ⟨rfl, Or.inr rfl⟩) rfl rfl (by decide)
  | err =>
    exact race (p := send .nil) (q := processLoop) .err (x := .read .err) (a := .write .err) [] [.read .err]
      (by simp [library]) (by simp [library]) (by decide) (by decide) (Or.inr ⟨rfl, rfl⟩) rfl rfl (by decide)
  | masterConn =>
    exact race (p := dial1) (q := processLoop) .masterConn (x := .read .masterConn) (a := .write .masterConn)
      [.write .connParams, .read .connParams, .read .err, .lock .opcodes, .read .opcodes, .unlock .opcodes, .lock .opcode, .read .connParams, .other, .lock .opcodes, .read .opcodes, .unlock .opcode, .unlock .opcodes]
      [.read .err, .write .err, .other, .write .err, .lock .sktClose, .unlock .sktClose, .other]
      (by simp [library]) (by simp [library]) (by decide) (by decide) (Or.inr ⟨rfl, rfl⟩) rfl (by decide) (by decide)
  | sigId =>
    exact race (p := signal) (q := signal) .sigId (x := .write .sigId) (a := .write .sigId) [] []
      (by simp [library]) (by simp [library]) (by decide) (by decide) (Or.inl ⟨rfl, Or.inl rfl⟩) rfl rfl (by decide)

/-- C201. **Goroutines never wait for each other's mutexes for ever.** Whenever a goroutine waits for a mutex, some goroutine that holds a mutex does not wait for one, and can go on (it may do so at once, unless it waits for
something else: a channel, the socket, the application). -/
theorem mutexes_never_deadlock (s0 s : St) (hp : Program s0) (hr : Reaches s0 s) (i : Nat) (hw : Waits s i) :
    ∃ (j : Nat) (t : Thread), s[j]? = some t ∧ t.held ≠ [] ∧ ¬ Waits s j ∧ ∃ s', Next s j s' := by
  have inv := inv_reaches hr (inv_start hp)
  obtain ⟨t, m, as, _, _, hh⟩ := hw
  obtain ⟨j, u, hj, hne, hn⟩ := top inv 15 m (by omega) hh
  refine ⟨j, u, hj, hne, hn, next_of hj ?_ hn⟩
  intro e
  have := inv.ok j u hj
  rw [e] at this
  exact hne (Option.some.inj this)

/-- C201. Every goroutine can run to its end: as long as one has something to do, one can take a step (of those that have). -/
theorem some_goroutine_can_go_on (s0 s : St) (hp : Program s0) (hr : Reaches s0 s) (t : Thread) (ht : t ∈ s) (hne : t.todo ≠ []) : ∃ (j : Nat) (s' : St), Next s j s' := by
  obtain ⟨i, hi⟩ := List.mem_iff_getElem?.1 ht
  refine Classical.byCases (fun hw : Waits s i => ?_) (fun hw => ?_)
  · obtain ⟨j, _, _, _, _, s', hs⟩ := mutexes_never_deadlock s0 s hp hr i hw
    exact ⟨j, s', hs⟩
  · obtain ⟨s', hs⟩ := next_of hi hne hw
    exact ⟨i, s', hs⟩

/-- C201. **Mutexes are unlocked by those who hold them** (otherwise the Go runtime ends the process), and a goroutine that has ended holds none. -/
theorem unlocks_match (s0 s : St) (hp : Program s0) (hr : Reaches s0 s) (t : Thread) (ht : t ∈ s) :
    (∀ m as, t.todo = .unlock m :: as → (m, true) ∈ t.held) ∧ (∀ m as, t.todo = .runlock m :: as → (m, false) ∈ t.held) ∧ (t.todo = [] → t.held = []) := by
  obtain ⟨i, hi⟩ := List.mem_iff_getElem?.1 ht
  have inv := inv_reaches hr (inv_start hp)
  refine ⟨?_, ?_, ?_⟩
  · intro m as e
    obtain ⟨k, h1, _⟩ := follow_cons (inv.ok i t hi) e
    simp only [disc] at h1
    split at h1
    · assumption
    · cases h1
  · intro m as e
    obtain ⟨k, h1, _⟩ := follow_cons (inv.ok i t hi) e
    simp only [disc] at h1
    split at h1
    · assumption
    · cases h1
  · intro e
    have := inv.ok i t hi
    rw [e] at this
    exact Option.some.inj this

/-- C201. No mutex is held exclusively by one goroutine and at all by another. -/
theorem mutexes_exclude (s0 s : St) (hp : Program s0) (hr : Reaches s0 s) (i j : Nat) (t u : Thread) (m : Mutex × Nat) (b : Bool) (hij : i ≠ j) (hi : s[i]? = some t) (hj : s[j]? = some u) (hm : (m, true) ∈ t.held) :
    (m, b) ∉ u.held := (inv_reaches hr (inv_start hp)).excl i j t u m b hij hi hj hm

/-- C201, not in the code. **A command that cannot be marshalled unlocks a mutex that it does not hold** (hci.go:384-387), for example in a program with no other goroutine. The commands of the library can be marshalled (C47); `send` is
also used for commands of the application. -/
theorem unmarshallable_command_unlocks : ∃ (as : List (Act Mutex Var)) (s : St) (rest : List Step), sendUnmarshallable.Path as ∧ Reaches [thread as] s ∧
    s = [⟨[((.opcode, 0), true)], .unlock (.sent, 0) :: rest⟩] := by
  let pre : List (Act Mutex Var) := [.read .err, .lock .opcodes, .read .opcodes, .unlock .opcodes, .lock .opcode, .other]
  let post : List (Act Mutex Var) := [.lock .opcodes, .read .opcodes, .unlock .opcode, .unlock .opcodes]
  refine ⟨pre ++ .unlock .sent :: post, _, post.map (Act.on {}), path_of (by decide), ?_, rfl⟩
  have hf : follow rank guard [] pre = some [(.opcode, true)] := by decide
  have := solo 0 (pre.map (Act.on {})) [thread (pre ++ .unlock .sent :: post)] [] _ ((.unlock .sent :: post).map (Act.on {})) ?_ ?_ (follow_on {} pre hf)
  · exact this
  · intro j t hj ht
    match j, hj, ht with
    | 0, hj, _ => exact absurd rfl hj
    | n + 1, _, ht => simp at ht
  · simp [thread]

/-- Non-vacuity of C199 and C201: a program of the application's call `ReadRSSI`, a notification, the loop of the library and a data write, in which a goroutine waits: `ReadRSSI` holds the client's mutex while the notification wants it. -/
theorem example_program : ∃ s0 s : St, Program s0 ∧ s0.length = 4 ∧ Reaches s0 s ∧ Waits s 1 := by
  let rssi : List (Act Mutex Var) := [.lock .client] ++ [.read .err, .lock .opcodes, .read .opcodes, .unlock .opcodes, .lock .opcode, .other, .lock .opcodes, .read .opcodes, .unlock .opcode, .unlock .opcodes] ++ [.unlock .client]
  let noti : List (Act Mutex Var) := [.other, .lock .client, .read .subs, .other, .unlock .client]
  let loop : List (Act Mutex Var) := [.read .err, .other, .lock .conns, .read .conns, .other, .unlock .conns, .write .err, .other, .write .err, .lock .sktClose, .unlock .sktClose, .other, .write .masterConn,
    .lock .conns, .read .conns, .unlock .conns, .lock .sent, .unlock .sent]
  let wr : List (Act Mutex Var) := [.lock .pool, .other, .lock .sktWrite, .other, .unlock .sktWrite, .unlock .pool]
  refine ⟨[thread rssi, thread noti, thread loop, thread wr], _, ?_, rfl, .step (.step (.start _) (.lock (i := 0) (thread rssi) (.client, 0) ((rssi.drop 1).map (Act.on {})) rfl rfl ?_))
    (.other (i := 1) (thread noti) ((noti.drop 1).map (Act.on {})) rfl rfl), ?_⟩
  · intro t ht
    simp only [List.mem_cons, List.not_mem_nil, or_false] at ht
    rcases ht with rfl | rfl | rfl | rfl
    · exact ⟨rfl, runs_one (p := readRSSI) (by simp [library]) (path_of (by decide))⟩
    · exact ⟨rfl, runs_one (p := clientLoop) (by simp [library]) (path_of (by decide))⟩
    · exact ⟨rfl, runs_one (p := processLoop) (by simp [library]) (path_of (by decide))⟩
    · exact ⟨rfl, runs_one (p := writePDU) (by simp [library]) (path_of (by decide))⟩
  · rintro ⟨j, t, b, hj, hm⟩
    match j, hj with
    | 0, hj => cases hj; cases hm
    | 1, hj => cases hj; cases hm
    | 2, hj => cases hj; cases hm
    | 3, hj => cases hj; cases hm
    | n + 4, hj => simp at hj
  · exact ⟨_, (.client, 0), _, rfl, Or.inl rfl, 0, _, true, rfl, List.mem_cons_self ..⟩

end Ble.Props
