import Verif.Hci.Sock
set_option autoImplicit false

/-!
# Opening an HCI socket

Specification: an adapter is *available* if it can be taken down, its user channel can be bound, and the socket then reports no error. `NewSocket(id)` should give a socket bound to the adapter as soon as it is available; `NewSocket(-1)` one bound to the first adapter of the machine that is available.
-/

namespace Ble.Sock

/-- Specification: the adapter can be used. -/
def Dev.Available (d : Dev) : Prop := d.canDown = true ∧ d.canBind = true ∧ d.pollErr = false

instance (d : Dev) : Decidable d.Available := by unfold Dev.Available; infer_instance

theorem openDev_available {os : OS} {fd : Nat} {id : Int} {d : Dev} (h : os.fds fd = some .raw) (ha : d.Available) :
    openDev os fd id d = ({ os with fds := setFd os.fds fd (some (.user id)) }, true) := by
  obtain ⟨h1, h2, h3⟩ := ha
  simp [openDev, h, h1, h2, h3]

theorem openDev_not {os : OS} {fd : Nat} {id : Int} {d : Dev} (ha : ¬ d.Available) : (openDev os fd id d).2 = false := by
  unfold openDev
  split
  · split
    · rfl
    · split
      · rfl
      · simp only [Dev.Available] at ha
        simp_all
  · rfl

theorem openDev_notraw {os : OS} {fd : Nat} {id : Int} {d : Dev} (h : os.fds fd ≠ some .raw) : openDev os fd id d = (os, false) := by
  unfold openDev
  split
  · exact absurd ‹_› h
  · rfl

/-- Taking an adapter down or binding it changes no other descriptor. -/
theorem openDev_frame (os : OS) (fd : Nat) (id : Int) (d : Dev) {n : Nat} (hn : n ≠ fd) : (openDev os fd id d).1.fds n = os.fds n := by
  unfold openDev
  split
  · split
    · rfl
    · split
      · rfl
      · simp [setFd, hn]
  · rfl

/-! ## C108: a given adapter -/

/-- If the adapter is available at the first attempt, the result is a socket bound to it, and no other descriptor and no other adapter is affected. -/
theorem newSocketId_first (os : OS) (fd : Nat) (id : Int) (d : Dev) (oth : List Other) (rest : List (Dev × List Other)) (ha : d.Available) :
    (newSocketId os fd id ((d, oth) :: rest)).2 = some fd ∧
      (newSocketId os fd id ((d, oth) :: rest)).1.fds fd = some (.user id) ∧
      (newSocketId os fd id ((d, oth) :: rest)).1.down = os.down ∧
      ∀ n, n ≠ fd → (newSocketId os fd id ((d, oth) :: rest)).1.fds n = os.fds n := by
  have h : openDev { os with fds := setFd os.fds fd (some .raw) } fd id d = _ := openDev_available (by simp [setFd]) ha
  simp only [newSocketId, attempts, h]
  refine ⟨trivial, by simp [setFd], trivial, ?_⟩
  intro n hn
  simp [setFd, hn]

theorem other_notraw {os : OS} {fd : Nat} (h : os.fds fd ≠ some .raw) (o : Other) : (other os o).fds fd ≠ some .raw := by
  cases o with
  | openFile f k =>
    simp only [other]
    split
    · simp only [setFd]; split
      · simp
      · exact h
    · exact h
  | closeFile f =>
    simp only [other]
    split
    · simp only [setFd]; split
      · simp
      · exact h
    · exact h

theorem others_notraw (l : List Other) {os : OS} {fd : Nat} (h : os.fds fd ≠ some .raw) : (others os l).fds fd ≠ some .raw := by
  induction l generalizing os with
  | nil => exact h
  | cons o l ih => exact ih (other_notraw h o)

theorem attempts_notraw (l : List (Dev × List Other)) {os : OS} {fd : Nat} {id : Int} (h : os.fds fd ≠ some .raw) :
    (attempts os fd id l).2 = none := by
  induction l generalizing os with
  | nil => rfl
  | cons x l ih =>
    obtain ⟨d, oth⟩ := x
    simp only [attempts, openDev_notraw h]
    exact ih (others_notraw oth (by simp [closeFd, setFd]))

/-- **The retries are useless**: an adapter that is not available at the first attempt is never opened, whatever becomes of it in the 60 seconds the call waits, because the socket was closed after the first attempt. -/
theorem newSocketId_retry_useless (os : OS) (fd : Nat) (id : Int) (d : Dev) (oth : List Other) (rest : List (Dev × List Other))
    (ha : ¬ d.Available) : (newSocketId os fd id ((d, oth) :: rest)).2 = none := by
  have h2 := openDev_not (os := { os with fds := setFd os.fds fd (some .raw) }) (fd := fd) (id := id) ha
  simp only [newSocketId, attempts]
  split
  · rename_i heq; rw [heq] at h2; simp at h2
  · exact attempts_notraw rest (others_notraw oth (by simp [closeFd, setFd]))

/-- So the call succeeds exactly if the first attempt does. -/
theorem newSocketId_iff (os : OS) (fd : Nat) (id : Int) (d : Dev) (oth : List Other) (rest : List (Dev × List Other)) :
    (newSocketId os fd id ((d, oth) :: rest)).2.isSome = true ↔ d.Available := by
  constructor
  · intro h
    refine Classical.byContradiction fun hn => ?_
    rw [newSocketId_retry_useless os fd id d oth rest hn] at h
    simp at h
  · intro h; rw [(newSocketId_first os fd id d oth rest h).1]; rfl

/-- **A retry closes a file of another part of the program**: any file that was given the number of the closed socket before the next attempt is closed by that attempt. -/
theorem retry_closes_foreign (os : OS) (fd : Nat) (id : Int) (d d' : Dev) (k : Nat) (ha : ¬ d.Available) :
    (newSocketId os fd id [(d, [.openFile fd k])]).1.fds fd = some (.foreign k) ∧
      (newSocketId os fd id [(d, [.openFile fd k]), (d', [])]).1.fds fd = none := by
  have h2 := openDev_not (os := { os with fds := setFd os.fds fd (some .raw) }) (fd := fd) (id := id) ha
  simp only [newSocketId, attempts]
  split
  · rename_i heq; rw [heq] at h2; simp at h2
  · rename_i os' heq
    have h3 : (others (closeFd os' fd) [.openFile fd k]).fds fd = some (.foreign k) := by simp [others, other, closeFd, setFd]
    refine ⟨h3, ?_⟩
    have h4 : openDev (others (closeFd os' fd) [.openFile fd k]) fd id d' = _ := openDev_notraw (by rw [h3]; simp)
    simp only [h4]
    simp [others, closeFd, setFd]

/-- Unless it succeeds, the call leaves no descriptor of its own behind: with nobody else opening files, every number stands for what it stood for before, and the new one is free. Missing: that a retry can succeed and that it closes no foreign file (`newSocketId_retry_useless`, `retry_closes_foreign`: false). -/
theorem newSocketId_fail_clean_partial (os : OS) (fd : Nat) (id : Int) (ds : List Dev) (hne : ds ≠ [])
    (hf : (newSocketId os fd id (ds.map fun d => (d, []))).2 = none) (n : Nat) :
    (newSocketId os fd id (ds.map fun d => (d, []))).1.fds n = if n = fd then none else os.fds n := by
  have key : ∀ (l : List Dev) (o : OS), (attempts o fd id (l.map fun d => (d, []))).2 = none → (l ≠ [] ∨ o.fds fd = none) →
      (attempts o fd id (l.map fun d => (d, []))).1.fds n = if n = fd then none else o.fds n := by
    intro l
    induction l with
    | nil =>
      intro o _ ho
      simp only [List.map_nil, attempts]
      split
      · subst_vars; simpa using ho
      · rfl
    | cons d l ih =>
      intro o hf _
      simp only [List.map_cons, attempts] at hf ⊢
      split at hf
      · simp at hf
      · rename_i os' heq
        rw [ih _ hf (.inr (by simp [others, closeFd, setFd]))]
        split
        · rfl
        · rename_i hn
          have := openDev_frame o fd id d hn
          rw [heq] at this
          simpa [others, closeFd, setFd, hn] using this
  rw [newSocketId, key ds _ hf (.inl hne)]
  split
  · rfl
  · simp [setFd, *]

/-! ## C109: the first adapter -/

/-- Without errors of the poll, the loop gives the first number whose adapter is available, and the adapters before it that were taken down but not bound stay down. -/
theorem tryAll_spec (l : List Nat) {os : OS} {fd : Nat} {dev : Int → Dev} (h : os.fds fd = some .raw)
    (hp : ∀ i, (dev i).pollErr = false) :
    (tryAll os fd dev l).2 = (l.find? fun (i : Nat) => decide ((dev i).Available)).map Int.ofNat ∧
      (tryAll os fd dev l).1.down =
        os.down ++ ((l.takeWhile fun (i : Nat) => !decide ((dev i).Available)).filter fun (i : Nat) => (dev i).canDown).map Int.ofNat ∧
      ∀ n, n ≠ fd → (tryAll os fd dev l).1.fds n = os.fds n := by
  induction l generalizing os with
  | nil => simp [tryAll]
  | cons i is ih =>
    by_cases ha : (dev i).Available
    · have := openDev_available (id := i) h ha
      simp only [tryAll, this, List.find?_cons, ha, decide_true, List.takeWhile_cons]
      refine ⟨rfl, by simp, ?_⟩
      intro n hn; simp [setFd, hn]
    · have h2 : openDev os fd i (dev i) = ({ os with down := os.down ++ if (dev i).canDown then [(i : Int)] else [] }, false) := by
        have hpi := hp i
        simp only [Dev.Available, hpi] at ha
        unfold openDev
        rw [h]
        simp only
        split
        · rename_i hc; simp [hc]
        · rename_i hc
          simp only [Bool.not_eq_false] at hc
          split
          · simp [hc]
          · simp_all
      simp only [tryAll, h2, List.find?_cons, ha, decide_false, List.takeWhile_cons, Bool.not_false]
      obtain ⟨a, b, c⟩ := ih (os := { os with down := os.down ++ if (dev i).canDown then [(i : Int)] else [] }) h
      refine ⟨a, ?_, c⟩
      rw [b]
      cases hc : (dev i).canDown <;> simp [hc, List.append_assoc]

/-- The adapters of the machine, in the order listed, are `hci0`, `hci1`, … without a gap. -/
def Gapless (ids : List Int) : Prop := ids = (List.range ids.length).map Int.ofNat

/-- **The first available adapter** — if the machine numbers at most 16 adapters without a gap and no socket reports an error right after it was bound. If there is none, the socket is closed again. No other descriptor is affected. -/
theorem newSocketAny_partial (os : OS) (fd : Nat) (ids : List Int) (dev : Int → Dev) (hg : Gapless ids) (hl : ids.length ≤ 16)
    (hp : ∀ i, (dev i).pollErr = false) :
    (newSocketAny os fd ids dev).2 = ids.find? (fun i => decide ((dev i).Available)) ∧
      ((newSocketAny os fd ids dev).2 = none → (newSocketAny os fd ids dev).1.fds fd = none) ∧
      ∀ n, n ≠ fd → (newSocketAny os fd ids dev).1.fds n = os.fds n := by
  have hs := tryAll_spec (List.range (min ids.length 16)) (os := { os with fds := setFd os.fds fd (some .raw) }) (fd := fd) (dev := dev)
    (by simp [setFd]) hp
  rw [Nat.min_eq_left hl] at hs
  obtain ⟨a, _, c⟩ := hs
  have hfind : ids.find? (fun i => decide ((dev i).Available)) =
      ((List.range ids.length).find? fun (i : Nat) => decide ((dev i).Available)).map Int.ofNat := by
    have h2 : ((List.range ids.length).map Int.ofNat).find? (fun i => decide ((dev i).Available)) =
        ((List.range ids.length).find? fun (i : Nat) => decide ((dev i).Available)).map Int.ofNat := by
      rw [List.find?_map]; rfl
    rw [← h2]
    exact congrArg _ hg
  simp only [newSocketAny, Nat.min_eq_left hl]
  rw [← hfind] at a
  split
  · rename_i i hi
    refine ⟨?_, by simp, ?_⟩
    · rw [← a, hi]
    · intro n hn; rw [c n hn]; simp [setFd, hn]
  · rename_i hi
    refine ⟨by rw [← a, hi], by simp [closeFd, setFd], ?_⟩
    intro n hn
    have := c n hn
    simp [closeFd, setFd, hn] at this ⊢
    exact this

/-- Bound to what it says: whenever the call succeeds, its socket is bound to the user channel of the adapter with that number, which is available. -/
theorem newSocketAny_bound (os : OS) (fd : Nat) (ids : List Int) (dev : Int → Dev) (i : Int)
    (h : (newSocketAny os fd ids dev).2 = some i) :
    (newSocketAny os fd ids dev).1.fds fd = some (.user i) ∧ (dev i).Available := by
  have key : ∀ (l : List Nat) (o : OS), (tryAll o fd dev l).2 = some i → (tryAll o fd dev l).1.fds fd = some (.user i) ∧ (dev i).Available := by
    intro l
    induction l with
    | nil => intro o h; simp [tryAll] at h
    | cons j js ih =>
      intro o h
      simp only [tryAll] at h ⊢
      split
      · rename_i o' heq
        rw [heq] at h
        simp only [Option.some.injEq] at h
        subst h
        have ha : (dev (j : Int)).Available := Classical.byContradiction fun hn => by
          have := openDev_not (os := o) (fd := fd) (id := j) hn
          rw [heq] at this; simp at this
        refine ⟨?_, ha⟩
        by_cases hr : o.fds fd = some .raw
        · rw [openDev_available hr ha] at heq
          simp only [Prod.mk.injEq, and_true] at heq
          subst heq; simp [setFd]
        · rw [openDev_notraw hr] at heq; simp at heq
      · rename_i o' heq
        rw [heq] at h
        exact ih _ h
  simp only [newSocketAny] at h ⊢
  split at h
  · rename_i j hj
    simp only [Option.some.injEq] at h
    subst h
    exact key _ _ hj
  · simp at h

/-- **Not with a gap**: on a machine whose only adapter is `hci1`, available, the call finds none: it tries the numbers below the number of adapters, not the numbers listed. -/
theorem newSocketAny_gap_wrong (os : OS) (fd : Nat) :
    ∃ (ids : List Int) (dev : Int → Dev), (∀ i, i ∉ ids → (dev i).canDown = false) ∧ (∃ i ∈ ids, (dev i).Available) ∧
      (newSocketAny os fd ids dev).2 = none := by
  refine ⟨[1], fun i => if i = 1 then ⟨true, true, false⟩ else ⟨false, false, false⟩, ?_, ⟨1, by simp, by decide⟩, ?_⟩
  · intro i hi; simp at hi; simp [hi]
  · simp [newSocketAny, tryAll, openDev, setFd]

/-- **An adapter in use is left down**: an adapter that another program uses over its own channel and that cannot be bound is taken down on the way to the first available one. -/
theorem newSocketAny_takes_down (os : OS) (fd : Nat) :
    let dev : Int → Dev := fun i => if i = 0 then ⟨true, false, false⟩ else ⟨true, true, false⟩
    (newSocketAny os fd [0, 1] dev).2 = some 1 ∧ (newSocketAny os fd [0, 1] dev).1.down = os.down ++ [0] := by
  constructor <;> simp [newSocketAny, tryAll, openDev, setFd, List.range, List.range.loop]

/-- **An error right after binding loses the rest**: the socket stays bound to the first adapter, so no later one can be bound with it. -/
theorem newSocketAny_poll_wrong (os : OS) (fd : Nat) :
    let dev : Int → Dev := fun i => if i = 0 then ⟨true, true, true⟩ else ⟨true, true, false⟩
    (dev 1).Available ∧ (newSocketAny os fd [0, 1] dev).2 = none := by
  constructor
  · simp [Dev.Available]
  · simp [newSocketAny, tryAll, openDev, setFd, List.range, List.range.loop]

example : Gapless [0, 1, 2] := by simp [Gapless, List.range, List.range.loop]

/-- Three adapters, the first in use by another program: the second is opened. -/
example : (newSocketAny ⟨fun _ => none, []⟩ 5 [0, 1, 2] (fun i => ⟨i != 0, true, false⟩)).2 = some 1 := by decide

end Ble.Sock
