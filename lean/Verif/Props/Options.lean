import Verif.Hci.Options
set_option autoImplicit false

/-! # Options, and the creation of a device (C103 - C105) -/

namespace Ble.Props

open Ble.Options

/-! ## Specification -/

/-- The last of the calls that set something, and what it set it to. -/
def lastSet {α : Type} (f : Options.Call → Option α) (cs : List Options.Call) : Option α := (cs.filterMap f).getLast?

/-- What each option is about. -/
def aboutDialer : Options.Call → Option Int | .dialerTimeout d => some d | _ => none
def aboutListener : Options.Call → Option Int | .listenerTimeout d => some d | _ => none
def aboutConn : Options.Call → Option Params.Conn | .connParams p => some p | _ => none
def aboutScan : Options.Call → Option Params.Scan | .scanParams p => some p | _ => none
def aboutAdv : Options.Call → Option AdvParams | .advParams p => some p | _ => none
def aboutSync : Options.Call → Option Bool | .advHandlerSync b => some b | _ => none
def aboutHandler : Options.Call → Option (Option Nat) | .errorHandler h => some h | _ => none
def aboutCache : Options.Call → Option Bytes | .gattCacheFile f => some f | _ => none
/-- Only a bond manager counts. -/
def aboutBonds : Options.Call → Option Nat | .enableSecurity bm => bm | _ => none
/-- The three transports exclude each other. A baud rate of -1 stands for one million; else it is a number of 64 bits. -/
def aboutTransport : Options.Call → Option Open
  | .hciSocket id => some (.hci id)
  | .h4Socket a t => some (.h4socket a t)
  | .h4Uart p b => some (.h4uart p (if b = -1 then 1000000 else (b % 2 ^ 64).toNat))
  | _ => none

namespace OptAux

theorem lastSet_snoc {α : Type} (f : Options.Call → Option α) (cs : List Options.Call) (c : Options.Call) :
    lastSet f (cs ++ [c]) = (f c).or (lastSet f cs) := by
  unfold lastSet
  rw [List.filterMap_append]
  cases h : f c <;> simp [h]

theorem applyAll_append (s : Settings) (e : Option Options.Err) (a b : List Opt) :
    applyAll s e (a ++ b) = applyAll (applyAll s e a).1 (applyAll s e a).2 b := by
  induction a generalizing s e with
  | nil => rfl
  | cons o os ih => exact ih _ _

/-- The settings are those of the calls in turn. -/
theorem builtin_fst (cs : List Options.Call) (s : Settings) : applyAll s none (cs.map .builtin) = (cs.foldl (fun s c => (call s c).1) s, none) := by
  induction cs generalizing s with
  | nil => rfl
  | cons c cs ih => simp only [List.map_cons, applyAll, apply, ih, List.foldl_cons]

theorem snoc_ind {α : Type} {P : List α → Prop} (h0 : P []) (hs : ∀ l a, P l → P (l ++ [a])) (l : List α) : P l := by
  rw [← List.reverse_reverse l]
  induction l.reverse with
  | nil => exact h0
  | cons a as ih => rw [List.reverse_cons]; exact hs _ _ ih

end OptAux

open OptAux

/-! ## C103: the last one wins -/

/-- **C103.** With the options of the package, in any number and order, every setting is what the last option about it says, or the default, and no option changes what another one is about. -/
theorem options_last_wins (cs : List Options.Call) :
    ∃ s, applyAll {} none (cs.map .builtin) = (s, none) ∧
      s.dialerTmo = (lastSet aboutDialer cs).getD 0 ∧ s.listenerTmo = (lastSet aboutListener cs).getD 0 ∧
      s.conn = (lastSet aboutConn cs).getD
        { scanInterval := 64, scanWindow := 64, filterPolicy := 0, peerAddrType := 0, ownAddrType := 0, intervalMin := 6, intervalMax := 6, latency := 0, timeout := 1024, ceMin := 0, ceMax := 0 } ∧
      s.scan = (lastSet aboutScan cs).getD { scanType := 1, interval := 4, window := 4, ownAddrType := 0, filterPolicy := 0 } ∧
      s.adv = (lastSet aboutAdv cs).getD ⟨32, 32, 0, 0, 0, [0, 0, 0, 0, 0, 0], 7, 0⟩ ∧ s.advSync = (lastSet aboutSync cs).getD false ∧
      s.errHandler = (lastSet aboutHandler cs).getD none ∧ s.cache = lastSet aboutCache cs ∧
      getTransport s.transport = lastSet aboutTransport cs ∧
      s.bonds = lastSet aboutBonds cs ∧ s.smp = (lastSet aboutBonds cs).isSome := by
  rw [builtin_fst]
  refine ⟨_, rfl, ?_⟩
  induction cs using snoc_ind with
  | h0 => exact ⟨rfl, rfl, rfl, rfl, rfl, rfl, rfl, rfl, rfl, rfl, rfl⟩
  | hs cs c ih =>
    obtain ⟨i1, i2, i3, i4, i5, i6, i7, i8, i9, i10, i11⟩ := ih
    simp only [List.foldl_append, List.foldl_cons, List.foldl_nil, lastSet_snoc]
    cases c with
    | enableSecurity bm =>
      cases bm <;>
        exact ⟨i1, i2, i3, i4, i5, i6, i7, i8, i9, by first | exact i10 | rfl, by first | exact i11 | rfl⟩
    | hciSocket id => exact ⟨i1, i2, i3, i4, i5, i6, i7, i8, rfl, i10, i11⟩
    | h4Socket a t => exact ⟨i1, i2, i3, i4, i5, i6, i7, i8, rfl, i10, i11⟩
    | h4Uart p b =>
      refine ⟨i1, i2, i3, i4, i5, i6, i7, i8, ?_, i10, i11⟩
      by_cases hb : b = -1 <;> simp [aboutTransport, call, getTransport, hb, defaultBaud]
    | dialerTimeout d => exact ⟨rfl, i2, i3, i4, i5, i6, i7, i8, i9, i10, i11⟩
    | listenerTimeout d => exact ⟨i1, rfl, i3, i4, i5, i6, i7, i8, i9, i10, i11⟩
    | connParams p => exact ⟨i1, i2, rfl, i4, i5, i6, i7, i8, i9, i10, i11⟩
    | scanParams p => exact ⟨i1, i2, i3, rfl, i5, i6, i7, i8, i9, i10, i11⟩
    | advParams p => exact ⟨i1, i2, i3, i4, rfl, i6, i7, i8, i9, i10, i11⟩
    | advHandlerSync b => exact ⟨i1, i2, i3, i4, i5, rfl, i7, i8, i9, i10, i11⟩
    | errorHandler h => exact ⟨i1, i2, i3, i4, i5, i6, rfl, i8, i9, i10, i11⟩
    | gattCacheFile f => exact ⟨i1, i2, i3, i4, i5, i6, i7, rfl, i9, i10, i11⟩
    | peripheralRole => exact ⟨i1, i2, i3, i4, i5, i6, i7, i8, i9, i10, i11⟩
    | centralRole => exact ⟨i1, i2, i3, i4, i5, i6, i7, i8, i9, i10, i11⟩

/-- And the device that comes of it opens that transport: with the options of the package, `NewDevice` succeeds exactly if one was named that can be opened, the connection and scan parameters set last are valid and the
controller starts. -/
theorem newDevice_ok_iff (w : World) (cs : List Options.Call) :
    (∃ s, (newDevice w (cs.map .builtin)).res = .ok s) ↔
      ∃ o, lastSet aboutTransport cs = some o ∧ w.opens o = true ∧ Params.validateConn ((lastSet aboutConn cs).getD Params.defaultConn) = true ∧
        Params.validateScan ((lastSet aboutScan cs).getD Params.defaultScan) = true ∧ (HciInit.start w.ctl).isSome = true := by
  obtain ⟨s, h, -, -, h3, h4, -, -, -, -, h9, -⟩ := options_last_wins cs
  replace h3 : s.conn = (lastSet aboutConn cs).getD Params.defaultConn := h3
  replace h4 : s.scan = (lastSet aboutScan cs).getD Params.defaultScan := h4
  rw [newDevice, h, ← h9, ← h3, ← h4]
  simp only
  cases getTransport s.transport with
  | none => simp
  | some o =>
    simp only
    by_cases ho : w.opens o = true
    · by_cases hv : Params.validateConn s.conn = false ∨ Params.validateScan s.scan = false
      · rw [if_neg (by simp [ho]), if_pos hv]
        simp only [Option.some.injEq, exists_eq_left', reduceCtorEq, exists_false, false_iff]
        rintro ⟨-, h1, h2, -⟩
        rcases hv with hv | hv <;> simp_all
      · rw [if_neg (by simp [ho]), if_neg hv]
        simp only [not_or, Bool.not_eq_false] at hv
        cases hs : HciInit.start w.ctl <;> simp [ho, hv]
    · simp only [Bool.not_eq_true] at ho
      rw [if_pos ho]
      simp [ho]

/-! ## C104: options that cannot be applied -/

/-- **C104 (partial).** If the last option returns an error, `NewDevice` fails with it and opens nothing. The full property is about every option, and fails: see `option_error_only_last` and `builtin_errors_dropped`. -/
theorem last_option_error_reported_partial (w : World) (os : List Opt) (o : Opt) (e : Options.Err) (he : (apply (applyAll {} none os).1 o).2 = some e) :
    (newDevice w (os ++ [o])).res = .error (.option e) ∧ (newDevice w (os ++ [o])).opened = none := by
  have : (applyAll {} none (os ++ [o])).2 = some e := by rw [applyAll_append]; exact he
  rw [newDevice]
  split
  · rename_i e' h'
    rw [h'] at this
    simp only [Option.some.injEq] at this
    subst this
    exact ⟨rfl, rfl⟩
  · rename_i h'
    rw [h'] at this
    simp at this

/-- **C104: where it fails (1).** An error of any option but the last is dropped: what counts is only what the last one returns. -/
theorem option_error_only_last (w : World) (os : List Opt) (o : Opt) (h : (apply (applyAll {} none os).1 o).2 = none) (e : Options.Err) :
    (newDevice w (os ++ [o])).res ≠ .error (.option e) := by
  have : (applyAll {} none (os ++ [o])).2 = none := by rw [applyAll_append]; exact h
  rw [newDevice]
  split
  · rename_i e' h'
    rw [h'] at this
    simp at this
  · (repeat' split) <;> simp

/-- **C104: where it fails (2).** The options of the package never return an error: one that the device refuses has no effect, and `NewDevice` does as if it was not there. -/
theorem builtin_errors_dropped (w : World) (cs ds : List Options.Call) (c : Options.Call) (e : Options.Err) (hr : (call (cs.foldl (fun s c => (call s c).1) {}) c).2 = some e) :
    (newDevice w ((cs ++ c :: ds).map .builtin)) = newDevice w ((cs ++ ds).map .builtin) := by
  have hc : (call (cs.foldl (fun s c => (call s c).1) {}) c).1 = cs.foldl (fun s c => (call s c).1) {} := by
    cases c with
    | enableSecurity bm => cases bm with
      | none => rfl
      | some b => simp [call] at hr
    | peripheralRole => rfl
    | centralRole => rfl
    | _ => simp [call] at hr
  have : applyAll {} none ((cs ++ c :: ds).map .builtin) = applyAll {} none ((cs ++ ds).map .builtin) := by
    rw [builtin_fst, builtin_fst]
    simp only [List.foldl_append, List.foldl_cons, hc]
  rw [newDevice, newDevice, this]

/-- The three calls that are refused: the roles always, security for what is not a bond manager. -/
theorem refused_calls (s : Settings) (c : Options.Call) : (call s c).2 ≠ none ↔ c = .peripheralRole ∨ c = .centralRole ∨ c = .enableSecurity none := by
  cases c with
  | enableSecurity bm => cases bm <;> simp [call]
  | _ => simp [call]

/-- What it means for security: a device made with `OptEnableSecurity` of something that is not a bond manager, and no other, is one without security, and the first `Pair` on one of its connections is a crash of the program.
With a bond manager, pairing uses the one given last. -/
theorem pair_crashes_iff (cs : List Options.Call) (w : World) (s : Settings) (h : (newDevice w (cs.map .builtin)).res = .ok s) :
    (pair s = none ↔ ∀ bm, Options.Call.enableSecurity (some bm) ∉ cs) ∧ ∀ b, pair s = some b → b = lastSet aboutBonds cs ∧ b ≠ none := by
  obtain ⟨s', h', -, -, -, -, -, -, -, -, -, h10, h11⟩ := options_last_wins cs
  have hs : s = s' := by
    rw [newDevice, h'] at h
    simp only at h
    (repeat' split at h) <;> simp_all
  subst hs
  constructor
  · unfold pair
    rw [h11]
    constructor
    · intro hp bm hm
      have : lastSet aboutBonds cs = none := by
        cases hl : lastSet aboutBonds cs <;> simp_all
      unfold lastSet at this
      rw [List.getLast?_eq_none_iff, List.filterMap_eq_nil_iff] at this
      exact absurd (this _ hm) (by simp [aboutBonds])
    · intro hp
      have : lastSet aboutBonds cs = none := by
        unfold lastSet
        rw [List.getLast?_eq_none_iff, List.filterMap_eq_nil_iff]
        intro c hc
        cases c with
        | enableSecurity bm => cases bm with
          | none => rfl
          | some b => exact absurd hc (hp b)
        | _ => rfl
      simp [this]
  · intro b hb
    unfold pair at hb
    split at hb
    · rename_i hsmp
      simp only [Option.some.injEq] at hb
      subst hb
      refine ⟨h10, ?_⟩
      rw [h10]
      rw [h11] at hsmp
      intro hn
      simp [hn] at hsmp
    · simp at hb

/-! ## C105: a failed `NewDevice` -/

/-- **C105 (partial).** A `NewDevice` that fails leaves no transport open, if the connection and scan parameters are valid. -/
theorem failed_newDevice_releases_partial (w : World) (os : List Opt)
    (hv : Params.validateConn (applyAll {} none os).1.conn = true ∧ Params.validateScan (applyAll {} none os).1.scan = true) :
    (newDevice w os).leaked = false := by
  rw [newDevice]
  split
  · rfl
  · rename_i s h
    rw [h] at hv
    simp only at hv ⊢
    (repeat' split) <;> simp_all [Outcome.leaked]

/-- **C105**: `Close` is called exactly when creation fails after the options were accepted. -/
theorem failed_newDevice_closed (w : World) (os : List Opt) :
    (newDevice w os).closed = true ↔ ∃ e, (newDevice w os).res = .error e ∧ ∀ x, e ≠ .option x := by
  rw [newDevice]
  repeat' split
  all_goals simp

/-- **C105: the loops.** They run exactly when the options were accepted, the transport they name was opened and the parameters are valid; so never without a transport to read from. -/
theorem newDevice_loops_iff (w : World) (os : List Opt) :
    (newDevice w os).loops = true ↔
      ∃ s o, applyAll {} none os = (s, none) ∧ getTransport s.transport = some o ∧ w.opens o = true ∧ Params.validateConn s.conn = true ∧ Params.validateScan s.scan = true := by
  rw [newDevice]
  split
  · rename_i h
    simp [h]
  · rename_i s h
    (repeat' split) <;> simp_all
    rename_i hv
    rcases hv with hv | hv <;> simp [hv]

/-- **C105: where it fails.** With parameters that are not valid, the transport has been opened before they are checked, and nothing closes it. -/
theorem newDevice_leaks (w : World) (os : List Opt) (s : Settings) (h : applyAll {} none os = (s, none)) (o : Open) (ht : getTransport s.transport = some o) (ho : w.opens o = true)
    (hv : Params.validateConn s.conn = false ∨ Params.validateScan s.scan = false) :
    (newDevice w os).res = .error .badParams ∧ (newDevice w os).opened = some o ∧ (newDevice w os).leaked = true := by
  rw [newDevice, h]
  simp [ht, ho, hv, Outcome.leaked]

/-! ## Examples -/

/-- An application that gives its own options after a bad one. -/
theorem example_security_dropped (w : World) (hw : w.opens (.hci 0) = true) (hc : (HciInit.start w.ctl).isSome = true) :
    ∃ s, (newDevice w ([.enableSecurity none, .hciSocket 0].map .builtin)).res = .ok s ∧ pair s = none := by
  have := (newDevice_ok_iff w [.enableSecurity none, .hciSocket 0]).2 ⟨.hci 0, rfl, hw, by decide, by decide, hc⟩
  obtain ⟨s, hs⟩ := this
  exact ⟨s, hs, ((pair_crashes_iff _ w s hs).1).2 (by simp)⟩

theorem example_last_wins : ∃ s, applyAll {} none ([.h4Uart [47] (-1), .enableSecurity (some 3), .hciSocket 1, .dialerTimeout 5, .enableSecurity none, .h4Uart [47] 115200].map .builtin) = (s, none) ∧
    getTransport s.transport = some (.h4uart [47] 115200) ∧ s.bonds = some 3 ∧ s.smp = true ∧ s.dialerTmo = 5 ∧ s.listenerTmo = 0 := by
  refine ⟨_, rfl, by decide, rfl, rfl, rfl, rfl⟩

/-- Scan parameters with a window longer than the interval. -/
theorem example_leak (w : World) (hw : w.opens (.hci 0) = true) :
    (newDevice w ([.hciSocket 0, .scanParams ⟨1, 4, 5, 0, 0⟩].map .builtin)).leaked = true :=
  (newDevice_leaks w _ _ rfl (.hci 0) rfl hw (.inr (by decide))).2.2

end Ble.Props
