import Verif.Att.Build
import Verif.Props.AttWrite
set_option autoImplicit false

/-!
# Declaring characteristics, and what a client then sees; looking things up in a profile (C97 - C99)

The specification of the builder looks only at the list of calls made on the characteristic.
-/

namespace Ble.Props

open Ble.Att Ble.Spec

variable {α σ : Type}

/-! ## What the calls say -/

/-- The value a `SetValue` call gives. -/
def valueOf : CharCall α → Option Bytes
  | .setValue b => some b
  | _ => none
/-- The handler of a `HandleRead` call (inner `none`: nil). -/
def readOf : CharCall α → Option (Option (ReadH α))
  | .handleRead h => some h
  | _ => none
/-- The handler of a `HandleWrite` call. -/
def writeOf : CharCall α → Option (Option (WriteH α))
  | .handleWrite h => some h
  | _ => none
/-- Whether a `HandleNotify` call gives a handler. -/
def notifyOf : CharCall α → Option Bool
  | .handleNotify g => some g
  | _ => none
/-- Whether a `HandleIndicate` call gives a handler. -/
def indicateOf : CharCall α → Option Bool
  | .handleIndicate g => some g
  | _ => none
/-- The descriptor of an `AddDescriptor` call. -/
def descOf : CharCall α → Option (Desc α)
  | .addDescriptor d => some d
  | _ => none

/-- The value of the last `SetValue`. -/
def lastValue (ks : List (CharCall α)) : Option Bytes := (ks.filterMap valueOf).getLast?
/-- The handler of the last `HandleRead`. -/
def lastRead (ks : List (CharCall α)) : Option (ReadH α) := (ks.filterMap readOf).getLast?.join
/-- The handler of the last `HandleWrite`. -/
def lastWrite (ks : List (CharCall α)) : Option (WriteH α) := (ks.filterMap writeOf).getLast?.join
/-- The last `HandleNotify` gave a handler. -/
def lastNotify (ks : List (CharCall α)) : Bool := (ks.filterMap notifyOf).getLast?.getD false
/-- The last `HandleIndicate` gave a handler. -/
def lastIndicate (ks : List (CharCall α)) : Bool := (ks.filterMap indicateOf).getLast?.getD false

/-- The properties that the calls declare: Read (0x02) by `SetValue` and `HandleRead`, Write (0x08) and Write Without Response (0x04) by
`HandleWrite`, Notify (0x10) by `HandleNotify`, Indicate (0x20) by `HandleIndicate`. -/
def declaredProps (ks : List (CharCall α)) : UInt8 :=
  (if ks.any (fun k => (valueOf k).isSome || (readOf k).isSome) then 0x02 else 0) |||
  (if ks.any (fun k => (writeOf k).isSome) then 0x0C else 0) |||
  (if ks.any (fun k => (notifyOf k).isSome) then 0x10 else 0) |||
  (if ks.any (fun k => (indicateOf k).isSome) then 0x20 else 0)

/-- A call that contradicts the calls before it: a static value for a characteristic with a read handler, a read handler for one with a
static value, a second descriptor of the same UUID. -/
def Conflict (ks : List (CharCall α)) : Prop :=
  ∃ a k b, ks = a ++ k :: b ∧
    ((∃ v, k = .setValue v ∧ (lastRead a).isSome) ∨
     (∃ h v, k = .handleRead h ∧ .setValue v ∈ a) ∨
     (∃ d d', k = .addDescriptor d ∧ .addDescriptor d' ∈ a ∧ d'.uuid = d.uuid))

namespace BuildAux

theorem charCalls_append (c : Char α) (ks ls : List (CharCall α)) :
    charCalls c (ks ++ ls) = (charCalls c ks) >>= fun c => charCalls c ls := by
  induction ks generalizing c with
  | nil => rfl
  | cons k ks ih =>
    simp only [List.cons_append, charCalls]
    cases charCall c k with
    | ok c1 => simp [ih]
    | err e => exact e.elim
    | panic => rfl

theorem charCalls_snoc (c : Char α) (ks : List (CharCall α)) (k : CharCall α) :
    charCalls c (ks ++ [k]) = (charCalls c ks) >>= fun c => charCall c k := by
  rw [charCalls_append]
  congr 1; funext c1
  simp only [charCalls]
  cases charCall c1 k with
  | ok c1 => rfl
  | err e => exact e.elim
  | panic => rfl

theorem snoc_ind {β : Type} {P : List β → Prop} (h0 : P []) (h1 : ∀ l a, P l → P (l ++ [a])) (l : List β) : P l := by
  have : ∀ n (l : List β), l.length = n → P l := by
    intro n
    induction n with
    | zero => intro l hl; rw [List.length_eq_zero_iff.1 hl]; exact h0
    | succ n ih =>
      intro l hl
      have hne : l ≠ [] := by intro h; simp [h] at hl
      rw [← List.dropLast_concat_getLast hne]
      exact h1 _ _ (ih _ (by simp [hl]))
  exact this _ l rfl

/-- What a successful sequence of calls leaves. -/
theorem build_result (u : Bytes) (ks : List (CharCall α)) (c : Char α) (h : buildChar u ks = .ok c) :
    c = { uuid := u, prop := declaredProps ks, v := lastValue ks, rh := lastRead ks, wh := lastWrite ks, hasNotify := lastNotify ks,
          hasIndicate := lastIndicate ks, descs := ks.filterMap descOf } := by
  induction ks using snoc_ind generalizing c with
  | h0 => simp only [buildChar, charCalls, Go.ok.injEq] at h; subst h; simp [declaredProps, lastValue, lastRead, lastWrite, lastNotify, lastIndicate]
  | h1 ks k ih =>
    unfold buildChar at h ih
    rw [charCalls_snoc] at h
    obtain ⟨c1, h1, h2⟩ := Go.bind_eq_ok.1 h
    have e := ih c1 h1
    subst e
    cases k with
    | setValue b =>
      simp only [charCall] at h2
      split at h2
      · simp at h2
      · simp only [Go.ok.injEq] at h2
        subst h2
        simp [declaredProps, lastValue, lastRead, lastWrite, lastNotify, lastIndicate, valueOf, readOf, writeOf, notifyOf, indicateOf, descOf]
        split <;> split <;> split <;> split <;> rfl
    | handleRead b =>
      simp only [charCall] at h2
      split at h2
      · simp at h2
      · simp only [Go.ok.injEq] at h2
        subst h2
        simp [declaredProps, lastValue, lastRead, lastWrite, lastNotify, lastIndicate, valueOf, readOf, writeOf, notifyOf, indicateOf, descOf]
        split <;> split <;> split <;> split <;> rfl
    | handleWrite b =>
      simp only [charCall, Go.ok.injEq] at h2
      subst h2
      simp [declaredProps, lastValue, lastRead, lastWrite, lastNotify, lastIndicate, valueOf, readOf, writeOf, notifyOf, indicateOf, descOf]
      split <;> split <;> split <;> split <;> rfl
    | handleNotify b =>
      simp only [charCall, Go.ok.injEq] at h2
      subst h2
      simp [declaredProps, lastValue, lastRead, lastWrite, lastNotify, lastIndicate, valueOf, readOf, writeOf, notifyOf, indicateOf, descOf]
      split <;> split <;> split <;> split <;> rfl
    | handleIndicate b =>
      simp only [charCall, Go.ok.injEq] at h2
      subst h2
      simp [declaredProps, lastValue, lastRead, lastWrite, lastNotify, lastIndicate, valueOf, readOf, writeOf, notifyOf, indicateOf, descOf]
      split <;> split <;> split <;> split <;> rfl
    | addDescriptor d =>
      simp only [charCall] at h2
      split at h2
      · simp at h2
      · simp only [Go.ok.injEq] at h2
        subst h2
        simp [declaredProps, lastValue, lastRead, lastWrite, lastNotify, lastIndicate, valueOf, readOf, writeOf, notifyOf, indicateOf, descOf]

theorem lastValue_isSome (ks : List (CharCall α)) : (lastValue ks).isSome ↔ ∃ v, CharCall.setValue v ∈ ks := by
  unfold lastValue
  rw [List.getLast?_isSome]
  constructor
  · intro h
    obtain ⟨v, hv⟩ := List.exists_mem_of_ne_nil _ h
    obtain ⟨k, hk, hkv⟩ := List.mem_filterMap.1 hv
    cases k <;> simp [valueOf] at hkv
    exact ⟨_, hk⟩
  · rintro ⟨v, hv⟩ h
    have : v ∈ ks.filterMap valueOf := List.mem_filterMap.2 ⟨_, hv, rfl⟩
    rw [h] at this
    simp at this

theorem descOf_mem (ks : List (CharCall α)) (d : Desc α) : d ∈ ks.filterMap descOf ↔ CharCall.addDescriptor d ∈ ks := by
  rw [List.mem_filterMap]
  constructor
  · rintro ⟨k, hk, e⟩; cases k <;> simp [descOf] at e; subst e; exact hk
  · intro h; exact ⟨_, h, rfl⟩

/-- A call on the result of earlier calls panics exactly if it contradicts them. -/
theorem call_ok (u : Bytes) (ks : List (CharCall α)) (c : Char α) (h : buildChar u ks = .ok c) (k : CharCall α) :
    charCall c k = .panic ↔
     ((∃ v, k = .setValue v ∧ (lastRead ks).isSome) ∨ (∃ h v, k = .handleRead h ∧ .setValue v ∈ ks) ∨
      (∃ d d', k = .addDescriptor d ∧ .addDescriptor d' ∈ ks ∧ d'.uuid = d.uuid)) := by
  have e := build_result u ks c h
  subst e
  cases k with
  | setValue b => simp [charCall, Option.isSome_iff_ne_none]
  | handleRead b =>
    have := lastValue_isSome ks
    simp [charCall, this]
  | handleWrite b => simp [charCall]
  | handleNotify b => simp [charCall]
  | handleIndicate b => simp [charCall]
  | addDescriptor d =>
    simp only [charCall]
    have : ((List.filterMap descOf ks).any fun x => x.uuid == d.uuid) = true ↔ ∃ d', .addDescriptor d' ∈ ks ∧ d'.uuid = d.uuid := by
      rw [List.any_eq_true]
      simp [← descOf_mem]
    by_cases hq : ((List.filterMap descOf ks).any fun x => x.uuid == d.uuid) = true
    · simp [hq, this.1 hq]
    · simp only [hq, if_neg, Bool.false_eq_true]
      rw [this] at hq
      simp
      simpa using hq

end BuildAux

open BuildAux

/-! ## C97 -/

/-- **C97.** Declaring a characteristic panics exactly if one of the calls contradicts an earlier one. -/
theorem build_returns_iff (u : Bytes) (ks : List (CharCall α)) : (∃ c, buildChar u ks = .ok c) ↔ ¬ Conflict ks := by
  induction ks using snoc_ind with
  | h0 =>
    refine ⟨fun _ => ?_, fun _ => ⟨_, rfl⟩⟩
    rintro ⟨a, k, b, e, -⟩
    simp at e
  | h1 ks k ih =>
    constructor
    · rintro ⟨c, hc⟩
      unfold buildChar at hc
      rw [charCalls_snoc] at hc
      obtain ⟨c1, h1, h2⟩ := Go.bind_eq_ok.1 hc
      rintro ⟨a, k', b, e, hx⟩
      rcases List.eq_nil_or_concat b with rfl | ⟨b', x, rfl⟩
      · obtain ⟨rfl, rfl⟩ : ks = a ∧ k = k' := by simpa using e
        have := (call_ok u ks c1 h1 k).2 hx
        rw [this] at h2; simp at h2
      · have : ks ++ [k] = (a ++ k' :: b') ++ [x] := by simpa using e
        obtain ⟨e1, -⟩ := List.append_inj' this rfl
        exact ih.1 ⟨c1, h1⟩ ⟨a, k', b', e1, hx⟩
    · intro hn
      have h0 : ¬ Conflict ks := by
        rintro ⟨a, k', b, e, hx⟩
        exact hn ⟨a, k', b ++ [k], by simp [e], hx⟩
      obtain ⟨c1, h1⟩ := ih.2 h0
      have hk : charCall c1 k ≠ .panic := by
        intro hp
        exact hn ⟨ks, k, [], rfl, (call_ok u ks c1 h1 k).1 hp⟩
      have : buildChar u (ks ++ [k]) = charCall c1 k := by
        unfold buildChar at h1 ⊢
        rw [charCalls_snoc, h1]; rfl
      rw [this]
      cases e : charCall c1 k with
      | ok c => exact ⟨c, rfl⟩
      | err x => exact x.elim
      | panic => exact absurd e hk

/-- **C97.** The characteristic that results has the UUID given, exactly the properties the calls declare, the value and handlers of the
last calls and the descriptors in the order of the calls. -/
theorem build_result (u : Bytes) (ks : List (CharCall α)) (c : Char α) (h : buildChar u ks = .ok c) :
    c.uuid = u ∧ c.prop = declaredProps ks ∧ c.v = lastValue ks ∧ c.rh = lastRead ks ∧ c.wh = lastWrite ks ∧
    c.hasNotify = lastNotify ks ∧ c.hasIndicate = lastIndicate ks ∧ c.descs = ks.filterMap descOf := by
  have := BuildAux.build_result u ks c h
  subst this
  simp

/-- **C97.** In particular every property bit: the characteristic declares Read if and only if it was given a value or a read handler,
and so on; Broadcast, Signed Write and Extended Properties are never declared. -/
theorem declared_bits (ks : List (CharCall α)) :
    (declaredProps ks &&& 0x02 ≠ 0 ↔ (∃ v, .setValue v ∈ ks) ∨ ∃ h, .handleRead h ∈ ks) ∧
    (declaredProps ks &&& 0x04 ≠ 0 ↔ ∃ h, .handleWrite h ∈ ks) ∧
    (declaredProps ks &&& 0x08 ≠ 0 ↔ ∃ h, .handleWrite h ∈ ks) ∧
    (declaredProps ks &&& 0x10 ≠ 0 ↔ ∃ h, .handleNotify h ∈ ks) ∧
    (declaredProps ks &&& 0x20 ≠ 0 ↔ ∃ h, .handleIndicate h ∈ ks) ∧
    declaredProps ks &&& 0xC1 = 0 := by
  have hr : ks.any (fun k => (valueOf k).isSome || (readOf k).isSome) = true ↔ (∃ v, .setValue v ∈ ks) ∨ ∃ h, .handleRead h ∈ ks := by
    rw [List.any_eq_true]
    constructor
    · rintro ⟨k, hk, h⟩
      cases k <;> simp [valueOf, readOf] at h
      · exact .inl ⟨_, hk⟩
      · exact .inr ⟨_, hk⟩
    · rintro (⟨v, h⟩ | ⟨v, h⟩) <;> exact ⟨_, h, rfl⟩
  have hw : ks.any (fun k => (writeOf k).isSome) = true ↔ ∃ h, .handleWrite h ∈ ks := by
    rw [List.any_eq_true]
    constructor
    · rintro ⟨k, hk, h⟩
      cases k <;> simp [writeOf] at h
      exact ⟨_, hk⟩
    · rintro ⟨v, h⟩; exact ⟨_, h, rfl⟩
  have hn : ks.any (fun k => (notifyOf k).isSome) = true ↔ ∃ h, .handleNotify h ∈ ks := by
    rw [List.any_eq_true]
    constructor
    · rintro ⟨k, hk, h⟩
      cases k <;> simp [notifyOf] at h
      exact ⟨_, hk⟩
    · rintro ⟨v, h⟩; exact ⟨_, h, rfl⟩
  have hi : ks.any (fun k => (indicateOf k).isSome) = true ↔ ∃ h, .handleIndicate h ∈ ks := by
    rw [List.any_eq_true]
    constructor
    · rintro ⟨k, hk, h⟩
      cases k <;> simp [indicateOf] at h
      exact ⟨_, hk⟩
    · rintro ⟨v, h⟩; exact ⟨_, h, rfl⟩
  rw [← hr, ← hw, ← hn, ← hi]
  unfold declaredProps
  generalize ks.any (fun k => (valueOf k).isSome || (readOf k).isSome) = a
  generalize ks.any (fun k => (writeOf k).isSome) = b
  generalize ks.any (fun k => (notifyOf k).isSome) = c
  generalize ks.any (fun k => (indicateOf k).isSome) = d
  cases a <;> cases b <;> cases c <;> cases d <;> decide

/-! ### Reading an attribute -/

/-- **C97.** A Read Request to an attribute with a static value that fits answers the value and changes nothing. -/
theorem read_static (s : Server σ) (h : Nat) (hh : h < 65536) (a : Attr σ) (v : Bytes) (ha : s.db.at h = some a) (hv : a.v = some v)
    (hfit : 1 + v.length ≤ s.mtu) : handleRequest s (0x0A :: put16 h) = .ok (s, some (0x0B :: v)) := by
  show handleRead s _ = _
  have e1 : le16At (ε := Empty) (0x0A :: put16 h) 1 = .ok h := by
    have := le16At_put16 (ε := Empty) 0x0A h hh []
    simpa using this
  unfold handleRead
  rw [e1]
  simp only [index_cons_zero, Go.bind_ok]
  rw [if_neg (by simp), ha]
  simp only [hv, staticValue, if_pos hfit]
  rfl

/-- **C97.** A Read Request to an attribute with neither value nor read handler is refused with Read Not Permitted. -/
theorem read_refused (s : Server σ) (h : Nat) (hh : h < 65536) (a : Attr σ) (ha : s.db.at h = some a) (hv : a.v = none)
    (hr : a.rh = none) : handleRequest s (0x0A :: put16 h) = .ok (s, some (errorRsp 0x0A h 0x02)) := by
  show handleRead s _ = _
  have e1 : le16At (ε := Empty) (0x0A :: put16 h) 1 = .ok h := by
    have := le16At_put16 (ε := Empty) 0x0A h hh []
    simpa using this
  unfold handleRead handleATT
  rw [e1]
  simp only [index_cons_zero, Go.bind_ok]
  rw [if_neg (by simp), ha]
  simp only [hv, hr]
  rw [if_pos (by simp)]
  rfl

/-- **C97.** A Read Request to an attribute with a read handler answers what the handler writes into a buffer of the MTU less one, or the
status it sets. -/
theorem read_handler (s : Server σ) (h : Nat) (hh : h < 65536) (a : Attr σ) (f : ReadH σ) (ha : s.db.at h = some a) (hv : a.v = none)
    (hr : a.rh = some f) (st' : σ) (w : List Bytes) (e : UInt8) (hf : f s.st 0 (s.mtu - 1) = .ok (st', w, e))
    (hfit : w.flatten.length + 1 ≤ s.mtu) :
    handleRequest s (0x0A :: put16 h) =
      .ok ({ s with st := st' }, some (if e = 0 then 0x0B :: w.flatten else errorRsp 0x0A h e)) := by
  show handleRead s _ = _
  have e1 : le16At (ε := Empty) (0x0A :: put16 h) 1 = .ok h := by
    have := le16At_put16 (ε := Empty) 0x0A h hh []
    simpa using this
  have hw : ∀ (ws : List Bytes) (b : Bytes), b.length + ws.flatten.length ≤ s.mtu - 1 → writeAll (s.mtu - 1) b ws = b ++ ws.flatten := by
    intro ws
    induction ws with
    | nil => intro b _; simp [writeAll]
    | cons x xs ih =>
      intro b hb
      simp only [List.flatten_cons, List.length_append] at hb
      rw [writeAll, if_neg (by omega), ih _ (by simp only [List.length_append]; omega)]
      simp
  unfold handleRead handleATT
  rw [e1]
  simp only [index_cons_zero, Go.bind_ok]
  rw [if_neg (by simp), ha]
  simp only [hv, hr]
  rw [if_pos (by simp)]
  have hw0 := hw w [] (by simp only [List.length_nil]; omega)
  simp only [List.nil_append] at hw0
  simp only [serveRead, hf, Go.bind_ok, hw0]
  by_cases he : e = 0
  · subst he; rfl
  · show (if e ≠ 0 then reject _ _ _ _ else _) = _
    rw [if_pos he, if_neg he]; rfl

/-! ### From the declaration to the client -/

/-- A server with a characteristic declared by the calls `ks` among its services: its declaration is at handle `h`. -/
structure Serves (s : Server (CState α)) (h : Nat) (u : Bytes) (ks : List (CharCall α)) : Prop where
  ex : ∃ (pre post : List (Svc α)) (su : Bytes) (cpre cpost : List (Char α)) (c : Char α) (base : Nat),
    buildChar u ks = .ok c ∧ base + dbSize (pre ++ ⟨su, cpre ++ c :: cpost⟩ :: post) ≤ 65536 ∧
    s.db = newDB (pre ++ ⟨su, cpre ++ c :: cpost⟩ :: post) base ∧ h = charHandle base pre cpre

namespace BuildAux

theorem charHandle_lt (pre post : List (Svc α)) (u : Bytes) (cpre cpost : List (Char α)) (c : Char α) (base : Nat)
    (hf : base + dbSize (pre ++ ⟨u, cpre ++ c :: cpost⟩ :: post) ≤ 65536) : charHandle base pre cpre + charSize c ≤ 65536 := by
  have : dbSize (pre ++ ⟨u, cpre ++ c :: cpost⟩ :: post) = dbSize pre + (1 + ((cpre.map charSize).sum + (charSize c + (cpost.map charSize).sum))) +
      dbSize post := by
    simp [dbSize, svcSize]; omega
  unfold charHandle svcHandle
  omega

theorem serves_value {s : Server (CState α)} {h : Nat} {u : Bytes} {ks : List (CharCall α)} (hs : Serves s h u ks) :
    h + 1 < 65536 ∧ ∃ a, s.db.at (h + 1) = some a ∧ a.v = lastValue ks ∧ a.rh = (lastRead ks).map liftRead ∧
      a.wh = (lastWrite ks).map liftWrite := by
  obtain ⟨pre, post, su, cpre, cpost, c, base, hb, hf, hdb, rfl⟩ := hs.ex
  obtain ⟨d, a, -, -, -, -, -, ha, -, -, hv, hrh, hwh⟩ := characteristic_declaration pre post su cpre cpost c base hf
  have hlt := charHandle_lt pre post su cpre cpost c base hf
  have : 2 ≤ charSize c := by unfold charSize; omega
  have e := BuildAux.build_result u ks c hb
  subst e
  exact ⟨by omega, a, by rw [hdb]; exact ha, hv, hrh, hwh⟩

end BuildAux

/-- **C97.** The declaration a client discovers shows the properties that the calls declare, the UUID given and the handle of the value. -/
theorem client_sees_properties (s : Server (CState α)) (h : Nat) (u : Bytes) (ks : List (CharCall α)) (hs : Serves s h u ks) :
    ∃ d, s.db.at h = some d ∧ d.typ = put16 0x2803 ∧ d.v = some (declaredProps ks :: put16 (h + 1) ++ u) := by
  obtain ⟨pre, post, su, cpre, cpost, c, base, hb, hf, hdb, rfl⟩ := hs.ex
  obtain ⟨d, a, hd, -, ht, hv, -⟩ := characteristic_declaration pre post su cpre cpost c base hf
  have e := BuildAux.build_result u ks c hb
  subst e
  exact ⟨d, by rw [hdb]; exact hd, ht, hv⟩

/-- **C97.** Reading the value: the last static value; else what the last read handler answers; else Read Not Permitted. -/
theorem client_reads (s : Server (CState α)) (h : Nat) (u : Bytes) (ks : List (CharCall α)) (hs : Serves s h u ks) :
    (∀ v, lastValue ks = some v → 1 + v.length ≤ s.mtu → handleRequest s (0x0A :: put16 (h + 1)) = .ok (s, some (0x0B :: v))) ∧
    (∀ f app' w e, lastValue ks = none → lastRead ks = some f → f s.st.app 0 (s.mtu - 1) = .ok (app', w, e) →
      w.flatten.length + 1 ≤ s.mtu →
      handleRequest s (0x0A :: put16 (h + 1)) =
        .ok ({ s with st := { s.st with app := app' } }, some (if e = 0 then 0x0B :: w.flatten else errorRsp 0x0A (h + 1) e))) ∧
    (lastValue ks = none → lastRead ks = none →
      handleRequest s (0x0A :: put16 (h + 1)) = .ok (s, some (errorRsp 0x0A (h + 1) 0x02))) := by
  obtain ⟨hh, a, ha, hv, hr, -⟩ := serves_value hs
  refine ⟨fun v e hfit => read_static s _ hh a v ha (by rw [hv, e]) hfit, ?_, ?_⟩
  · intro f app' w e h1 h2 h3 hfit
    refine read_handler s _ hh a (liftRead f) ha (by rw [hv, h1]) (by rw [hr, h2]; rfl) _ w e ?_ hfit
    simp [liftRead, h3]
  · intro h1 h2
    exact read_refused s _ hh a ha (by rw [hv, h1]) (by rw [hr, h2]; rfl)

/-- **C97.** Writing the value runs the last write handler; without one a Write Request is refused with Write Not Permitted. -/
theorem client_writes (s : Server (CState α)) (h : Nat) (u : Bytes) (ks : List (CharCall α)) (hs : Serves s h u ks) (v : Bytes) :
    (∀ f app' e, lastWrite ks = some f → f s.st.app v = .ok (app', e) →
      handleRequest s (0x12 :: (put16 (h + 1) ++ v)) =
        .ok ({ s with st := { s.st with app := app' } }, some (if e = 0 then [0x13] else errorRsp 0x12 (h + 1) e))) ∧
    (lastWrite ks = none → handleRequest s (0x12 :: (put16 (h + 1) ++ v)) = .ok (s, some (errorRsp 0x12 (h + 1) 0x03))) := by
  obtain ⟨hh, a, ha, -, -, hw⟩ := serves_value hs
  refine ⟨fun f app' e h1 h2 => ?_, fun h1 => (write_without_handler s _ hh v a ha (by rw [hw, h1]; rfl)).1⟩
  apply write_request_delivers s _ hh v a (liftWrite f) _ e ha (by rw [hw, h1]; rfl)
  simp [liftWrite, h2]

/-- **C97.** After the value come the descriptors added, in order, and then, if and only if the last `HandleNotify` or `HandleIndicate`
gave a handler, the client characteristic configuration; with that the group ends. -/
theorem client_sees_descriptors (s : Server (CState α)) (h : Nat) (u : Bytes) (ks : List (CharCall α)) (hs : Serves s h u ks) :
    (∀ i du v rh wh, (ks.filterMap descOf)[i]? = some (.app du v rh wh) → ∃ a, s.db.at (h + 2 + i) = some a ∧ a.typ = du ∧ a.v = v ∧
      a.rh = rh.map liftRead ∧ a.wh = wh.map liftWrite) ∧
    ((lastNotify ks || lastIndicate ks) = true →
      ∃ a, s.db.at (h + 2 + (ks.filterMap descOf).length) = some a ∧ a.typ = put16 0x2902 ∧
        a.wh = some (cccdWrite ⟨h, declaredProps ks, lastNotify ks, lastIndicate ks⟩)) ∧
    (∃ d, s.db.at h = some d ∧
      d.endh = h + 1 + (ks.filterMap descOf).length + (if lastNotify ks || lastIndicate ks then 1 else 0)) := by
  obtain ⟨pre, post, su, cpre, cpost, c, base, hb, hf, hdb, rfl⟩ := hs.ex
  have e := BuildAux.build_result u ks c hb
  subst e
  refine ⟨?_, ?_, ?_⟩
  · intro i du v rh wh hd
    have hi : i < (ks.filterMap descOf).length := (List.getElem?_eq_some_iff.1 hd).1
    obtain ⟨a, ha, -, hm⟩ := descriptor_attributes pre post su cpre cpost _ base hf i _
      (by rw [List.getElem?_append_left (by exact hi)]; exact hd)
    exact ⟨a, by rw [hdb]; exact ha, hm⟩
  · intro hn
    obtain ⟨a, ha, -, hm⟩ := descriptor_attributes pre post su cpre cpost _ base hf (ks.filterMap descOf).length .cccd
      (by simp [hn])
    exact ⟨a, by rw [hdb]; exact ha, hm.1, hm.2.2.2⟩
  · obtain ⟨d, a, hd, -, -, -, he, -⟩ := characteristic_declaration pre post su cpre cpost _ base hf
    refine ⟨d, by rw [hdb]; exact hd, ?_⟩
    rw [he]
    simp only [charSize]
    split <;> simp <;> omega

/-- **C97.** So with handlers that are not nil the declaration keeps its word: a read is refused for want of permission, and a write
likewise, only if the property is not declared. -/
theorem declaration_keeps_word (s : Server (CState α)) (h : Nat) (u : Bytes) (ks : List (CharCall α)) (hs : Serves s h u ks)
    (hn : ∀ k ∈ ks, k ≠ .handleRead none ∧ k ≠ .handleWrite none) :
    (declaredProps ks &&& 0x02 = 0 ↔ lastValue ks = none ∧ lastRead ks = none) ∧
    (declaredProps ks &&& 0x08 = 0 ↔ lastWrite ks = none) := by
  have hb := declared_bits ks
  have hv := lastValue_isSome ks
  have hr : lastRead ks = none ↔ ¬ ∃ h, CharCall.handleRead h ∈ ks := by
    unfold lastRead
    cases e : (ks.filterMap readOf).getLast? with
    | none =>
      simp only [Option.join_none, true_iff]
      rintro ⟨h, hh⟩
      have : h ∈ ks.filterMap readOf := List.mem_filterMap.2 ⟨_, hh, rfl⟩
      rw [List.getLast?_eq_none_iff.1 e] at this
      simp at this
    | some o =>
      obtain ⟨k, hk, hko⟩ := List.mem_filterMap.1 (List.mem_of_getLast? e)
      cases k <;> simp [readOf] at hko
      subst hko
      rename_i o
      cases o with
      | none => exact absurd rfl (hn _ hk).1
      | some f => simp only [Option.join_some, reduceCtorEq, false_iff]; exact fun h => h ⟨_, hk⟩
  have hw : lastWrite ks = none ↔ ¬ ∃ h, CharCall.handleWrite h ∈ ks := by
    unfold lastWrite
    cases e : (ks.filterMap writeOf).getLast? with
    | none =>
      simp only [Option.join_none, true_iff]
      rintro ⟨h, hh⟩
      have : h ∈ ks.filterMap writeOf := List.mem_filterMap.2 ⟨_, hh, rfl⟩
      rw [List.getLast?_eq_none_iff.1 e] at this
      simp at this
    | some o =>
      obtain ⟨k, hk, hko⟩ := List.mem_filterMap.1 (List.mem_of_getLast? e)
      cases k <;> simp [writeOf] at hko
      subst hko
      rename_i o
      cases o with
      | none => exact absurd rfl (hn _ hk).2
      | some f => simp only [Option.join_some, reduceCtorEq, false_iff]; exact fun h => h ⟨_, hk⟩
  rw [hr, hw, ← hb.2.2.1]
  have hv' : lastValue ks = none ↔ ¬ ∃ v, CharCall.setValue v ∈ ks := by
    rw [← hv]; simp
  rw [hv']
  refine ⟨?_, by simp⟩
  have h1 := hb.1
  constructor
  · intro h0
    rw [h0] at h1
    simp only [ne_eq, not_true_eq_false, false_iff, not_or] at h1
    exact h1
  · intro h0
    exact Classical.byContradiction fun hne => (h1.1 hne).elim h0.1 h0.2

/-- The hypotheses are met: a heart rate measurement with a read handler, a write handler, notifications and a description. -/
def exampleCalls : List (CharCall Unit) :=
  [.handleRead (some fun st _ _ => .ok (st, [[72]], 0)), .handleWrite (some fun st _ => .ok (st, 0)), .handleNotify true,
   .addDescriptor (.app (put16 0x2901) (some [0x41]) none none)]

def exampleBuilt : Char Unit :=
  { uuid := put16 0x2A37, prop := 0x1E, rh := some fun st _ _ => .ok (st, [[72]], 0), wh := some fun st _ => .ok (st, 0), hasNotify := true,
    descs := [.app (put16 0x2901) (some [0x41]) none none] }

example : buildChar (put16 0x2A37) exampleCalls = .ok exampleBuilt := rfl

example : Serves (Server.mk (newDB [⟨put16 0x180D, [exampleBuilt]⟩] 1) 23 23 none [] (CState.init ())) 2 (put16 0x2A37) exampleCalls :=
  ⟨[], [], put16 0x180D, [], [], exampleBuilt, 1, rfl, by decide, rfl, rfl⟩

example : ∀ k ∈ exampleCalls, k ≠ .handleRead none ∧ k ≠ .handleWrite none := by
  intro k hk
  simp only [exampleCalls, List.mem_cons, List.not_mem_nil, or_false] at hk
  rcases hk with rfl | rfl | rfl | rfl <;> simp

/-- A contradiction. -/
example : Conflict (α := Unit) [.setValue [1], .handleRead none] :=
  ⟨[.setValue [1]], .handleRead none, [], rfl, .inr (.inl ⟨none, [1], rfl, by simp⟩)⟩

/-! ### Descriptors and services -/

/-- The value, read and write handler of a descriptor call. -/
def dValueOf : DescCall α → Option Bytes
  | .setValue b => some b
  | _ => none
def dReadOf : DescCall α → Option (Option (ReadH α))
  | .handleRead h => some h
  | _ => none
def dWriteOf : DescCall α → Option (Option (WriteH α))
  | .handleWrite h => some h
  | _ => none

/-- A call on a descriptor that contradicts the calls before it. -/
def DescConflict (ks : List (DescCall α)) : Prop :=
  ∃ a k b, ks = a ++ k :: b ∧
    ((∃ v, k = .setValue v ∧ ((a.filterMap dReadOf).getLast?.join).isSome) ∨ (∃ h v, k = .handleRead h ∧ .setValue v ∈ a))

namespace BuildAux

theorem descCalls_snoc (d : DescB α) (ks : List (DescCall α)) (k : DescCall α) :
    descCalls d (ks ++ [k]) = (descCalls d ks) >>= fun d => descCall d k := by
  induction ks generalizing d with
  | nil =>
    simp only [List.nil_append, descCalls, Go.bind_ok]
    cases descCall d k with
    | ok c1 => rfl
    | err e => exact e.elim
    | panic => rfl
  | cons x ks ih =>
    simp only [List.cons_append, descCalls]
    cases descCall d x with
    | ok c1 => simp [ih]
    | err e => exact e.elim
    | panic => rfl

theorem desc_result (u : Bytes) (ks : List (DescCall α)) (d : DescB α) (h : descCalls { uuid := u } ks = .ok d) :
    d.uuid = u ∧ d.v = (ks.filterMap dValueOf).getLast? ∧ d.rh = (ks.filterMap dReadOf).getLast?.join ∧
      d.wh = (ks.filterMap dWriteOf).getLast?.join := by
  induction ks using snoc_ind generalizing d with
  | h0 => simp only [descCalls, Go.ok.injEq] at h; subst h; simp
  | h1 ks k ih =>
    rw [descCalls_snoc] at h
    obtain ⟨c1, h1, h2⟩ := Go.bind_eq_ok.1 h
    obtain ⟨e1, e2, e3, e4⟩ := ih c1 h1
    cases k with
    | setValue b =>
      simp only [descCall] at h2
      split at h2
      · simp at h2
      · simp only [Go.ok.injEq] at h2
        subst h2
        simp [dValueOf, dReadOf, dWriteOf, e1, e3, e4]
    | handleRead b =>
      simp only [descCall] at h2
      split at h2
      · simp at h2
      · simp only [Go.ok.injEq] at h2
        subst h2
        simp [dValueOf, dReadOf, dWriteOf, e1, e2, e4]
    | handleWrite b =>
      simp only [descCall, Go.ok.injEq] at h2
      subst h2
      simp [dValueOf, dReadOf, dWriteOf, e1, e2, e3]

/-- The properties of a descriptor: readable (0x02) exactly if it was given a value or a read handler, writable with and without response (0x08, 0x04) exactly if it was given a write handler. -/
theorem desc_prop (u : Bytes) (ks : List (DescCall α)) (d : DescB α) (h : descCalls { uuid := u } ks = .ok d) :
    d.prop = (if ks.any (fun k => (dValueOf k).isSome || (dReadOf k).isSome) then 0x02 else 0) ||| (if ks.any (fun k => (dWriteOf k).isSome) then 0x0c else 0) := by
  induction ks using snoc_ind generalizing d with
  | h0 => simp only [descCalls, Go.ok.injEq] at h; subst h; simp
  | h1 ks k ih =>
    rw [descCalls_snoc] at h
    obtain ⟨c1, h1, h2⟩ := Go.bind_eq_ok.1 h
    have e1 := ih c1 h1
    cases k with
    | setValue b =>
      simp only [descCall] at h2
      split at h2
      · simp at h2
      · simp only [Go.ok.injEq] at h2
        subst h2
        simp only [e1, List.any_append, List.any_cons, List.any_nil, show dValueOf (DescCall.setValue b : DescCall α) = some b from rfl, show dReadOf (DescCall.setValue b : DescCall α) = none from rfl, show dWriteOf (DescCall.setValue b : DescCall α) = none from rfl]
        simp only [Option.isSome_some, Option.isSome_none, Bool.or_false, Bool.or_true, Bool.false_or]
        generalize (ks.any fun k => (dValueOf k).isSome || (dReadOf k).isSome) = x, (ks.any fun k => (dWriteOf k).isSome) = y
        cases x <;> cases y <;> decide
    | handleRead b =>
      simp only [descCall] at h2
      split at h2
      · simp at h2
      · simp only [Go.ok.injEq] at h2
        subst h2
        simp only [e1, List.any_append, List.any_cons, List.any_nil, show dValueOf (DescCall.handleRead b : DescCall α) = none from rfl, show dReadOf (DescCall.handleRead b : DescCall α) = some b from rfl, show dWriteOf (DescCall.handleRead b : DescCall α) = none from rfl]
        simp only [Option.isSome_some, Option.isSome_none, Bool.or_false, Bool.or_true, Bool.false_or]
        generalize (ks.any fun k => (dValueOf k).isSome || (dReadOf k).isSome) = x, (ks.any fun k => (dWriteOf k).isSome) = y
        cases x <;> cases y <;> decide
    | handleWrite b =>
      simp only [descCall, Go.ok.injEq] at h2
      subst h2
      simp only [e1, List.any_append, List.any_cons, List.any_nil, show dValueOf (DescCall.handleWrite b : DescCall α) = none from rfl, show dReadOf (DescCall.handleWrite b : DescCall α) = none from rfl, show dWriteOf (DescCall.handleWrite b : DescCall α) = some b from rfl]
      simp only [Option.isSome_some, Option.isSome_none, Bool.or_false, Bool.or_true, Bool.false_or]
      generalize (ks.any fun k => (dValueOf k).isSome || (dReadOf k).isSome) = x, (ks.any fun k => (dWriteOf k).isSome) = y
      cases x <;> cases y <;> decide

theorem dValue_isSome (ks : List (DescCall α)) : ((ks.filterMap dValueOf).getLast?).isSome ↔ ∃ v, DescCall.setValue v ∈ ks := by
  rw [List.getLast?_isSome]
  constructor
  · intro h
    obtain ⟨v, hv⟩ := List.exists_mem_of_ne_nil _ h
    obtain ⟨k, hk, hkv⟩ := List.mem_filterMap.1 hv
    cases k <;> simp [dValueOf] at hkv
    exact ⟨_, hk⟩
  · rintro ⟨v, hv⟩ h
    have : v ∈ ks.filterMap dValueOf := List.mem_filterMap.2 ⟨_, hv, rfl⟩
    rw [h] at this
    simp at this

theorem descCall_panic (u : Bytes) (ks : List (DescCall α)) (d : DescB α) (h : descCalls { uuid := u } ks = .ok d) (k : DescCall α) :
    descCall d k = .panic ↔
     ((∃ v, k = .setValue v ∧ ((ks.filterMap dReadOf).getLast?.join).isSome) ∨ (∃ h v, k = .handleRead h ∧ .setValue v ∈ ks)) := by
  obtain ⟨e1, e2, e3, e4⟩ := desc_result u ks d h
  cases k with
  | setValue b => simp [descCall, e3, Option.isSome_iff_ne_none]
  | handleRead b =>
    have := dValue_isSome ks
    rw [← e2] at this
    simp [descCall, this]
  | handleWrite b => simp [descCall]

end BuildAux

/-- **C97.** The same for descriptors: the calls panic exactly if one contradicts an earlier one, and else the attribute a client sees has
the UUID given and the value and handlers of the last calls. -/
theorem descriptor_built (u : Bytes) (ks : List (DescCall α)) :
    ((∃ d, descCalls { uuid := u } ks = .ok d) ↔ ¬ DescConflict ks) ∧
    (∀ d, descCalls { uuid := u } ks = .ok d →
      d.toDesc = .app u ((ks.filterMap dValueOf).getLast?) ((ks.filterMap dReadOf).getLast?.join) ((ks.filterMap dWriteOf).getLast?.join)) := by
  constructor
  · induction ks using snoc_ind with
    | h0 =>
      refine ⟨fun _ => ?_, fun _ => ⟨_, rfl⟩⟩
      rintro ⟨a, k, b, e, -⟩
      simp at e
    | h1 ks k ih =>
      constructor
      · rintro ⟨c, hc⟩
        rw [descCalls_snoc] at hc
        obtain ⟨c1, h1, h2⟩ := Go.bind_eq_ok.1 hc
        rintro ⟨a, k', b, e, hx⟩
        rcases List.eq_nil_or_concat b with rfl | ⟨b', x, rfl⟩
        · obtain ⟨rfl, rfl⟩ : ks = a ∧ k = k' := by simpa using e
          have := (descCall_panic u ks c1 h1 k).2 hx
          rw [this] at h2; simp at h2
        · have : ks ++ [k] = (a ++ k' :: b') ++ [x] := by simpa using e
          obtain ⟨e1, -⟩ := List.append_inj' this rfl
          exact ih.1 ⟨c1, h1⟩ ⟨a, k', b', e1, hx⟩
      · intro hn
        have h0 : ¬ DescConflict ks := by
          rintro ⟨a, k', b, e, hx⟩
          exact hn ⟨a, k', b ++ [k], by simp [e], hx⟩
        obtain ⟨c1, h1⟩ := ih.2 h0
        have hk : descCall c1 k ≠ .panic := by
          intro hp
          exact hn ⟨ks, k, [], rfl, (descCall_panic u ks c1 h1 k).1 hp⟩
        rw [descCalls_snoc, h1]
        show ∃ d, descCall c1 k = .ok d
        cases e : descCall c1 k with
        | ok c => exact ⟨c, rfl⟩
        | err x => exact x.elim
        | panic => exact absurd e hk
  · intro d h
    obtain ⟨e1, e2, e3, e4⟩ := desc_result u ks d h
    simp [DescB.toDesc, e1, e2, e3, e4]

/-- **C97.** Adding characteristics to a new service panics exactly if two of them have the same UUID; else they are there in order. -/
theorem service_built (u : Bytes) (cs : List (Char α)) :
    (∀ s, addCharacteristics ⟨u, []⟩ cs = .ok s → s = ⟨u, cs⟩) ∧
    ((∃ s, addCharacteristics ⟨u, []⟩ cs = .ok s) ↔ (cs.map Char.uuid).Nodup) := by
  have key : ∀ (pre : List (Char α)), (pre.map Char.uuid).Nodup →
      (∀ s, addCharacteristics ⟨u, pre⟩ cs = .ok s → s = ⟨u, pre ++ cs⟩) ∧
      ((∃ s, addCharacteristics ⟨u, pre⟩ cs = .ok s) ↔ ((pre ++ cs).map Char.uuid).Nodup) := by
    induction cs with
    | nil => intro pre hp; simpa [addCharacteristics] using hp
    | cons c cs ih =>
      intro pre hp
      simp only [addCharacteristics, addCharacteristic]
      by_cases hd : pre.any (fun x => x.uuid == c.uuid) = true
      · rw [if_pos hd]
        refine ⟨fun s h => by simp at h, ?_⟩
        constructor
        · rintro ⟨s, h⟩; simp at h
        · intro hn
          obtain ⟨x, hx, hxe⟩ := List.any_eq_true.1 hd
          have hxe : x.uuid = c.uuid := by simpa using hxe
          rw [List.map_append, List.nodup_append] at hn
          exact absurd hxe (hn.2.2 _ (List.mem_map.2 ⟨x, hx, rfl⟩) _ (by simp))
      · rw [if_neg hd]
        have hp' : ((pre ++ [c]).map Char.uuid).Nodup := by
          rw [List.map_append, List.nodup_append]
          refine ⟨hp, by simp, ?_⟩
          intro a ha b hb
          simp only [List.map_cons, List.map_nil, List.mem_singleton] at hb
          subst hb
          obtain ⟨x, hx, rfl⟩ := List.mem_map.1 ha
          intro he
          exact hd (List.any_eq_true.2 ⟨x, hx, by simpa using he⟩)
        have := ih (pre ++ [c]) hp'
        simpa using this
  simpa using key [] (by simp)

example : ∃ s, addCharacteristics (α := Unit) ⟨put16 0x180D, []⟩ [exampleBuilt, { uuid := put16 0x2A38 }] = .ok s := ⟨_, rfl⟩

/-! ## C98, C99: looking things up -/

namespace BuildAux

theorem firstFrom_spec {β : Type} (p : β → Bool) (l : List β) (i k : Nat) :
    firstFrom p i l = some k ↔ i ≤ k ∧ (∃ x, l[k - i]? = some x ∧ p x = true) ∧ ∀ j x, j < k - i → l[j]? = some x → p x = false := by
  induction l generalizing i with
  | nil => simp [firstFrom]
  | cons y l ih =>
    unfold firstFrom
    by_cases hy : p y = true
    · rw [if_pos hy]
      simp only [Option.some.injEq]
      constructor
      · rintro rfl
        refine ⟨Nat.le_refl _, ⟨y, by simp, hy⟩, fun j x hj => by omega⟩
      · rintro ⟨h1, h2, h3⟩
        rcases Nat.eq_or_lt_of_le h1 with h | h
        · exact h
        · have := h3 0 y (by omega) (by simp)
          rw [hy] at this; simp at this
    · rw [if_neg hy, ih]
      constructor
      · rintro ⟨h1, ⟨x, hx, hpx⟩, h3⟩
        have e : k - i = (k - (i + 1)) + 1 := by omega
        refine ⟨by omega, ⟨x, by rw [e]; simpa using hx, hpx⟩, ?_⟩
        intro j z hj hz
        cases j with
        | zero => simp at hz; subst hz; simpa using hy
        | succ j => exact h3 j z (by omega) (by simpa using hz)
      · rintro ⟨h1, ⟨x, hx, hpx⟩, h3⟩
        have hne : i ≠ k := by
          rintro rfl
          simp at hx; subst hx; exact hy hpx
        have e : k - i = (k - (i + 1)) + 1 := by omega
        refine ⟨by omega, ⟨x, by rw [e] at hx; simpa using hx, hpx⟩, ?_⟩
        intro j z hj hz
        exact h3 (j + 1) z (by omega) (by simpa using hz)

theorem firstFrom_none {β : Type} (p : β → Bool) (l : List β) (i : Nat) : firstFrom p i l = none ↔ ∀ x ∈ l, p x = false := by
  induction l generalizing i with
  | nil => simp [firstFrom]
  | cons y l ih =>
    unfold firstFrom
    by_cases hy : p y = true
    · rw [if_pos hy]; simp [hy]
    · rw [if_neg hy, ih]; simp [hy]

end BuildAux

/-- The characteristics of a profile with their positions, in the order of the profile. -/
def allChars (p : List PSvc) : List ((Nat × Nat) × Bytes) :=
  (p.zipIdx).flatMap fun (s, i) => (s.chars.zipIdx).map fun (c, j) => ((i, j), c.uuid)

/-- The descriptors of a profile with their positions, in the order of the profile. -/
def allDescs (p : List PSvc) : List ((Nat × Nat × Nat) × Bytes) :=
  (p.zipIdx).flatMap fun (s, i) => (s.chars.zipIdx).flatMap fun (c, j) => (c.descs.zipIdx).map fun (d, k) => ((i, j, k), d)

/-- The services of a profile with their positions. -/
def allSvcs (p : List PSvc) : List (Nat × Bytes) := (p.zipIdx).map fun (s, i) => (i, s.uuid)

/-- The first entry with UUID `u`. -/
def firstWith {β : Type} (l : List (β × Bytes)) (u : Bytes) : Option β := (l.find? fun e => e.2 == u).map Prod.fst

namespace BuildAux

theorem firstFrom_find {β : Type} (f : β → Bytes) (u : Bytes) (l : List β) (i : Nat) :
    firstFrom (fun x => f x == u) i l = firstWith ((l.zipIdx i).map fun (x, j) => (j, f x)) u := by
  induction l generalizing i with
  | nil => rfl
  | cons y l ih =>
    unfold firstFrom
    simp only [List.zipIdx_cons, List.map_cons, firstWith, List.find?_cons]
    by_cases hy : (f y == u) = true
    · simp [hy]
    · simp only [hy, Bool.false_eq_true, if_false]
      rw [ih]; rfl

theorem firstWith_append {β : Type} (l m : List (β × Bytes)) (u : Bytes) :
    firstWith (l ++ m) u = (firstWith l u).or (firstWith m u) := by
  simp only [firstWith, List.find?_append]
  cases l.find? fun e => e.2 == u <;> simp

theorem firstWith_map {β γ : Type} (g : β → γ) (l : List (β × Bytes)) (u : Bytes) :
    firstWith (l.map fun e => (g e.1, e.2)) u = (firstWith l u).map g := by
  simp only [firstWith]
  induction l with
  | nil => rfl
  | cons x l ih =>
    simp only [List.map_cons, List.find?_cons]
    by_cases hx : (x.2 == u) = true
    · simp [hx]
    · simp [hx]
      simpa using ih

end BuildAux

/-- **C99.** `FindService`, `FindCharacteristic` and `FindDescriptor` return the first service, characteristic or descriptor of the
profile, in the order of discovery, with the UUID asked for, and nil exactly if there is none. -/
theorem find_first (p : List PSvc) (u : Bytes) :
    findService p u = firstWith (allSvcs p) u ∧
    findCharacteristic p u = firstWith (allChars p) u ∧
    findDescriptor p u = firstWith (allDescs p) u := by
  refine ⟨firstFrom_find PSvc.uuid u p 0, ?_, ?_⟩
  · have key : ∀ i, findCharFrom u i p = firstWith ((p.zipIdx i).flatMap fun (s, i) => (s.chars.zipIdx).map fun (c, j) => ((i, j), c.uuid)) u := by
      induction p with
      | nil => intro i; rfl
      | cons s ss ih =>
        intro i
        simp only [findCharFrom, List.zipIdx_cons, List.flatMap_cons, firstWith_append]
        rw [firstFrom_find PChar.uuid]
        have := firstWith_map (fun j => (i, j)) ((s.chars.zipIdx).map fun (x, j) => (j, x.uuid)) u
        simp only [List.map_map, Function.comp_def] at this
        rw [this, ← ih (i + 1)]
        cases firstWith ((s.chars.zipIdx).map fun (x, j) => (j, x.uuid)) u <;> simp
    exact key 0
  · have inner : ∀ (cs : List PChar) j, findDescIn u j cs =
        firstWith ((cs.zipIdx j).flatMap fun (c, j) => (c.descs.zipIdx).map fun (d, k) => ((j, k), d)) u := by
      intro cs
      induction cs with
      | nil => intro j; rfl
      | cons c cs ih =>
        intro j
        simp only [findDescIn, List.zipIdx_cons, List.flatMap_cons, firstWith_append]
        rw [firstFrom_find (fun d => d)]
        have := firstWith_map (fun k => (j, k)) ((c.descs.zipIdx).map fun (x, k) => (k, x)) u
        simp only [List.map_map, Function.comp_def] at this
        rw [this, ← ih (j + 1)]
        cases firstWith ((c.descs.zipIdx).map fun (x, k) => (k, x)) u <;> simp
    have key : ∀ i, findDescFrom u i p = firstWith ((p.zipIdx i).flatMap fun (s, i) => (s.chars.zipIdx).flatMap fun (c, j) =>
        (c.descs.zipIdx).map fun (d, k) => ((i, j, k), d)) u := by
      induction p with
      | nil => intro i; rfl
      | cons s ss ih =>
        intro i
        simp only [findDescFrom, List.zipIdx_cons, List.flatMap_cons, firstWith_append]
        rw [inner]
        have := firstWith_map (fun jk : Nat × Nat => (i, jk.1, jk.2)) ((s.chars.zipIdx).flatMap fun (c, j) => (c.descs.zipIdx).map fun (d, k) => ((j, k), d)) u
        simp only [List.map_flatMap, List.map_map, Function.comp_def] at this
        rw [this, ← ih (i + 1)]
        cases firstWith ((s.chars.zipIdx).flatMap fun (c, j) => (c.descs.zipIdx).map fun (d, k) => ((j, k), d)) u <;> simp
    exact key 0

/-- What is found has the UUID, stands where the result says, and nothing before it in the order of the profile has the UUID. -/
theorem findService_spec (p : List PSvc) (u : Bytes) :
    (∀ i, findService p u = some i ↔ (∃ s, p[i]? = some s ∧ s.uuid = u) ∧ ∀ j s, j < i → p[j]? = some s → s.uuid ≠ u) ∧
    (findService p u = none ↔ ∀ s ∈ p, s.uuid ≠ u) := by
  refine ⟨fun i => ?_, ?_⟩
  · unfold findService
    rw [firstFrom_spec]
    simp
  · unfold findService
    rw [firstFrom_none]
    simp

/-- A profile with two services that both have characteristic 0x2A00: the first one is found; descriptor 0x2902 is found in the second. -/
def exampleProfile : List PSvc :=
  [⟨put16 0x1800, [⟨put16 0x2A00, []⟩]⟩, ⟨put16 0x180D, [⟨put16 0x2A37, [put16 0x2901]⟩, ⟨put16 0x2A00, [put16 0x2902]⟩]⟩]

example : findCharacteristic exampleProfile (put16 0x2A00) = some (0, 0) ∧ findDescriptor exampleProfile (put16 0x2902) = some (1, 1, 0) ∧
    findService exampleProfile (put16 0x180F) = none := by decide

/-- **C98 (partial).** What `Find` returns holds the first match in the order of the profile, or a nil pointer if there is none. The full
property, that `Find` itself returns nil exactly if there is nothing to find, fails: see `find_never_nil`. -/
theorem find_partial (p : List PSvc) (u : Bytes) :
    find p (.service u) = .service (firstWith (allSvcs p) u) ∧
    find p (.characteristic u) = .characteristic (firstWith (allChars p) u) ∧
    find p (.descriptor u) = .descriptor (firstWith (allDescs p) u) ∧
    find p .other = .nil := by
  obtain ⟨h1, h2, h3⟩ := find_first p u
  simp [find, h1, h2, h3]

/-- **C98.** For a service, characteristic or descriptor `Find` never returns nil, even if the profile is empty: the nil pointer of
`FindService` becomes an interface that is not nil. -/
theorem find_never_nil (p : List PSvc) (u : Bytes) :
    find p (.service u) ≠ .nil ∧ find p (.characteristic u) ≠ .nil ∧ find p (.descriptor u) ≠ .nil := by
  simp [find]

/-- **C98.** So the comparison with nil that a caller makes tells nothing: something is found and nothing is found look the same. -/
theorem find_nil_useless : ∃ (p q : List PSvc) (u : Bytes), findService p u = none ∧ findService q u ≠ none ∧
    find p (.service u) ≠ .nil ∧ find q (.service u) ≠ .nil :=
  ⟨[], [⟨put16 0x1800, []⟩], put16 0x1800, rfl, by decide, by decide, by decide⟩

end Ble.Props
