import Verif.Props.AttRead
set_option autoImplicit false

/-!
# The ATT server: writes, queued writes, notification PDUs (C18, C19, C21)
-/

namespace Ble.Props

open Ble.Att Ble.Spec

variable {α σ : Type}

/-! ## C18 -/

/-- **C18.** A Write Request to a handle runs the write handler of the attribute with that handle, once, on exactly the value bytes, and
the answer is its verdict. Nothing else of the server changes. -/
theorem write_request_delivers (s : Server σ) (h : Nat) (hh : h < 65536) (v : Bytes) (a : Attr σ) (f : WriteH σ) (st' : σ) (e : UInt8)
    (ha : s.db.at h = some a) (hf : a.wh = some f) (hr : f s.st v = .ok (st', e)) :
    handleRequest s (0x12 :: (put16 h ++ v)) =
      .ok ({ s with st := st' }, some (if e = 0 then [0x13] else errorRsp 0x12 h e)) := by
  show handleWrite s _ = _
  unfold handleWrite handleATT
  rw [le16At_put16 _ _ hh]
  have hd : sliceFrom (ε := Empty) (0x12 :: (put16 h ++ v)) 3 = .ok v := by
    rw [sliceFrom_of_le (by simp only [List.length_cons, List.length_append, put16_length]; omega)]; rfl
  simp only [index_cons_zero, Go.bind_ok]
  rw [if_neg (by simp only [List.length_cons, List.length_append, put16_length]; omega), ha]
  simp only [hf, hd, hr, Go.bind_ok, Go.pure_def]
  by_cases he : e = 0 <;> simp [he, reject]

/-- **C18.** A Write Command does the same and is never answered. Its value must not be empty. -/
theorem write_command_delivers_partial (s : Server σ) (h : Nat) (hh : h < 65536) (v : Bytes) (hv : v ≠ []) (a : Attr σ) (f : WriteH σ)
    (st' : σ) (e : UInt8) (ha : s.db.at h = some a) (hf : a.wh = some f) (hr : f s.st v = .ok (st', e)) :
    handleRequest s (0x52 :: (put16 h ++ v)) = .ok ({ s with st := st' }, none) := by
  show handleWriteCommand s _ = _
  unfold handleWriteCommand handleATT
  rw [le16At_put16 _ _ hh]
  have hd : sliceFrom (ε := Empty) (0x52 :: (put16 h ++ v)) 3 = .ok v := by
    rw [sliceFrom_of_le (by simp only [List.length_cons, List.length_append, put16_length]; omega)]; rfl
  have : 0 < v.length := List.length_pos_iff.2 hv
  simp only [index_cons_zero, Go.bind_ok]
  rw [if_neg (by simp only [List.length_cons, List.length_append, put16_length]; omega), ha]
  simp [hf, hd, hr]

/-- The code ignores a Write Command with an empty value: the handler is not run. -/
theorem empty_write_command_ignored (s : Server σ) (h : Nat) :
    handleRequest s (0x52 :: put16 h) = .ok (s, none) := rfl

/-- **C18.** Without a write handler a Write Request is refused with Write Not Permitted and a Write Command is ignored;
the state does not change, so no handler ran. -/
theorem write_without_handler (s : Server σ) (h : Nat) (hh : h < 65536) (v : Bytes) (a : Attr σ)
    (ha : s.db.at h = some a) (hf : a.wh = none) :
    handleRequest s (0x12 :: (put16 h ++ v)) = .ok (s, some (errorRsp 0x12 h 0x03)) ∧
    handleRequest s (0x52 :: (put16 h ++ v)) = .ok (s, none) := by
  constructor
  · show handleWrite s _ = _
    unfold handleWrite handleATT
    rw [le16At_put16 _ _ hh]
    simp only [index_cons_zero, Go.bind_ok]
    rw [if_neg (by simp only [List.length_cons, List.length_append, put16_length]; omega), ha]
    simp [hf, reject, errWriteNotPerm]
  · show handleWriteCommand s _ = _
    unfold handleWriteCommand handleATT
    rw [le16At_put16 _ _ hh]
    split
    · rfl
    · simp only [index_cons_zero, Go.bind_ok, ha]
      simp [hf]

/-- **C18.** Writes to handles that are not in the table change nothing (the request is refused with Invalid Handle,
`unknown_handle_refused`). -/
theorem write_unknown_handle (s : Server σ) (h : Nat) (hh : h < 65536) (v : Bytes) (ha : s.db.at h = none) :
    handleRequest s (0x12 :: (put16 h ++ v)) = .ok (s, some (errorRsp 0x12 h 0x01)) ∧
    handleRequest s (0x52 :: (put16 h ++ v)) = .ok (s, none) := by
  constructor
  · show handleWrite s _ = _
    unfold handleWrite
    rw [le16At_put16 _ _ hh]
    simp only [index_cons_zero, Go.bind_ok]
    rw [if_neg (by simp only [List.length_cons, List.length_append, put16_length]; omega), ha]
    rfl
  · show handleWriteCommand s _ = _
    unfold handleWriteCommand
    rw [le16At_put16 _ _ hh]
    split
    · rfl
    · simp only [Go.bind_ok, ha]; rfl

/-- **C18.** From the application's side: writing to the value handle of a characteristic runs that characteristic's own write handler on
the application's state, and nothing else changes. -/
theorem write_reaches_characteristic (pre post : List (Svc α)) (u : Bytes) (cpre cpost : List (Char α)) (c : Char α) (base : Nat)
    (hf : base + dbSize (pre ++ ⟨u, cpre ++ c :: cpost⟩ :: post) ≤ 65536)
    (s : Server (CState α)) (hs : s.db = newDB (pre ++ ⟨u, cpre ++ c :: cpost⟩ :: post) base)
    (f : WriteH α) (hw : c.wh = some f) (v : Bytes) (app' : α) (e : UInt8) (hr : f s.st.app v = .ok (app', e)) :
    handleRequest s (0x12 :: (put16 (charHandle base pre cpre + 1) ++ v)) =
      .ok ({ s with st := { s.st with app := app' } },
        some (if e = 0 then [0x13] else errorRsp 0x12 (charHandle base pre cpre + 1) e)) := by
  obtain ⟨d, a, -, -, -, -, -, ha, -, -, -, -, hwh⟩ := characteristic_declaration pre post u cpre cpost c base hf
  have hh : charHandle base pre cpre + 1 < 65536 := by
    have : dbSize (pre ++ ⟨u, cpre ++ c :: cpost⟩ :: post) = dbSize pre + (1 + ((cpre.map charSize).sum + (charSize c + (cpost.map charSize).sum))) +
        dbSize post := by
      simp [dbSize, svcSize]; omega
    have : 2 ≤ charSize c := by unfold charSize; omega
    unfold charHandle svcHandle
    omega
  apply write_request_delivers s _ hh v a (liftWrite f) _ e (by rw [hs]; exact ha) (by rw [hwh, hw]; rfl)
  simp [liftWrite, hr]

/-! ## C19 -/

/-- A Prepare Write Request. -/
def prepReq (h off : Nat) (v : Bytes) : Bytes := 0x16 :: (put16 h ++ (put16 off ++ v))

theorem prepare_step (s : Server σ) (h off : Nat) (hh : h < 65536) (v : Bytes) (a : Attr σ) (f : WriteH σ)
    (ha : s.db.at h = some a) (hf : a.wh = some f) :
    handleRequest s (prepReq h off v) = .ok (enqueue s a v, some (0x17 :: (put16 h ++ (put16 off ++ v)))) := by
  show handlePrepareWrite s _ = _
  unfold handlePrepareWrite prepReq handleATT
  rw [le16At_put16 _ _ hh]
  have hd : sliceFrom (ε := Empty) (0x16 :: (put16 h ++ (put16 off ++ v))) 5 = .ok v := by
    rw [sliceFrom_of_le (by simp only [List.length_cons, List.length_append, put16_length]; omega)]; rfl
  simp only [index_cons_zero, Go.bind_ok]
  rw [if_neg (by simp only [List.length_cons, List.length_append, put16_length]; omega), ha]
  simp [hf, hd]

theorem loopStep_of_handle {s s' : Server σ} {b : Bytes} {x : UInt8} {xs : Bytes} (hb : b.head? ≠ some 0x1E)
    (h : handleRequest s b = .ok (s', some (x :: xs))) : loopStep s b = .ok (s', [x :: xs]) := by
  unfold loopStep
  split
  · simp at hb
  · rw [h]; rfl

/-- Preparing a list of fragments for one handle, once the first is queued. -/
theorem prepare_loop (s : Server σ) (h : Nat) (hh : h < 65536) (a b : Attr σ) (f : WriteH σ)
    (ha : s.db.at h = some a) (hf : a.wh = some f) (hp : s.prep = some b) (fs : List (Nat × Bytes)) :
    loop s (fs.map fun p => prepReq h p.1 p.2) =
      .ok ({ s with prepData := s.prepData ++ fs.flatMap Prod.snd }, fs.map fun p => [0x17 :: (put16 h ++ (put16 p.1 ++ p.2))]) := by
  induction fs generalizing s with
  | nil => simp [loop]
  | cons p fs ih =>
    rw [List.map_cons, loop, loopStep_of_handle (by simp [prepReq]) (prepare_step s h p.1 hh p.2 a f ha hf)]
    have he : enqueue s a p.2 = { s with prepData := s.prepData ++ p.2 } := by unfold enqueue; rw [hp]
    simp only [Go.bind_ok, he]
    rw [ih { s with prepData := s.prepData ++ p.2 } ha hp]
    simp

/-- **C19.** Fragments prepared for one handle, from an empty queue, are delivered by Execute to that attribute's write handler as one
value: the fragments in the order they came. Each Prepare is echoed; the queue is empty afterwards. (The offsets are not looked at.) -/
theorem queued_write_delivered_partial (s : Server σ) (h : Nat) (hh : h < 65536) (a : Attr σ) (f : WriteH σ)
    (ha : s.db.at h = some a) (hf : a.wh = some f) (hp : s.prep = none) (p : Nat × Bytes) (fs : List (Nat × Bytes))
    (st' : σ) (e : UInt8) (hr : f s.st (p.2 ++ fs.flatMap Prod.snd) = .ok (st', e)) :
    ∃ s', loop s ((p :: fs).map (fun p => prepReq h p.1 p.2) ++ [[0x18, 0x01]]) =
        .ok (s', (p :: fs).map (fun p => [0x17 :: (put16 h ++ (put16 p.1 ++ p.2))]) ++
          [[if e = 0 then [0x19] else errorRsp 0x18 0 e]]) ∧
      s'.st = st' ∧ s'.prep = none ∧ s'.db = s.db := by
  have append : ∀ (s : Server σ) (xs ys : List Bytes), loop s (xs ++ ys) = (do
      let (s1, o1) ← loop s xs
      let (s2, o2) ← loop s1 ys
      pure (s2, o1 ++ o2)) := by
    intro s xs ys
    induction xs generalizing s with
    | nil =>
      simp only [List.nil_append, loop, Go.pure_def, Go.bind_ok]
      cases loop s ys <;> rfl
    | cons x xs ih =>
      simp only [List.cons_append, loop]
      cases loopStep s x with
      | panic => rfl
      | err e => cases e
      | ok r =>
        simp only [Go.bind_ok, ih]
        cases loop r.1 xs with
        | panic => rfl
        | err e => cases e
        | ok r2 =>
          simp only [Go.bind_ok, Go.pure_def]
          cases loop r2.1 ys <;> rfl
  have first : loop s ((p :: fs).map fun p => prepReq h p.1 p.2) =
      .ok ({ s with prep := some a, prepData := p.2 ++ fs.flatMap Prod.snd },
        (p :: fs).map fun p => [0x17 :: (put16 h ++ (put16 p.1 ++ p.2))]) := by
    rw [List.map_cons, loop, loopStep_of_handle (by simp [prepReq]) (prepare_step s h p.1 hh p.2 a f ha hf)]
    have he : enqueue s a p.2 = { s with prep := some a, prepData := p.2 } := by unfold enqueue; rw [hp]
    simp only [Go.bind_ok, he]
    rw [prepare_loop { s with prep := some a, prepData := p.2 } h hh a a f ha hf rfl fs]
    simp
  rw [append, first]
  refine ⟨{ s with prep := none, prepData := p.2 ++ fs.flatMap Prod.snd, st := st' }, ?_, rfl, rfl, rfl⟩
  simp only [Go.bind_ok, loop]
  rw [loopStep_of_handle (s' := { s with prep := none, prepData := p.2 ++ fs.flatMap Prod.snd, st := st' })
    (x := if e = 0 then 0x19 else 0x01) (xs := if e = 0 then [] else [0x18, 0, 0, e]) (by simp)]
  · by_cases he : e = 0 <;> simp [he, errorRsp, put16]
  · show handleExecuteWrite _ _ = _
    unfold handleExecuteWrite handleATT
    simp only [index_cons_zero, index_cons_succ, Go.bind_ok]
    rw [if_neg (by simp), if_neg (by simp), if_pos trivial]
    simp only [hf, hr, Go.bind_ok]
    by_cases he : e = 0 <;> simp [he, errorRsp, put16, reject]

/-- **C19.** Cancelling runs no handler and empties the queue: what was prepared before is not part of a later Execute. -/
theorem cancel_discards (s : Server σ) (t : Bytes) :
    handleRequest s (0x18 :: 0x00 :: t) = .ok ({ s with prep := none }, some [0x19]) := by
  show handleExecuteWrite _ _ = _
  unfold handleExecuteWrite
  simp only [index_cons_zero, index_cons_succ, Go.bind_ok]
  rw [if_neg (by simp), if_pos trivial]
  rfl

/-- **C19.** Refuted across handles: a fragment prepared for `h2` after one for `h1` is appended to the value that Execute delivers to
`h1`, and the handler of `h2` is not run. -/
theorem queued_writes_merge_across_handles (s : Server σ) (h1 h2 : Nat) (hh1 : h1 < 65536) (hh2 : h2 < 65536) (a1 a2 : Attr σ)
    (f1 f2 : WriteH σ) (ha1 : s.db.at h1 = some a1) (ha2 : s.db.at h2 = some a2) (hf1 : a1.wh = some f1) (hf2 : a2.wh = some f2)
    (hp : s.prep = none) (v1 v2 : Bytes) (o1 o2 : Nat) (st' : σ) (hr : f1 s.st (v1 ++ v2) = .ok (st', 0)) :
    ∃ s', loop s [prepReq h1 o1 v1, prepReq h2 o2 v2, [0x18, 0x01]] =
        .ok (s', [[0x17 :: (put16 h1 ++ (put16 o1 ++ v1))], [0x17 :: (put16 h2 ++ (put16 o2 ++ v2))], [[0x19]]]) ∧ s'.st = st' := by
  have e1 : enqueue s a1 v1 = { s with prep := some a1, prepData := v1 } := by unfold enqueue; rw [hp]
  refine ⟨{ s with prep := none, prepData := v1 ++ v2, st := st' }, ?_, rfl⟩
  rw [loop, loopStep_of_handle (by simp [prepReq]) (prepare_step s h1 o1 hh1 v1 a1 f1 ha1 hf1), e1]
  simp only [Go.bind_ok, loop]
  rw [loopStep_of_handle (by simp [prepReq]) (prepare_step { s with prep := some a1, prepData := v1 } h2 o2 hh2 v2 a2 f2 ha2 hf2)]
  simp only [Go.bind_ok, enqueue]
  rw [loopStep_of_handle (s' := { s with prep := none, prepData := v1 ++ v2, st := st' }) (x := 0x19) (xs := []) (by simp)]
  · rfl
  · show handleExecuteWrite _ _ = _
    unfold handleExecuteWrite handleATT
    simp only [index_cons_zero, index_cons_succ, Go.bind_ok]
    rw [if_neg (by simp), if_neg (by simp), if_pos trivial]
    simp [hf1, hr]

/-! ## C21 -/

/-- **C21.** A notification is 0x1B, an indication 0x1D, then the value handle and the longest prefix of the data such that the PDU
fits the MTU. -/
theorem notification_pdu (mtu h : Nat) (hm : 3 ≤ mtu) (data : Bytes) :
    (∃ p, notifyPDU mtu h data = 0x1B :: (put16 h ++ p) ∧ indicatePDU mtu h data = 0x1D :: (put16 h ++ p) ∧ p <+: data ∧
      3 + p.length ≤ mtu ∧ (p = data ∨ 3 + p.length = mtu)) := by
  refine ⟨data.take (mtu - 3), ?_, ?_, List.take_prefix _ _, ?_, ?_⟩
  · unfold notifyPDU valuePDU; simp only []
    split
    · rfl
    · rw [List.take_of_length_le (by omega)]; rfl
  · unfold indicatePDU valuePDU; simp only []
    split
    · rfl
    · rw [List.take_of_length_le (by omega)]; rfl
  · simp only [List.length_take]; omega
  · by_cases h : data.length ≤ mtu - 3
    · exact Or.inl (List.take_of_length_le h)
    · right; simp only [List.length_take]; omega

example : notifyPDU 23 0x1234 [1, 2, 3] = [0x1B, 0x34, 0x12, 1, 2, 3] := rfl
example : (notifyPDU 23 5 (List.replicate 100 7)).length = 23 := rfl

/-! ## Non-vacuity -/

/-- A server with two writable characteristics that record what they are given. -/
def writeServices : List (Svc (List (Nat × Bytes))) :=
  [{ uuid := put16 0x1800, chars := [
      { uuid := put16 0x2A00, prop := 0x08, wh := some fun st d => .ok (st ++ [(1, d)], 0) },
      { uuid := put16 0x2A01, prop := 0x08, wh := some fun st d => .ok (st ++ [(2, d)], 0) }] }]

def writeServer : Server (CState (List (Nat × Bytes))) :=
  { db := newDB writeServices 1, mtu := 23, rxMTU := 515, prep := none, prepData := [], st := CState.init [] }

example : (match handleRequest writeServer (0x12 :: (put16 5 ++ [7, 8])) with | .ok (s, _) => s.st.app | _ => []) = [(2, [7, 8])] := rfl
example : (match loop writeServer [prepReq 3 0 [1], prepReq 3 1 [2, 3], [0x18, 0x01]] with | .ok (s, _) => s.st.app | _ => []) =
    [(1, [1, 2, 3])] := rfl
example : (match loop writeServer [prepReq 3 0 [1], prepReq 5 1 [2, 3], [0x18, 0x01]] with | .ok (s, _) => s.st.app | _ => []) =
    [(1, [1, 2, 3])] := rfl
example : (match loop writeServer [prepReq 3 0 [1], [0x18, 0], prepReq 5 1 [2, 3], [0x18, 0x01]] with | .ok (s, _) => s.st.app | _ => []) =
    [(2, [2, 3])] := rfl

end Ble.Props
