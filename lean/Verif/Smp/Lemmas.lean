import Verif.Smp.Spec
set_option autoImplicit false

/-! # Lemmas about the pairing functions -/

namespace Ble.Smp

namespace Aux

theorem swapLoop_length : ∀ n (a : Bytes), (swapLoop n a).length = a.length := by
  intro n
  induction n with
  | zero => intro a; rfl
  | succ n ih => intro a; rw [swapLoop, ih]; simp

theorem swapLoop_get : ∀ n (a : Bytes), n ≤ a.length / 2 → ∀ j, j < a.length →
    (swapLoop n a).getD j 0 = if j < n ∨ a.length - n ≤ j then a.getD (a.length - 1 - j) 0 else a.getD j 0 := by
  intro n
  induction n with
  | zero => intro a _ j hj; rw [swapLoop, if_neg (by omega)]
  | succ n ih =>
    intro a hn j hj
    rw [swapLoop, ih _ (by simp; omega) j (by simpa using hj)]
    simp only [List.length_set, List.getD_eq_getElem?_getD, List.getElem?_set]
    by_cases h1 : j < n ∨ a.length - n ≤ j
    · rw [if_pos h1, if_neg (show ¬ a.length - 1 - n = a.length - 1 - j by omega), if_neg (show ¬ n = a.length - 1 - j by omega), if_pos (show j < n + 1 ∨ a.length - (n + 1) ≤ j by omega)]
    · rw [if_neg h1]
      by_cases h2 : a.length - 1 - n = j
      · rw [if_pos h2, if_pos (by omega), if_pos (by omega)]
        simp only [Option.getD_some]; congr 2; omega
      · rw [if_neg h2]
        by_cases h3 : n = j
        · rw [if_pos h3, if_pos (by omega), if_pos (by omega)]
          simp only [Option.getD_some]; congr 2; omega
        · rw [if_neg h3, if_neg (by omega)]

end Aux

/-- `SwapBuf` reverses. -/
theorem swapBuf_eq (b : Bytes) : swapBuf b = b.reverse := by
  apply List.ext_getElem
  · simp [swapBuf, Aux.swapLoop_length]
  · intro j h1 h2
    have hj : j < b.length := by simpa using h2
    have := Aux.swapLoop_get (b.length / 2) b (Nat.le_refl _) j hj
    have e1 : (swapBuf b).getD j 0 = (swapBuf b)[j] := by simp [List.getD_eq_getElem?_getD, List.getElem?_eq_getElem h1]
    rw [← e1]; unfold swapBuf; rw [this]
    rw [List.getElem_reverse]
    split
    · simp [List.getD_eq_getElem?_getD, List.getElem?_eq_getElem (show b.length - 1 - j < b.length by omega)]
    · have : b.length - 1 - j = j := by omega
      simp [List.getD_eq_getElem?_getD, this, List.getElem?_eq_getElem hj]

namespace M
variable {P : Prims} {α β : Type}

@[simp] theorem bind_app (x : M P α) (f : α → M P β) (e : Env P) (c : Ctx P) : (x >>= f) e c =
  (match x e c with
  | (c1, w1, .ok a) => ((f a e c1).1, w1 ++ (f a e c1).2.1, (f a e c1).2.2)
  | (c1, w1, .err u) => (c1, w1, .err u)
  | (c1, w1, .panic) => (c1, w1, .panic)) := rfl
@[simp] theorem pure_app (a : α) (e : Env P) (c : Ctx P) : (pure a : M P α) e c = (c, [], .ok a) := rfl
@[simp] theorem get_app (e : Env P) (c : Ctx P) : (get : M P (Ctx P)) e c = (c, [], .ok c) := rfl
@[simp] theorem env_app (e : Env P) (c : Ctx P) : (env : M P (Env P)) e c = (c, [], .ok e) := rfl
@[simp] theorem modify_app (f : Ctx P → Ctx P) (e : Env P) (c : Ctx P) : modify f e c = (f c, [], .ok ()) := rfl
@[simp] theorem emit_app (x : Eff) (e : Env P) (c : Ctx P) : (emit x : M P Unit) e c = (c, [x], .ok ()) := rfl
@[simp] theorem fail_app (e : Env P) (c : Ctx P) : (fail : M P α) e c = (c, [], .err ()) := rfl
@[simp] theorem panic_app (e : Env P) (c : Ctx P) : (panic : M P α) e c = (c, [], .panic) := rfl
@[simp] theorem lift_app (g : Go Unit α) (e : Env P) (c : Ctx P) : lift g e c = (c, [], g) := rfl
@[simp] theorem ite_app (p : Prop) [Decidable p] (x y : M P α) (e : Env P) (c : Ctx P) : (if p then x else y) e c = if p then x e c else y e c := by
  split <;> rfl

end M

namespace Aux
variable (P : Prims)

theorem cmac_ok {k m : Bytes} (h : k.length = 16) : aesCMAC P k m = .ok (P.cmac k.reverse m.reverse).reverse := by
  simp [aesCMAC, aesKeyOk, swapBuf_eq, h]

theorem cmac_ok_iff {k m out : Bytes} (h : k.length = 16) : aesCMAC P k m = .ok out ↔ out = (P.cmac k.reverse m.reverse).reverse := by
  rw [cmac_ok P h]; simp [eq_comm]

theorem f4_ok {u v x : Bytes} {z : UInt8} (hu : u.length = 32) (hv : v.length = 32) (hx : x.length = 16) :
    smpF4 P u v x z = .ok (SmpSpec.f4 P u.reverse v.reverse x.reverse z).reverse := by
  simp [smpF4, hu, hv, hx, cmac_ok P hx, SmpSpec.f4]

theorem f5_ok {w n1 n2 a1 a2 : Bytes} (hw : w.length = 32) (h1 : n1.length = 16) (h2 : n2.length = 16) (h3 : a1.length = 7) (h4 : a2.length = 7) :
    smpF5 P w n1 n2 a1 a2 = .ok ((SmpSpec.macKey P w.reverse n1.reverse n2.reverse a1.reverse a2.reverse).reverse,
      (SmpSpec.ltk P w.reverse n1.reverse n2.reverse a1.reverse a2.reverse).reverse) := by
  have hm : (f5msg n1 n2 a1 a2).set 52 1 = [0x00, 0x01] ++ a2 ++ a1 ++ n2 ++ n1 ++ [0x65, 0x6c, 0x74, 0x62] ++ [0x01] := by
    unfold f5msg
    rw [List.set_append_right _ _ (by simp [h1, h2, h3, h4])]
    simp [h1, h2, h3, h4]
  have hs : f5salt.reverse = SmpSpec.salt := by decide
  unfold smpF5
  rw [cmac_ok P (by rfl), hm]
  simp only [hw, h1, h2, h3, h4, ne_eq, not_true, if_false, Go.bind_ok]
  rw [cmac_ok P (by simp [P.cmac_length]), cmac_ok P (by simp [P.cmac_length])]
  simp [SmpSpec.macKey, SmpSpec.ltk, SmpSpec.f5, f5msg, hs]

theorem f6_ok {w n1 n2 r io a1 a2 : Bytes} (hw : w.length = 16) (h1 : n1.length = 16) (h2 : n2.length = 16) (hr : r.length = 16) (hi : io.length = 3)
    (h3 : a1.length = 7) (h4 : a2.length = 7) :
    smpF6 P w n1 n2 r io a1 a2 = .ok (SmpSpec.f6 P w.reverse n1.reverse n2.reverse r.reverse io.reverse a1.reverse a2.reverse).reverse := by
  simp [smpF6, hw, h1, h2, hr, hi, h3, h4, cmac_ok P hw, SmpSpec.f6]

theorem e_ok {k m : Bytes} (hk : k.length = 16) (hm : m.length = 16) : smpE P k m = .ok (P.aes k.reverse m.reverse).reverse := by
  simp [smpE, aes128, aesKeyOk, swapBuf_eq, hk, hm, List.take_of_length_le]

theorem xor_ok {a b : Bytes} (h : a.length = b.length) : xorSlice a b = .ok (SmpSpec.xor a b) := by
  simp [xorSlice, h, SmpSpec.xor]

theorem xor_length {a b : Bytes} (h : a.length = b.length) : (SmpSpec.xor a b).length = a.length := by simp [SmpSpec.xor, h]

theorem xor_reverse {a b : Bytes} (h : a.length = b.length) : (SmpSpec.xor a b).reverse = SmpSpec.xor a.reverse b.reverse := by
  simp only [SmpSpec.xor]
  exact List.reverse_zipWith h

theorem c1_ok {k r preq pres : Bytes} {iat rat : UInt8} {la ra : Bytes} (hk : k.length = 16) (hr : r.length = 16) (h1 : preq.length = 7) (h2 : pres.length = 7)
    (h3 : la.length = 6) (h4 : ra.length = 6) :
    smpC1 P k r preq pres iat rat la ra = .ok (SmpSpec.c1 P k.reverse r.reverse preq.reverse pres.reverse iat rat la.reverse ra.reverse).reverse := by
  have l1 : r.length = ([iat, rat] ++ preq ++ pres).length := by simp [hr, h1, h2]
  show (xorSlice r ([iat, rat] ++ preq ++ pres) >>= fun x1 => smpE P k x1 >>= fun msg1 => xorSlice msg1 (ra ++ la ++ [0, 0, 0, 0]) >>= fun x2 => smpE P k x2) = _
  rw [xor_ok l1]
  simp only [Go.bind_ok]
  rw [e_ok P hk (by rw [xor_length l1, hr])]
  simp only [Go.bind_ok]
  have l2 : (P.aes k.reverse (SmpSpec.xor r ([iat, rat] ++ preq ++ pres)).reverse).reverse.length = (ra ++ la ++ [0, 0, 0, 0]).length := by
    simp [P.aes_length, h3, h4]
  rw [xor_ok l2]
  simp only [Go.bind_ok]
  rw [e_ok P hk (by rw [xor_length l2]; simp [P.aes_length]), xor_reverse l2, xor_reverse l1]
  simp [SmpSpec.c1]

theorem s1_ok {k r1 r2 : Bytes} (hk : k.length = 16) (h1 : r1.length = 16) (h2 : r2.length = 16) :
    smpS1 P k r1 r2 = .ok (SmpSpec.s1 P k.reverse r1.reverse r2.reverse).reverse := by
  unfold smpS1
  rw [e_ok P hk (by simp [h1, h2])]
  simp [hk, h1, h2, SmpSpec.s1, List.drop_reverse]

variable {P}

/-- Result of a send, after which nothing follows. -/
def sendOut (e : Env P) (c : Ctx P) (pdu : Bytes) : Ctx P × List Eff × Go Unit Unit :=
  if e.sendOk then (c, [.send (frame pdu)], .ok ()) else (c, [], .err ())

theorem send_app (e : Env P) (c : Ctx P) (pdu : Bytes) : send pdu e c = sendOut e c pdu := by
  simp [send, sendOut]

theorem sendOut_ctx (e : Env P) (c : Ctx P) (pdu : Bytes) : (sendOut e c pdu).1 = c := by unfold sendOut; split <;> rfl
theorem sendOut_ok (e : Env P) (c : Ctx P) (pdu : Bytes) (h : e.sendOk = true) : sendOut e c pdu = (c, [.send (frame pdu)], .ok ()) := by simp [sendOut, h]

theorem sendPairingRequest_app (e : Env P) (c : Ctx P) : sendPairingRequest e c = sendOut e c (buildReq c.request) := by
  cases h : e.sendOk <;> simp [sendPairingRequest, send_app, sendOut, h]

/-- The host's key pair for a pairing: the one it has, or a new one. -/
def theKeys (e : Env P) (c : Ctx P) : Keys P := c.keys.getD e.fresh

theorem sendPublicKey_app (e : Env P) (c : Ctx P) :
    sendPublicKey e c = sendOut e { c with keys := some (theKeys e c), state := .waitPublicKey } ([0x0c] ++ marshalXY P (theKeys e c).pub) := by
  cases hk : c.keys <;> cases h : e.sendOk <;> simp [sendPublicKey, send_app, theKeys, hk, sendOut, h]

theorem sendPairingRandom_app (e : Env P) (c : Ctx P) :
    sendPairingRandom e c = sendOut e { c with localRandom := some (c.localRandom.getD e.rnd), state := .waitRandom } ([0x04] ++ c.localRandom.getD e.rnd) := by
  cases hk : c.localRandom <;> cases h : e.sendOk <;> simp [sendPairingRandom, send_app, hk, sendOut, h]

theorem sendMConfirm_app (e : Env P) (c : Ctx P) :
    sendMConfirm e c = match smpC1 P (legacyTK c) e.rnd (buildReq c.request) (buildRsp c.response) c.localAddrType c.remoteAddrType c.localAddr c.remoteAddr with
      | .ok c1 => sendOut e { c with localRandom := some e.rnd, state := .waitConfirm } ([0x03] ++ c1)
      | .err _ => ({ c with localRandom := some e.rnd }, [], .err ())
      | .panic => ({ c with localRandom := some e.rnd }, [], .panic) := by
  have : legacyTK { c with localRandom := some e.rnd } = legacyTK c := rfl
  cases h : smpC1 P (legacyTK c) e.rnd (buildReq c.request) (buildRsp c.response) c.localAddrType c.remoteAddrType c.localAddr c.remoteAddr <;>
    cases h' : e.sendOk <;> simp [sendMConfirm, send_app, this, h, sendOut, h']

end Aux

end Ble.Smp
