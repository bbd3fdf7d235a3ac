import Verif.Props.SmpPair
set_option autoImplicit false

/-!
# C56: passkey entry does not protect the passkey

A peer may repeat its confirm value in a round. The host answers each one with its nonce, so the peer learns the host's nonce before it has committed itself, reads the bit of the passkey out of the host's
confirm value, and then commits to the right bit.
-/

namespace Ble.Props

open Ble.Smp

variable {P : Prims}

/-- The frames among the effects. -/
def frames (w : List Eff) : List Bytes := w.filterMap (fun x => match x with | .send f => some f | _ => none)

/-- A peer chooses each message from what it has received. -/
abbrev Strategy := List Bytes → Bytes

/-- The peer and the host take turns, one turn for each environment. -/
def play (s : Strategy) (m : Mgr P) (seen : List Bytes) : List (Env P) → Mgr P × List Eff
  | [] => (m, [])
  | e :: es =>
    ((play s (step m (.msg e (s seen))).1 (seen ++ frames (step m (.msg e (s seen))).2) es).1,
     (step m (.msg e (s seen))).2 ++ (play s (step m (.msg e (s seen))).1 (seen ++ frames (step m (.msg e (s seen))).2) es).2)

/-- What a peer knows that was not given the passkey. -/
structure Outsider (P : Prims) where
  rsp : Config
  la : Bytes
  lt : UInt8
  ra : Bytes
  rt : UInt8
  keys : Keys P

namespace Outsider

variable (O : Outsider P)

/-- The host's nonce and confirm value of round `j`, as received. -/
def nonceOf (seen : List Bytes) (j : Nat) : Bytes := le ((seen.getD (3 + 3 * j) []).drop 5)
def confOf (seen : List Bytes) (j : Nat) : Bytes := le ((seen.getD (2 + 3 * j) []).drop 5)

/-- Bit `j` of the passkey. -/
def bit (pk : P.Pub) (seen : List Bytes) (j : Nat) : Bool := decide (confOf seen j = SmpSpec.f4 P (P.coordX pk) (P.coordX O.keys.pub) (nonceOf seen j) 0x81)

/-- The number with these bits. -/
def value (b : Nat → Bool) : Nat → Nat → Nat
  | _, 0 => 0
  | i, n + 1 => (b i).toNat + 2 * value b (i + 1) n

def A : Bytes := [O.lt] ++ O.la
def B : Bytes := [O.rt] ++ O.ra

/-- The check value. -/
def check (pk : P.Pub) (seen : List Bytes) : Bytes :=
  SmpSpec.f6 P (SmpSpec.macKey P (P.dh O.keys.priv pk) (nonceOf seen 19) Aux.zeros O.A O.B) Aux.zeros (nonceOf seen 19) (le (getLegacyTK (value (O.bit pk seen) 0 20))) [O.rsp.authReq, O.rsp.oobFlag, O.rsp.ioCap] O.B O.A

/-- The peer: response, public key; then in every round a meaningless confirm value, the right confirm value, a nonce; at last the check. -/
def strategy : Strategy := fun seen =>
  if seen.length ≤ 1 then frame (buildRsp O.rsp)
  else if seen.length = 2 then frame ([0x0c] ++ le (P.coordX O.keys.pub) ++ le (P.coordY O.keys.pub))
  else match unmarshalPub P ((seen.getD 1 []).drop 5) with
    | none => []
    | some pk =>
      if seen.length = 63 then checkMsg (O.check pk seen)
      else if (seen.length - 3) % 3 = 0 then confirmMsg Aux.zeros
      else if (seen.length - 3) % 3 = 1 then
        confirmMsg (SmpSpec.f4 P (P.coordX O.keys.pub) (P.coordX pk) Aux.zeros (if O.bit pk seen ((seen.length - 3) / 3) then 0x81 else 0x80))
      else randomMsg Aux.zeros

/-- The pairing it takes part in, with a host of which it knows only the address. -/
def pairing (cfg : Config) (host : Keys P) (auth : AuthData) : Pairing P := ⟨cfg, O.rsp, O.la, O.lt, O.ra, O.rt, host, O.keys, auth⟩

end Outsider

namespace SmpPasskeyAux
open SmpHonestAux Aux Outsider

theorem value_eq (p : Nat) : ∀ n i, p / 2 ^ i < 2 ^ n → value (fun j => p.testBit j) i n = p / 2 ^ i := by
  intro n
  induction n with
  | zero => intro i h; rw [value]; generalize p / 2 ^ i = q at h ⊢; omega
  | succ n ih =>
    intro i h
    have h1 : p / 2 ^ (i + 1) = p / 2 ^ i / 2 := by rw [Nat.pow_succ, Nat.div_div_eq_div_mul]
    rw [value, ih (i + 1) (by rw [h1, Nat.pow_succ] at *; omega), h1]
    have : (p.testBit i).toNat = p / 2 ^ i % 2 := by
      rw [Nat.testBit_eq_decide_div_mod_eq]
      by_cases hb : p / 2 ^ i % 2 = 1
      · simp [hb]
      · have : p / 2 ^ i % 2 = 0 := by omega
        simp [this]
    omega

theorem value_congr {b b' : Nat → Bool} : ∀ n i, (∀ j, i ≤ j → j < i + n → b j = b' j) → value b i n = value b' i n := by
  intro n
  induction n with
  | zero => intro i _; rfl
  | succ n ih =>
    intro i h
    rw [value, value, h i (by omega) (by omega), ih (i + 1) (fun j h1 h2 => h j (by omega) (by omega))]

theorem step_confirm (S : Pairing P) {na : Nat → Bytes} {i : Nat} {c : Ctx P} (hc : Round S na i c) {e : Env P} (f : Fine e) {x : Bytes} (hx : x.length = 16) :
    step (mgr c) (.msg e (confirmMsg x)) = (mgr { c with remoteConfirm := le x, localRandom := some (le (na i)), state := .waitRandom }, [.send (randomMsg (na i))]) := by
  have h3 := onPairingConfirm_app e c (le x)
  rw [if_neg (by simp [le, hx]), sendOut_ok _ _ _ f.send, hc.rnd] at h3
  simp only [Option.getD_some] at h3
  simp only [step]
  exact handle_ok (m := mgr c) (code := 0x03) rfl rfl h3 (by simp)

theorem round_confirm {S : Pairing P} {na : Nat → Bytes} {i : Nat} {c : Ctx P} (hc : Round S na i c) (x : Bytes) :
    Round S na i { c with remoteConfirm := x, localRandom := some (le (na i)), state := .waitRandom } :=
  ⟨⟨hc.of.request, hc.of.response, hc.of.la, hc.of.lt, hc.of.ra, hc.of.rt, hc.of.keys, hc.of.pub, hc.of.legacy⟩, hc.method, hc.auth, hc.iter, rfl, by simp⟩

theorem step_nonce (S : Pairing P) {na : Nat → Bytes} {i : Nat} {c3 : Ctx P} (hc : Round S na i c3) {e : Env P} (f : Fine e) {nb : Bytes} (hnb : nb.length = 16) (hi : i < 19)
    (hcf : c3.remoteConfirm = le (S.Cb nb (roundBit S.auth.passkey i))) (hrnd : e.rnd = le (na (i + 1))) :
    ∃ c', step (mgr c3) (.msg e (randomMsg nb)) = (mgr c', [.send (confirmMsg (S.Ca (na (i + 1)) (roundBit S.auth.passkey (i + 1))))]) ∧ Round S na (i + 1) c' := by
  have h4 : onPairingRandom (le nb) e c3 = ({ c3 with remoteRandom := le nb, iter := c3.iter + 1, localRandom := some (le (na (i + 1))) },
      [.send (confirmMsg (S.Ca (na (i + 1)) (roundBit S.auth.passkey (i + 1))))], .ok ()) := by
    have hcc := checkPasskeyConfirm_iff (c := { c3 with remoteRandom := le nb }) hc.of.keys hc.of.pub (by simpa [le] using hnb)
    have hcc := hcc.trans (if_pos (by show c3.remoteConfirm = _; rw [hcf, passkey_bit_spec, hc.auth, hc.iter]; simp [le, Pairing.Cb, roundBit]))
    rw [onPairingRandom_app, if_neg (by simp [le, hnb]), if_neg (by simp [hc.of.legacy]),
      onSecureRandom_pk e (c := { c3 with remoteRandom := le nb }) hc.method, hcc]
    dsimp only
    rw [if_pos (by rw [hc.iter]; omega),
      continuePassKeyPairing_app e (c := { c3 with remoteRandom := le nb, iter := c3.iter + 1 }) hc.of.keys hc.of.pub f.rnd f.send, hrnd]
    simp [hc.iter, hc.auth, passkey_bit_spec, confirmMsg, Pairing.Ca, le, roundBit]
  refine ⟨{ c3 with remoteRandom := le nb, iter := c3.iter + 1, localRandom := some (le (na (i + 1))) }, ?_, ⟨⟨hc.of.request, hc.of.response, hc.of.la, hc.of.lt, hc.of.ra, hc.of.rt, hc.of.keys, hc.of.pub, hc.of.legacy⟩, hc.method, hc.auth, by rw [← hc.iter], rfl, hc.state⟩⟩
  simp only [step]
  exact handle_ok (m := mgr c3) (code := 0x04) rfl rfl h4 hc.state

theorem step_last (S : Pairing P) (hS : S.Sound) {na : Nat → Bytes} {c3 : Ctx P} (hc : Round S na 19 c3) {e e5 : Env P} (f : Fine e) (f5 : Fine e5) {nb r : Bytes} (hnb : nb.length = 16) (hna : (na 19).length = 16)
    (hcf : c3.remoteConfirm = le (S.Cb nb (roundBit S.auth.passkey 19))) (hrl : r.length = 16) (hr : getLegacyTK S.auth.passkey = le r) :
    ∃ m' fr, step (mgr c3) (.msg e (randomMsg nb)) = (m', [.send fr]) ∧ [.send fr] ++ (step m' (.msg e5 (checkMsg (S.Eb (na 19) nb r)))).2 = ending S (na 19) nb r := by
  have h4 : onPairingRandom (le nb) e c3 = stage2 e { c3 with remoteRandom := le nb, iter := c3.iter + 1 } := by
    have hcc := checkPasskeyConfirm_iff (c := { c3 with remoteRandom := le nb }) hc.of.keys hc.of.pub (by simpa [le] using hnb)
    have hcc := hcc.trans (if_pos (by show c3.remoteConfirm = _; rw [hcf, passkey_bit_spec, hc.auth, hc.iter]; simp [le, Pairing.Cb, roundBit]))
    rw [onPairingRandom_app, if_neg (by simp [le, hnb]), if_neg (by simp [hc.of.legacy]),
      onSecureRandom_pk e (c := { c3 with remoteRandom := le nb }) hc.method, hcc]
    dsimp only
    rw [if_neg (by rw [hc.iter]; omega)]
  have hof : Of S { c3 with remoteRandom := le nb, iter := c3.iter + 1 } :=
    ⟨hc.of.request, hc.of.response, hc.of.la, hc.of.lt, hc.of.ra, hc.of.rt, hc.of.keys, hc.of.pub, hc.of.legacy⟩
  have hchk : checkR ({ c3 with remoteRandom := le nb, iter := c3.iter + 1 } : Ctx P) = le r := by unfold checkR; simp only [hc.method, hc.auth]; exact hr
  have hend := stage2_run S hS f f5 hof (na := na 19) (nb := nb) (r := r) hna hnb hc.rnd rfl hchk hrl h4
  have hla : c3.localAddr.length = 6 := by rw [hc.of.la, swapBuf_eq]; simp [hS.la]
  have hra : c3.remoteAddr.length = 6 := by rw [hc.of.ra, swapBuf_eq]; simp [hS.ra]
  have hst := stage2_app e (c := { c3 with remoteRandom := le nb, iter := c3.iter + 1 }) hc.of.keys hc.of.pub hS.agree hS.secret hc.rnd (by simpa [le] using hna) (by simpa [le] using hnb) hla hra
    (by rw [hchk]; simpa [le] using hrl)
  rw [sendOut_ok _ _ _ f.send] at hst
  obtain ⟨c', fr, h5, hs⟩ : ∃ c' fr, stage2 e { c3 with remoteRandom := le nb, iter := c3.iter + 1 } = (c', [.send fr], .ok ()) ∧ c'.state ≠ .finished := ⟨_, _, hst, by simp⟩
  rw [h5] at h4
  have hs : step (mgr c3) (.msg e (frame (0x04 :: le nb))) = (mgr c', [.send fr]) := handle_ok (m := mgr c3) (code := 0x04) rfl rfl h4 hs
  rw [run_cons _ _ _ hs] at hend
  refine ⟨mgr c', fr, hs, ?_⟩
  simpa [run] using hend

theorem play_cons {s : Strategy} {m m' : Mgr P} {seen : List Bytes} {e : Env P} {es : List (Env P)} {x : Bytes} {w : List Eff} (hx : s seen = x) (h : step m (.msg e x) = (m', w)) :
    play s m seen (e :: es) = ((play s m' (seen ++ frames w) es).1, w ++ (play s m' (seen ++ frames w) es).2) := by
  rw [play, hx, h]

/-- What the peer has received at the start of round `j`. -/
structure Seen (S : Pairing P) (na : Nat → Bytes) (j : Nat) (seen : List Bytes) : Prop where
  len : seen.length = 3 + 3 * j
  pub : seen[1]? = some S.hostPub
  conf : ∀ i, i ≤ j → seen[2 + 3 * i]? = some (confirmMsg (S.Ca (na i) (roundBit S.auth.passkey i)))
  nonce : ∀ i, i < j → seen[3 + 3 * i]? = some (randomMsg (na i))

/-- The peer reads the bits it has nonces for. -/
theorem bit_eq (O : Outsider P) {cfg : Config} {host : Keys P} {auth : AuthData} {na : Nat → Bytes} {seen : List Bytes} {i : Nat}
    (hc : seen[2 + 3 * i]? = some (confirmMsg ((O.pairing cfg host auth).Ca (na i) (roundBit auth.passkey i)))) (hn : seen[3 + 3 * i]? = some (randomMsg (na i)))
    (hcol : (O.pairing cfg host auth).Ca (na i) 0x80 ≠ (O.pairing cfg host auth).Ca (na i) 0x81) : O.bit host.pub seen i = auth.passkey.testBit i := by
  have h1 : nonceOf seen i = na i := by
    unfold nonceOf; rw [List.getD_eq_getElem?_getD, hn]; simp [randomMsg, frame, put16, le]
  have h2 : confOf seen i = (O.pairing cfg host auth).Ca (na i) (roundBit auth.passkey i) := by
    unfold confOf; rw [List.getD_eq_getElem?_getD, hc]; simp [confirmMsg, frame, put16, le]
  unfold bit
  rw [h1, h2]
  unfold roundBit
  have h3 : SmpSpec.f4 P (P.coordX host.pub) (P.coordX O.keys.pub) (na i) 0x81 = (O.pairing cfg host auth).Ca (na i) 0x81 := rfl
  rw [h3]
  cases hb : auth.passkey.testBit i with
  | true => simp
  | false => simp [hcol]

theorem pub_eq {O : Outsider P} {cfg : Config} {host : Keys P} {auth : AuthData} {seen : List Bytes} (h : seen[1]? = some (O.pairing cfg host auth).hostPub) :
    unmarshalPub P ((seen.getD 1 []).drop 5) = some host.pub := by
  rw [List.getD_eq_getElem?_getD, h, hostPub_eq]
  have : (frame (0x0c :: marshalXY P host.pub)).drop 5 = marshalXY P host.pub := by simp [frame, put16]
  show unmarshalPub P ((frame (0x0c :: marshalXY P host.pub)).drop 5) = _
  rw [this]
  exact (public_key_roundtrip P host.pub).2.2

theorem rounds_play (O : Outsider P) {cfg : Config} {host : Keys P} {auth : AuthData} (hS : (O.pairing cfg host auth).Sound) {eg ec er : Nat → Env P} {e5 : Env P} {na : Nat → Bytes}
    (fg : ∀ j, Fine (eg j)) (fc : ∀ j, Fine (ec j)) (fr : ∀ j, Fine (er j)) (f5 : Fine e5) (hna : ∀ j, j < 20 → (na j).length = 16) (hrnd : ∀ j, j < 19 → (er j).rnd = le (na (j + 1)))
    (hcol : ∀ j, j < 20 → (O.pairing cfg host auth).Ca (na j) 0x80 ≠ (O.pairing cfg host auth).Ca (na j) 0x81) (hp : auth.passkey < 2 ^ 20)
    {r : Bytes} (hrl : r.length = 16) (hr : getLegacyTK auth.passkey = le r) :
    ∀ n i c seen, Round (O.pairing cfg host auth) na i c → Seen (O.pairing cfg host auth) na i seen → i + n = 19 →
      ∃ w, (play O.strategy (mgr c) seen ((List.range' i (n + 1)).flatMap (fun j => [eg j, ec j, er j]) ++ [e5])).2 = w ++ ending (O.pairing cfg host auth) (na 19) zeros r := by
  intro n
  have hz : zeros.length = 16 := rfl
  have round : ∀ i c seen, Round (O.pairing cfg host auth) na i c → Seen (O.pairing cfg host auth) na i seen → i < 20 → ∀ es,
      ∃ c3 seen3 w3, play O.strategy (mgr c) seen (eg i :: ec i :: er i :: es) = ((play O.strategy (mgr c3) seen3 (er i :: es)).1, w3 ++ (play O.strategy (mgr c3) seen3 (er i :: es)).2) ∧
        Round (O.pairing cfg host auth) na i c3 ∧ c3.remoteConfirm = le ((O.pairing cfg host auth).Cb zeros (roundBit auth.passkey i)) ∧ seen3 = seen ++ [randomMsg (na i), randomMsg (na i)] ∧
        O.strategy seen3 = randomMsg zeros := by
    intro i c seen hc hs hi es
    have s1 : O.strategy seen = confirmMsg zeros := by
      unfold strategy
      rw [if_neg (by rw [hs.len]; omega), if_neg (by rw [hs.len]; omega), pub_eq hs.pub]
      dsimp only
      rw [if_neg (by rw [hs.len]; omega), if_pos (by rw [hs.len]; omega)]
    have p1 := play_cons (es := ec i :: er i :: es) s1 (step_confirm _ hc (fg i) hz)
    have hc1 := round_confirm hc (le zeros)
    have hl1 : (seen ++ [randomMsg (na i)]).length = 4 + 3 * i := by simp [hs.len]; omega
    have g1 : ∀ (k : Nat) v, seen[k]? = some v → ∀ t, (seen ++ t)[k]? = some v := by
      intro k v h t
      have : k < seen.length := by rw [List.getElem?_eq_some_iff] at h; exact h.1
      rw [List.getElem?_append_left this]; exact h
    have s2 : O.strategy (seen ++ [randomMsg (na i)]) = confirmMsg ((O.pairing cfg host auth).Cb zeros (roundBit auth.passkey i)) := by
      unfold strategy
      rw [if_neg (by rw [hl1]; omega), if_neg (by rw [hl1]; omega), pub_eq (g1 _ _ hs.pub _)]
      dsimp only
      have hdiv : (4 + 3 * i - 3) / 3 = i := by omega
      rw [if_neg (by rw [hl1]; omega), if_neg (by rw [hl1]; omega), if_pos (by rw [hl1]; omega), hl1, hdiv,
        bit_eq O (g1 _ _ (hs.conf i (by omega)) _) (by rw [← hs.len]; simp) (hcol i hi)]
      rfl
    have p2 := play_cons (es := er i :: es) s2 (step_confirm _ hc1 (ec i |> fun _ => fc i) (by simp [Pairing.Cb, SmpSpec.f4, P.cmac_length]))
    have hc2 := round_confirm hc1 (le ((O.pairing cfg host auth).Cb zeros (roundBit auth.passkey i)))
    have hl2 : (seen ++ [randomMsg (na i)] ++ [randomMsg (na i)]).length = 5 + 3 * i := by simp [hs.len]; omega
    have s3 : O.strategy (seen ++ [randomMsg (na i)] ++ [randomMsg (na i)]) = randomMsg zeros := by
      unfold strategy
      rw [if_neg (by rw [hl2]; omega), if_neg (by rw [hl2]; omega), pub_eq (by rw [List.append_assoc]; exact g1 _ _ hs.pub _)]
      dsimp only
      rw [if_neg (by rw [hl2]; omega), if_neg (by rw [hl2]; omega), if_neg (by rw [hl2]; omega)]
    have e1 : frames [Eff.send (randomMsg (na i))] = [randomMsg (na i)] := rfl
    rw [e1] at p1 p2
    rw [p2] at p1
    have hass : seen ++ [randomMsg (na i)] ++ [randomMsg (na i)] = seen ++ [randomMsg (na i), randomMsg (na i)] := by simp
    refine ⟨_, seen ++ [randomMsg (na i)] ++ [randomMsg (na i)], [.send (randomMsg (na i))] ++ [.send (randomMsg (na i))], ?_, hc2, rfl, hass, s3⟩
    rw [p1, List.append_assoc]
    rfl
  induction n with
  | zero =>
    intro i c seen hc hs hi
    have hi : i = 19 := by omega
    subst hi
    simp only [Nat.zero_add, List.range'_one, List.flatMap_cons, List.flatMap_nil, List.append_nil, List.cons_append, List.nil_append]
    obtain ⟨c3, seen3, w3, h1, h2, h3, h4, h5⟩ := round 19 c seen hc hs (by omega) [e5]
    obtain ⟨m', fr', h6, h7⟩ := step_last _ hS h2 (fr 19) f5 hz (hna 19 (by omega)) h3 hrl hr
    have p3 := play_cons (es := [e5]) h5 h6
    have e1 : frames [Eff.send fr'] = [fr'] := rfl
    rw [e1] at p3
    have hl : (seen3 ++ [fr']).length = 63 := by rw [h4]; simp [hs.len]
    have g1 : ∀ (k : Nat) v, seen[k]? = some v → (seen3 ++ [fr'])[k]? = some v := by
      intro k v h
      have : k < seen.length := by rw [List.getElem?_eq_some_iff] at h; exact h.1
      rw [h4, List.append_assoc, List.getElem?_append_left this]; exact h
    have hn19 : (seen3 ++ [fr'])[3 + 3 * 19]? = some (randomMsg (na 19)) := by
      rw [h4, List.append_assoc, ← hs.len, List.getElem?_append_right (Nat.le_refl _), Nat.sub_self]; rfl
    have hbits : ∀ j, j < 20 → O.bit host.pub (seen3 ++ [fr']) j = auth.passkey.testBit j := by
      intro j hj
      refine bit_eq O (g1 _ _ (hs.conf j (by omega))) ?_ (hcol j hj)
      by_cases hj' : j = 19
      · subst hj'; exact hn19
      · exact g1 _ _ (hs.nonce j (by omega))
    have hval : value (O.bit host.pub (seen3 ++ [fr'])) 0 20 = auth.passkey := by
      rw [value_congr (b' := fun j => auth.passkey.testBit j) 20 0 (fun j _ h => hbits j (by omega)), value_eq _ 20 0 (by simpa using hp)]
      simp
    have hnonce : nonceOf (seen3 ++ [fr']) 19 = na 19 := by
      unfold nonceOf; rw [List.getD_eq_getElem?_getD, hn19]; simp [randomMsg, frame, put16, le]
    have s4 : O.strategy (seen3 ++ [fr']) = checkMsg ((O.pairing cfg host auth).Eb (na 19) zeros r) := by
      unfold strategy
      rw [if_neg (by rw [hl]; omega), if_neg (by rw [hl]; omega), pub_eq (g1 _ _ hs.pub)]
      dsimp only
      rw [if_pos hl]
      unfold check
      rw [hval, hnonce, hr]
      simp only [le, List.reverse_reverse]
      rfl
    have p4 := play_cons (es := []) s4 (Prod.eta (step m' (.msg e5 (checkMsg ((O.pairing cfg host auth).Eb (na 19) zeros r))))).symm
    refine ⟨w3, ?_⟩
    rw [h1, p3, p4]
    simp only [play, List.append_nil]
    rw [← h7]
  | succ n ih =>
    intro i c seen hc hs hi
    rw [List.range'_succ, List.flatMap_cons, List.append_assoc]
    simp only [List.cons_append, List.nil_append]
    obtain ⟨c3, seen3, w3, h1, h2, h3, h4, h5⟩ := round i c seen hc hs (by omega) ((List.range' (i + 1) (n + 1)).flatMap (fun j => [eg j, ec j, er j]) ++ [e5])
    obtain ⟨c4, h6, h7⟩ := step_nonce _ h2 (fr i) hz (by omega) h3 (hrnd i (by omega))
    have p3 := play_cons (es := (List.range' (i + 1) (n + 1)).flatMap (fun j => [eg j, ec j, er j]) ++ [e5]) h5 h6
    have hs' : Seen (O.pairing cfg host auth) na (i + 1) (seen3 ++ frames [Eff.send (confirmMsg ((O.pairing cfg host auth).Ca (na (i + 1)) (roundBit (O.pairing cfg host auth).auth.passkey (i + 1))))]) := by
      rw [h4]
      have g1 : ∀ (k : Nat) v, seen[k]? = some v → ∀ t, (seen ++ t)[k]? = some v := by
        intro k v h t
        have : k < seen.length := by rw [List.getElem?_eq_some_iff] at h; exact h.1
        rw [List.getElem?_append_left this]; exact h
      refine ⟨by simp [hs.len, frames]; omega, by rw [List.append_assoc]; exact g1 _ _ hs.pub _, ?_, ?_⟩
      · intro j hj
        by_cases hj' : j = i + 1
        · subst hj'
          rw [show 2 + 3 * (i + 1) = (seen ++ [randomMsg (na i), randomMsg (na i)]).length from by simp [hs.len]; omega, List.getElem?_append_right (Nat.le_refl _), Nat.sub_self]
          rfl
        · rw [List.append_assoc]; exact g1 _ _ (hs.conf j (by omega)) _
      · intro j hj
        by_cases hj' : j = i
        · subst hj'
          rw [List.append_assoc, ← hs.len, List.getElem?_append_right (Nat.le_refl _), Nat.sub_self]
          rfl
        · rw [List.append_assoc]; exact g1 _ _ (hs.nonce j (by omega)) _
    obtain ⟨w, hw⟩ := ih (i + 1) c4 _ h7 hs' (by omega)
    rw [h1, p3]
    refine ⟨w3 ++ ([.send (confirmMsg ((O.pairing cfg host auth).Ca (na (i + 1)) (roundBit (O.pairing cfg host auth).auth.passkey (i + 1))))] ++ w), ?_⟩
    simp only [hw, List.append_assoc]

end SmpPasskeyAux

open SmpPasskeyAux SmpHonestAux Aux

/-- C56, negative. A peer that was not told the passkey has a strategy, a function of what it receives, that completes passkey entry with every passkey: for every host key pair, every passkey of six digits
(even of 20 bits) and all host nonces for which f4 does not collide on the two values of the bit. At the end the host has stored and uses the key that this peer can compute, and `Pair` returns nil. -/
theorem passkey_stolen (O : Outsider P) (cfg : Config) {i j : SmpSpec.IO} (hi : SmpSpec.IO.ofByte cfg.ioCap = some i) (hj : SmpSpec.IO.ofByte O.rsp.ioCap = some j)
    (hm : SmpSpec.pairingMethod true (oobSet cfg) (oobSet O.rsp) (mitmSet cfg) (mitmSet O.rsp) i j = .passkey) (hsc : O.rsp.authReq &&& 0x08 = 0x08) :
    ∃ s : Strategy, ∀ (host : Keys P) (passkey : Nat), passkey < 2 ^ 20 → ∀ (S : Pairing P), S = O.pairing cfg host ⟨passkey, []⟩ → S.Sound →
      ∀ (e0 e1 e2 e5 : Env P) (eg ec er : Nat → Env P), Fine e0 → Fine e1 → Fine e2 → Fine e5 → (∀ j, Fine (eg j)) → (∀ j, Fine (ec j)) → (∀ j, Fine (er j)) → e1.fresh = host →
      ∀ na : Nat → Bytes, e2.rnd = le (na 0) → (∀ j, j < 19 → (er j).rnd = le (na (j + 1))) → (∀ j, j < 20 → S.Ca (na j) 0x80 ≠ S.Ca (na j) 0x81) →
      ∃ w, (play s (step S.start (.pair e0 S.auth)).1 (frames (step S.start (.pair e0 S.auth)).2) ([e1, e2] ++ (List.range 20).flatMap (fun j => [eg j, ec j, er j]) ++ [e5])).2 =
        w ++ (if bonding cfg.authReq then [.save (le O.ra) ⟨le (SmpSpec.ltk P (P.dh O.keys.priv host.pub) (na 19) zeros O.A O.B), 0, 0, false⟩] else []) ++
          [.startEnc (le (SmpSpec.ltk P (P.dh O.keys.priv host.pub) (na 19) zeros O.A O.B)) 0 0, .pairResult true] := by
  refine ⟨O.strategy, ?_⟩
  intro host passkey hp S hSeq hS e0 e1 e2 e5 eg ec er f0 f1 f2 f5 fg fc fr hk na hna0 hrnd hcol
  have hdm : determineMethod cfg O.rsp false = .passkey := by
    rw [SmpMethodAux.determine_eq hi hj false (Or.inl rfl)]; exact hm
  have hna : ∀ j, j < 20 → (na j).length = 16 := by
    intro j hj
    cases j with
    | zero => have := f2.rnd; rw [hna0] at this; simpa [le] using this
    | succ j => have := (fr j).rnd; rw [hrnd j (by omega)] at this; simpa [le] using this
  have hpk := passkey_spec passkey (by omega)
  have hl : isLegacy O.rsp.authReq = false := by simp [isLegacy, hsc]
  subst hSeq
  rw [pair_app rfl rfl f0.send rfl]
  have hr := onPairingResponse_sc e1 { (O.pairing cfg host ⟨passkey, []⟩).start.ctx with auth := ⟨passkey, []⟩, state := .waitPairingResponse } O.rsp hl (fun h => by
    have h1 : determineMethod cfg O.rsp false = .oob := h.1
    rw [hdm] at h1; simp at h1)
  rw [sendOut_ok _ _ _ f1.send] at hr
  have hstep1 : step (mgr { (O.pairing cfg host ⟨passkey, []⟩).start.ctx with auth := ⟨passkey, []⟩, state := .waitPairingResponse }) (.msg e1 (frame (buildRsp O.rsp))) =
      (mgr (ctx1 (O.pairing cfg host ⟨passkey, []⟩) .passkey), [.send (O.pairing cfg host ⟨passkey, []⟩).hostPub]) := by
    have h := handle_ok (m := mgr { (O.pairing cfg host ⟨passkey, []⟩).start.ctx with auth := ⟨passkey, []⟩, state := .waitPairingResponse }) (code := 0x02) rfl rfl hr (by simp)
    simp only [step]
    refine Eq.trans h ?_
    simp only [theKeys, Pairing.start, newMgr, Option.getD_none, hk, hostPub_eq]
    rw [← hdm]
    rfl
  have hpub := onPublicKey_app e2 (c := ctx1 (O.pairing cfg host ⟨passkey, []⟩) .passkey) (k := host) (b := O.keys.pub) rfl hS.keys
  rw [if_pos (show (ctx1 (O.pairing cfg host ⟨passkey, []⟩) .passkey).method = .passkey from rfl),
    startPassKeyPairing_app e2 (c := { ctx1 (O.pairing cfg host ⟨passkey, []⟩) .passkey with remotePub := some O.keys.pub }) (k := host) (b := O.keys.pub) rfl rfl f2.rnd f2.send, hna0] at hpub
  have hstep2 : ∃ c2, step (mgr (ctx1 (O.pairing cfg host ⟨passkey, []⟩) .passkey)) (.msg e2 (O.pairing cfg host ⟨passkey, []⟩).pubMsg) =
      (mgr c2, [.send (confirmMsg ((O.pairing cfg host ⟨passkey, []⟩).Ca (na 0) (roundBit passkey 0)))]) ∧ Round (O.pairing cfg host ⟨passkey, []⟩) na 0 c2 := by
    refine ⟨{ ctx1 (O.pairing cfg host ⟨passkey, []⟩) .passkey with remotePub := some O.keys.pub, iter := 0, localRandom := some (le (na 0)) }, ?_,
      ⟨⟨rfl, rfl, rfl, rfl, rfl, rfl, rfl, rfl, rfl⟩, rfl, rfl, rfl, rfl, by simp [ctx1]⟩⟩
    rw [pubMsg_eq]
    simp only [step]
    refine Eq.trans (handle_ok (m := mgr (ctx1 (O.pairing cfg host ⟨passkey, []⟩) .passkey)) (code := 0x0c) rfl rfl hpub (by simp [ctx1])) ?_
    simp [passkey_bit_spec, confirmMsg, Pairing.Ca, le, roundBit, ctx1, Outsider.pairing, mgr]
  obtain ⟨c2, hstep2, hround⟩ := hstep2
  simp only [List.cons_append, List.nil_append]
  have s1 : O.strategy (frames [Eff.send (frame (buildReq (O.pairing cfg host ⟨passkey, []⟩).start.ctx.request))]) = frame (buildRsp O.rsp) := by
    unfold Outsider.strategy; rw [if_pos (by simp [frames])]
  have p1 := play_cons (es := e2 :: ((List.range 20).flatMap (fun j => [eg j, ec j, er j]) ++ [e5])) s1 hstep1
  have s2 : O.strategy (frames [Eff.send (frame (buildReq (O.pairing cfg host ⟨passkey, []⟩).start.ctx.request))] ++ frames [.send (O.pairing cfg host ⟨passkey, []⟩).hostPub]) = (O.pairing cfg host ⟨passkey, []⟩).pubMsg := by
    unfold Outsider.strategy; rw [if_neg (by simp [frames]), if_pos (by simp [frames])]; rfl
  have p2 := play_cons (es := (List.range 20).flatMap (fun j => [eg j, ec j, er j]) ++ [e5]) s2 hstep2
  have hseen : Seen (O.pairing cfg host ⟨passkey, []⟩) na 0 (frames [Eff.send (frame (buildReq (O.pairing cfg host ⟨passkey, []⟩).start.ctx.request))] ++ frames [.send (O.pairing cfg host ⟨passkey, []⟩).hostPub] ++
      frames [.send (confirmMsg ((O.pairing cfg host ⟨passkey, []⟩).Ca (na 0) (roundBit passkey 0)))]) := by
    refine ⟨by simp [frames], by simp [frames], ?_, fun i h => absurd h (by omega)⟩
    intro i hi
    have : i = 0 := by omega
    subst this
    simp [frames]; rfl
  obtain ⟨w, hw⟩ := rounds_play O hS fg fc fr f5 hna hrnd hcol hp (r := le (getLegacyTK passkey)) (by simpa [le] using hpk.1) (by simp [le]) 19 0 c2 _ hround hseen rfl
  rw [← List.range_eq_range'] at hw
  refine ⟨[.send (O.pairing cfg host ⟨passkey, []⟩).hostPub] ++ ([.send (confirmMsg ((O.pairing cfg host ⟨passkey, []⟩).Ca (na 0) (roundBit passkey 0)))] ++ (w ++
    [.send (checkMsg ((O.pairing cfg host ⟨passkey, []⟩).Ea (na 19) zeros (le (getLegacyTK passkey))))])), ?_⟩
  have q := congrArg Prod.snd p1
  rw [p2] at q
  simp only at q
  rw [hw] at q
  refine Eq.trans q ?_
  simp only [ending, List.append_assoc]
  rfl

end Ble.Props
