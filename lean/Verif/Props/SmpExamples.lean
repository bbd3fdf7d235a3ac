import Verif.Props.SmpPasskey
set_option autoImplicit false

/-!
# Pairing that was not asked for; concrete pairings

The second half instantiates the theorems on pairing with a small set of primitives, to show that their hypotheses can be met together.
-/

namespace Ble.Props

open Ble.Smp

namespace SmpExampleAux
open SmpHonestAux Aux

variable {P : Prims}

def isResult : Eff → Bool
  | .pairResult _ => true
  | _ => false

/-- A pairing in which no error occurs goes the same way when no `Pair` is waiting. -/
theorem no_waiter : ∀ (xs : List (Event P)) (c : Ctx P), (∀ x ∈ xs, ∃ e pdu, x = .msg e pdu) → Eff.pairResult false ∉ (run (mgr c) xs).2 →
    (run ({ ctx := c } : Mgr P) xs).2 = (run (mgr c) xs).2.filter (fun x => !isResult x) ∧ (run ({ ctx := c } : Mgr P) xs).1.ctx = (run (mgr c) xs).1.ctx := by
  intro xs
  have quietf : ∀ {e : Env P} {code : UInt8} {f : Bytes → M P Unit} (hh : handlerOf code = some f) (d : Bytes) (c : Ctx P), ((f d e c).2.1).filter (fun x => !isResult x) = (f d e c).2.1 := by
    intro e code f hh d c
    rw [List.filter_eq_self]
    intro x hx
    cases x with
    | pairResult b => exact absurd hx ((SmpPairAux.quiet_handler e hh d).app c b)
    | _ => rfl
  induction xs with
  | nil => intro c _ _; simp [run, mgr]
  | cons x xs ih =>
    intro c hm hno
    obtain ⟨e, pdu, rfl⟩ := hm x (by simp)
    have hm' : ∀ x ∈ xs, ∃ e pdu, x = Event.msg e pdu := fun x hx => hm x (by simp [hx])
    simp only [run, List.mem_append, not_or] at hno
    simp only [run, step] at hno ⊢
    -- one message
    have crashed : ∀ (m : Mgr P) (ys : List (Event P)), m.life = .crashed → (∀ x ∈ ys, ∃ e pdu, x = .msg e pdu) → run m ys = (m, []) := by
      intro m ys hl
      induction ys with
      | nil => intro _; rfl
      | cons y ys ihy =>
        intro hy
        obtain ⟨e, pdu, rfl⟩ := hy y (by simp)
        have : step m (.msg e pdu) = (m, []) := by simp [step, handle, hl]
        rw [run, this, ihy (fun x hx => hy x (by simp [hx]))]; rfl
    have finished : ∀ (ys : List (Event P)) (c : Ctx P), (∀ x ∈ ys, ∃ e pdu, x = .msg e pdu) →
        (run ({ ctx := c, closed := true } : Mgr P) ys).2.filter (fun x => !isResult x) = (run ({ ctx := c, closed := true } : Mgr P) ys).2 := by
      intro ys c hy
      rw [List.filter_eq_self]
      intro x hx
      cases x with
      | pairResult b =>
        exfalso
        obtain ⟨pre, ev, post, h1, h2⟩ := SmpBondAux.eff_split ys _ _ hx
        obtain ⟨e, pdu, rfl⟩ := hy ev (by rw [h1]; simp)
        have hcl : ∀ (zs : List (Event P)) (m : Mgr P), m.closed = true → m.waiting = false → (∀ x ∈ zs, ∃ e pdu, x = .msg e pdu) → (run m zs).1.closed = true ∧ (run m zs).1.waiting = false := by
          intro zs
          induction zs with
          | nil => intro m h1 h2 _; exact ⟨h1, h2⟩
          | cons z zs ihz =>
            intro m h1 h2 hz
            obtain ⟨e, pdu, rfl⟩ := hz z (by simp)
            have hst : (step m (.msg e pdu)).1.closed = true ∧ (step m (.msg e pdu)).1.waiting = false := by
              simp only [step]
              unfold handle
              split
              · exact ⟨h1, h2⟩
              · split
                · exact ⟨h1, h2⟩
                · split
                  · exact ⟨h1, h2⟩
                  · dsimp only
                    split
                    · exact ⟨h1, h2⟩
                    · exact ⟨h1, h2⟩
                    · split
                      · exact ⟨h1, h2⟩
                      · exact ⟨h1, h2⟩
            rw [run]
            exact ihz _ hst.1 hst.2 (fun x hx => hz x (by simp [hx]))
        obtain ⟨c1, c2⟩ := hcl pre { ctx := c, closed := true } rfl rfl (fun x hx => hy x (by rw [h1]; simp [hx]))
        simp only [step] at h2
        unfold handle at h2
        split at h2
        · simp at h2
        · split at h2
          · simp at h2
          · split at h2
            · exact absurd h2 ((SmpPairAux.quiet_send e _).app _ _)
            · rename_i f hh
              have hq := (SmpPairAux.quiet_handler e hh ‹_›).app (run ({ ctx := c, closed := true } : Mgr P) pre).1.ctx b
              dsimp only at h2
              split at h2
              · exact hq h2
              · exact hq h2
              · split at h2
                · exact hq h2
                · exact hq h2
      | _ => rfl
    unfold handle at hno ⊢
    have hlm : (mgr c).life = .running := rfl
    rw [if_neg (by simp [hlm])] at hno ⊢
    rw [if_neg (by simp [hlm])]
    cases hp : pdu.drop 4 with
    | nil =>
      simp only
      rw [crashed _ xs rfl hm', crashed _ xs rfl hm']
      simp [mgr]
    | cons code data =>
      rw [hp] at hno
      simp only at hno ⊢
      cases hh : handlerOf (P := P) code with
      | none =>
        rw [hh] at hno
        simp only at hno ⊢
        have := ih c hm' hno.2
        rw [List.filter_append, this.1]
        refine ⟨?_, this.2⟩
        congr 1
        show (send [0x05, 0x05] e c).2.1 = (send [0x05, 0x05] e c).2.1.filter _
        rw [send_app]; unfold sendOut; split <;> simp [isResult]
      | some f =>
        rw [hh] at hno
        simp only at hno ⊢
        have hq := quietf (e := e) hh data c
        have hmc : (mgr c).ctx = c := rfl
        rw [hmc] at hno ⊢
        cases hr : (f data e c).2.2 with
        | panic =>
          rw [hr] at hno
          simp only at hno ⊢
          rw [crashed _ xs rfl hm', crashed _ xs rfl hm']
          simp [hq]
        | err u =>
          rw [hr] at hno
          simp only [mgr] at hno
          exact absurd hno.1 (by simp)
        | ok u =>
          rw [hr] at hno
          simp only at hno ⊢
          by_cases hfin : (f data e c).1.state = .finished
          · rw [if_pos hfin] at hno ⊢
            rw [if_pos hfin]
            simp only [mgr] at hno ⊢
            simp only [if_true, Bool.false_eq_true, if_false] at hno ⊢
            refine ⟨?_, trivial⟩
            rw [List.filter_append, List.filter_append, hq, finished xs _ hm']
            simp [isResult]
          · rw [if_neg hfin] at hno ⊢
            rw [if_neg hfin]
            have := ih (f data e c).1 hm' hno.2
            refine ⟨?_, this.2⟩
            rw [List.filter_append, hq]
            congr 1
            exact this.1

end SmpExampleAux

open SmpExampleAux SmpHonestAux SmpRejectAux Aux

variable {P : Prims}

/-- C42, C55, negative: pairing needs no call of `Pair`. A peer that starts with a Pairing Response on a new connection, before the application asked for anything, completes a pairing without
authentication: the host stores its key and encrypts with it. -/
theorem unsolicited_pairing (S : Pairing P) (hS : S.Sound) {e0 e1 e2 e3 e4 e5 : Env P} (f0 : Fine e0) (f1 : Fine e1) (f2 : Fine e2) (f3 : Fine e3) (f4 : Fine e4) (f5 : Fine e5)
    (hk : e1.fresh = S.hostKeys) (hs : S.rsp.authReq &&& 0x08 = 0x08) (ha : S.auth = ⟨0, []⟩)
    {i j : SmpSpec.IO} (hi : SmpSpec.IO.ofByte S.cfg.ioCap = some i) (hj : SmpSpec.IO.ofByte S.rsp.ioCap = some j)
    (hm : SmpSpec.pairingMethod true (oobSet S.cfg) (oobSet S.rsp) (mitmSet S.cfg) (mitmSet S.rsp) i j = .justWorks)
    {na nb : Bytes} (hna : e3.rnd = le na) (hnb : nb.length = 16) :
    (run S.start [.msg e1 S.rspMsg, .msg e2 S.pubMsg, .msg e3 (confirmMsg (S.Cb nb 0)), .msg e4 (randomMsg nb), .msg e5 (checkMsg (S.Eb na nb zeros))]).2 =
      [.send S.hostPub, .send (randomMsg na), .send (checkMsg (S.Ea na nb zeros))] ++
      (if bonding S.cfg.authReq then [.save (le S.ra) ⟨le (S.ltk na nb), 0, 0, false⟩] else []) ++ [.startEnc (le (S.ltk na nb)) 0 0] := by
  have hfull := just_works_completes S hS f0 f1 f2 f3 f4 f5 hk hs (by rw [ha]) hi hj (Or.inl hm) hna hnb
  have hdm : determineMethod S.cfg S.rsp false = .justWorks := by
    rw [SmpMethodAux.determine_eq hi hj false (Or.inl rfl)]; exact hm
  rw [sc_start S f0 f1 hk hs (by rw [ha]) (by rw [hdm]; decide), hdm] at hfull
  have hl : isLegacy S.rsp.authReq = false := by simp [isLegacy, hs]
  have hr := onPairingResponse_sc e1 S.start.ctx S.rsp hl (fun h => by
    have h1 : determineMethod S.cfg S.rsp false = .oob := h.1
    rw [hdm] at h1; simp at h1)
  rw [sendOut_ok _ _ _ f1.send] at hr
  have h1 : step S.start (.msg e1 S.rspMsg) = ({ ctx := ctx1 S .justWorks }, [.send S.hostPub]) := by
    have h := handle_ok (m := S.start) (code := 0x02) rfl rfl hr (by simp)
    simp only [step]
    refine Eq.trans h ?_
    simp only [theKeys, Pairing.start, newMgr, Option.getD_none, hk, hostPub_eq]
    rw [← hdm]
    simp only [ctx1, Pairing.start, newMgr, ha]
    rfl
  rw [run_cons _ _ _ h1]
  have hbody : (run (mgr (ctx1 S .justWorks)) [.msg e2 S.pubMsg, .msg e3 (confirmMsg (S.Cb nb 0)), .msg e4 (randomMsg nb), .msg e5 (checkMsg (S.Eb na nb zeros))]).2 =
      [.send (randomMsg na), .send (checkMsg (S.Ea na nb zeros))] ++ ((if bonding S.cfg.authReq then [.save (le S.ra) ⟨le (S.ltk na nb), 0, 0, false⟩] else []) ++
      [.startEnc (le (S.ltk na nb)) 0 0, .pairResult true]) := by
    have := congrArg (List.drop 2) hfull
    simpa using this
  have := (no_waiter [.msg e2 S.pubMsg, .msg e3 (confirmMsg (S.Cb nb 0)), .msg e4 (randomMsg nb), .msg e5 (checkMsg (S.Eb na nb zeros))] (ctx1 S .justWorks) (by simp) (by rw [hbody]; cases bonding S.cfg.authReq <;> simp)).1
  rw [this, hbody]
  cases bonding S.cfg.authReq <;> simp [isResult]

/-! ## Concrete pairings -/

/-- Toy primitives: points are bytes, the secret is the product, and the MAC is the last byte. -/
def toy : Prims where
  aes k m := List.replicate 15 0 ++ [m.getLastD 0 + k.getLastD 0]
  aes_length _ _ := by simp
  cmac _ m := List.replicate 15 0 ++ [m.getLastD 0]
  cmac_length _ _ := by simp
  Pub := UInt8
  Priv := UInt8
  coordX p := List.replicate 31 0 ++ [p]
  coordY _ := List.replicate 32 0
  coordX_length _ := by simp
  coordY_length _ := by simp
  point x y := if x = List.replicate 31 0 ++ [x.getLastD 0] ∧ y = List.replicate 32 0 then some (x.getLastD 0) else none
  point_coord p := by simp
  coord_point x y p h := by
    split at h
    · rename_i hx
      have := Option.some.inj h
      subst this
      exact ⟨hx.1.symm, hx.2.symm⟩
    · simp at h
  dh a b := List.replicate 32 (a * b)

/-- Keys: the point is the number itself. -/
def toyKeys (n : UInt8) : Keys toy := ⟨n, n⟩

/-- A host with the default configuration but for the given bytes, and a peer. -/
def toyPairing (hostIO hostAuth peerIO peerAuth : UInt8) (passkey : Nat) : Pairing toy where
  cfg := ⟨hostIO, 0, hostAuth, 16, 0, 1⟩
  rsp := ⟨peerIO, 0, peerAuth, 16, 0, 1⟩
  la := [1, 2, 3, 4, 5, 6]
  lt := 0
  ra := [7, 8, 9, 10, 11, 12]
  rt := 1
  hostKeys := toyKeys 3
  peerKeys := toyKeys 5
  auth := ⟨passkey, []⟩

theorem toy_sound (hostIO hostAuth peerIO peerAuth : UInt8) (passkey : Nat) : (toyPairing hostIO hostAuth peerIO peerAuth passkey).Sound where
  la := rfl
  ra := rfl
  agree := rfl
  keys := by intro h; exact absurd (show (3 : UInt8) = 5 from h) (by decide)
  secret := rfl

def toyEnv : Env toy := ⟨List.replicate 16 7, toyKeys 3, none, true, true, true⟩

theorem toy_fine : Fine toyEnv := ⟨rfl, rfl, rfl, rfl⟩

/-- Just works with the default configuration (0x09: bonding, secure connections). -/
theorem example_just_works : Eff.pairResult true ∈ (run (toyPairing 4 0x09 3 0x09 0).start [.pair toyEnv ⟨0, []⟩, .msg toyEnv (toyPairing 4 0x09 3 0x09 0).rspMsg, .msg toyEnv (toyPairing 4 0x09 3 0x09 0).pubMsg,
    .msg toyEnv (confirmMsg ((toyPairing 4 0x09 3 0x09 0).Cb (List.replicate 16 9) 0)), .msg toyEnv (randomMsg (List.replicate 16 9)),
    .msg toyEnv (checkMsg ((toyPairing 4 0x09 3 0x09 0).Eb (List.replicate 16 7) (List.replicate 16 9) zeros))]).2 := by
  have := just_works_completes (toyPairing 4 0x09 3 0x09 0) (toy_sound _ _ _ _ _) toy_fine toy_fine toy_fine toy_fine toy_fine toy_fine rfl (by decide) rfl
    (i := .keyboardDisplay) (j := .none) (by decide) (by decide) (Or.inl (by decide)) (na := List.replicate 16 7) (nb := List.replicate 16 9) rfl rfl
  rw [show (toyPairing 4 0x09 3 0x09 0).auth = ⟨0, []⟩ from rfl] at this
  rw [this]
  simp

/-- The same without a call of `Pair`. -/
theorem example_unsolicited : ∃ b, Eff.save [12, 11, 10, 9, 8, 7] b ∈ (run (toyPairing 4 0x09 3 0x09 0).start [.msg toyEnv (toyPairing 4 0x09 3 0x09 0).rspMsg, .msg toyEnv (toyPairing 4 0x09 3 0x09 0).pubMsg,
    .msg toyEnv (confirmMsg ((toyPairing 4 0x09 3 0x09 0).Cb (List.replicate 16 9) 0)), .msg toyEnv (randomMsg (List.replicate 16 9)),
    .msg toyEnv (checkMsg ((toyPairing 4 0x09 3 0x09 0).Eb (List.replicate 16 7) (List.replicate 16 9) zeros))]).2 := by
  rw [unsolicited_pairing (toyPairing 4 0x09 3 0x09 0) (toy_sound _ _ _ _ _) toy_fine toy_fine toy_fine toy_fine toy_fine toy_fine rfl (by decide) rfl
    (i := .keyboardDisplay) (j := .none) (by decide) (by decide) (by decide) (na := List.replicate 16 7) (nb := List.replicate 16 9) rfl rfl]
  exact ⟨_, by rw [if_pos (by decide)]; exact List.mem_append_left _ (List.mem_append_right _ (List.mem_singleton.2 rfl))⟩

/-- Passkey entry, and its theft: a host that asks for protection against a man in the middle, and a peer with a display. -/
theorem example_stolen (passkey : Nat) (hp : passkey < 2 ^ 20) : ∃ s : Strategy, Eff.pairResult true ∈
    (play s (step (toyPairing 4 0x0d 0 0x0d passkey).start (.pair toyEnv ⟨passkey, []⟩)).1 (frames (step (toyPairing 4 0x0d 0 0x0d passkey).start (.pair toyEnv ⟨passkey, []⟩)).2)
      ([toyEnv, toyEnv] ++ (List.range 20).flatMap (fun _ => [toyEnv, toyEnv, toyEnv]) ++ [toyEnv])).2 := by
  obtain ⟨s, hs⟩ := passkey_stolen (P := toy) ⟨⟨0, 0, 0x0d, 16, 0, 1⟩, [1, 2, 3, 4, 5, 6], 0, [7, 8, 9, 10, 11, 12], 1, toyKeys 5⟩ ⟨4, 0, 0x0d, 16, 0, 1⟩
    (i := .keyboardDisplay) (j := .displayOnly) (by decide) (by decide) (by decide) (by decide)
  obtain ⟨w, hw⟩ := hs (toyKeys 3) passkey hp (toyPairing 4 0x0d 0 0x0d passkey) rfl (toy_sound _ _ _ _ _) toyEnv toyEnv toyEnv toyEnv (fun _ => toyEnv) (fun _ => toyEnv) (fun _ => toyEnv)
    toy_fine toy_fine toy_fine toy_fine (fun _ => toy_fine) (fun _ => toy_fine) (fun _ => toy_fine) rfl (fun _ => List.replicate 16 7) rfl (fun _ _ => rfl) (by intro j _; exact (show (toyPairing 4 13 0 13 0).Ca (List.replicate 16 7) 128 ≠ (toyPairing 4 13 0 13 0).Ca (List.replicate 16 7) 129 by decide))
  refine ⟨s, ?_⟩
  rw [show (toyPairing 4 0x0d 0 0x0d passkey).auth = ⟨passkey, []⟩ from rfl] at hw
  rw [hw]
  simp

end Ble.Props
