import Verif.Props.BondFail
import Verif.Props.BondConc
import Verif.Store.BondCrash
set_option autoImplicit false

/-!
# Concurrent use of the bond store with failures and crashes (C196, C197)
-/

namespace Ble.BondCrash

open Ble.Store hiding Phase free Phase.holds Phase.writing.injEq
open Ble.Store.BondCrash Ble.Props Ble.Props.BondAux
open Ble.Props.BondFailAux (call_any calls_append)
open Ble.Props.BondConcAux (store_exclusive calls_snoc get_set set_self)

variable {J : Json BondData}

/-! ## The calls one after the other -/

/-- The file can be read and all bonds in it decode, or it cannot be read. -/
def Good (J : Json BondData) (f : File) : Prop := view J f = none ∨ ∃ g, Holds J f g

theorem good_call {f : File} (h : Good J f) (e : Env) (o : Op) (ho : ∀ a b, o = .save a (some b) → b.ltk ≠ []) : Good J (call J e f o).1 := by
  rcases h with h | ⟨g, h⟩
  · left
    have := (bond_unreadable_for_ever J f h [(e, o)]).1
    simp only [calls] at this
    rw [this]; exact h
  · rcases call_any h e o ho with h | ⟨h, _⟩ | ⟨h, _⟩ | ⟨h, _⟩
    · exact .inr ⟨_, h⟩
    · exact .inr ⟨_, h⟩
    · exact .inr ⟨_, h⟩
    · exact .inl h

theorem good_calls (os : List (Env × Op)) : ∀ {f : File}, Good J f → KeysNotEmpty (os.map Prod.snd) → Good J (calls J f os).1 := by
  induction os with
  | nil => intro f h _; exact h
  | cons x os ih =>
    intro f h hk
    obtain ⟨e, o⟩ := x
    exact ih (good_call h e o fun a b hab => hk a b (by simp [hab])) fun a b hab => hk a b (by simp only [List.map_cons, List.mem_cons]; exact .inr hab)

/-- The sequential call in terms of its phases. -/
theorem call_phases (J : Json BondData) (e : Env) (f : File) (o : Op) (he : early o = none) : call J e f o =
    match plan J (loadBonds J e f).2 o with
    | .ret r => ((loadBonds J e f).1, r)
    | .store out r => ((writeFile e.write (loadBonds J e f).1 out).1, if (writeFile e.write (loadBonds J e f).1 out).2 then r else failed o) := by
  cases hl : loadBonds J e f with
  | mk f' om =>
    cases o with
    | exists_ a =>
      have ha : strLen a = 12 := by simp only [early] at he; split at he <;> simp_all
      simp only [call, existsBond, plan, hl, ha, ne_eq, not_true_eq_false, if_false]
      cases om <;> rfl
    | find a =>
      have ha : strLen a = 12 := by simp only [early] at he; split at he <;> simp_all
      simp only [call, findBond, plan, hl, ha, ne_eq, not_true_eq_false, if_false]
      cases om with
      | none => rfl
      | some m =>
        simp only
        cases m.lookup a with
        | none => rfl
        | some d => simp only; cases createBondInfo d <;> simp [failed]
    | save a b =>
      have ha : strLen a = 12 := by simp only [early] at he; split at he <;> simp_all
      simp only [call, saveBond, plan, hl, ha, ne_eq, not_true_eq_false, if_false]
      cases b with
      | none => simp [early, ha] at he
      | some b =>
        cases om with
        | none => rfl
        | some m =>
          simp only
          cases hw : writeFile e.write f' (J.enc (put m a (createBondData b))) with
          | mk f'' ok => cases ok <;> simp [failed]
    | delete a =>
      simp only [call, deleteBond, plan, hl]
      cases om with
      | none => rfl
      | some m =>
        simp only
        cases m.lookup a with
        | none => rfl
        | some d =>
          simp only
          cases hw : writeFile e.write f' (J.enc (del m a)) with
          | mk f'' ok => cases ok <;> simp [failed]

theorem call_early (J : Json BondData) (e : Env) (f : File) (o : Op) (r : Res) (he : early o = some r) : call J e f o = (f, r) := by
  cases o with
  | exists_ a => simp only [early] at he; split at he <;> simp_all [call, existsBond]
  | find a => simp only [early] at he; split at he <;> simp_all [call, findBond]
  | save a b =>
    simp only [early] at he
    split at he
    · simp_all [call, saveBond]
    · cases b <;> simp_all [call, saveBond]
  | delete a => simp [early] at he

theorem load_write (J : Json BondData) (e : Env) (w : Write) (f : File) : loadBonds J { e with write := w } f = loadBonds J e f := by
  cases f <;> rfl

/-- Only exclusive calls write when every stored bond decodes. -/
theorem writes_alone {e : Env} {f : File} (h : Good J f) {o : Op} {out : Bytes} {r : Res} (hp : plan J (loadBonds J e f).2 o = .store out r) : exclusive o = true := by
  rcases (load_gen J e f).2.1 with hv | hv
  · rw [hv] at hp; cases o with
    | exists_ a => simp [plan] at hp
    | find a => simp [plan] at hp
    | save a b => rfl
    | delete a => rfl
  · rw [hv] at hp
    rcases h with h | ⟨g, h⟩
    · rw [h] at hp; cases o with
      | exists_ a => simp [plan] at hp
      | find a => simp [plan] at hp
      | save a b => rfl
      | delete a => rfl
    · exact store_exclusive h hp

/-! ## The book of calls -/

/-- The call has not taken effect. -/
def Phase.pending : Phase → Prop
  | .start => True
  | .locked => True
  | .writing _ _ _ => True
  | _ => False

/-- The call has taken effect with this result. -/
def Phase.result : Phase → Option (Res)
  | .returning r => some r
  | .done r => some r
  | _ => none

structure Book (s : St) : Prop where
  logged : ∀ (i : Nat) c p, s.threads[i]? = some (c, p) → Phase.pending p → ∀ x ∈ s.log, x.id ≠ i
  ended : ∀ (i : Nat) c p r, s.threads[i]? = some (c, p) → Phase.result p = some r → (⟨i, c.env, c.op, r⟩ : Entry) ∈ s.log
  back : ∀ x ∈ s.log, ∃ c p, s.threads[x.id]? = some (c, p) ∧ x.op = c.op ∧
    ((x.env = c.env ∧ (Phase.result p = some x.res ∨ p = .dead)) ∨ (p = .dead ∧ ∃ w, w ≠ .done ∧ x.env = { c.env with write := w }))
  once : (s.log.map (·.id)).Nodup

theorem book_quiet {s : St} (h : Book s) {i : Nat} {c : Call} {p p' : Phase} (hi : s.threads[i]? = some (c, p)) (hp : Phase.pending p' → Phase.pending p) (hr : Phase.result p' = Phase.result p)
    (hd : p ≠ .dead) (f : File) : Book { file := f, threads := s.threads.set i (c, p'), log := s.log } := by
  refine ⟨?_, ?_, ?_, h.once⟩
  · intro j c' q hj hq
    rcases get_set hj with ⟨rfl, he⟩ | ⟨_, hj⟩
    · obtain ⟨rfl, rfl⟩ := Prod.mk.inj he; exact h.logged i _ _ hi (hp hq)
    · exact h.logged j _ _ hj hq
  · intro j c' q r hj hq
    rcases get_set hj with ⟨rfl, he⟩ | ⟨_, hj⟩
    · obtain ⟨rfl, rfl⟩ := Prod.mk.inj he; exact h.ended i _ _ _ hi (hr ▸ hq)
    · exact h.ended j _ _ _ hj hq
  · intro x hx
    obtain ⟨c', q, h1, h2, h3⟩ := h.back x hx
    by_cases hij : i = x.id
    · subst hij
      rw [hi] at h1
      obtain ⟨rfl, rfl⟩ := Prod.mk.inj (Option.some.inj h1)
      refine ⟨c, p', set_self hi, h2, ?_⟩
      rcases h3 with ⟨h4, h5 | h5⟩ | ⟨h4, _⟩
      · exact .inl ⟨h4, .inl (hr.trans h5)⟩
      · exact absurd h5 hd
      · exact absurd h4 hd
    · exact ⟨c', q, by rw [List.getElem?_set_ne hij]; exact h1, h2, h3⟩

theorem book_log {s : St} (h : Book s) {i : Nat} {c : Call} {p : Phase} (hi : s.threads[i]? = some (c, p)) (hp : Phase.pending p) (r : Res) {q : Phase} (hq0 : Phase.result q = some r) (hq1 : ¬ Phase.pending q) (f : File) :
    Book { file := f, threads := s.threads.set i (c, q), log := s.log ++ [⟨i, c.env, c.op, r⟩] } := by
  have hn := h.logged i c p hi hp
  refine ⟨?_, ?_, ?_, ?_⟩
  · intro j c' q' hj hq x hx
    rcases get_set hj with ⟨_, he⟩ | ⟨hij, hj⟩
    · obtain ⟨rfl, rfl⟩ := Prod.mk.inj he; exact absurd hq hq1
    · rcases List.mem_append.1 hx with hx | hx
      · exact h.logged j _ _ hj hq x hx
      · simp at hx; subst hx; exact hij
  · intro j c' q' r' hj hq
    rcases get_set hj with ⟨rfl, he⟩ | ⟨_, hj⟩
    · obtain ⟨rfl, rfl⟩ := Prod.mk.inj he
      obtain rfl : r = r' := Option.some.inj (hq0.symm.trans hq)
      simp
    · exact List.mem_append_left _ (h.ended j _ _ _ hj hq)
  · intro x hx
    rcases List.mem_append.1 hx with hx | hx
    · obtain ⟨c', q, h1, h2, h3⟩ := h.back x hx
      exact ⟨c', q, by rw [List.getElem?_set_ne (fun hij => hn x hx hij.symm)]; exact h1, h2, h3⟩
    · simp at hx; subst hx
      exact ⟨c, q, set_self hi, rfl, .inl ⟨rfl, .inl hq0⟩⟩
  · show ((s.log ++ [(⟨i, c.env, c.op, r⟩ : Entry)]).map (·.id)).Nodup
    rw [List.map_append, List.nodup_append]
    refine ⟨h.once, by simp, ?_⟩
    intro a ha b hb
    simp at hb; subst hb
    obtain ⟨x, hx, rfl⟩ := List.mem_map.1 ha
    exact hn x hx

/-! ## The invariant -/

/-- The file after the calls that took effect, one after the other. -/
def eff (J : Json BondData) (f0 : File) (s : St) : File := (calls J f0 (order s)).1

/-- The part of `loadBonds` that stays. -/
def cut (n : Option Nat) : Write := match n with | some k => .torn k | none => .refused

structure Inv (J : Json BondData) (f0 : File) (s : St) : Prop where
  book : Book s
  res : (calls J f0 (order s)).2 = s.log.map (·.res)
  writing : ∀ (i : Nat) c out r n, s.threads[i]? = some (c, .writing out r n) → plan J (loadBonds J c.env (eff J f0 s)).2 c.op = .store out r ∧
    s.file = (writeFile (cut n) (loadBonds J c.env (eff J f0 s)).1 out).1 ∧ ∀ k, n = some k → reaches c.env.write k = true
  quiet : (∀ (i : Nat) c out r n, s.threads[i]? ≠ some (c, .writing out r n)) → s.file = eff J f0 s
  mutex : ∀ (i j : Nat) ci cj pi pj, i ≠ j → s.threads[i]? = some (ci, pi) → s.threads[j]? = some (cj, pj) → pi.holds = true → pj.holds = true → exclusive ci.op = false
  good : Good J (eff J f0 s)
  keys : ∀ (i : Nat) c p, s.threads[i]? = some (c, p) → ∀ a b, c.op = .save a (some b) → b.ltk ≠ []
  past : ∀ (i : Nat) c p, s.threads[i]? = some (c, p) → p.holds = true → Phase.pending p → early c.op = none

theorem order_snoc (s : St) (f : File) (ts : List (Call × Phase)) (x : Entry) : order ({ file := f, threads := ts, log := s.log ++ [x] } : St) = order s ++ [(x.env, x.op)] := by
  simp [order]

theorem eff_snoc (J : Json BondData) (f0 : File) (s : St) (f : File) (ts : List (Call × Phase)) (x : Entry) : eff J f0 { file := f, threads := ts, log := s.log ++ [x] } = (call J x.env (eff J f0 s) x.op).1 := by
  unfold eff; rw [order_snoc, calls_snoc]

theorem free_spec {ts : List (Call × Phase)} {c : Call} (h : free ts c = true) {j : Nat} {d : Call} {p : Phase} (hj : ts[j]? = some (d, p)) (hp : p.holds = true) (ho : d.obj = c.obj) :
    exclusive c.op = false ∧ exclusive d.op = false := by
  have := List.all_eq_true.1 h (d, p) (List.mem_of_getElem? hj)
  simp only [hp, ho, beq_self_eq_true, Bool.true_and, Bool.not_eq_true'] at this
  simpa using this

theorem mutex_set {s : St} {i : Nat} {c : Call} {p p' : Phase} (hi : s.threads[i]? = some (c, p)) (hh : p'.holds = true → p.holds = true)
    (h : ∀ (i j : Nat) ci cj pi pj, i ≠ j → s.threads[i]? = some (ci, pi) → s.threads[j]? = some (cj, pj) → pi.holds = true → pj.holds = true → exclusive ci.op = false) :
    ∀ (a b : Nat) ca cb pa pb, a ≠ b → (s.threads.set i (c, p'))[a]? = some (ca, pa) → (s.threads.set i (c, p'))[b]? = some (cb, pb) → pa.holds = true → pb.holds = true → exclusive ca.op = false := by
  intro a b ca cb pa pb hab ha hb hpa hpb
  rcases get_set ha with ⟨h1, h2⟩ | ⟨_, h2⟩
  · obtain ⟨rfl, rfl⟩ := Prod.mk.inj h2
    rcases get_set hb with ⟨h3, _⟩ | ⟨_, h3⟩
    · exact absurd (h1.symm.trans h3) hab
    · exact h a b _ _ _ _ hab (h1 ▸ hi) h3 (hh hpa) hpb
  · rcases get_set hb with ⟨h3, h4⟩ | ⟨_, h3⟩
    · obtain ⟨rfl, rfl⟩ := Prod.mk.inj h4
      exact h a b _ _ _ _ hab h2 (h3 ▸ hi) hpa (hh hpb)
    · exact h a b _ _ _ _ hab h2 h3 hpa hpb

theorem keys_set {s : St} {i : Nat} {c : Call} {p p' : Phase} (hi : s.threads[i]? = some (c, p))
    (h : ∀ (i : Nat) c p, s.threads[i]? = some (c, p) → ∀ a b, c.op = .save a (some b) → b.ltk ≠ []) :
    ∀ (j : Nat) d q, (s.threads.set i (c, p'))[j]? = some (d, q) → ∀ a b, d.op = .save a (some b) → b.ltk ≠ [] := by
  intro j d q hj
  rcases get_set hj with ⟨_, h2⟩ | ⟨_, h2⟩
  · obtain ⟨rfl, rfl⟩ := Prod.mk.inj h2; exact h i _ _ hi
  · exact h j d q h2

theorem past_set {s : St} {i : Nat} {c : Call} {p' : Phase} (hn : p'.holds = true → Phase.pending p' → early c.op = none)
    (h : ∀ (i : Nat) c p, s.threads[i]? = some (c, p) → p.holds = true → Phase.pending p → early c.op = none) :
    ∀ (j : Nat) d q, (s.threads.set i (c, p'))[j]? = some (d, q) → q.holds = true → Phase.pending q → early d.op = none := by
  intro j d q hj
  rcases get_set hj with ⟨_, h2⟩ | ⟨_, h2⟩
  · obtain ⟨rfl, rfl⟩ := Prod.mk.inj h2; exact hn
  · exact h j d q h2

/-- While a call that excludes others holds the lock no other one writes. -/
theorem Inv.alone {f0 : File} {s : St} (h : Inv J f0 s) {i : Nat} {c : Call} {p : Phase} (hi : s.threads[i]? = some (c, p)) (hp : p.holds = true)
    {j : Nat} {d : Call} {out : Bytes} {r : Res} {n : Option Nat} (hj : s.threads[j]? = some (d, .writing out r n)) : i = j := by
  refine Classical.byContradiction fun hij => ?_
  have h1 := writes_alone h.good (h.writing j d out r n hj).1
  have h2 := h.mutex j i d c _ _ (Ne.symm hij) hj hi rfl hp
  rw [h1] at h2; simp at h2

/-- A call that comes to `WriteFile`, with any end of it. -/
theorem call_cut {f0 : File} {s : St} (h : Inv J f0 s) {i : Nat} {c : Call} {out : Bytes} {r : Res} {n : Option Nat} (hi : s.threads[i]? = some (c, .writing out r n)) (w : Write) :
    call J { c.env with write := w } (eff J f0 s) c.op = ((writeFile w (loadBonds J c.env (eff J f0 s)).1 out).1, if (writeFile w (loadBonds J c.env (eff J f0 s)).1 out).2 then r else failed c.op) := by
  rw [call_phases J _ _ _ (h.past i _ _ hi rfl trivial), load_write, (h.writing i _ _ _ _ hi).1]

theorem zipIdx_filterMap_none {β γ : Type} (f : β × Nat → Option γ) : ∀ (l : List β) (k : Nat), (∀ (i : Nat) x, l[i]? = some x → f (x, k + i) = none) → (l.zipIdx k).filterMap f = [] := by
  intro l
  induction l with
  | nil => intro k _; rfl
  | cons x l ih =>
    intro k h
    rw [List.zipIdx_cons, List.filterMap_cons, show f (x, k) = none from h 0 x rfl]
    exact ih (k + 1) fun i y hy => by have := h (i + 1) y hy; rwa [show k + (i + 1) = k + 1 + i by omega] at this

theorem zipIdx_filterMap_one {β γ : Type} (f : β × Nat → Option γ) : ∀ (l : List β) (k i : Nat) (x : β) (y : γ), l[i]? = some x → f (x, k + i) = some y →
    (∀ (j : Nat) z, l[j]? = some z → j ≠ i → f (z, k + j) = none) → (l.zipIdx k).filterMap f = [y] := by
  intro l
  induction l with
  | nil => intro k i x y h; simp at h
  | cons a l ih =>
    intro k i x y hi hf ho
    rw [List.zipIdx_cons, List.filterMap_cons]
    cases i with
    | zero =>
      simp at hi; subst hi
      rw [show f (a, k) = some y from hf]
      simp only
      rw [zipIdx_filterMap_none f l (k + 1)]
      intro j z hz
      have := ho (j + 1) z hz (by omega)
      rwa [show k + (j + 1) = k + 1 + j by omega] at this
    | succ i =>
      rw [show f (a, k) = none from ho 0 a rfl (by omega)]
      refine ih (k + 1) i x y hi (by rwa [show k + 1 + i = k + (i + 1) by omega]) fun j z hz hji => ?_
      have := ho (j + 1) z hz (by omega)
      rwa [show k + (j + 1) = k + 1 + j by omega] at this

theorem crash_holds (p : Phase) : p.crash.holds = false := by
  cases p <;> rfl

theorem crash_result {p : Phase} {r : Res} (h : Phase.result p.crash = some r) : Phase.result p = some r := by
  cases p <;> simp_all [Phase.crash, Phase.holds, Phase.result]

theorem crash_pending {p : Phase} (h : Phase.pending p.crash) : Phase.pending p := by
  cases p <;> simp_all [Phase.crash, Phase.holds, Phase.pending]

theorem get_crash {ts : List (Call × Phase)} {i : Nat} {c : Call} {q : Phase} (h : (ts.map fun t => (t.1, t.2.crash))[i]? = some (c, q)) : ∃ p, ts[i]? = some (c, p) ∧ q = p.crash := by
  rw [List.getElem?_map] at h
  cases ht : ts[i]? with
  | none => rw [ht] at h; simp at h
  | some t =>
    rw [ht] at h
    simp at h
    obtain ⟨rfl, rfl⟩ := h
    exact ⟨t.2, rfl, rfl⟩

theorem crash_get {ts : List (Call × Phase)} {i : Nat} {c : Call} {p : Phase} (h : ts[i]? = some (c, p)) : (ts.map fun t => (t.1, t.2.crash))[i]? = some (c, p.crash) := by
  rw [List.getElem?_map, h]; rfl

/-- The book after a crash, for entries of interrupted calls. -/
theorem book_crash {s : St} (h : Book s) (l : List (Entry)) (hl : l = [] ∨ ∃ i c out r n, s.threads[i]? = some (c, .writing out r n) ∧ l = [⟨i, { c.env with write := cut n }, c.op, failed c.op⟩]) (f : File) :
    Book { file := f, threads := s.threads.map fun t => (t.1, t.2.crash), log := s.log ++ l } := by
  have hnew : ∀ x ∈ l, ∃ i c out r n, s.threads[i]? = some (c, .writing out r n) ∧ x = ⟨i, { c.env with write := cut n }, c.op, failed c.op⟩ := by
    intro x hx
    rcases hl with rfl | ⟨i, c, out, r0, n, h1, rfl⟩
    · simp at hx
    · simp at hx; exact ⟨i, c, out, r0, n, h1, hx⟩
  refine ⟨?_, ?_, ?_, ?_⟩
  · intro j c q hj hq x hx hid
    obtain ⟨p, h1, rfl⟩ := get_crash hj
    rcases List.mem_append.1 hx with hx | hx
    · exact h.logged j c p h1 (crash_pending hq) x hx hid
    · obtain ⟨i, d, out, r0, n, h2, rfl⟩ := hnew x hx
      obtain rfl : i = j := hid
      rw [h2] at h1
      obtain ⟨rfl, rfl⟩ := Prod.mk.inj (Option.some.inj h1)
      exact hq
  · intro j c q r hj hq
    obtain ⟨p, h1, rfl⟩ := get_crash hj
    exact List.mem_append_left _ (h.ended j c p r h1 (crash_result hq))
  · intro x hx
    rcases List.mem_append.1 hx with hx | hx
    · obtain ⟨c, p, h1, h2, h3⟩ := h.back x hx
      refine ⟨c, p.crash, crash_get h1, h2, ?_⟩
      rcases h3 with ⟨h4, h5 | h5⟩ | ⟨h4, h5⟩
      · refine .inl ⟨h4, ?_⟩
        cases p <;> simp_all [Phase.crash, Phase.holds, Phase.result]
      · subst h5; exact .inl ⟨h4, .inr rfl⟩
      · subst h4; exact .inr ⟨rfl, h5⟩
    · obtain ⟨i, d, out, r0, n, h2, rfl⟩ := hnew x hx
      exact ⟨d, .dead, crash_get h2, rfl, .inr ⟨rfl, cut n, by cases n <;> simp [cut], rfl⟩⟩
  · show ((s.log ++ l).map (·.id)).Nodup
    rw [List.map_append, List.nodup_append]
    refine ⟨h.once, ?_, ?_⟩
    · rcases hl with rfl | ⟨i, c, out, r0, n, _, rfl⟩ <;> simp
    · intro a ha b hb
      obtain ⟨x, hx, rfl⟩ := List.mem_map.1 ha
      obtain ⟨y, hy, rfl⟩ := List.mem_map.1 hb
      obtain ⟨i, d, out, r0, n, h2, rfl⟩ := hnew y hy
      exact h.logged i _ _ h2 trivial x hx

/-- Calls of different managers do not hold their locks at the same time. -/
def NoOverlap (s : St) : Prop := ∀ (i j : Nat) c d p q, s.threads[i]? = some (c, p) → s.threads[j]? = some (d, q) → p.holds = true → q.holds = true → c.obj = d.obj

theorem step_inv {f0 : File} {s s' : St} (h : Inv J f0 s) (a : Ev) (hs : step J s a = some s') (hno : NoOverlap s') : Inv J f0 s' ∧ s.log <+: s'.log := by
  cases a with
  | acquire i =>
    simp only [step] at hs
    split at hs
    · rename_i c hi
      split at hs
      · rename_i r he
        obtain rfl := Option.some.inj hs
        have hcall := call_early J c.env (eff J f0 s) c.op r he
        have heff : eff J f0 { file := s.file, threads := s.threads.set i (c, .done r), log := s.log ++ [⟨i, c.env, c.op, r⟩] } = eff J f0 s := by rw [eff_snoc, hcall]
        refine ⟨⟨book_log (q := .done r) h.book hi trivial r rfl (fun hp => hp) _, ?_, ?_, ?_, mutex_set hi (fun hp => by simp [Phase.holds] at hp) h.mutex, ?_, keys_set hi h.keys, past_set (fun hp => by simp [Phase.holds] at hp) h.past⟩, List.prefix_append _ _⟩
        · rw [order_snoc, calls_snoc, h.res]
          have : (call J c.env (calls J f0 (order s)).1 c.op).2 = r := congrArg Prod.snd hcall
          simp [this]
        · intro j d out r' n hj
          rw [heff]
          rcases get_set hj with ⟨_, h2⟩ | ⟨_, h2⟩
          · simp at h2
          · exact h.writing j d out r' n h2
        · intro hq
          rw [heff]
          refine h.quiet fun j d out r' n hj => hq j d out r' n ?_
          have hij : i ≠ j := by rintro rfl; rw [hi] at hj; simp at hj
          show (s.threads.set i _)[j]? = _
          rw [List.getElem?_set_ne hij]; exact hj
        · rw [heff]; exact h.good
      · rename_i he
        split at hs
        · rename_i hfree
          obtain rfl := Option.some.inj hs
          refine ⟨⟨book_quiet (p' := .locked) h.book hi (fun _ => trivial) rfl (by simp) _, h.res, ?_, ?_, ?_, h.good, keys_set hi h.keys, past_set (fun _ _ => he) h.past⟩, List.prefix_refl _⟩
          · intro j d out r n hj
            rcases get_set hj with ⟨_, h2⟩ | ⟨_, h2⟩
            · simp at h2
            · exact h.writing j d out r n h2
          · intro hq
            refine h.quiet fun j d out r n hj => hq j d out r n ?_
            have hij : i ≠ j := by rintro rfl; rw [hi] at hj; simp at hj
            show (s.threads.set i _)[j]? = _
            rw [List.getElem?_set_ne hij]; exact hj
          · intro a b ca cb pa pb hab ha hb hpa hpb
            rcases get_set ha with ⟨h1, h2⟩ | ⟨_, h2⟩
            · obtain ⟨rfl, rfl⟩ := Prod.mk.inj h2
              rcases get_set hb with ⟨h3, _⟩ | ⟨_, h3⟩
              · exact absurd (h1.symm.trans h3) hab
              · exact (free_spec hfree h3 hpb (hno _ _ _ _ _ _ hb ha hpb hpa)).1
            · rcases get_set hb with ⟨h3, h4⟩ | ⟨_, h3⟩
              · have := hno _ _ _ _ _ _ ha hb hpa hpb
                obtain ⟨rfl, rfl⟩ := Prod.mk.inj h4
                exact (free_spec hfree h2 hpa this).2
              · exact h.mutex a b _ _ _ _ hab h2 h3 hpa hpb
        · simp at hs
    · simp at hs
  | load i =>
    simp only [step] at hs
    split at hs
    · rename_i c hi
      have hnw : ∀ (j : Nat) d out r n, s.threads[j]? ≠ some (d, .writing out r n) := by
        intro j d out r n hj
        obtain rfl := h.alone hi rfl hj
        rw [hi] at hj; simp at hj
      have hfile : s.file = eff J f0 s := h.quiet hnw
      have he := h.past i _ _ hi rfl trivial
      rw [hfile] at hs
      have hcp := call_phases J c.env (eff J f0 s) c.op he
      split at hs
      · rename_i r hp
        obtain rfl := Option.some.inj hs
        rw [hp] at hcp
        simp only at hcp
        refine ⟨⟨book_log (q := .returning r) h.book hi trivial r rfl (fun hp => hp) _, ?_, ?_, ?_, mutex_set hi (fun _ => rfl) h.mutex, ?_, keys_set hi h.keys, past_set (fun _ hp => hp.elim) h.past⟩, List.prefix_append _ _⟩
        · rw [order_snoc, calls_snoc, h.res]
          have : (call J c.env (calls J f0 (order s)).1 c.op).2 = r := congrArg Prod.snd hcp
          simp [this]
        · intro j d o r' n hj
          rcases get_set hj with ⟨_, h2⟩ | ⟨_, h2⟩
          · simp at h2
          · exact absurd h2 (hnw j d o r' n)
        · intro _
          rw [eff_snoc]
          exact (congrArg Prod.fst hcp).symm
        · rw [eff_snoc]
          exact good_call h.good _ _ (h.keys i _ _ hi)
      · rename_i out r hp
        obtain rfl := Option.some.inj hs
        refine ⟨⟨book_quiet (p' := .writing out r none) h.book hi (fun _ => trivial) rfl (by simp) _, h.res, ?_, ?_, mutex_set hi (fun _ => rfl) h.mutex, h.good, keys_set hi h.keys, past_set (fun _ _ => he) h.past⟩, List.prefix_refl _⟩
        · intro j d o r' n hj
          rcases get_set hj with ⟨_, h2⟩ | ⟨_, h2⟩
          · simp only [Prod.mk.injEq, Phase.writing.injEq] at h2
            obtain ⟨rfl, rfl, rfl, rfl⟩ := h2
            exact ⟨hp, rfl, by simp⟩
          · exact absurd h2 (hnw j d o r' n)
        · intro hq
          exact absurd (set_self hi) (hq i c out r none)
    · simp at hs
  | chunk i n =>
    simp only [step] at hs
    split at hs
    · rename_i c out r m hi
      split at hs
      · rename_i hr
        obtain rfl := Option.some.inj hs
        refine ⟨⟨book_quiet (p' := .writing out r (some n)) h.book hi (fun _ => trivial) rfl (by simp) _, h.res, ?_, ?_, mutex_set hi (fun _ => rfl) h.mutex, h.good, keys_set hi h.keys, past_set (fun _ _ => h.past i _ _ hi rfl trivial) h.past⟩, List.prefix_refl _⟩
        · intro j d o r' k hj
          rcases get_set hj with ⟨_, h2⟩ | ⟨hij, h2⟩
          · simp only [Prod.mk.injEq, Phase.writing.injEq] at h2
            obtain ⟨rfl, rfl, rfl, rfl⟩ := h2
            refine ⟨(h.writing i _ _ _ m hi).1, rfl, ?_⟩
            intro k hk
            obtain rfl := Option.some.inj hk
            exact hr
          · exact absurd (h.alone hi rfl h2) hij
        · intro hq
          exact absurd (set_self hi) (hq i c out r (some n))
      · simp at hs
    · simp at hs
  | written i =>
    simp only [step] at hs
    split at hs
    · rename_i c out r m hi
      obtain rfl := Option.some.inj hs
      have hnw : ∀ (j : Nat) d o r n, i ≠ j → s.threads[j]? ≠ some (d, .writing o r n) := fun j d o r n hij hj => hij (h.alone hi rfl hj)
      obtain ⟨ht, hf, hm⟩ := h.writing i c out r m hi
      have hcall := call_cut h hi c.env.write
      have hw : (writeFile c.env.write s.file out) = (writeFile c.env.write (loadBonds J c.env (eff J f0 s)).1 out) := by
        cases hcw : c.env.write with
        | done => rfl
        | torn k => rfl
        | refused =>
          cases m with
          | some k => have := hm k rfl; rw [hcw] at this; simp [reaches] at this
          | none => rw [hf]; rfl
      rw [hw]
      refine ⟨⟨book_log (q := .returning _) h.book hi trivial _ rfl (fun hp => hp) _, ?_, ?_, ?_, mutex_set hi (fun _ => rfl) h.mutex, ?_, keys_set hi h.keys, past_set (fun _ hp => hp.elim) h.past⟩, List.prefix_append _ _⟩
      · rw [order_snoc, calls_snoc, h.res]
        simp only [List.map_append, List.map_singleton]
        exact congrArg (fun x : File × Res => s.log.map (·.res) ++ [x.2]) hcall
      · intro j d o r' n hj
        rcases get_set hj with ⟨_, h2⟩ | ⟨hij, h2⟩
        · simp at h2
        · exact absurd h2 (hnw j d o r' n hij)
      · intro _
        rw [eff_snoc]
        exact (congrArg Prod.fst hcall).symm
      · rw [eff_snoc]
        exact good_call h.good _ _ (h.keys i _ _ hi)
    · simp at hs
  | ret i =>
    simp only [step] at hs
    split at hs
    · rename_i c r hi
      obtain rfl := Option.some.inj hs
      refine ⟨⟨book_quiet (p' := .done r) h.book hi (fun hp => False.elim hp) rfl (by simp) _, h.res, ?_, ?_, mutex_set hi (fun _ => rfl) h.mutex, h.good, keys_set hi h.keys, past_set (fun hp => by simp [Phase.holds] at hp) h.past⟩, List.prefix_refl _⟩
      · intro j d out r' n hj
        rcases get_set hj with ⟨_, h2⟩ | ⟨_, h2⟩
        · simp at h2
        · exact h.writing j d out r' n h2
      · intro hq
        refine h.quiet fun j d out r' n hj => hq j d out r' n ?_
        have hij : i ≠ j := by rintro rfl; rw [hi] at hj; simp at hj
        show (s.threads.set i _)[j]? = _
        rw [List.getElem?_set_ne hij]; exact hj
    · simp at hs
  | crash =>
    simp only [step] at hs
    obtain rfl := Option.some.inj hs
    refine ⟨?_, List.prefix_append _ _⟩
    have hmut : ∀ (a b : Nat) ca cb pa pb, a ≠ b → (s.threads.map fun t => (t.1, t.2.crash))[a]? = some (ca, pa) → (s.threads.map fun t => (t.1, t.2.crash))[b]? = some (cb, pb) →
        pa.holds = true → pb.holds = true → exclusive ca.op = false := by
      intro a b ca cb pa pb _ ha _ hpa
      obtain ⟨p, _, rfl⟩ := get_crash ha
      rw [crash_holds] at hpa; simp at hpa
    have hkeys : ∀ (j : Nat) d q, (s.threads.map fun t => (t.1, t.2.crash))[j]? = some (d, q) → ∀ a b, d.op = .save a (some b) → b.ltk ≠ [] := by
      intro j d q hj
      obtain ⟨p, h1, _⟩ := get_crash hj
      exact h.keys j d p h1
    have hpast : ∀ (j : Nat) d q, (s.threads.map fun t => (t.1, t.2.crash))[j]? = some (d, q) → q.holds = true → Phase.pending q → early d.op = none := by
      intro j d q hj hq
      obtain ⟨p, _, rfl⟩ := get_crash hj
      rw [crash_holds] at hq; simp at hq
    have hwr : ∀ (j : Nat) d out r n, (s.threads.map fun t => (t.1, t.2.crash))[j]? ≠ some (d, .writing out r n) := by
      intro j d out r n hj
      obtain ⟨p, _, hp⟩ := get_crash hj
      have := crash_holds p
      rw [← hp] at this; simp [Phase.holds] at this
    by_cases hex : ∃ (i : Nat) (c : Call) (out : Bytes) (r : Res) (n : Option Nat), s.threads[i]? = some (c, Phase.writing out r n)
    · obtain ⟨i, c, out, r, n, hi⟩ := hex
      have hl : s.threads.zipIdx.filterMap torn = [⟨i, { c.env with write := cut n }, c.op, failed c.op⟩] := by
        refine zipIdx_filterMap_one torn s.threads 0 i _ _ hi (by cases n <;> simp [torn, cut]) ?_
        intro j z hz hji
        obtain ⟨d, q⟩ := z
        cases q with
        | writing o r m => exact absurd (h.alone hi rfl hz) (Ne.symm hji)
        | _ => rfl
      rw [hl]
      obtain ⟨ht, hf, _⟩ := h.writing i c out r n hi
      have hcall := call_cut h hi (cut n)
      have hno : (writeFile (cut n) (loadBonds J c.env (eff J f0 s)).1 out).2 = false := by cases n <;> rfl
      rw [hno] at hcall
      simp only [Bool.false_eq_true, if_false] at hcall
      refine ⟨book_crash h.book _ (.inr ⟨i, c, out, r, n, hi, rfl⟩) _, ?_, fun j d o r m hj => absurd hj (hwr j d o r m), ?_, hmut, ?_, hkeys, hpast⟩
      · rw [order_snoc, calls_snoc, h.res]
        simp only [List.map_append, List.map_singleton]
        exact congrArg (fun x : File × Res => s.log.map (·.res) ++ [x.2]) hcall
      · intro _
        rw [eff_snoc]
        show s.file = _
        rw [hf]
        exact (congrArg Prod.fst hcall).symm
      · rw [eff_snoc]
        exact good_call h.good _ _ (h.keys i _ _ hi)
    · have hl : s.threads.zipIdx.filterMap torn = [] := by
        refine zipIdx_filterMap_none torn s.threads 0 ?_
        intro j z hz
        obtain ⟨d, q⟩ := z
        cases q with
        | writing o r m => exact absurd ⟨j, d, o, r, m, hz⟩ hex
        | _ => rfl
      rw [hl]
      have hor : order ({ file := s.file, threads := s.threads.map fun t => (t.1, t.2.crash), log := s.log ++ [] } : St) = order s := by simp [order]
      have heff : eff J f0 ({ file := s.file, threads := s.threads.map fun t => (t.1, t.2.crash), log := s.log ++ [] } : St) = eff J f0 s := by unfold eff; rw [hor]
      refine ⟨book_crash h.book _ (.inl rfl) _, ?_, fun j d o r m hj => absurd hj (hwr j d o r m), ?_, hmut, ?_, hkeys, hpast⟩
      · rw [hor, h.res]; simp
      · intro _
        rw [heff]
        exact h.quiet fun j d o r m hj => hex ⟨j, d, o, r, m, hj⟩
      · rw [heff]; exact h.good

theorem run_inv {f0 : File} : ∀ (as : List Ev) {s s' : St}, Inv J f0 s → run J s as = some s' → (∀ p t, p <+: as → run J s p = some t → NoOverlap t) → Inv J f0 s' ∧ s.log <+: s'.log := by
  intro as
  induction as with
  | nil => intro s s' h hr _; obtain rfl := Option.some.inj hr; exact ⟨h, List.prefix_refl _⟩
  | cons a as ih =>
    intro s s' h hr hno
    simp only [run, runT] at hr
    cases hs : step J s a with
    | none => rw [hs] at hr; simp at hr
    | some s1 =>
      rw [hs] at hr
      obtain ⟨h1, h2⟩ := step_inv h a hs (hno [a] s1 (List.prefix_append [a] as) (by simp [run, runT, hs]))
      obtain ⟨h3, h4⟩ := ih h1 hr fun p t hp ht => hno (a :: p) t ((List.prefix_cons_inj a).2 hp) (by simp only [run, runT, hs]; exact ht)
      exact ⟨h3, h2.trans h4⟩

theorem init_get {f0 : File} {cs : List (Call)} {i : Nat} {c : Call} {p : Phase} (h : (init f0 cs).threads[i]? = some (c, p)) : p = .start ∧ c ∈ cs := by
  simp only [init, List.getElem?_map, Option.map_eq_some_iff] at h
  obtain ⟨c', h1, h2⟩ := h
  obtain ⟨rfl, rfl⟩ := Prod.mk.inj h2
  exact ⟨rfl, List.mem_of_getElem? h1⟩

theorem init_inv {f0 : File} {cs : List Call} (hg : Good J f0) (hk : ∀ c ∈ cs, ∀ a b, c.op = .save a (some b) → b.ltk ≠ []) : Inv J f0 (init f0 cs) := by
  refine ⟨⟨fun _ _ _ _ _ x hx => by simp [init] at hx, ?_, fun x hx => by simp [init] at hx, by simp [init]⟩, rfl, ?_, fun _ => rfl, ?_, hg, fun i c p hi => hk c (init_get hi).2, ?_⟩
  · intro i c p r hi hr; obtain ⟨rfl, _⟩ := init_get hi; simp [Phase.result] at hr
  · intro i c out r n hi; have := (init_get hi).1; simp at this
  · intro i j ci cj pi pj _ hi _ hp; obtain ⟨rfl, _⟩ := init_get hi; simp [Phase.holds] at hp
  · intro i c p hi hp; obtain ⟨rfl, _⟩ := init_get hi; simp [Phase.holds] at hp

/-- The threads of a run are the calls it was given. -/
theorem threads_step {s s' : St} {a : Ev} (hs : step J s a = some s') : s'.threads.map (·.1) = s.threads.map (·.1) := by
  have key : ∀ {i : Nat} {c : Call} {p q : Phase}, s.threads[i]? = some (c, p) → s'.threads = s.threads.set i (c, q) → s'.threads.map (·.1) = s.threads.map (·.1) := by
    intro i c p q hi ht
    rw [ht]
    apply List.ext_getElem?
    intro j
    rw [List.getElem?_map, List.getElem?_map]
    by_cases hij : i = j
    · subst hij; rw [set_self hi, hi]; rfl
    · rw [List.getElem?_set_ne hij]
  cases a with
  | crash => simp only [step] at hs; obtain rfl := Option.some.inj hs; simp
  | acquire i =>
    simp only [step] at hs
    split at hs
    · rename_i hi
      split at hs
      · obtain rfl := Option.some.inj hs; exact key hi rfl
      · split at hs
        · obtain rfl := Option.some.inj hs; exact key hi rfl
        · simp at hs
    · simp at hs
  | load i =>
    simp only [step] at hs
    split at hs
    · rename_i hi
      split at hs
      · obtain rfl := Option.some.inj hs; exact key hi rfl
      · obtain rfl := Option.some.inj hs; exact key hi rfl
    · simp at hs
  | chunk i n =>
    simp only [step] at hs
    split at hs
    · rename_i hi
      split at hs
      · obtain rfl := Option.some.inj hs; exact key hi rfl
      · simp at hs
    · simp at hs
  | written i =>
    simp only [step] at hs
    split at hs
    · rename_i hi
      obtain rfl := Option.some.inj hs; exact key hi rfl
    · simp at hs
  | ret i =>
    simp only [step] at hs
    split at hs
    · rename_i hi
      obtain rfl := Option.some.inj hs; exact key hi rfl
    · simp at hs

theorem threads_run : ∀ (as : List Ev) {s s' : St}, run J s as = some s' → s'.threads.map (·.1) = s.threads.map (·.1) := by
  intro as
  induction as with
  | nil => intro s s' hr; obtain rfl := Option.some.inj hr; rfl
  | cons a as ih =>
    intro s s' hr
    simp only [run, runT] at hr
    cases hs : step J s a with
    | none => rw [hs] at hr; simp at hr
    | some s1 => rw [hs] at hr; exact (ih hr).trans (threads_step hs)

theorem thread_call {f0 : File} {cs : List (Call)} {as : List Ev} {s : St} (hr : run J (init f0 cs) as = some s) {i : Nat} {c : Call} {p : Phase} (hi : s.threads[i]? = some (c, p)) : cs[i]? = some c := by
  have h := threads_run as hr
  have h1 : (init f0 cs).threads.map (·.1) = cs := by simp [init, List.map_map, Function.comp_def]
  rw [h1] at h
  rw [← h, List.getElem?_map, hi]; rfl

/-- Calls of one manager do not overlap with those of another. -/
theorem one_manager {f0 : File} {cs : List (Call)} {ob : Nat} (hob : ∀ c ∈ cs, c.obj = ob) {as : List Ev} {s : St} (hr : run J (init f0 cs) as = some s) : NoOverlap s := by
  intro i j c d p q hi hj _ _
  rw [hob c (List.mem_of_getElem? (thread_call hr hi)), hob d (List.mem_of_getElem? (thread_call hr hj))]

theorem no_overlap_after {f0 : File} {cs : List (Call)} {ob : Nat} (hob : ∀ c ∈ cs, c.obj = ob) {as : List Ev} {s : St} (hr : run J (init f0 cs) as = some s) (p : List Ev) (t : St)
    (ht : run J s p = some t) : NoOverlap t := one_manager hob (runT_append.2 ⟨s, hr, ht⟩ : run J (init f0 cs) (as ++ p) = some t)

/-! ## The theorems -/

/-- The calls save no empty keys. -/
def Keys (cs : List Call) : Prop := KeysNotEmpty (cs.map (·.op))

theorem keys_mem {cs : List Call} (h : Keys cs) : ∀ c ∈ cs, ∀ a b, c.op = .save a (some b) → b.ltk ≠ [] := fun c hc a b hab => h a b (by rw [← hab]; exact List.mem_map_of_mem hc)

theorem good_none : Good J none := .inr ⟨_, holds_none J⟩

/-- C196. Any number of calls made at the same time on one bond manager, on a file left by any history of calls, whatever the file system does and whenever the process crashes, in any interleaving: the calls that took effect, each once, give
the same results when they are made one after the other in this order; a call that returned took effect with the result it returned; what took effect is a call that is about to return, has returned, or was in progress at
a crash, and then possibly as one whose write failed or was cut off. While nobody is writing, the file is the one these calls leave. -/
theorem bonds_linearizable (J : Json BondData) (setup : List (Env × Op)) (hs : KeysNotEmpty (setup.map Prod.snd)) (cs : List Call) (hk : Keys cs) (ob : Nat) (hob : ∀ c ∈ cs, c.obj = ob) (as : List Ev) (s : St)
    (hr : run J (init (calls J none setup).1 cs) as = some s) :
    (calls J (calls J none setup).1 (order s)).2 = s.log.map (·.res) ∧ (s.log.map (·.id)).Nodup ∧
    (∀ (i : Nat) c r, s.threads[i]? = some (c, .done r) → ⟨i, c.env, c.op, r⟩ ∈ s.log) ∧
    (∀ x ∈ s.log, ∃ c p, s.threads[x.id]? = some (c, p) ∧ x.op = c.op ∧
      ((x.env = c.env ∧ (p = .returning x.res ∨ p = .done x.res ∨ p = .dead)) ∨ (p = .dead ∧ ∃ w, w ≠ .done ∧ x.env = { c.env with write := w }))) ∧
    ((∀ (i : Nat) c out r n, s.threads[i]? ≠ some (c, .writing out r n)) → s.file = (calls J (calls J none setup).1 (order s)).1) := by
  obtain ⟨h, _⟩ := run_inv as (init_inv (good_calls setup good_none hs) (keys_mem hk)) hr fun p t _ ht => one_manager hob ht
  refine ⟨h.res, h.book.once, fun i c r hi => h.book.ended i c _ r hi rfl, ?_, h.quiet⟩
  intro x hx
  obtain ⟨c, p, h1, h2, h3⟩ := h.book.back x hx
  refine ⟨c, p, h1, h2, ?_⟩
  rcases h3 with ⟨h4, h5 | h5⟩ | h4
  · refine .inl ⟨h4, ?_⟩
    cases p <;> simp_all [Phase.result]
  · exact .inl ⟨h4, .inr (.inr h5)⟩
  · exact .inr h4

/-- C196. That order agrees with time: it only grows at its end, so a call that returned, also one that returned before a crash, comes before every call that has not begun. -/
theorem bonds_real_time (J : Json BondData) (setup : List (Env × Op)) (hs : KeysNotEmpty (setup.map Prod.snd)) (cs : List Call) (hk : Keys cs) (ob : Nat) (hob : ∀ c ∈ cs, c.obj = ob) (as bs : List Ev) (s s' : St)
    (hr : run J (init (calls J none setup).1 cs) as = some s) (hr' : run J s bs = some s')
    (i j : Nat) (ci cj : Call) (r : Res) (hi : s.threads[i]? = some (ci, .done r)) (hj : s.threads[j]? = some (cj, .start)) :
    ∃ l, s'.log = s.log ++ l ∧ ⟨i, ci.env, ci.op, r⟩ ∈ s.log ∧ ∀ x ∈ s'.log, x.id = j → x ∈ l := by
  obtain ⟨h, _⟩ := run_inv as (init_inv (good_calls setup good_none hs) (keys_mem hk)) hr fun p t _ ht => one_manager hob ht
  obtain ⟨_, l, hl⟩ := run_inv bs h hr' fun p t _ ht => no_overlap_after hob hr p t ht
  refine ⟨l, hl.symm, h.book.ended i ci _ r hi rfl, ?_⟩
  intro x hx hid
  rw [← hl] at hx
  rcases List.mem_append.1 hx with hx | hx
  · exact absurd hid (h.book.logged j cj _ hj trivial x hx)
  · exact hx

theorem calls_split (J : Json BondData) : ∀ (xs ys : List (Env × Op)) (f : File), (calls J f (xs ++ ys)).2 = (calls J f xs).2 ++ (calls J (calls J f xs).1 ys).2 := by
  intro xs
  induction xs with
  | nil => intro ys f; rfl
  | cons x xs ih => intro ys f; obtain ⟨e, o⟩ := x; simp only [List.cons_append, calls, ih]

theorem calls_len (J : Json BondData) : ∀ (xs : List (Env × Op)) (f : File), (calls J f xs).2.length = xs.length := by
  intro xs
  induction xs with
  | nil => intro f; rfl
  | cons x xs ih => intro f; obtain ⟨e, o⟩ := x; simp only [calls, List.length_cons, ih]

/-- The calls of a part of the log. -/
def seqOf (l : List Entry) : List (Env × Op) := l.map fun x => (x.env, x.op)

/-- The result of a call that took effect is the one it has after the calls before it. -/
theorem res_at {f0 : File} {s : St} (h : (calls J f0 (order s)).2 = s.log.map (·.res)) {pre post : List Entry} {x : Entry} (hl : s.log = pre ++ x :: post) :
    x.res = (call J x.env (calls J f0 (seqOf pre)).1 x.op).2 := by
  have hord : order s = seqOf pre ++ (x.env, x.op) :: seqOf post := by simp [order, seqOf, hl]
  rw [hord, calls_split, hl, List.map_append] at h
  have hlen : (calls J f0 (seqOf pre)).2.length = (pre.map (·.res)).length := by rw [calls_len]; simp [seqOf]
  have h2 := (List.append_inj h hlen).2
  simp only [calls, List.map_cons, List.cons.injEq] at h2
  exact h2.1.symm

theorem log_keys {s : St} {cs : List Call} (hk : Keys cs) {f0 : File} {as : List Ev} (hr : run J (init f0 cs) as = some s)
    (hb : ∀ x ∈ s.log, ∃ c p, s.threads[x.id]? = some (c, p) ∧ x.op = c.op) : KeysNotEmpty (s.log.map (·.op)) := by
  intro a b hab
  obtain ⟨x, hx, hxo⟩ := List.mem_map.1 hab
  obtain ⟨c, p, h1, h2⟩ := hb x hx
  exact keys_mem hk c (List.mem_of_getElem? (thread_call hr h1)) a b (h2 ▸ hxo)

/-- C196, what it means for `Find`: whatever happens at the same time, fails or is interrupted, a bond that `Find` returns was saved for this address, by a call of `Save` after which no call that worked has saved or deleted a
bond of this address. -/
theorem concurrent_find_was_saved (J : Json BondData) (setup : List (Env × Op)) (hs : KeysNotEmpty (setup.map Prod.snd)) (cs : List Call) (hk : Keys cs) (ob : Nat) (hob : ∀ c ∈ cs, c.obj = ob) (as : List Ev) (s : St)
    (hr : run J (init (calls J none setup).1 cs) as = some s) (pre post : List Entry) (x : Entry) (hl : s.log = pre ++ x :: post) (addr : Text) (hx : x.op = .find addr) (b : Bond) (hb : x.res = .bond (.ok b)) :
    ∃ before es after, setup ++ seqOf pre = before ++ (es, .save addr (some b)) :: after ∧ ∀ y ∈ after, Works y.1 → ¬ Touches addr y.2 := by
  obtain ⟨h1, _, _, h4, _⟩ := bonds_linearizable J setup hs cs hk ob hob as s hr
  have hlk := log_keys hk hr fun y hy => by obtain ⟨c, p, h5, h6, _⟩ := h4 y hy; exact ⟨c, p, h5, h6⟩
  refine bond_found_was_saved J (setup ++ seqOf pre) ?_ x.env addr b ?_
  · intro a b' hab
    rw [List.map_append, List.mem_append] at hab
    rcases hab with hab | hab
    · exact hs a b' hab
    · refine hlk a b' ?_
      rw [hl, List.map_append]
      refine List.mem_append_left _ ?_
      simpa [seqOf, List.map_map, Function.comp_def] using hab
  · have := res_at h1 hl
    rw [hx, hb] at this
    rw [calls_append]
    exact (Res.bond.inj this).symm

/-- C196. A bond stays: after a `Save` that returned nil, whatever happens at the same time, fails, or crashes, a `Find` that can read the file returns the bond, until the next `Save` or `Delete` of the address, provided no write was
interrupted in the middle since. -/
theorem concurrent_bond_durable (J : Json BondData) (setup : List (Env × Op)) (hs : KeysNotEmpty (setup.map Prod.snd)) (cs : List Call) (hk : Keys cs) (ob : Nat) (hob : ∀ c ∈ cs, c.obj = ob) (as : List Ev) (s : St)
    (hr : run J (init (calls J none setup).1 cs) as = some s) (pre mid post : List Entry) (x y : Entry) (hl : s.log = pre ++ x :: (mid ++ y :: post)) (addr : Text) (b : Bond) (hx : x.op = .save addr (some b))
    (hres : x.res = .done (.ok ())) (hmid : ∀ z ∈ mid, ¬ Touches addr z.op ∧ ∀ n, z.env.write ≠ .torn n) (hy : y.op = .find addr) (hread : y.env.read = true) : y.res = .bond (.ok b) := by
  obtain ⟨h1, _, _, h4, _⟩ := bonds_linearizable J setup hs cs hk ob hob as s hr
  have hlk := log_keys hk hr fun y hy => by obtain ⟨c, p, h5, h6, _⟩ := h4 y hy; exact ⟨c, p, h5, h6⟩
  have hx' := res_at h1 hl
  rw [hx, hres, ← calls_append] at hx'
  have hl' : s.log = (pre ++ x :: mid) ++ y :: post := by rw [hl]; simp
  have hy' := res_at h1 hl'
  rw [hy, ← calls_append] at hy'
  rw [hy']
  have he : setup ++ seqOf (pre ++ x :: mid) = (setup ++ seqOf pre) ++ (x.env, .save addr (some b)) :: seqOf mid := by simp [seqOf, hx]
  rw [he]
  refine congrArg Res.bond (bond_durable J (setup ++ seqOf pre) (seqOf mid) x.env y.env addr b ?_ (Res.done.inj hx').symm ?_ hread)
  · intro a b' hab
    rw [← he, List.map_append, List.mem_append] at hab
    rcases hab with hab | hab
    · exact hs a b' hab
    · refine hlk a b' ?_
      rw [hl', List.map_append]
      refine List.mem_append_left _ ?_
      simpa [seqOf, List.map_map, Function.comp_def] using hab
  · intro z hz
    obtain ⟨e, he, rfl⟩ := List.mem_map.1 hz
    exact hmid e he

/-! ## Every call returns -/

/-- The call is over. -/
def Phase.over : Phase → Bool
  | .done _ => true
  | .dead => true
  | _ => false

def Phase.left : Phase → Nat
  | .start => 4
  | .locked => 3
  | .writing _ _ _ => 2
  | .returning _ => 1
  | _ => 0

theorem left_set {ts : List (Call × Phase)} : ∀ {i : Nat} {c : Call} {p p' : Phase}, ts[i]? = some (c, p) → Phase.left p' < Phase.left p →
    ((ts.set i (c, p')).map fun t => Phase.left t.2).sum < (ts.map fun t => Phase.left t.2).sum := by
  induction ts with
  | nil => intro i c p p' h; simp at h
  | cons t ts ih =>
    intro i c p p' h hl
    cases i with
    | zero => simp at h; subst h; simp; exact hl
    | succ i => simp only [List.set_cons_succ, List.map_cons, List.sum_cons]; exact Nat.add_lt_add_left (ih h hl) _

/-- Some call that is not over can go on, without a crash. -/
theorem can_go_on {f0 : File} {s : St} (h : Inv J f0 s) (hn : ∃ t ∈ s.threads, Phase.over t.2 = false) :
    ∃ e s', step J s e = some s' ∧ e ≠ .crash ∧ (s'.threads.map fun t => Phase.left t.2).sum < (s.threads.map fun t => Phase.left t.2).sum := by
  by_cases hh : ∃ (i : Nat) (c : Call) (p : Phase), s.threads[i]? = some (c, p) ∧ p.holds = true
  · obtain ⟨i, c, p, hi, hp⟩ := hh
    cases p with
    | start => simp [Phase.holds] at hp
    | done r => simp [Phase.holds] at hp
    | dead => simp [Phase.holds] at hp
    | locked =>
      cases ht : plan J (loadBonds J c.env s.file).2 c.op with
      | store out r => refine ⟨.load i, _, by (simp only [step, hi, ht]; first | done | rfl), by simp, ?_⟩; exact left_set hi (by simp [Phase.left])
      | ret r => refine ⟨.load i, _, by (simp only [step, hi, ht]; first | done | rfl), by simp, ?_⟩; exact left_set hi (by simp [Phase.left])
    | writing out r n => refine ⟨.written i, _, by (simp only [step, hi]; first | done | rfl), by simp, ?_⟩; exact left_set hi (by simp [Phase.left])
    | returning r => refine ⟨.ret i, _, by (simp only [step, hi]; first | done | rfl), by simp, ?_⟩; exact left_set hi (by simp [Phase.left])
  · obtain ⟨⟨c, p⟩, hm, ho⟩ := hn
    obtain ⟨i, hi⟩ := List.getElem?_of_mem hm
    cases p with
    | start =>
      have hf : free s.threads c = true := by
        simp only [free, List.all_eq_true]
        intro t ht
        obtain ⟨j, hj⟩ := List.getElem?_of_mem ht
        cases hth : t.2.holds with
        | false => simp
        | true => exact absurd ⟨j, t.1, t.2, hj, hth⟩ hh
      cases he : early c.op with
      | some r => refine ⟨.acquire i, _, by (simp only [step, hi, he]; first | done | rfl), by simp, ?_⟩; exact left_set hi (by simp [Phase.left])
      | none => refine ⟨.acquire i, _, by (simp only [step, hi, he, hf, if_true]; first | done | rfl), by simp, ?_⟩; exact left_set hi (by simp [Phase.left])
    | locked => exact absurd ⟨i, c, _, hi, rfl⟩ hh
    | writing out r n => exact absurd ⟨i, c, _, hi, rfl⟩ hh
    | returning r => exact absurd ⟨i, c, _, hi, rfl⟩ hh
    | done r => simp [Phase.over] at ho
    | dead => simp [Phase.over] at ho

/-- C196. Nothing gets stuck: from every state that can be reached the calls can all be carried through; those not interrupted by a crash return. -/
theorem bond_calls_return (J : Json BondData) (setup : List (Env × Op)) (hs : KeysNotEmpty (setup.map Prod.snd)) (cs : List Call) (hk : Keys cs) (ob : Nat) (hob : ∀ c ∈ cs, c.obj = ob) (as : List Ev) (s : St)
    (hr : run J (init (calls J none setup).1 cs) as = some s) :
    ∃ bs s', run J s bs = some s' ∧ Ev.crash ∉ bs ∧ ∀ (i : Nat) c p, s'.threads[i]? = some (c, p) → (∃ r, p = .done r) ∨ p = .dead := by
  have h := (run_inv as (init_inv (good_calls setup good_none hs) (keys_mem hk)) hr fun p t _ ht => one_manager hob ht).1
  generalize hn : (s.threads.map fun t => Phase.left t.2).sum = n
  induction n using Nat.strongRecOn generalizing s as with
  | ind n ih =>
    by_cases ho : ∃ t ∈ s.threads, Phase.over t.2 = false
    · obtain ⟨e, s1, h1, h2, h3⟩ := can_go_on h ho
      obtain ⟨bs, s', h4, h5, h6⟩ := ih _ (hn ▸ h3) (as ++ [e]) s1 (runT_snoc.2 ⟨s, hr, h1⟩) (step_inv h e h1 (no_overlap_after hob hr [e] s1 (by simp [run, runT, h1]))).1 rfl
      refine ⟨e :: bs, s', ?_, ?_, h6⟩
      · simp only [run, runT, h1]; exact h4
      · intro hm
        rcases List.mem_cons.1 hm with hm | hm
        · exact h2 hm.symm
        · exact h5 hm
    · refine ⟨[], s, rfl, by simp, ?_⟩
      intro i c p hi
      have hov : Phase.over p = true := by
        cases hp : Phase.over p with
        | true => rfl
        | false => exact absurd ⟨(c, p), List.mem_of_getElem? hi, hp⟩ ho
      cases p <;> simp_all [Phase.over]

/-- The hypotheses are met: a bond is saved and found; the process crashes while another bond is about to be written; the next process finds the first one. -/
theorem example_bond_run (J : Json BondData) (a o : Text) (ha : strLen a = 12) (ho : strLen o = 12) (b c : Bond) (hb : b.ltk ≠ []) : ∃ s,
    run J (init none [⟨0, .fine, .save a (some b)⟩, ⟨0, .fine, .find a⟩, ⟨0, .fine, .save o (some c)⟩, ⟨0, .fine, .find a⟩])
      [.acquire 0, .load 0, .chunk 0 1, .written 0, .ret 0, .acquire 1, .load 1, .ret 1, .acquire 2, .load 2, .crash, .acquire 3, .load 3, .ret 3] = some s ∧
    s.threads[1]? = some (⟨0, .fine, .find a⟩, .done (.bond (.ok b))) ∧ s.threads[3]? = some (⟨0, .fine, .find a⟩, .done (.bond (.ok b))) ∧
    s.log.map (·.id) = [0, 1, 2, 3] := by
  obtain ⟨m1, d1, l1⟩ := view_enc J (put [] a (createBondData b))
  have la : m1.lookup a = some (createBondData b) := by rw [l1]; simp [put]
  have e0 : early (.save a (some b)) = none := by simp [early, ha]
  have e1 : early (.find a) = none := by simp [early, ha]
  have e2 : early (.save o (some c)) = none := by simp [early, ho]
  have L0 : loadBonds J Env.fine none = (some [], some []) := by simp [loadBonds, Env.fine]
  have L1 : loadBonds J Env.fine (some (J.enc (put [] a (createBondData b)))) = (some (J.enc (put [] a (createBondData b))), some m1) := by rw [load_fine, d1]; rfl
  have p0 : plan J (some []) (.save a (some b)) = .store (J.enc (put [] a (createBondData b))) (.done (.ok ())) := rfl
  have p1 : plan J (some m1) (.find a) = .ret (.bond (.ok b)) := by simp only [plan, la, createBondInfo_createBondData b hb]
  have p2 : plan J (some m1) (.save o (some c)) = .store (J.enc (put m1 o (createBondData c))) (.done (.ok ())) := rfl
  have hw : Env.fine.write = .done := rfl
  refine ⟨⟨some (J.enc (put [] a (createBondData b))), [(⟨0, .fine, .save a (some b)⟩, .done (.done (.ok ()))), (⟨0, .fine, .find a⟩, .done (.bond (.ok b))), (⟨0, .fine, .save o (some c)⟩, .dead),
      (⟨0, .fine, .find a⟩, .done (.bond (.ok b)))],
    [⟨0, .fine, .save a (some b), .done (.ok ())⟩, ⟨1, .fine, .find a, .bond (.ok b)⟩, ⟨2, { Env.fine with write := .refused }, .save o (some c), .done (.err ())⟩, ⟨3, .fine, .find a, .bond (.ok b)⟩]⟩,
    ?_, rfl, rfl, rfl⟩
  simp [run, runT, step, init, free, Phase.holds, exclusive, e0, e1, e2, L0, L1, p0, p1, p2, writeFile, hw, reaches, Phase.crash, List.zipIdx]
  rfl

/-- C197, as long as calls of different managers do not hold their locks at the same time: any number of managers of one file, whatever the file system does and whenever the process crashes, keep it as if the calls that took
effect, each once, were made one after the other, and each call that returned took effect with the result it returned. Missing: overlapping calls of different managers, for which it fails (`two_managers_lose`). -/
theorem managers_share_partial (J : Json BondData) (setup : List (Env × Op)) (hs : KeysNotEmpty (setup.map Prod.snd)) (cs : List Call) (hk : Keys cs) (as : List Ev) (s : St)
    (hr : run J (init (calls J none setup).1 cs) as = some s) (hno : ∀ p t, p <+: as → run J (init (calls J none setup).1 cs) p = some t → NoOverlap t) :
    (calls J (calls J none setup).1 (order s)).2 = s.log.map (·.res) ∧ (s.log.map (·.id)).Nodup ∧
    (∀ (i : Nat) c r, s.threads[i]? = some (c, .done r) → ⟨i, c.env, c.op, r⟩ ∈ s.log) ∧
    ((∀ (i : Nat) c out r n, s.threads[i]? ≠ some (c, .writing out r n)) → s.file = (calls J (calls J none setup).1 (order s)).1) := by
  obtain ⟨h, _⟩ := run_inv as (init_inv (good_calls setup good_none hs) (keys_mem hk)) hr hno
  exact ⟨h.res, h.book.once, fun i c r hi => h.book.ended i c _ r hi rfl, h.quiet⟩

/-- C197, negative: two managers of one file have a lock each. Both save the bond of a peer, both calls return nil, and one of the bonds is gone, although in both orders one after the other both are kept. -/
theorem two_managers_lose (J : Json BondData) (a o : Text) (ha : strLen a = 12) (ho : strLen o = 12) (hne : a ≠ o) (b c : Bond) (hb : b.ltk ≠ []) (hc : c.ltk ≠ []) :
    (∃ s, run J (init none [⟨0, .fine, .save a (some b)⟩, ⟨1, .fine, .save o (some c)⟩]) [.acquire 0, .acquire 1, .load 0, .load 1, .written 0, .ret 0, .written 1, .ret 1] = some s ∧
      s.threads.map (·.2) = [.done (.done (.ok ())), .done (.done (.ok ()))] ∧ (findBond J .fine s.file a).2 = .err () ∧ (findBond J .fine s.file o).2 = .ok c) ∧
    (∀ x ∈ [(a, b), (o, c)], (findBond J .fine (calls J none [(.fine, .save a (some b)), (.fine, .save o (some c))]).1 x.1).2 = .ok x.2) ∧
    (∀ x ∈ [(a, b), (o, c)], (findBond J .fine (calls J none [(.fine, .save o (some c)), (.fine, .save a (some b))]).1 x.1).2 = .ok x.2) := by
  have e0 : early (.save a (some b)) = none := by simp [early, ha]
  have e1 : early (.save o (some c)) = none := by simp [early, ho]
  have L0 : loadBonds J Env.fine none = (some [], some []) := by simp [loadBonds, Env.fine]
  have L1 : loadBonds J Env.fine (some []) = (some [], some []) := by simp [loadBonds, Env.fine]
  have p0 : plan J (some []) (.save a (some b)) = .store (J.enc (put [] a (createBondData b))) (.done (.ok ())) := rfl
  have p1 : plan J (some []) (.save o (some c)) = .store (J.enc (put [] o (createBondData c))) (.done (.ok ())) := rfl
  have hw : Env.fine.write = .done := rfl
  have two : ∀ (x y : Text) (p q : Bond), strLen x = 12 → strLen y = 12 → x ≠ y → p.ltk ≠ [] → q.ltk ≠ [] →
      ∀ z r, z = x ∧ r = p ∨ z = y ∧ r = q → (findBond J .fine (calls J none [(.fine, .save x (some p)), (.fine, .save y (some q))]).1 z).2 = .ok r := by
    intro x y p q hx hy hxy hp hq z r hz
    have h1 := (call_save (holds_none J) x (some p) (by intro w hw; obtain rfl := Option.some.inj hw; exact hp)).1
    have h2 := (call_save h1 y (some q) (by intro w hw; obtain rfl := Option.some.inj hw; exact hq)).1
    have h3 := (call_find h2 z).2
    have hcalls : (calls J none [(.fine, .save x (some p)), (.fine, .save y (some q))]).1 = (saveBond J Env.fine (saveBond J Env.fine none x (some p)).1 y (some q)).1 := rfl
    rw [hcalls, h3]
    rcases hz with ⟨rfl, rfl⟩ | ⟨rfl, rfl⟩
    · simp [after, hx, hxy]
    · simp [after, hy]
  refine ⟨⟨⟨some (J.enc (put [] o (createBondData c))), [(⟨0, .fine, .save a (some b)⟩, .done (.done (.ok ()))), (⟨1, .fine, .save o (some c)⟩, .done (.done (.ok ())))],
      [⟨0, .fine, .save a (some b), .done (.ok ())⟩, ⟨1, .fine, .save o (some c), .done (.ok ())⟩]⟩, ?_, rfl, ?_, ?_⟩, ?_, ?_⟩
  · simp [run, runT, step, init, free, Phase.holds, exclusive, e0, e1, L0, L1, p0, p1, writeFile, hw]
  · have h1 := (call_save (holds_none J) o (some c) (by intro w hw; obtain rfl := Option.some.inj hw; exact hc)).1
    have h2 := (call_find h1 a).2
    have hf : (saveBond J Env.fine none o (some c)).1 = some (J.enc (put [] o (createBondData c))) := by simp [saveBond, ho, L0, writeFile, hw]
    rw [hf] at h2
    rw [h2]; simp [after, hne]
  · have h1 := (call_save (holds_none J) o (some c) (by intro w hw; obtain rfl := Option.some.inj hw; exact hc)).1
    have h2 := (call_find h1 o).2
    have hf : (saveBond J Env.fine none o (some c)).1 = some (J.enc (put [] o (createBondData c))) := by simp [saveBond, ho, L0, writeFile, hw]
    rw [hf] at h2
    rw [h2]; simp [after, ho]
  · intro x hx
    refine two a o b c ha ho hne hb hc x.1 x.2 ?_
    simp at hx; rcases hx with rfl | rfl <;> simp
  · intro x hx
    refine two o a c b ho ha (Ne.symm hne) hc hb x.1 x.2 ?_
    simp at hx; rcases hx with rfl | rfl <;> simp

end Ble.BondCrash
