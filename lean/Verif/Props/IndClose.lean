import Verif.Att.IndClose
import Verif.Props.Indicate
set_option autoImplicit false

/-!
# C163: indications when the connection ends
-/

namespace Ble.IndClose
open Ble.Ind Ble.Props Ble.Props.IndAux

namespace Aux

theorem frun_append (s : Full) (a b : List FEv) : frun s (a ++ b) = (frun s a).bind fun t => frun t b := by
  induction a generalizing s with
  | nil => rfl
  | cons e a ih =>
    simp only [List.cons_append, frun]
    cases fstep s e with
    | none => rfl
    | some t => simpa using ih t

theorem frun_snoc {s t : Full} {a : List FEv} {e : FEv} (h : frun s (a ++ [e]) = some t) : ∃ u, frun s a = some u ∧ fstep u e = some t := by
  rw [frun_append] at h
  cases hu : frun s a with
  | none => rw [hu] at h; cases h
  | some u =>
    rw [hu] at h
    refine ⟨u, rfl, ?_⟩
    simp only [Option.bind_some, frun] at h
    cases he : fstep u e with
    | none => rw [he] at h; cases h
    | some w => rw [he] at h; simpa using h

theorem fsnoc_ind {P : List FEv → Prop} (nil : P []) (snoc : ∀ l a, P l → P (l ++ [a])) : ∀ l, P l := by
  intro l
  rw [← List.reverse_reverse l]
  induction l.reverse with
  | nil => exact nil
  | cons a l ih => rw [List.reverse_cons]; exact snoc _ _ ih

theorem finvariant {P : Full → Prop} {s0 : Full} (h0 : P s0) (hs : ∀ s t e, P s → fstep s e = some t → P t) (evs : List FEv) : ∀ s, frun s0 evs = some s → P s := by
  induction evs using fsnoc_ind with
  | nil => intro s h; cases h; exact h0
  | snoc l a ih =>
    intro s h
    obtain ⟨u, h1, h2⟩ := frun_snoc h
    exact hs u s a (ih u h1) h2

/-- A step of the server or of the peer is one of the base system, in a state that allows it. -/
theorem base_step {s t : Full} {e : Ev} (h : fstep s (.base e) = some t) :
    ∃ b, step s.base e = some b ∧ t = { s with base := b } ∧ (e = .read → s.ended = false) ∧ (e = .peerConfirm → s.here = true) := by
  cases e <;> simp only [fstep] at h
  case read =>
    split at h
    · cases h
    · rename_i he
      obtain ⟨b, h1, rfl⟩ := Option.map_eq_some_iff.1 h
      exact ⟨b, h1, rfl, fun _ => by simpa using he, by simp⟩
  case peerConfirm =>
    split at h
    · obtain ⟨b, h1, rfl⟩ := Option.map_eq_some_iff.1 h
      rename_i hh
      exact ⟨b, h1, rfl, by simp, fun _ => hh⟩
    · cases h
  case peerSend =>
    split at h
    · obtain ⟨b, h1, rfl⟩ := Option.map_eq_some_iff.1 h
      exact ⟨b, h1, rfl, by simp, by simp⟩
    · cases h
  all_goals
    obtain ⟨b, h1, rfl⟩ := Option.map_eq_some_iff.1 h
    exact ⟨b, h1, rfl, by simp, by simp⟩

/-- Invariant: the buffers and numbers; exactness as long as the reader runs; every call returned at most once. -/
structure Inv (s : Full) : Prop where
  basic : Basic s.base
  gone : s.ended = true → s.here = false ∧ s.base.inq = []
  stop : s.stopped = true → s.ended = true
  closed : ∀ x ∈ s.errs, x.2 = .closed → s.ended = true
  exact : s.ended = false → Exact s.base
  good : (∃ x ∈ s.base.results, x.2 = .timeout) ∨ ∀ x ∈ s.base.results, x.1 ∈ s.base.confirmed
  bound : ∀ x ∈ s.errs, x.1 < s.base.calls ∧ (∀ c, s.base.ind = some c → x.1 < c.id) ∧ ∀ y ∈ s.base.results, x.1 ≠ y.1
  once : (s.errs.map (·.1)).Pairwise (· < ·)

theorem conf_mono {s t : St} {e : Ev} (hs : step s e = some t) : ∀ i ∈ s.confirmed, i ∈ t.confirmed := by
  intro i hi
  cases e <;> simp only [step] at hs <;> grind

theorem res_mono {s t : St} {e : Ev} (hs : step s e = some t) : t.results = s.results ∨ ∃ c r, s.ind = some c ∧ t.results = s.results ++ [(c.id, r)] ∧ t.ind = none ∧ (r = .ok → e = .read) := by
  cases e <;> simp only [step] at hs <;> grind

theorem ind_next {s t : St} {e : Ev} (hs : step s e = some t) : s.calls ≤ t.calls ∧ ∀ c, t.ind = some c → s.calls ≤ c.id ∨ ∃ c', s.ind = some c' ∧ c'.id = c.id := by
  cases e <;> simp only [step] at hs <;> grind

theorem inv_step {s t : Full} {e : FEv} (h : Inv s) (hs : fstep s e = some t) : Inv t := by
  obtain ⟨hb, hg, hst, hcl, hex, hgood, hbd, hon⟩ := h
  cases e with
  | base e =>
    obtain ⟨b, h1, rfl, hread, hpc⟩ := base_step hs
    refine ⟨basic_step hb h1, ?_, hst, hcl, fun he => exact_step hb (hex he) h1, ?_, ?_, hon⟩
    · intro he
      obtain ⟨e1, e2⟩ := hg he
      refine ⟨e1, ?_⟩
      cases e
      case read => have := hread rfl; simp_all
      case peerConfirm => have := hpc rfl; simp_all
      case peerSend m => simp [fstep, e1] at hs
      all_goals simp only [step] at h1; grind
    · by_cases ht : ∃ x ∈ b.results, x.2 = .timeout
      · exact .inl ht
      · right
        cases he : s.ended with
        | false =>
          rcases exact_step hb (hex he) h1 with h' | ⟨h', -⟩
          · exact absurd h' ht
          · exact h'
        | true =>
          have hr : b.results = s.base.results := by
            rcases res_mono h1 with hr | ⟨c, r, hc, hr, hn, hok⟩
            · exact hr
            · cases r with
              | timeout => exact absurd ⟨(c.id, .timeout), by rw [hr]; simp, rfl⟩ ht
              | ok => have := hread (hok rfl); rw [he] at this; cases this
          rcases hgood with ⟨x, hx, hx2⟩ | hgood
          · exact absurd ⟨x, by rw [hr]; exact hx, hx2⟩ ht
          · show ∀ x ∈ b.results, x.1 ∈ b.confirmed
            rw [hr]; exact fun x hx => conf_mono h1 _ (hgood x hx)
    · intro x hx
      obtain ⟨b1, b2, b3⟩ := hbd x hx
      obtain ⟨c1, c2⟩ := ind_next h1
      refine ⟨Nat.lt_of_lt_of_le b1 c1, ?_, ?_⟩
      · intro c hc
        rcases c2 c hc with c2 | ⟨c', hc', he⟩
        · omega
        · rw [← he]; exact b2 c' hc'
      · intro y hy
        rcases res_mono h1 with hr | ⟨c, r, hc, hr, hn, hok⟩
        · rw [hr] at hy; exact b3 y hy
        · rw [hr] at hy
          rcases List.mem_append.1 hy with hy | hy
          · exact b3 y hy
          · simp at hy; subst hy; have := b2 c hc; simp; omega
  | peerGone =>
    simp only [fstep] at hs
    split at hs
    · rename_i hh
      injection hs with hs; subst hs
      exact ⟨hb, fun he => absurd ((hg he).1) (by simp [hh]), hst, hcl, hex, hgood, hbd, hon⟩
    · cases hs
  | readEnd =>
    simp only [fstep] at hs
    split at hs
    · rename_i hh
      injection hs with hs; subst hs
      exact ⟨hb, fun _ => ⟨hh.1, hh.2.1⟩, fun _ => rfl, fun _ _ _ => rfl, fun he => absurd he (by simp), hgood, hbd, hon⟩
    · cases hs
  | loopEnd =>
    simp only [fstep] at hs
    split at hs
    · rename_i hh
      injection hs with hs; subst hs
      exact ⟨hb, hg, fun _ => by simpa using hh.1, hcl, hex, hgood, hbd, hon⟩
    · cases hs
  | notifyFail =>
    simp only [fstep] at hs
    split at hs
    · rename_i n _ _ hn
      injection hs with hs; subst hs
      obtain ⟨h1, h2, h3, h4, h5⟩ := hb
      exact ⟨⟨h1, by simp, h3, h4, h5⟩, hg, hst, hcl, hex, hgood, hbd, hon⟩
    · cases hs
  | indFail =>
    simp only [fstep] at hs
    split at hs
    · rename_i c hc
      split at hs
      · rename_i hp
        injection hs with hs; subst hs
        obtain ⟨h1, h2, h3, h4, h5⟩ := hb
        have hcc := h3 c hc
        refine ⟨⟨by simp, h2, by simp, fun x hx => ⟨(h4 x hx).1, by simp⟩, h5⟩, hg, hst, ?_, ?_, hgood, ?_, ?_⟩
        · intro x hx hx2
          rcases List.mem_append.1 hx with hx | hx
          · exact hcl x hx hx2
          · simp at hx; subst hx; cases hx2
        · intro he
          rcases hex he with h' | ⟨h', h''⟩
          · exact .inl h'
          · right
            rw [hc] at h''
            simp only [hp] at h''
            exact ⟨h', h''⟩
        · intro x hx
          rcases List.mem_append.1 hx with hx | hx
          · exact ⟨(hbd x hx).1, by simp, (hbd x hx).2.2⟩
          · simp at hx; subst hx
            refine ⟨by simp; omega, by simp, fun y hy => ?_⟩
            have := (h4 y hy).2 c hc
            simp; omega
        · rw [List.map_append, List.pairwise_append]
          refine ⟨hon, by simp, ?_⟩
          intro a ha b hb'
          obtain ⟨x, hx, rfl⟩ := List.mem_map.1 ha
          simp at hb'; subst hb'
          exact (hbd x hx).2.1 c hc
      · cases hs
    · cases hs
  | indClosed =>
    simp only [fstep] at hs
    split at hs
    · rename_i c hc
      split at hs
      · rename_i hp
        injection hs with hs; subst hs
        obtain ⟨h1, h2, h3, h4, h5⟩ := hb
        have hcc := h3 c hc
        have he : s.ended = true := by simpa using hp.2
        refine ⟨⟨by simp, h2, by simp, fun x hx => ⟨(h4 x hx).1, by simp⟩, h5⟩, hg, hst, fun _ _ _ => he, fun hf => by simp [he] at hf, hgood, ?_, ?_⟩
        · intro x hx
          rcases List.mem_append.1 hx with hx | hx
          · exact ⟨(hbd x hx).1, by simp, (hbd x hx).2.2⟩
          · simp at hx; subst hx
            refine ⟨by simp; omega, by simp, fun y hy => ?_⟩
            have := (h4 y hy).2 c hc
            simp; omega
        · rw [List.map_append, List.pairwise_append]
          refine ⟨hon, by simp, ?_⟩
          intro a ha b hb'
          obtain ⟨x, hx, rfl⟩ := List.mem_map.1 ha
          simp at hb'; subst hb'
          exact (hbd x hx).2.1 c hc
      · cases hs
    · cases hs

theorem inv (evs : List FEv) (s : Full) (h : frun {} evs = some s) : Inv s := by
  refine finvariant (P := Inv) ⟨basic [] _ rfl, by simp, by simp, by simp, fun _ => .inr ⟨by simp, by simp [confirms]⟩, .inr (by simp), by simp, by simp⟩ (fun _ _ _ => inv_step) evs s h

end Aux

open Aux

/-- **C163** (part). In every run, with the connection lost and writes failing at any points: as long as no call timed out, every call of an indication's `Write` that returned success was confirmed by the peer; no call returned twice. Missing: runs after a time-out (C60, `late_confirmation_credits_next`), and the prompt end of calls when the reader is blocked (`loss_unnoticed`). -/
theorem success_confirmed_despite_failures_partial (evs : List FEv) (s : Full) (h : frun {} evs = some s) :
    ((∀ x ∈ s.base.results, x.2 ≠ .timeout) → ∀ x ∈ s.base.results, x.1 ∈ s.base.confirmed) ∧
    (∀ x ∈ s.errs, ∀ y ∈ s.base.results, x.1 ≠ y.1) ∧ (s.errs.map (·.1)).Pairwise (· < ·) := by
  have hi := inv evs s h
  refine ⟨fun hn => ?_, fun x hx => (hi.bound x hx).2.2, hi.once⟩
  rcases hi.good with ⟨x, hx, hx2⟩ | hg
  · exact absurd hx2 (hn x hx)
  · exact hg

/-- **C163.** After the reader has ended no call succeeds any more, and no request is answered but the one in work. -/
theorem no_success_after_end (s : Full) (he : s.ended = true) (evs : List FEv) (t : Full) (h : frun s evs = some t) :
    t.ended = true ∧ (∀ x ∈ t.base.results, x.2 = .ok → x ∈ s.base.results) := by
  refine finvariant (P := fun t => t.ended = true ∧ ∀ x ∈ t.base.results, x.2 = .ok → x ∈ s.base.results) ⟨he, fun x hx _ => hx⟩ ?_ evs t h
  intro u v e ⟨h1, h2⟩ hs
  cases e with
  | base e =>
    obtain ⟨b, hb, rfl, hread, -⟩ := base_step hs
    refine ⟨h1, ?_⟩
    rcases res_mono hb with hr | ⟨c, r, hc, hr, hn, hok⟩
    · show ∀ x ∈ b.results, _
      rw [hr]; exact h2
    · intro x hx hx2
      change x ∈ b.results at hx
      rw [hr] at hx
      rcases List.mem_append.1 hx with hx | hx
      · exact h2 x hx hx2
      · simp at hx; subst hx
        have := hread (hok hx2)
        rw [h1] at this; cases this
  | _ => simp only [fstep] at hs; grind

/-- The steps that need neither the peer nor a new call of the application. -/
def own : FEv → Bool
  | .base .notifyWrite => true
  | .base .indWrite => true
  | .base .indWait => true
  | .base .indTimeout => true
  | .base .mainStep => true
  | .notifyFail => true
  | .indFail => true
  | .indClosed => true
  | .loopEnd => true
  | _ => false

/-- How much is left to do. -/
def mainLeft : Main → Nat
  | .idle => 0
  | .reply _ => 1
  | .swapInd _ => 2
  | .swapNot _ => 3
def indLeft : Option Call → Nat
  | none => 0
  | some c => match c.phase with | .taken => 3 | .written => 2 | .waiting => 1
def left (s : Full) : Nat := mainLeft s.base.main + (if s.base.ntf = none then 0 else 1) + indLeft s.base.ind + (if s.stopped then 0 else 1)

theorem Aux.base_left {s t : Full} {e : Ev} (ho : own (.base e) = true) (hs : fstep s (.base e) = some t) : left t < left s ∧ t.ended = s.ended := by
  obtain ⟨b, hb, rfl, -, -⟩ := Aux.base_step hs
  refine ⟨?_, rfl⟩
  unfold left
  dsimp only
  cases e <;> simp only [own, Bool.false_eq_true] at ho <;> simp only [step] at hb
  case notifyWrite =>
    cases hn : s.base.ntf with
    | none => rw [hn] at hb; cases hb
    | some x => rw [hn] at hb; cases hb; simp
  case indWrite =>
    cases hn : s.base.ind with
    | none => rw [hn] at hb; cases hb
    | some c =>
      rw [hn] at hb
      dsimp only at hb
      split at hb
      · rename_i hp; cases hb; simp [indLeft, hp]
      · cases hb
  case indWait =>
    cases hn : s.base.ind with
    | none => rw [hn] at hb; cases hb
    | some c =>
      rw [hn] at hb
      dsimp only at hb
      split at hb
      · rename_i hp; cases hb; simp [indLeft, hp]
      · cases hb
  case indTimeout =>
    cases hn : s.base.ind with
    | none => rw [hn] at hb; cases hb
    | some c =>
      rw [hn] at hb
      dsimp only at hb
      split at hb
      · rename_i hp; cases hb; simp [indLeft, hp]
      · cases hb
  case mainStep =>
    cases hm : s.base.main with
    | idle => rw [hm] at hb; cases hb
    | reply m => rw [hm] at hb; cases hb; simp [mainLeft]
    | swapNot m =>
      rw [hm] at hb
      dsimp only at hb
      split at hb <;> cases hb
      simp [mainLeft]
    | swapInd m =>
      rw [hm] at hb
      dsimp only at hb
      split at hb <;> cases hb
      simp [mainLeft]

/-- **C163.** After the reader has ended, the server gets rid of its connection by itself: every step of its own brings the end nearer, and as long as the loop has not ended or a call is in progress one is possible, without any time-out. So all calls in progress
return, and the loop ends and closes the notifiers of the connection. -/
theorem ends_by_itself (evs : List FEv) (s : Full) (h : frun {} evs = some s) (he : s.ended = true) :
    (∀ e t, own e = true → fstep s e = some t → left t < left s ∧ t.ended = true) ∧
    (s.stopped = false ∨ s.base.ind ≠ none ∨ s.base.ntf ≠ none → ∃ e t, own e = true ∧ e ≠ .base .indTimeout ∧ fstep s e = some t) := by
  have hi := inv evs s h
  constructor
  · intro e t ho hs
    cases e with
    | base e => obtain ⟨h1, h2⟩ := base_left ho hs; exact ⟨h1, by rw [h2]; exact he⟩
    | peerGone => cases ho
    | readEnd => cases ho
    | notifyFail =>
      simp only [fstep] at hs
      cases hn : s.base.ntf with
      | none => rw [hn] at hs; cases hs
      | some x => rw [hn] at hs; cases hs; exact ⟨by simp [left, hn], he⟩
    | indFail =>
      simp only [fstep] at hs
      cases hn : s.base.ind with
      | none => rw [hn] at hs; cases hs
      | some c =>
        rw [hn] at hs
        dsimp only at hs
        split at hs
        · rename_i hp; cases hs; exact ⟨by simp [left, hn, indLeft, hp], he⟩
        · cases hs
    | indClosed =>
      simp only [fstep] at hs
      cases hn : s.base.ind with
      | none => rw [hn] at hs; cases hs
      | some c =>
        rw [hn] at hs
        dsimp only at hs
        split at hs
        · rename_i hp; cases hs; exact ⟨by simp [left, hn, indLeft, hp.1], he⟩
        · cases hs
    | loopEnd =>
      simp only [fstep] at hs
      split at hs
      · rename_i hp; cases hs; exact ⟨by simp [left, hp.2.2], he⟩
      · cases hs
  · intro hp
    cases hn : s.base.ntf with
    | some x => obtain ⟨n, hh, d⟩ := x; exact ⟨.notifyFail, _, rfl, by simp, by simp only [fstep, hn]; rfl⟩
    | none =>
      cases hc : s.base.ind with
      | some c =>
        cases hph : c.phase with
        | taken => exact ⟨.indFail, _, rfl, by simp, by simp only [fstep, hc, hph, if_true]; rfl⟩
        | written => exact ⟨.base .indWait, _, rfl, by simp, by simp only [fstep, step, hc, hph, if_true, Option.map_some]; rfl⟩
        | waiting => exact ⟨.indClosed, _, rfl, by simp, by simp only [fstep, hc, hph, he, and_self, if_true]; rfl⟩
      | none =>
        have hib : ∃ n, s.base.indBuf = some n := by
          have := hi.basic.buf
          cases hb : s.base.indBuf with
          | some n => exact ⟨n, rfl⟩
          | none => rw [hb, hc] at this; simp at this
        have hnb : ∃ n, s.base.notBuf = some n := by
          have := hi.basic.nbuf
          cases hb : s.base.notBuf with
          | some n => exact ⟨n, rfl⟩
          | none => rw [hb, hn] at this; simp at this
        obtain ⟨n1, hib⟩ := hib
        obtain ⟨n2, hnb⟩ := hnb
        have hst : s.stopped = false := by simpa [hn, hc] using hp
        cases hm : s.base.main with
        | idle => exact ⟨.loopEnd, _, rfl, by simp, by simp only [fstep, he, hm, hst, and_self, if_true]; rfl⟩
        | swapNot m => exact ⟨.base .mainStep, _, rfl, by simp, by simp only [fstep, step, hm, hnb, Option.map_some]; rfl⟩
        | swapInd m => exact ⟨.base .mainStep, _, rfl, by simp, by simp only [fstep, step, hm, hib, Option.map_some]; rfl⟩
        | reply m => exact ⟨.base .mainStep, _, rfl, by simp, by simp only [fstep, step, hm, Option.map_some]; rfl⟩

/-- **C163.** A call that is waiting when the reader ends returns `io.ErrClosedPipe` at once, also one that had been sent and not confirmed. -/
theorem waiting_call_closed (s : Full) (c : Call) (he : s.ended = true) (hc : s.base.ind = some c) (hw : c.phase = .waiting) :
    ∃ t, fstep s .indClosed = some t ∧ t.errs = s.errs ++ [(c.id, .closed)] ∧ t.base.ind = none ∧ t.base.results = s.base.results := by
  exact ⟨{ s with base := { s.base with ind := none, indBuf := some c.size }, errs := s.errs ++ [(c.id, .closed)] }, by simp [fstep, hc, hw, he], rfl, rfl, rfl⟩

/-- **C163** fails (blocked reader). While the server is in the grip of an MTU exchange (C60, `mtu_exchange_blocks_confirmation`) it does not notice that the connection is lost: until the 30 s have passed the call does not return. -/
theorem loss_unnoticed (s : Full) (c : Call) (m : Nat) (hh : s.here = true) (he : s.ended = false) (hc : s.base.ind = some c) (hw : c.phase = .waiting) (hb : s.base.indBuf = none) (hm : s.base.main = .idle)
    (hq : s.base.inq = []) (hcur : m ≠ s.base.cur) :
    ∃ t, frun s [.base (.peerSend (.mtu m)), .base (.peerSend .cmd), .peerGone] = some t ∧
      ∀ (evs : List FEv) (u : Full), .base .indTimeout ∉ evs → frun t evs = some u → u.ended = false ∧ u.base.ind = some c ∧ u.base.results = s.base.results ∧ u.errs = s.errs := by
  refine ⟨_, by simp only [frun, fstep, hh, step, if_true, Option.map_some, Option.bind_some, reduceCtorEq, if_false, hq, List.nil_append, List.cons_append]; rfl, ?_⟩
  generalize ht : ({ s with base := { s.base with inq := [.mtu m, .cmd] }, here := false } : Full) = t
  have h0 : Stuck s.base.results c m t.base ∧ t.ended = false ∧ t.errs = s.errs := by
    subst ht; exact ⟨⟨rfl, hc, hb, .inl ⟨hm, hcur, [], rfl⟩⟩, he, rfl⟩
  clear ht
  intro evs
  induction evs generalizing t with
  | nil => intro u _ hu; cases hu; exact ⟨h0.2.1, h0.1.2.1, h0.1.1, h0.2.2⟩
  | cons e evs ih =>
    intro u hn hu
    simp only [frun] at hu
    cases hst : fstep t e with
    | none => rw [hst] at hu; cases hu
    | some t' =>
      rw [hst] at hu
      refine ih t' ?_ u (fun h => hn (by simp [h])) hu
      obtain ⟨h1, h2, h3⟩ := h0
      cases e with
      | base e =>
        obtain ⟨b, hb', rfl, -, -⟩ := base_step hst
        exact ⟨stuck_step hw h1 (fun h => hn (by simp [h])) hb', h2, h3⟩
      | _ => unfold Stuck at *; simp only [fstep] at hst; grind

/-- Runs that meet the hypotheses: an indication that is closed while it waits, and the state of `loss_unnoticed`. -/
theorem indclose_example :
    (∃ s, frun {} [.base (.indTake 5 [1, 2]), .base .indWrite, .base .indWait, .peerGone, .readEnd] = some s ∧ s.ended = true ∧ ∃ c, s.base.ind = some c ∧ c.phase = .waiting) ∧
    (∃ s, frun {} [.base (.indTake 5 [1]), .base .indWrite, .base .indWait, .peerGone, .readEnd, .indClosed, .base (.indTake 5 [2]), .indFail, .loopEnd] = some s ∧ s.errs = [(0, .closed), (1, .write)] ∧ s.stopped = true) ∧
    (∃ s c, frun {} [.base (.indTake 5 [1, 2]), .base .indWrite, .base .indWait] = some s ∧ s.base.ind = some c ∧ c.phase = .waiting ∧ s.base.indBuf = none ∧ s.base.main = .idle ∧ s.base.inq = [] ∧ 100 ≠ s.base.cur) :=
  ⟨⟨_, rfl, rfl, _, rfl, rfl⟩, ⟨_, rfl, rfl, rfl⟩, ⟨_, _, rfl, rfl, rfl, rfl, rfl, rfl, by decide⟩⟩

end Ble.IndClose
