import Verif.Hci.Flow
set_option autoImplicit false

/-! # C66: what arrives is read in order, and what it takes to stall the adapter -/

namespace Ble.Props

open Ble.Flow

/-! ## Specification -/

/-- The ATT PDUs among what the controller sent that are for connection `h`. -/
def sentTo (h : Nat) (items : List Item) : List Pdu :=
  items.filterMap fun
    | .acl h' p => if h' = h then some p else none
    | _ => none

/-- What the controller sent during a run. -/
def arrivals (es : List Flow.Ev) : List Item :=
  es.filterMap fun
    | .arrive i => some i
    | _ => none

/-- The steps by which the library works on what it has received: the rest are steps of the controller, of the application or of the clock. -/
def internal : Flow.Ev → Bool
  | .handle | .take _ | .put _ | .read _ | .receive _ | .confirm _ | .reject _ => true
  | _ => false

/-- A response by its opcode: odd, neither notification nor indication [Core, Vol 3, Part F, 3.3.1]. -/
def isResponse (p : Pdu) : Bool := p.op % 2 = 1 ∧ p.op ≠ 0x1B ∧ p.op ≠ 0x1D

/-- An indication. -/
def isIndication (p : Pdu) : Bool := p.op = 0x1D

/-- The application makes no call on connection `h` that sends a request. -/
def Silent (h : Nat) (es : List Flow.Ev) : Prop := ∀ op, Flow.Ev.call h op ∉ es

namespace FlowAux

theorem kind_spec (p : Pdu) : p.kind = if isResponse p then .response else if p.op = 0x1B then .value false else if isIndication p then .value true else .request := by
  have key : ∀ op : UInt8, (op &&& 1 = 0 ↔ ¬ op % 2 = 1) := by
    intro op
    have h1 : (op &&& 1).toNat = op.toNat % 2 := by rw [UInt8.toNat_and]; exact Nat.and_one_is_mod _
    have h2 : (op % 2).toNat = op.toNat % 2 := by rw [UInt8.toNat_mod]; rfl
    have h3 : (0 : UInt8).toNat = 0 := rfl
    have h4 : (1 : UInt8).toNat = 1 := rfl
    rw [← UInt8.toNat_inj, ← UInt8.toNat_inj, h1, h2, h3, h4]
    omega
  obtain ⟨op, par⟩ := p
  simp only [Pdu.kind, Client.classify, index, isResponse, isIndication]
  simp
  by_cases h1 : op &&& 1 = 0
  · have h2 := (key op).1 h1
    rw [if_pos h1]
    have h3 : op ≠ 0x1B := by rintro rfl; exact absurd h1 (by decide)
    have h4 : op ≠ 0x1D := by rintro rfl; exact absurd h1 (by decide)
    simp [h2, h3, h4]
  · have h2 : op % 2 = 1 := Classical.byContradiction fun h => h1 ((key op).2 h)
    rw [if_neg h1]
    by_cases h3 : op = 0x1B
    · subst h3; rfl
    · by_cases h4 : op = 0x1D
      · subst h4; rfl
      · simp [h2, h3, h4]

theorem next_reading {p : Pdu} (h : next p = .reading) : isResponse p = false ∧ isIndication p = false := by
  simp only [next, kind_spec] at h
  revert h
  cases hr : isResponse p <;> cases hi : isIndication p <;> simp
  by_cases h2 : p.op = 27
  · have : isIndication p = false := by simp [isIndication, h2]
    simp [this] at hi
  · simp [h2]

theorem run_snoc {s s' : Flow.St} {es : List Flow.Ev} {e : Flow.Ev} : run s (es ++ [e]) = some s' ↔ ∃ t, run s es = some t ∧ step t e = some s' := by
  induction es generalizing s with
  | nil =>
    simp only [List.nil_append, run, Option.some.injEq, exists_eq_left']
    split <;> simp_all
  | cons x xs ih =>
    simp only [List.cons_append, run]
    split
    · simp
    · exact ih

/-- Induction over runs. -/
theorem run_ind {s0 : Flow.St} {P : List Flow.Ev → Flow.St → Prop} (h0 : P [] s0)
    (hs : ∀ es s e s', run s0 es = some s → P es s → step s e = some s' → P (es ++ [e]) s') : ∀ es s, run s0 es = some s → P es s := by
  have key : ∀ es pre s s', run s0 pre = some s → P pre s → run s es = some s' → P (pre ++ es) s' := by
    intro es
    induction es with
    | nil => intro pre s s' _ hp h; simp [run] at h; subst h; simpa using hp
    | cons x xs ih =>
      intro pre s s' hpre hp h
      simp only [run] at h
      split at h
      · simp at h
      · rename_i t ht
        have := ih (pre ++ [x]) t s' (run_snoc.2 ⟨s, hpre, ht⟩) (hs _ _ _ _ hpre hp ht) h
        simpa using this
  intro es s h
  simpa using key es [] s0 s rfl h0 h

theorem sentTo_append (h : Nat) (a b : List Item) : sentTo h (a ++ b) = sentTo h a ++ sentTo h b := by simp [sentTo]

theorem arrivals_append (a b : List Flow.Ev) : arrivals (a ++ b) = arrivals a ++ arrivals b := by simp [arrivals]

/-- What is where. -/
structure Inv (arr : List Item) (n : Nat) (s : Flow.St) : Prop where
  items : s.handled ++ s.input = arr
  len : s.lnks.length = n
  lnk : ∀ (h : Nat) (l : Lnk), s.lnks[h]? = some l → l.seen ++ (l.pdus ++ (l.hand.toList ++ l.pkts)) = sentTo h s.handled ∧ l.pkts.length ≤ 16 ∧ l.pdus.length ≤ 16

theorem get_upd (s : Flow.St) (h k : Nat) (l l0 : Lnk) (hl : s.lnks[h]? = some l0) : (s.lnks.set h l)[k]? = if h = k then some l else s.lnks[k]? := by
  have := (List.getElem?_eq_some_iff.1 hl).1
  rw [List.getElem?_set]
  split
  · simp [this]
  · rfl

theorem inv (n f : Nat) (es : List Flow.Ev) (s : Flow.St) (hr : run (Flow.init n f) es = some s) : Inv (arrivals es) n s := by
  revert es s
  apply run_ind
  · refine ⟨rfl, by simp [Flow.init], ?_⟩
    intro h l hl
    simp only [Flow.init, List.getElem?_replicate] at hl
    split at hl
    · injection hl with hl; subst hl; simp [sentTo, Flow.init]
    · simp at hl
  · intro es s e s' _ ⟨h1, h2, h3⟩ he
    rw [arrivals_append]
    cases e with
    | arrive i =>
      simp only [step, Option.some.injEq] at he; subst he
      exact ⟨by simp [arrivals, ← List.append_assoc, h1], h2, h3⟩
    | handle =>
      have ha : arrivals [Flow.Ev.handle] = [] := rfl
      rw [ha, List.append_nil]
      simp only [step] at he
      split at he
      · simp at he
      · rename_i i rest hin
        rw [hin] at h1
        split at he
        · rename_i h p
          split at he
          · rename_i hl
            injection he with he; subst he
            refine ⟨by simp [← h1], h2, ?_⟩
            intro k l hk
            have hne : h ≠ k := by rintro rfl; simp [hl] at hk
            have := h3 k l hk
            simpa [sentTo_append, sentTo, hne] using this
          · rename_i l0 hl
            split at he
            · injection he with he; subst he
              refine ⟨by simp [upd, ← h1], by simp [upd, h2], ?_⟩
              intro k l hk
              simp only [upd] at hk ⊢
              rw [get_upd _ _ _ _ _ hl] at hk
              split at hk
              · rename_i heq; subst heq
                injection hk with hk; subst hk
                have := h3 h l0 hl
                rw [sentTo_append, ← this.1]
                refine ⟨by simp [sentTo], ?_, this.2.2⟩
                simp; omega
              · rename_i hne
                have := h3 k l hk
                simpa [sentTo_append, sentTo, hne] using this
            · simp at he
        · rename_i h m
          split at he
          · injection he with he; subst he
            refine ⟨by simp [← h1], h2, ?_⟩
            intro k l hk
            have := h3 k l hk
            simpa [sentTo_append, sentTo] using this
          · rename_i l0 hl
            injection he with he; subst he
            refine ⟨by simp [upd, ← h1], by simp [upd, h2], ?_⟩
            intro k l hk
            simp only [upd] at hk ⊢
            rw [get_upd _ _ _ _ _ hl] at hk
            split at hk
            · rename_i heq; subst heq
              injection hk with hk; subst hk
              have := h3 h l0 hl
              simpa [sentTo_append, sentTo] using this
            · have := h3 k l hk
              simpa [sentTo_append, sentTo] using this
        · injection he with he; subst he
          refine ⟨by simp [← h1], h2, ?_⟩
          intro k l hk
          have := h3 k l hk
          simpa [sentTo_append, sentTo] using this
    | _ =>
      rw [show arrivals [_] = [] from rfl, List.append_nil]
      simp only [step] at he
      split at he
      · simp at he
      · rename_i l0 hl
        have h0 := h3 _ _ hl
        refine ⟨?_, ?_, ?_⟩ <;> (repeat' split at he) <;> simp only [Option.some.injEq, reduceCtorEq] at he <;> (try subst he) <;>
          simp only [upd, List.length_set] <;> (try assumption) <;> (intro k l hk; rw [get_upd _ _ _ _ _ hl] at hk; split at hk) <;>
          (try exact h3 k l hk) <;> (rename_i heq; subst heq; injection hk with hk; subst hk; grind)

/-- While the reader of a connection is no further than `k` PDUs, the event loop does not get past a packet for it that comes after `k + 33` others. -/
theorem blocked {s s' : Flow.St} {e : Flow.Ev} {arr : List Item} {n h : Nat} {l : Lnk} {pre : List Item} {p : Pdu} (hi : Inv arr n s) (hl : s.lnks[h]? = some l) (hk : l.seen.length + 33 ≤ (sentTo h pre).length)
    (hh : s.handled = pre) (hs : step s e = some s') : s'.handled ≠ pre ++ [.acl h p] := by
  intro hc
  have h3 := hi.lnk h l hl
  have hlen := congrArg List.length h3.1
  rw [hh] at hlen
  simp only [List.length_append] at hlen
  have hhand : l.hand.toList.length ≤ 1 := by cases l.hand <;> simp
  have hfull : ¬ l.pkts.length < 16 := by omega
  cases e with
  | arrive i => simp only [step, Option.some.injEq] at hs; subst hs; simp [hh] at hc
  | handle =>
    simp only [step] at hs
    split at hs
    · simp at hs
    · rename_i i rest hin
      split at hs
      · rename_i h' q
        split at hs
        · rename_i hn
          injection hs with hs; subst hs
          simp [hh] at hc
          rw [hc.1, hl] at hn; simp at hn
        · rename_i l0 hl0
          split at hs
          · injection hs with hs; subst hs
            simp [upd, hh] at hc
            rw [hc.1, hl] at hl0; injection hl0 with hl0; subst hl0
            contradiction
          · simp at hs
      · split at hs <;> injection hs with hs <;> subst hs <;> simp [upd, hh] at hc
      · injection hs with hs; subst hs; simp [hh] at hc
  | _ =>
    simp only [step] at hs
    split at hs
    · simp at hs
    · (repeat' split at hs) <;> simp only [Option.some.injEq, reduceCtorEq] at hs <;> subst hs <;> simp [upd, hh] at hc

theorem handled_mono {s s' : Flow.St} {e : Flow.Ev} (hs : step s e = some s') : s'.handled = s.handled ∨ ∃ i, s'.handled = s.handled ++ [i] := by
  cases e with
  | arrive i => simp only [step, Option.some.injEq] at hs; subst hs; exact .inl rfl
  | handle =>
    simp only [step] at hs
    split at hs
    · simp at hs
    · rename_i i rest hin
      right; refine ⟨i, ?_⟩
      (repeat' split at hs) <;> simp only [Option.some.injEq, reduceCtorEq] at hs <;> subst hs <;> rfl
  | _ =>
    left
    simp only [step] at hs
    split at hs
    · simp at hs
    · (repeat' split at hs) <;> simp only [Option.some.injEq, reduceCtorEq] at hs <;> subst hs <;> rfl

/-- If, whenever everything up to the packet has been handled and nothing more, the reader is at least 33 PDUs behind, the packet is never handled. -/
theorem never {n f h : Nat} (hn : h < n) {pre : List Item} {p : Pdu} {A : List Flow.Ev → Prop} (hA : ∀ es e, A (es ++ [e]) → A es)
    (hk : ∀ es s l, A es → run (Flow.init n f) es = some s → s.lnks[h]? = some l → s.handled <+: pre → l.seen.length + 33 ≤ (sentTo h pre).length) :
    ∀ es s, run (Flow.init n f) es = some s → A es → ¬ (pre ++ [.acl h p] <+: s.handled) := by
  apply run_ind (P := fun es s => A es → ¬ (pre ++ [Item.acl h p] <+: s.handled))
  · intro _ hc
    have := hc.length_le
    simp [Flow.init] at this
  · intro es s e s' hr ih hs ha hc
    have ha' := hA _ _ ha
    rcases handled_mono hs with heq | ⟨i, heq⟩
    · rw [heq] at hc; exact ih ha' hc
    · rw [heq, List.prefix_concat_iff] at hc
      rcases hc with hc | hc
      · have hi := inv n f es s hr
        have hpre : pre = s.handled := (List.append_inj_left' hc rfl)
        obtain ⟨l, hl⟩ : ∃ l, s.lnks[h]? = some l := ⟨_, List.getElem?_eq_getElem (by rw [hi.len]; exact hn)⟩
        exact blocked hi hl (hk es s l ha' hr hl (by rw [hpre]; exact List.prefix_refl _)) hpre.symm hs (heq.trans hc.symm)
      · exact ih ha' hc

theorem prefix_of_not {pre : List Item} {x : Item} {rest hd tl : List Item} (h : hd ++ tl = pre ++ x :: rest) (hn : ¬ (pre ++ [x] <+: hd)) : hd <+: pre := by
  have h1 : hd <+: pre ++ x :: rest := ⟨tl, h⟩
  have h2 : pre ++ [x] <+: pre ++ x :: rest := ⟨rest, by simp⟩
  rcases List.prefix_or_prefix_of_prefix h1 h2 with h3 | h3
  · rw [List.prefix_concat_iff] at h3
    rcases h3 with h3 | h3
    · exact absurd (h3 ▸ List.prefix_refl _) hn
    · exact h3
  · exact absurd h3 hn

/-- The reader of a connection on which no request is sent stops at the first response. -/
theorem silent_inv (n f h : Nat) : ∀ es s, run (Flow.init n f) es = some s → Silent h es → ∀ l, s.lnks[h]? = some l →
    l.call = .idle ∧ ((∃ r, l.reader = .offering r ∧ isResponse r ∧ ∃ a, l.seen = a ++ [r] ∧ ∀ x ∈ a, isResponse x = false) ∨ ((∀ r, l.reader ≠ .offering r) ∧ ∀ x ∈ l.seen, isResponse x = false)) := by
  apply run_ind
  · intro _ l hl
    simp only [Flow.init, List.getElem?_replicate] at hl
    split at hl
    · injection hl with hl; subst hl; simp
    · simp at hl
  · intro es s e s' hr ih hs hsil l' hl'
    have hsil' : Silent h es := fun op hm => hsil op (by simp [hm])
    have ih := ih hsil'
    cases e with
    | arrive i => simp only [step, Option.some.injEq] at hs; subst hs; exact ih l' hl'
    | handle =>
      simp only [step] at hs
      split at hs
      · simp at hs
      · (repeat' split at hs) <;> simp only [Option.some.injEq, reduceCtorEq] at hs <;> subst hs <;> (try exact ih l' hl') <;>
          (simp only [upd] at hl'; rw [get_upd _ _ _ _ _ (by assumption)] at hl'; split at hl' <;>
          first | exact ih l' hl' | (rename_i heq; subst heq; injection hl' with hl'; subst hl'; (have := ih _ ‹s.lnks[_]? = some _›; exact this)))
    | read k =>
      simp only [step] at hs
      split at hs
      · simp at hs
      · rename_i l0 hl
        split at hs
        · rename_i p rest hrd hp
          injection hs with hs; subst hs
          simp only [upd] at hl'
          rw [get_upd _ _ _ _ _ hl] at hl'
          split at hl'
          · rename_i heq; subst heq
            injection hl' with hl'; subst hl'
            have := ih l0 hl
            rw [hrd] at this
            obtain ⟨hc, hd⟩ := this
            have hd := hd.resolve_left (by rintro ⟨r, hr, _⟩; simp at hr)
            refine ⟨hc, ?_⟩
            simp only [next, kind_spec]
            cases hresp : isResponse p
            · right
              refine ⟨?_, ?_⟩
              · intro r
                by_cases h1 : p.op = 27 <;> by_cases h2 : isIndication p = true <;> simp [h1, h2]
              · intro x hx
                rcases List.mem_append.1 hx with hx | hx
                · exact hd.2 x hx
                · simp at hx; subst hx; exact hresp
            · left
              exact ⟨p, by simp, hresp, l0.seen, rfl, hd.2⟩
          · exact ih l' hl'
        · simp at hs
    | call k op =>
      have hne : k ≠ h := by rintro rfl; exact hsil op (by simp)
      simp only [step] at hs
      split at hs
      · simp at hs
      · split at hs
        · injection hs with hs; subst hs
          simp only [upd] at hl'
          rw [get_upd _ _ _ _ _ (by assumption), if_neg hne] at hl'
          exact ih l' hl'
        · simp at hs
    | _ =>
      simp only [step] at hs
      split at hs
      · simp at hs
      · rename_i l0 hl
        (repeat' split at hs) <;> simp only [Option.some.injEq, reduceCtorEq] at hs <;> subst hs <;>
          (simp only [upd] at hl'; rw [get_upd _ _ _ _ _ hl] at hl'; split at hl' <;>
          first | exact ih l' hl' | (rename_i heq; subst heq; injection hl' with hl'; subst hl'; have := ih l0 hl; grind))

/-- Without a Number Of Completed Packets event the reader gets no further than the indication for whose confirmation there is no buffer. -/
theorem credit_inv (n f h : Nat) : ∀ es s, run (Flow.init n f) es = some s → (∀ k m, Item.completed k m ∉ s.handled) → ∀ l, s.lnks[h]? = some l →
    s.free + l.seen.countP isIndication ≤ f + (if l.reader = .confirming then 1 else 0) := by
  apply run_ind
  · intro _ l hl
    simp only [Flow.init, List.getElem?_replicate] at hl
    split at hl
    · injection hl with hl; subst hl; simp [Flow.init]
    · simp at hl
  · intro es s e s' hr ih hs hno l' hl'
    have hno' : ∀ k m, Item.completed k m ∉ s.handled := by
      intro k m hm
      rcases handled_mono hs with heq | ⟨i, heq⟩
      · exact hno k m (heq ▸ hm)
      · exact hno k m (by rw [heq]; simp [hm])
    have ih := ih hno'
    cases e with
    | arrive i => simp only [step, Option.some.injEq] at hs; subst hs; exact ih l' hl'
    | handle =>
      simp only [step] at hs
      split at hs
      · simp at hs
      · split at hs
        · (repeat' split at hs) <;> simp only [Option.some.injEq, reduceCtorEq] at hs <;> subst hs <;> (try exact ih l' hl') <;>
            (simp only [upd] at hl'; rw [get_upd _ _ _ _ _ (by assumption)] at hl'; split at hl' <;>
          first | exact ih l' hl' | (rename_i heq; subst heq; injection hl' with hl'; subst hl'; (have := ih _ ‹s.lnks[_]? = some _›; exact this)))
        · exfalso
          rename_i k m _
          (repeat' split at hs) <;> injection hs with hs <;> subst hs <;> exact hno k m (by simp [upd])
        · injection hs with hs; subst hs; exact ih l' hl'
    | read k =>
      simp only [step] at hs
      split at hs
      · simp at hs
      · rename_i l0 hl
        split at hs
        · rename_i p rest hrd hp
          injection hs with hs; subst hs
          simp only [upd] at hl' ⊢
          rw [get_upd _ _ _ _ _ hl] at hl'
          split at hl'
          · rename_i heq; subst heq
            injection hl' with hl'; subst hl'
            have := ih l0 hl
            rw [hrd] at this
            simp only [reduceCtorEq, if_false, Nat.add_zero] at this
            simp only [List.countP_append, List.countP_singleton, next, kind_spec]
            cases hi : isIndication p
            · simp; omega
            · have h1 : p.op = 0x1D := by simpa [isIndication] using hi
              have h2 : isResponse p = false := by simp [isResponse, h1]
              simp [h1, h2]; omega
          · exact ih l' hl'
        · simp at hs
    | _ =>
      simp only [step] at hs
      split at hs
      · simp at hs
      · rename_i l0 hl
        (repeat' split at hs) <;> simp only [Option.some.injEq, reduceCtorEq] at hs <;> subst hs <;> simp only [upd] at hl' ⊢ <;>
          (rw [get_upd _ _ _ _ _ hl] at hl'; split at hl' <;>
          first | (have := ih l' hl'; omega) | (rename_i heq; subst heq; injection hl' with hl'; subst hl'; have := ih l0 hl; grind))

theorem beyond (n f h : Nat) (a b : List Pdu) (r : Pdu) (hind : isIndication r) (ha : f ≤ a.countP isIndication) : ∀ es s, run (Flow.init n f) es = some s → ∀ l, s.lnks[h]? = some l → sentTo h s.handled <+: a ++ r :: b →
    (∀ k m, Item.completed k m ∉ s.handled) → l.seen.length ≤ a.length + 1 := by
  have key : ∀ es s, run (Flow.init n f) es = some s → ∀ l, s.lnks[h]? = some l → sentTo h s.handled <+: a ++ r :: b → (∀ k m, Item.completed k m ∉ s.handled) → l.reader = .reading → l.seen.length ≤ a.length := by
    intro es s hr l hl hpre hno hrd
    have hc := credit_inv n f h es s hr hno l hl
    rw [hrd] at hc
    simp only [reduceCtorEq, if_false, Nat.add_zero] at hc
    apply Classical.byContradiction
    intro hlt
    have hi := inv n f es s hr
    have h1 : l.seen <+: a ++ r :: b := by
      refine List.IsPrefix.trans ?_ hpre
      rw [← (hi.lnk h l hl).1]; exact List.prefix_append _ _
    have h2 : a ++ [r] <+: a ++ r :: b := ⟨b, by simp⟩
    have h3 : a ++ [r] <+: l.seen := List.prefix_of_prefix_length_le h2 h1 (by simp; omega)
    obtain ⟨t, ht⟩ := h3
    rw [← ht] at hc
    simp [hind] at hc
    omega
  apply run_ind
  · intro l hl _ _
    simp only [Flow.init, List.getElem?_replicate] at hl
    split at hl
    · injection hl with hl; subst hl; simp
    · simp at hl
  · intro es s e s' hr ih hs l' hl' hpre hno
    obtain ⟨t, ht⟩ : ∃ t, s'.handled = s.handled ++ t := by
      rcases handled_mono hs with h | ⟨i, h⟩
      · exact ⟨[], by simp [h]⟩
      · exact ⟨[i], h⟩
    have hpre' : sentTo h s.handled <+: a ++ r :: b := by
      refine List.IsPrefix.trans ?_ hpre
      rw [ht, sentTo_append]; exact List.prefix_append _ _
    have hno' : ∀ k m, Item.completed k m ∉ s.handled := fun k m hm => hno k m (by rw [ht]; simp [hm])
    have ih : ∀ l, s.lnks[h]? = some l → l.seen.length ≤ a.length + 1 := fun l hl => ih l hl hpre' hno'
    have hkey : ∀ l, s.lnks[h]? = some l → l.reader = .reading → l.seen.length ≤ a.length := fun l hl => key es s hr l hl hpre' hno'
    cases e with
    | arrive i => simp only [step, Option.some.injEq] at hs; subst hs; exact ih l' hl'
    | handle =>
      simp only [step] at hs
      split at hs
      · simp at hs
      · (repeat' split at hs) <;> simp only [Option.some.injEq, reduceCtorEq] at hs <;> subst hs <;> (try exact ih l' hl') <;>
          (simp only [upd] at hl'; rw [get_upd _ _ _ _ _ (by assumption)] at hl'; split at hl' <;>
          first | exact ih l' hl' | (rename_i heq; subst heq; injection hl' with hl'; subst hl'; (have := ih _ ‹s.lnks[_]? = some _›; exact this)))
    | _ =>
      simp only [step] at hs
      split at hs
      · simp at hs
      · rename_i l0 hl
        (repeat' split at hs) <;> simp only [Option.some.injEq, reduceCtorEq] at hs <;> subst hs <;>
          (simp only [upd] at hl'; rw [get_upd _ _ _ _ _ hl] at hl'; split at hl' <;>
          first | exact ih l' hl' | (rename_i heq; subst heq; injection hl' with hl'; subst hl'; have := ih l0 hl; have := hkey l0 hl; grind))

theorem next_why (p : Pdu) : (∀ r, next p = .offering r → isResponse p) ∧ (next p = .confirming → isIndication p) := by
  simp only [next, kind_spec]
  cases h1 : isResponse p <;> cases h2 : isIndication p <;> by_cases h3 : p.op = 27 <;> simp [h3]

/-- Why a client is busy. -/
theorem why_inv (n f : Nat) : ∀ es s, run (Flow.init n f) es = some s → ∀ (h : Nat) (l : Lnk), s.lnks[h]? = some l →
    (∀ r, l.reader = .offering r → ∃ p ∈ l.seen, isResponse p) ∧ (l.reader = .confirming → ∃ p ∈ l.seen, isIndication p) ∧ (∀ op, l.call = .rejecting op → ∃ p ∈ l.seen, isResponse p) := by
  apply run_ind
  · intro h l hl
    simp only [Flow.init, List.getElem?_replicate] at hl
    split at hl
    · injection hl with hl; subst hl; simp
    · simp at hl
  · intro es s e s' hr ih hs h l' hl'
    cases e with
    | arrive i => simp only [step, Option.some.injEq] at hs; subst hs; exact ih h l' hl'
    | handle =>
      simp only [step] at hs
      split at hs
      · simp at hs
      · (repeat' split at hs) <;> simp only [Option.some.injEq, reduceCtorEq] at hs <;> subst hs <;> (try exact ih h l' hl') <;>
          (simp only [upd] at hl'; rw [get_upd _ _ _ _ _ (by assumption)] at hl'; split at hl' <;>
          first | exact ih h l' hl' | (rename_i heq; subst heq; injection hl' with hl'; subst hl'; (have := ih _ _ ‹s.lnks[_]? = some _›; exact this)))
    | _ =>
      simp only [step] at hs
      split at hs
      · simp at hs
      · rename_i l0 hl
        (repeat' split at hs) <;> simp only [Option.some.injEq, reduceCtorEq] at hs <;> subst hs <;>
          (simp only [upd] at hl'; rw [get_upd _ _ _ _ _ hl] at hl'; split at hl' <;>
          first | exact ih h l' hl' | (rename_i heq; subst heq; injection hl' with hl'; subst hl'; have := ih _ l0 hl; have := next_why; grind))

/-! Work left to do. -/

def rw : Reader → Nat
  | .reading => 0
  | .offering _ => 2
  | .confirming => 1

def cw : Call → Nat
  | .rejecting _ => 1
  | _ => 0

def lw (l : Lnk) : Nat := 5 * l.pkts.length + 4 * l.hand.toList.length + 3 * l.pdus.length + rw l.reader + cw l.call

def weight (s : Flow.St) : Nat := 6 * s.input.length + (s.lnks.map lw).sum

theorem sum_set {ls : List Lnk} {h : Nat} {l l0 : Lnk} (hl : ls[h]? = some l0) : ((ls.set h l).map lw).sum + lw l0 = (ls.map lw).sum + lw l := by
  induction ls generalizing h with
  | nil => simp at hl
  | cons x xs ih =>
    cases h with
    | zero => simp at hl; subst hl; simp; omega
    | succ h => simp at hl; have := ih hl; simp only [List.set_cons_succ, List.map_cons, List.sum_cons]; omega

theorem next_rw (p : Pdu) : rw (next p) ≤ 2 := by
  simp only [next]; split <;> simp [rw]

theorem weight_step {s s' : Flow.St} {e : Flow.Ev} (hs : step s e = some s') : weight s' + (if internal e then 1 else 0) ≤ weight s + 6 * (arrivals [e]).length := by
  cases e with
  | arrive i => simp only [step, Option.some.injEq] at hs; subst hs; simp [weight, internal, arrivals]; omega
  | handle =>
    simp only [step] at hs
    split at hs
    · simp at hs
    · rename_i i rest hin
      (repeat' split at hs) <;> simp only [Option.some.injEq, reduceCtorEq] at hs <;> subst hs <;> simp only [weight, internal, arrivals, upd, hin, List.length_cons, if_true] <;> (try omega)
      · rename_i p _ l hl _
        have := sum_set (l := { l with pkts := l.pkts ++ [p] }) hl
        simp [lw] at this
        simp [lw]; omega
      · rename_i k m _ l hl
        have := sum_set (l := { l with held := l.held - min m l.held }) hl
        simp [lw] at this
        simp [lw]; omega
  | _ =>
    simp only [step] at hs
    split at hs
    · simp at hs
    · rename_i l0 hl
      have hset := fun l => sum_set (l := l) hl
      (repeat' split at hs) <;> simp only [Option.some.injEq, reduceCtorEq] at hs <;> subst hs <;> simp only [weight, internal, arrivals, upd] <;>
        (have := next_rw; simp only [lw] at hset ⊢; grind [rw, cw])

end FlowAux

open FlowAux

/-- What the client of a connection has read is, in order and without gaps, what the controller delivered for that connection, for every schedule. -/
theorem received_in_order (n f : Nat) (es : List Flow.Ev) (s : Flow.St) (hr : run (Flow.init n f) es = some s) (h : Nat) (l : Lnk) (hl : s.lnks[h]? = some l) : l.seen <+: sentTo h (arrivals es) := by
  have hi := inv n f es s hr
  rw [← hi.items, sentTo_append, ← (hi.lnk h l hl).1, List.append_assoc]
  exact List.prefix_append _ _

/-- An unsolicited response stops the adapter. If the application sends no request on connection `h` and its peer sends a response, 33 more PDUs and then one more, then nothing that comes after those 33 is ever handled: no data for any other
connection, no command completion, not even the disconnection of the peer. -/
theorem unsolicited_response_stalls (n f : Nat) (es : List Flow.Ev) (s : Flow.St) (hr : run (Flow.init n f) es = some s) (h : Nat) (hn : h < n) (hsil : Silent h es) (pre rest : List Item) (p r : Pdu) (a b : List Pdu)
    (harr : arrivals es = pre ++ .acl h p :: rest) (hpre : sentTo h pre = a ++ r :: b) (hresp : isResponse r) (hb : 33 ≤ b.length) : s.handled <+: pre := by
  have hi := inv n f es s hr
  refine prefix_of_not (hi.items.trans harr) (never hn (A := Silent h) (fun es e ha op hm => ha op (by simp [hm])) ?_ es s hr hsil)
  intro es s l ha hr hl hh
  have hi := inv n f es s hr
  have hs1 : l.seen <+: a ++ r :: b := by
    obtain ⟨t, ht⟩ := hh
    rw [← hpre, ← ht, sentTo_append, ← (hi.lnk h l hl).1, List.append_assoc]
    exact List.prefix_append _ _
  have hlen : l.seen.length ≤ a.length + 1 := by
    rcases (silent_inv n f h es s hr ha l hl).2 with ⟨r', _, hr', a', hse, ha'⟩ | ⟨_, hno⟩
    · apply Classical.byContradiction
      intro hc
      rw [hse] at hs1 hc
      simp only [List.length_append, List.length_singleton] at hc
      have : (a' ++ [r'])[a.length]? = some r := by
        obtain ⟨t, ht⟩ := hs1
        have := congrArg (fun x => x[a.length]?) ht
        rw [List.getElem?_append_left (by simp; omega)] at this
        rw [this]; simp
      rw [List.getElem?_append_left (by omega)] at this
      have := ha' r (List.mem_of_getElem? this)
      simp [hresp] at this
    · apply Classical.byContradiction
      intro hc
      have : l.seen[a.length]? = some r := by
        obtain ⟨t, ht⟩ := hs1
        have := congrArg (fun x => x[a.length]?) ht
        rw [List.getElem?_append_left (by omega)] at this
        rw [this]; simp
      have := hno r (List.mem_of_getElem? this)
      simp [hresp] at this
  rw [hpre]
  simp; omega

/-- Indications can stop the adapter too. A confirmation needs a transmit buffer and buffers come back only through the event loop: if the peer sends one indication more than there are buffers, 33 more PDUs and then one more, before the controller
reports any completed packet, then nothing after those 33 is ever handled, whatever the application does; in particular the report of completed packets that would free the buffers. -/
theorem indication_flood_stalls (n f : Nat) (es : List Flow.Ev) (s : Flow.St) (hr : run (Flow.init n f) es = some s) (h : Nat) (hn : h < n) (pre rest : List Item) (p r : Pdu) (a b : List Pdu)
    (harr : arrivals es = pre ++ .acl h p :: rest) (hpre : sentTo h pre = a ++ r :: b) (hind : isIndication r) (ha : f ≤ a.countP isIndication) (hb : 33 ≤ b.length) (hno : ∀ k m, Item.completed k m ∉ pre) : s.handled <+: pre := by
  have hi := inv n f es s hr
  refine prefix_of_not (hi.items.trans harr) (never hn (A := fun _ => True) (fun _ _ _ => trivial) ?_ es s hr trivial)
  intro es s l _ hr hl hh
  rw [hpre]
  have hgoal : l.seen.length ≤ a.length + 1 := by
    have hno' : ∀ k m, Item.completed k m ∉ s.handled := fun k m hm => hno k m (hh.subset hm)
    exact beyond n f h a b r hind ha es s hr l hl (by
      obtain ⟨t, ht⟩ := hh
      rw [← hpre, ← ht, sentTo_append]
      exact List.prefix_append _ _) hno'
  simp; omega

/-- The library does a bounded amount of work: in every run, whatever the schedule, at most six steps for each item the controller sent. -/
theorem bounded_work (n f : Nat) (es : List Flow.Ev) (s : Flow.St) (hr : run (Flow.init n f) es = some s) : es.countP internal ≤ 6 * (arrivals es).length := by
  have : es.countP internal + weight s ≤ 6 * (arrivals es).length := by
    revert es s
    apply run_ind
    · simp [weight, Flow.init, lw, arrivals, rw, cw]
    · intro es s e s' _ ih hs
      have := weight_step hs
      rw [arrivals_append, List.countP_append, List.length_append, List.countP_singleton]
      omega
  omega

/-- The only ways to stall. When the library can do no more, either everything that has arrived has been handled and read, or some client holds a response while no call of its connection waits for one, or it waits for a transmit buffer while
none is free. -/
theorem stall_only_if (n f : Nat) (es : List Flow.Ev) (s : Flow.St) (hr : run (Flow.init n f) es = some s) (hstop : ∀ e, internal e → step s e = none) :
    (s.input = [] ∧ ∀ (h : Nat) (l : Lnk), s.lnks[h]? = some l → l.seen = sentTo h (arrivals es)) ∨
    (∃ (h : Nat) (l : Lnk) (r : Pdu), s.lnks[h]? = some l ∧ l.reader = .offering r ∧ l.call = .idle) ∨
    (s.free = 0 ∧ ∃ (h : Nat) (l : Lnk), s.lnks[h]? = some l ∧ (l.reader = .confirming ∨ ∃ op, l.call = .rejecting op)) := by
  have hi := inv n f es s hr
  by_cases hbad : (∃ (h : Nat) (l : Lnk) (r : Pdu), s.lnks[h]? = some l ∧ l.reader = .offering r ∧ l.call = .idle) ∨ (s.free = 0 ∧ ∃ (h : Nat) (l : Lnk), s.lnks[h]? = some l ∧ (l.reader = .confirming ∨ ∃ op, l.call = .rejecting op))
  · exact .inr hbad
  · left
    have hrd : ∀ (h : Nat) (l : Lnk), s.lnks[h]? = some l → l.reader = .reading := by
      intro h l hl
      cases hrd : l.reader with
      | reading => rfl
      | offering r =>
        exfalso
        cases hc : l.call with
        | idle => exact hbad (.inl ⟨h, l, r, hl, hrd, hc⟩)
        | waiting op =>
          have := hstop (.receive h) rfl
          simp [step, hl, hrd, hc] at this
        | rejecting op =>
          by_cases hf : s.free = 0
          · exact hbad (.inr ⟨hf, h, l, hl, .inr ⟨op, hc⟩⟩)
          · have := hstop (.reject h) rfl
            simp [step, hl, hc] at this
            omega
      | confirming =>
        exfalso
        by_cases hf : s.free = 0
        · exact hbad (.inr ⟨hf, h, l, hl, .inl hrd⟩)
        · have := hstop (.confirm h) rfl
          simp [step, hl, hrd] at this
          omega
    have hempty : ∀ (h : Nat) (l : Lnk), s.lnks[h]? = some l → l.pdus = [] ∧ l.hand = none ∧ l.pkts = [] := by
      intro h l hl
      have h1 : l.pdus = [] := by
        cases hp : l.pdus with
        | nil => rfl
        | cons p rest =>
          have := hstop (.read h) rfl
          simp [step, hl, hrd h l hl, hp] at this
      have h2 : l.hand = none := by
        cases hp : l.hand with
        | none => rfl
        | some p =>
          have := hstop (.put h) rfl
          simp [step, hl, hp, h1] at this
      refine ⟨h1, h2, ?_⟩
      cases hp : l.pkts with
      | nil => rfl
      | cons p rest =>
        have := hstop (.take h) rfl
        simp [step, hl, hp, h2] at this
    have hin : s.input = [] := by
      cases hin : s.input with
      | nil => rfl
      | cons i rest =>
        have := hstop .handle rfl
        simp only [step, hin] at this
        cases i with
        | acl h p =>
          simp only at this
          split at this
          · simp at this
          · rename_i l hl
            simp [(hempty h l hl).2.2] at this
        | completed h m => simp only at this; split at this <;> simp at this
        | evt m => simp at this
    refine ⟨hin, ?_⟩
    intro h l hl
    have := (hi.lnk h l hl).1
    obtain ⟨h1, h2, h3⟩ := hempty h l hl
    rw [h1, h2, h3] at this
    simp at this
    rw [this, ← hi.items, hin, List.append_nil]

/-- If no peer sends responses (so nobody made a request) or indications, then a library that works until it can do no more has read everything. -/
theorem notifications_all_read (n f : Nat) (es : List Flow.Ev) (s : Flow.St) (hr : run (Flow.init n f) es = some s) (hstop : ∀ e, internal e → step s e = none)
    (hq : ∀ h p, p ∈ sentTo h (arrivals es) → isResponse p = false ∧ isIndication p = false) : s.input = [] ∧ ∀ (h : Nat) (l : Lnk), s.lnks[h]? = some l → l.seen = sentTo h (arrivals es) := by
  have hr2 : ∀ (h : Nat) (l : Lnk), s.lnks[h]? = some l → l.reader = .reading ∧ ∀ op, l.call ≠ .rejecting op := by
    intro h l hl
    obtain ⟨h1, h2, h3⟩ := why_inv n f es s hr h l hl
    have hsub : ∀ p ∈ l.seen, isResponse p = false ∧ isIndication p = false := fun p hp => hq h p ((received_in_order n f es s hr h l hl).subset hp)
    refine ⟨?_, ?_⟩
    · cases hrd : l.reader with
      | reading => rfl
      | offering r =>
        obtain ⟨p, hp, hc⟩ := h1 r hrd
        simp [(hsub p hp).1] at hc
      | confirming =>
        obtain ⟨p, hp, hc⟩ := h2 hrd
        simp [(hsub p hp).2] at hc
    · intro op hop
      obtain ⟨p, hp, hc⟩ := h3 op hop
      simp [(hsub p hp).1] at hc
  rcases stall_only_if n f es s hr hstop with h | ⟨h, l, r, hl, hrd, _⟩ | ⟨_, h, l, hl, h1⟩
  · exact h
  · rw [(hr2 h l hl).1] at hrd; simp at hrd
  · rcases h1 with h1 | ⟨op, h1⟩
    · rw [(hr2 h l hl).1] at h1; simp at h1
    · exact absurd h1 ((hr2 h l hl).2 op)

namespace FlowAux

theorem held_set {ls : List Lnk} {h : Nat} {l l0 : Lnk} (hl : ls[h]? = some l0) : ((ls.set h l).map (·.held)).sum + l0.held = (ls.map (·.held)).sum + l.held := by
  induction ls generalizing h with
  | nil => simp at hl
  | cons x xs ih =>
    cases h with
    | zero => simp at hl; subst hl; simp; omega
    | succ h => simp at hl; have := ih hl; simp only [List.set_cons_succ, List.map_cons, List.sum_cons]; omega

end FlowAux

/-- No transmit buffer is lost or invented: the free ones and those in use by the connections are all there are, in every run. -/
theorem buffers_conserved (n f : Nat) (es : List Flow.Ev) (s : Flow.St) (hr : run (Flow.init n f) es = some s) : s.free + (s.lnks.map (·.held)).sum = f := by
  revert es s
  apply run_ind
  · simp [Flow.init]
  · intro es s e s' _ ih hs
    cases e with
    | arrive i => simp only [step, Option.some.injEq] at hs; subst hs; exact ih
    | handle =>
      simp only [step] at hs
      split at hs
      · simp at hs
      · (repeat' split at hs) <;> simp only [Option.some.injEq, reduceCtorEq] at hs <;> subst hs <;> (try exact ih)
        · rename_i p _ _ l hl _
          have := held_set (l := { l with pkts := l.pkts ++ [p] }) hl
          simp only [upd] at this ⊢; omega
        · rename_i k m _ _ l hl
          have := held_set (l := { l with held := l.held - min m l.held }) hl
          simp only [upd] at this ⊢; omega
    | _ =>
      simp only [step] at hs
      split at hs
      · simp at hs
      · rename_i l0 hl
        have hset := fun l => held_set (l := l) hl
        (repeat' split at hs) <;> simp only [Option.some.injEq, reduceCtorEq] at hs <;> subst hs <;> simp only [upd] <;> grind

/-- A completed packet frees its buffer: when the report is handled, as many buffers of the connection are free again as it says, up to those in use. -/
theorem completed_frees (s s' : Flow.St) (h m : Nat) (l : Lnk) (rest : List Item) (hl : s.lnks[h]? = some l) (hin : s.input = .completed h m :: rest) (hs : step s .handle = some s') :
    s'.free = s.free + min m l.held ∧ s'.input = rest := by
  simp only [step, hin, hl, Option.some.injEq] at hs
  subst hs; exact ⟨rfl, rfl⟩

/-- A call that waits ends with the first response of its kind or error the client hands over, and goes on waiting after any other, which is answered with an error response. -/
theorem handed_over (s : Flow.St) (h : Nat) (l : Lnk) (p : Pdu) (op : UInt8) (hl : s.lnks[h]? = some l) (hrd : l.reader = .offering p) (hc : l.call = .waiting op) :
    ∃ s' l', step s (.receive h) = some s' ∧ s'.lnks[h]? = some l' ∧ l'.reader = .reading ∧ (l'.call = .idle ↔ p.op = 0x01 ∨ p.op = Client.rspOfReq op) ∧ ((∃ o, l'.call = .waiting o) → False) := by
  refine ⟨_, { l with reader := .reading, call := if p.op = 0x01 ∨ p.op = Client.rspOfReq op then .idle else .rejecting op }, by simp only [step, hl, hrd, hc]; rfl, ?_, rfl, ?_, ?_⟩
  · have := (List.getElem?_eq_some_iff.1 hl).1
    simp [upd, this]
  · simp only; split <;> simp_all
  · simp only; split <;> simp

/-- What the receiving and calling sides may do when a buffer is free: a confirmation, the refusal of a strange PDU, a new call and a notification go out, each with one buffer; with none free, none of them does. -/
theorem sends_iff_buffer (s : Flow.St) (h : Nat) (l : Lnk) (hl : s.lnks[h]? = some l) :
    ((step s (.write h)).isSome = true ↔ 0 < s.free) ∧
    (∀ op, (step s (.call h op)).isSome = true ↔ l.call = .idle ∧ 0 < s.free) ∧
    ((step s (.confirm h)).isSome = true ↔ l.reader = .confirming ∧ 0 < s.free) ∧
    ((step s (.reject h)).isSome = true ↔ (∃ op, l.call = .rejecting op) ∧ 0 < s.free) ∧
    ∀ e s', (e = .write h ∨ (∃ op, e = .call h op) ∨ e = .confirm h ∨ e = .reject h) → step s e = some s' → s'.free = s.free - 1 ∧ ∃ l', s'.lnks[h]? = some l' ∧ l'.held = l.held + 1 := by
  refine ⟨?_, ?_, ?_, ?_, ?_⟩
  · simp only [step, hl]; split <;> simp_all
  · intro op; simp only [step, hl]; split <;> simp_all
  · simp only [step, hl]; split <;> simp_all
  · simp only [step, hl]; split <;> (try split) <;> simp_all
  · have hlt := (List.getElem?_eq_some_iff.1 hl).1
    rintro e s' (rfl | ⟨op, rfl⟩ | rfl | rfl) hs <;> simp only [step, hl] at hs <;> (repeat' split at hs) <;> simp only [Option.some.injEq, reduceCtorEq] at hs <;> subst hs <;>
      simp [upd, List.getElem?_set, hlt]

/-- What the peer of connection 0 sends to an idle central: one Write Response and 34 notifications; then data for connection 1 and a command completion. -/
def exampleFlood : List Item := .acl 0 ⟨0x13, []⟩ :: List.replicate 34 (.acl 0 ⟨0x1B, [3, 0, 7]⟩) ++ [.acl 1 ⟨0x1B, [3, 0, 8]⟩, .evt 1]

/-- The library working as long as it can on two connections. -/
def exampleWork : List Flow.Ev :=
  exampleFlood.map .arrive ++ [.handle, .take 0, .put 0, .read 0] ++ (List.replicate 16 [Flow.Ev.handle, .take 0, .put 0]).flatten ++ [.handle, .take 0] ++ List.replicate 16 .handle

set_option maxRecDepth 100000 in
/-- The hypotheses of `unsolicited_response_stalls` are met, and in this run all that can be handled is: 34 of the 37 items. -/
theorem example_stall :
    (∃ s, run (Flow.init 2 4) exampleWork = some s ∧ s.handled.length = 34 ∧ step s .handle = none ∧ (∃ l, s.lnks[1]? = some l ∧ l.seen = [])) ∧
    arrivals exampleWork = (Item.acl 0 ⟨0x13, []⟩ :: List.replicate 33 (.acl 0 ⟨0x1B, [3, 0, 7]⟩)) ++ .acl 0 ⟨0x1B, [3, 0, 7]⟩ :: [.acl 1 ⟨0x1B, [3, 0, 8]⟩, .evt 1] ∧
    sentTo 0 (Item.acl 0 ⟨0x13, []⟩ :: List.replicate 33 (.acl 0 ⟨0x1B, [3, 0, 7]⟩)) = [] ++ ⟨0x13, []⟩ :: List.replicate 33 ⟨0x1B, [3, 0, 7]⟩ ∧ isResponse ⟨0x13, []⟩ = true ∧ Silent 0 exampleWork := by
  refine ⟨⟨_, rfl, by decide, by decide, _, rfl, by decide⟩, by decide, by decide, by decide, ?_⟩
  intro op hm
  simp [exampleWork] at hm

/-- One buffer, two indications, 34 notifications and only then the report that the confirmation has been sent. -/
def exampleIndications : List Flow.Ev :=
  ([Item.acl 0 ⟨0x1D, [3, 0, 1]⟩, .acl 0 ⟨0x1D, [3, 0, 2]⟩] ++ List.replicate 34 (Item.acl 0 ⟨0x1B, [3, 0, 7]⟩) ++ [Item.completed 0 1]).map .arrive ++
    [.handle, .take 0, .put 0, .read 0, .confirm 0, .handle, .take 0, .put 0, .read 0] ++ (List.replicate 16 [Flow.Ev.handle, .take 0, .put 0]).flatten ++ [.handle, .take 0] ++ List.replicate 16 .handle

set_option maxRecDepth 100000 in
/-- The hypotheses of `indication_flood_stalls` are met, and the report is never handled. -/
theorem example_indication_stall :
    (∃ s, run (Flow.init 1 1) exampleIndications = some s ∧ step s .handle = none ∧ s.input = [.acl 0 ⟨0x1B, [3, 0, 7]⟩, .completed 0 1] ∧ s.free = 0) ∧
    arrivals exampleIndications = ([.acl 0 ⟨0x1D, [3, 0, 1]⟩, .acl 0 ⟨0x1D, [3, 0, 2]⟩] ++ List.replicate 33 (.acl 0 ⟨0x1B, [3, 0, 7]⟩)) ++ .acl 0 ⟨0x1B, [3, 0, 7]⟩ :: [.completed 0 1] ∧
    sentTo 0 ([.acl 0 ⟨0x1D, [3, 0, 1]⟩, .acl 0 ⟨0x1D, [3, 0, 2]⟩] ++ List.replicate 33 (.acl 0 ⟨0x1B, [3, 0, 7]⟩)) = [⟨0x1D, [3, 0, 1]⟩] ++ ⟨0x1D, [3, 0, 2]⟩ :: List.replicate 33 ⟨0x1B, [3, 0, 7]⟩ ∧
    1 ≤ ([⟨0x1D, [3, 0, 1]⟩] : List Pdu).countP isIndication :=
  ⟨⟨_, rfl, by decide, by decide, by decide⟩, by decide, by decide, by decide⟩

set_option maxRecDepth 10000 in
/-- A run in which everything is read although a response is late: the next call takes it. -/
theorem example_all_read :
    ∃ s, run (Flow.init 2 4) [.arrive (.acl 0 ⟨0x0B, [1]⟩), .arrive (.acl 1 ⟨0x1B, [3, 0, 8]⟩), .handle, .take 0, .put 0, .read 0, .handle, .take 1, .put 1, .read 1, .call 0 0x0A, .receive 0] = some s ∧ s.input = [] ∧
      (∃ l, s.lnks[1]? = some l ∧ l.seen = [⟨0x1B, [3, 0, 8]⟩]) ∧ ∃ l, s.lnks[0]? = some l ∧ l.reader = .reading :=
  ⟨_, rfl, by decide, ⟨_, rfl, by decide⟩, _, rfl, by decide⟩

end Ble.Props
