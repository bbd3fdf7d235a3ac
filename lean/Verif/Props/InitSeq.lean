import Verif.Hci.InitSeq
import Verif.Props.Init
import Verif.Props.Params
set_option autoImplicit false

/-!
# C160, C161: what `Init` sends, and which events it switches on
-/

namespace Ble.InitSeq

open Ble.HciCmd Ble.HciInit

variable {γ : Type}

/-! ## Specification -/

/-- The commands, in order, as octets: Reset; Read BD_ADDR; Read Buffer Size; LE Read Buffer Size; LE Read Advertising Channel Tx Power; LE Set Event Mask; Set Event Mask; Write LE Host Support;
LE Write Suggested Default Data Length (251 octets, 2120 µs). -/
def questions : List Bytes :=
  [[0x01, 0x03, 0x0C, 0], [0x01, 0x09, 0x10, 0], [0x01, 0x05, 0x10, 0], [0x01, 0x02, 0x20, 0], [0x01, 0x07, 0x20, 0],
   [0x01, 0x01, 0x20, 8, 0x1F, 0, 0, 0, 0, 0, 0, 0], [0x01, 0x01, 0x0C, 8, 0xFF, 0xFF, 0xFB, 0xFF, 0x07, 0xF8, 0xBF, 0x3D],
   [0x01, 0x6D, 0x0C, 2, 1, 0], [0x01, 0x24, 0x20, 4, 251, 0, 0x48, 0x08]]

/-- LE Set Advertising Parameters with the advertising parameters of the device. -/
def advPkt (c : Cfg) : Bytes :=
  [0x01, 0x06, 0x20, 15] ++ leBytes 2 c.advIntervalMin.toNat ++ leBytes 2 c.advIntervalMax.toNat ++ [c.advType, c.advOwn, c.advDirectType] ++ c.advDirect ++ [c.advMap, c.advFilter]

/-- LE Set Scan Parameters with its scan parameters. -/
def scanPkt (c : Cfg) : Bytes :=
  [0x01, 0x0B, 0x20, 7] ++ [c.scan.scanType] ++ leBytes 2 c.scan.interval.toNat ++ leBytes 2 c.scan.window.toNat ++ [c.scan.ownAddrType, c.scan.filterPolicy]

/-- The whole of it. -/
def script (c : Cfg) : List Bytes := questions ++ [advPkt c, scanPkt c]

/-- A transport that does not fail, and a controller that always lets the host send its next command in time. -/
structure Cooperative (l : Link γ) : Prop where
  works : ∀ s, l.failed s = false
  ready : ∀ s, (l.ready s).2 = true

/-- The connection and scan parameters of the device are valid: what valid means is in `conn_params_accepted_iff` and `scan_params_exact`. -/
def Valid (c : Cfg) : Prop := Params.validateConn c.conn = true ∧ Params.validateScan c.scan = true

/-! ## Proofs -/

/-! ### Event masks -/

/-- A number from its octets, least significant first. -/
def ofOctets : Bytes → Nat
  | [] => 0
  | b :: bs => b.toNat + 256 * ofOctets bs

/-- The masks of a controller: the one of the events and the one of the LE events. -/
structure Masks where
  evt : Nat
  le : Nat
deriving DecidableEq

/-- Vol 4, Part E, 7.3.1 and 7.8.1: event `code` (LE event `sub`) has the bit `code - 1` (`sub - 1`); three events cannot be masked. An LE event is sent only if LE Meta events are. -/
def Masks.sends (m : Masks) (code : Nat) : Bool := code = 0x0E || code = 0x0F || code = 0x13 || m.evt.testBit (code - 1)
def Masks.sendsLE (m : Masks) (sub : Nat) : Bool := m.sends 0x3E && m.le.testBit (sub - 1)

/-- The masks after a reset: 7.3.1, 7.8.1. -/
def resetMasks : Masks := ⟨0x1FFFFFFFFFFF, 0x1F⟩

/-- How a controller that follows the specification keeps its masks: Reset gives the ones above, the two commands that set a mask set it if they are answered with status zero, and nothing else changes them. -/
structure Keeps (l : Link γ) (f : γ → Masks) : Prop where
  ready : ∀ s, f (l.ready s).1 = f s
  reset : ∀ s, f (l.xchg s [0x01, 0x03, 0x0C, 0]).1 = resetMasks
  setEvt : ∀ s (m : Bytes), m.length = 8 → f (l.xchg s ([0x01, 0x01, 0x0C, 8] ++ m)).1 = if (l.xchg s ([0x01, 0x01, 0x0C, 8] ++ m)).2 = some [0] then { f s with evt := ofOctets m } else f s
  setLE : ∀ s (m : Bytes), m.length = 8 → f (l.xchg s ([0x01, 0x01, 0x20, 8] ++ m)).1 = if (l.xchg s ([0x01, 0x01, 0x20, 8] ++ m)).2 = some [0] then { f s with le := ofOctets m } else f s
  other : ∀ s (p : Bytes), p.take 3 ≠ [0x01, 0x03, 0x0C] → p.take 3 ≠ [0x01, 0x01, 0x0C] → p.take 3 ≠ [0x01, 0x01, 0x20] → f (l.xchg s p).1 = f s

/-- The controller accepts the two masks. -/
def AcceptsMasks (l : Link γ) : Prop := ∀ s (m : Bytes), m.length = 8 → (l.xchg s ([0x01, 0x01, 0x0C, 8] ++ m)).2 = some [0] ∧ (l.xchg s ([0x01, 0x01, 0x20, 8] ++ m)).2 = some [0]

namespace Aux

theorem o0 : octets (named "Reset") [] = [0x01, 0x03, 0x0C, 0] := by decide
theorem o1 : octets (named "ReadBDADDR") [] = [0x01, 0x09, 0x10, 0] := by decide
theorem o2 : octets (named "ReadBufferSize") [] = [0x01, 0x05, 0x10, 0] := by decide
theorem o3 : octets (named "LEReadBufferSize") [] = [0x01, 0x02, 0x20, 0] := by decide
theorem o4 : octets (named "LEReadAdvertisingChannelTxPower") [] = [0x01, 0x07, 0x20, 0] := by decide
theorem o5 : octets (named "LESetEventMask") [.u64 0x000000000000001F] = [0x01, 0x01, 0x20, 8, 0x1F, 0, 0, 0, 0, 0, 0, 0] := by decide
theorem o6 : octets (named "SetEventMask") [.u64 0x3dbff807fffbffff] = [0x01, 0x01, 0x0C, 8, 0xFF, 0xFF, 0xFB, 0xFF, 0x07, 0xF8, 0xBF, 0x3D] := by decide
theorem o7 : octets (named "WriteLEHostSupport") [.u8 1, .u8 0] = [0x01, 0x6D, 0x0C, 2, 1, 0] := by decide
theorem o8 : octets (named "LEWriteSuggestedDefaultDataLength") [.u16 251, .u16 2120] = [0x01, 0x24, 0x20, 4, 251, 0, 0x48, 0x08] := by decide

theorem named_mem (n : String) (h : (commands.find? (·.name == n)).isSome = true) : named n ∈ commands := by
  unfold named
  obtain ⟨c, hc⟩ := Option.isSome_iff_exists.1 h
  rw [hc]
  exact List.mem_of_find?_eq_some hc

theorem oAdv (c : Cfg) (h6 : c.advDirect.length = 6) : octets (named "LESetAdvertisingParameters") c.advVals = advPkt c := by
  have hm : named "LESetAdvertisingParameters" ∈ commands := named_mem _ (by decide)
  have ht : (named "LESetAdvertisingParameters").tys = [.u16, .u16, .u8, .u8, .u8, .bytes 6, .u8, .u8] := by decide
  have ho : (named "LESetAdvertisingParameters").opCode = 0x2006 := by decide
  unfold octets
  rw [(Ble.Props.hci_cmd_packet _ hm c.advVals (by rw [ht]; simp [Cfg.advVals, Val.ty, h6]) _ (by simp)).1, ho]
  simp [Cfg.advVals, Val.octets, advPkt, leBytes, h6]

theorem oScan (c : Cfg) : octets (named "LESetScanParameters") c.scanVals = scanPkt c := by
  have hm : named "LESetScanParameters" ∈ commands := named_mem _ (by decide)
  have ht : (named "LESetScanParameters").tys = [.u8, .u16, .u16, .u8, .u8] := by decide
  have ho : (named "LESetScanParameters").opCode = 0x200B := by decide
  unfold octets
  rw [(Ble.Props.hci_cmd_packet _ hm c.scanVals (by rw [ht]; simp [Cfg.scanVals, Val.ty]) _ (by simp)).1, ho]
  simp [Cfg.scanVals, Val.octets, scanPkt, leBytes]

/-- What `send` writes: nothing, or the packet. -/
theorem send_out (l : Link γ) (r : Run γ) (c : Command) (vs : List Val) :
    (send l r c vs).1.out = r.out ∨ (send l r c vs).1.out = r.out ++ [octets c vs] := by
  unfold send
  split
  · exact .inl rfl
  · dsimp only
    split
    · exact .inr rfl
    · exact .inl rfl

theorem send_coop {l : Link γ} (h : Cooperative l) (r : Run γ) (c : Command) (vs : List Val) :
    (send l r c vs).1.out = r.out ++ [octets c vs] := by
  simp [send, h.works, h.ready]

theorem send_sub (l : Link γ) (r : Run γ) (c : Command) (vs : List Val) (t : List Bytes) (p : Bytes) (hp : octets c vs = p) (h : r.out.Sublist t) :
    (send l r c vs).1.out.Sublist (t ++ [p]) := by
  rcases send_out l r c vs with h1 | h1 <;> rw [h1]
  · exact h.trans (List.sublist_append_left _ _)
  · rw [hp]; exact List.Sublist.append h (List.Sublist.refl _)

theorem init_sub (l : Link γ) (s : γ) : (init l s).1.out.Sublist questions := by
  unfold init
  dsimp only
  have h0 := send_sub l ⟨s, []⟩ (named "Reset") [] [] _ o0 (List.Sublist.refl _)
  have h1 := send_sub l _ (named "ReadBDADDR") [] _ _ o1 h0
  have h2 := send_sub l _ (named "ReadBufferSize") [] _ _ o2 h1
  have h3 := send_sub l _ (named "LEReadBufferSize") [] _ _ o3 h2
  have h4 := send_sub l _ (named "LEReadAdvertisingChannelTxPower") [] _ _ o4 h3
  have h5 := send_sub l _ (named "LESetEventMask") _ _ _ o5 h4
  have h6 := send_sub l _ (named "SetEventMask") _ _ _ o6 h5
  have h7 := send_sub l _ (named "WriteLEHostSupport") _ _ _ o7 h6
  exact send_sub l _ (named "LEWriteSuggestedDefaultDataLength") _ _ _ o8 h7

theorem init_coop {l : Link γ} (h : Cooperative l) (s : γ) : (init l s).1.out = questions := by
  unfold init
  dsimp only
  simp only [send_coop h, o0, o1, o2, o3, o4, o5, o6, o7, o8]
  rfl

end Aux

open Aux

/-- **C160.** Whatever transport and controller do, `Init` writes only packets of the script, in its order and each at most once; and nothing if the parameters are invalid. -/
theorem init_sends_only (l : Link γ) (s : γ) (c : Cfg) (h6 : c.advDirect.length = 6) :
    (start l s c).1.out.Sublist (script c) ∧ (¬ Valid c → (start l s c).1.out = []) := by
  constructor
  · unfold start
    split
    · dsimp only
      split
      · exact (init_sub l s).trans (List.sublist_append_left _ _)
      · split
        · exact (init_sub l s).trans (List.sublist_append_left _ _)
        · have h1 := send_sub l (init l s).1 (named "LESetAdvertisingParameters") c.advVals _ _ (oAdv c h6) (init_sub l s)
          have h2 := send_sub l _ (named "LESetScanParameters") c.scanVals _ _ (oScan c) h1
          simpa [script] using h2
    · exact List.nil_sublist _
  · intro hv
    unfold start
    rw [if_neg]
    simpa [Valid] using hv

/-- **C160.** With a working transport and a controller that lets the host send, `Init` with valid parameters writes all nine questions; and then, if and only if it succeeds, the two commands that set the advertising and scan parameters of the device. -/
theorem init_sends_exactly {l : Link γ} (hl : Cooperative l) (s : γ) (c : Cfg) (h6 : c.advDirect.length = 6) (hv : Valid c) :
    (start l s c).1.out = if (start l s c).2.isSome then script c else questions := by
  have e : start l s c = match newPool (init l s).2 with
      | none => ((init l s).1, none)
      | some p => ((send l (send l (init l s).1 (named "LESetAdvertisingParameters") c.advVals).1 (named "LESetScanParameters") c.scanVals).1, some ((init l s).2, p)) := by
    unfold start
    rw [if_pos (by simpa [Valid] using hv)]
    dsimp only
    rw [hl.works]
    rfl
  rw [e]
  cases hn : newPool (init l s).2 with
  | none => simpa using init_coop hl s
  | some p => simp [send_coop hl, init_coop hl s, oAdv c h6, oScan c, script]

/-- **C160.** `Init` succeeds only with valid parameters, and what it makes of the replies is what C62 says: it is the adapter of a controller that answers each question with the reply that was got for it. -/
theorem init_result (l : Link γ) (s : γ) (c : Cfg) (a : Adapter) (p : PoolCfg) (h : (start l s c).2 = some (a, p)) :
    Valid c ∧ ∃ k : Ctl, HciInit.start k = some (a, p) ∧
      ∀ op b, k op = some b → ∃ st, ∃ q ∈ questions, q.take 3 = [0x01, UInt8.ofNat op, UInt8.ofNat (op / 256)] ∧ (l.xchg st q).2 = some b := by
  unfold start at h
  split at h
  · rename_i hv
    refine ⟨by simpa [Valid] using hv, ?_⟩
    dsimp only at h
    split at h
    · cases h
    · cases hn : newPool (init l s).2 with
      | none => rw [hn] at h; cases h
      | some p' =>
        rw [hn] at h
        simp only [Option.some.injEq, Prod.mk.injEq] at h
        obtain ⟨rfl, rfl⟩ := h
        have hsome : ∀ (r : Run γ) (cm : Command) (q : Bytes), octets cm [] = q → ∀ b, (send l r cm []).2 = some b → ∃ st, (l.xchg st q).2 = some b := by
          intro r cm q hq b hb
          unfold send at hb
          split at hb
          · cases hb
          · dsimp only at hb
            split at hb
            · rw [hq] at hb; exact ⟨_, hb⟩
            · cases hb
        refine ⟨fun op => if op = 0x1009 then (send l (send l ⟨s, []⟩ (named "Reset") []).1 (named "ReadBDADDR") []).2
          else if op = 0x1005 then (send l (send l (send l ⟨s, []⟩ (named "Reset") []).1 (named "ReadBDADDR") []).1 (named "ReadBufferSize") []).2
          else if op = 0x2002 then (send l (send l (send l (send l ⟨s, []⟩ (named "Reset") []).1 (named "ReadBDADDR") []).1 (named "ReadBufferSize") []).1 (named "LEReadBufferSize") []).2
          else if op = 0x2007 then
            (send l (send l (send l (send l (send l ⟨s, []⟩ (named "Reset") []).1 (named "ReadBDADDR") []).1 (named "ReadBufferSize") []).1 (named "LEReadBufferSize") []).1
              (named "LEReadAdvertisingChannelTxPower") []).2
          else none, ?_, ?_⟩
        · unfold HciInit.start
          have e : HciInit.init (fun op => if op = 0x1009 then (send l (send l ⟨s, []⟩ (named "Reset") []).1 (named "ReadBDADDR") []).2
            else if op = 0x1005 then (send l (send l (send l ⟨s, []⟩ (named "Reset") []).1 (named "ReadBDADDR") []).1 (named "ReadBufferSize") []).2
            else if op = 0x2002 then (send l (send l (send l (send l ⟨s, []⟩ (named "Reset") []).1 (named "ReadBDADDR") []).1 (named "ReadBufferSize") []).1 (named "LEReadBufferSize") []).2
            else if op = 0x2007 then
              (send l (send l (send l (send l (send l ⟨s, []⟩ (named "Reset") []).1 (named "ReadBDADDR") []).1 (named "ReadBufferSize") []).1 (named "LEReadBufferSize") []).1
                (named "LEReadAdvertisingChannelTxPower") []).2
            else none) = (init l s).2 := rfl
          rw [e, hn]; rfl
        · intro op b hb
          dsimp only at hb
          split at hb
          · rename_i ho; subst ho
            obtain ⟨st, hst⟩ := hsome _ _ _ o1 _ hb
            exact ⟨st, _, by simp [questions], by decide, hst⟩
          · split at hb
            · rename_i ho; subst ho
              obtain ⟨st, hst⟩ := hsome _ _ _ o2 _ hb
              exact ⟨st, _, by simp [questions], by decide, hst⟩
            · split at hb
              · rename_i ho; subst ho
                obtain ⟨st, hst⟩ := hsome _ _ _ o3 _ hb
                exact ⟨st, _, by simp [questions], by decide, hst⟩
              · split at hb
                · rename_i ho; subst ho
                  obtain ⟨st, hst⟩ := hsome _ _ _ o4 _ hb
                  exact ⟨st, _, by simp [questions], by decide, hst⟩
                · cases hb
  · cases h

namespace Aux

theorem send_state {l : Link γ} (h : Cooperative l) (r : Run γ) (c : Command) (vs : List Val) :
    (send l r c vs).1.st = (l.xchg (l.ready r.st).1 (octets c vs)).1 := by
  simp [send, h.works, h.ready]

theorem send_other {l : Link γ} (h : Cooperative l) {f : γ → Masks} (hk : Keeps l f) (r : Run γ) (c : Command) (vs : List Val) (p : Bytes) (hp : octets c vs = p)
    (h1 : p.take 3 ≠ [0x01, 0x03, 0x0C]) (h2 : p.take 3 ≠ [0x01, 0x01, 0x0C]) (h3 : p.take 3 ≠ [0x01, 0x01, 0x20]) : f (send l r c vs).1.st = f r.st := by
  rw [send_state h, hp, hk.other _ _ h1 h2 h3, hk.ready]

/-- The masks after `init`, in general: `e` and `le` say whether the two commands were accepted. -/
theorem init_masks {l : Link γ} (h : Cooperative l) {f : γ → Masks} (hk : Keeps l f) (s : γ) :
    ∃ s1 s2, f (init l s).1.st =
      ⟨if (l.xchg s1 [0x01, 0x01, 0x0C, 8, 0xFF, 0xFF, 0xFB, 0xFF, 0x07, 0xF8, 0xBF, 0x3D]).2 = some [0] then 0x3dbff807fffbffff else resetMasks.evt,
       if (l.xchg s2 [0x01, 0x01, 0x20, 8, 0x1F, 0, 0, 0, 0, 0, 0, 0]).2 = some [0] then 0x1F else resetMasks.le⟩ := by
  have e6 : ∀ r : Run γ, ∃ s1, f (send l r (named "SetEventMask") [.u64 0x3dbff807fffbffff]).1.st =
      if (l.xchg s1 [0x01, 0x01, 0x0C, 8, 0xFF, 0xFF, 0xFB, 0xFF, 0x07, 0xF8, 0xBF, 0x3D]).2 = some [0] then { f r.st with evt := 0x3dbff807fffbffff } else f r.st := by
    intro r
    refine ⟨(l.ready r.st).1, ?_⟩
    rw [send_state h, o6]
    have := hk.setEvt (l.ready r.st).1 [0xFF, 0xFF, 0xFB, 0xFF, 0x07, 0xF8, 0xBF, 0x3D] rfl
    rw [hk.ready] at this
    exact this
  have e5 : ∀ r : Run γ, ∃ s1, f (send l r (named "LESetEventMask") [.u64 0x000000000000001F]).1.st =
      if (l.xchg s1 [0x01, 0x01, 0x20, 8, 0x1F, 0, 0, 0, 0, 0, 0, 0]).2 = some [0] then { f r.st with le := 0x1F } else f r.st := by
    intro r
    refine ⟨(l.ready r.st).1, ?_⟩
    rw [send_state h, o5]
    have := hk.setLE (l.ready r.st).1 [0x1F, 0, 0, 0, 0, 0, 0, 0] rfl
    rw [hk.ready] at this
    exact this
  have e0 : f (send l ⟨s, []⟩ (named "Reset") []).1.st = resetMasks := by rw [send_state h, o0, hk.reset]
  have e1 := fun r : Run γ => send_other h hk r _ _ _ o1 (by decide) (by decide) (by decide)
  have e2 := fun r : Run γ => send_other h hk r _ _ _ o2 (by decide) (by decide) (by decide)
  have e3 := fun r : Run γ => send_other h hk r _ _ _ o3 (by decide) (by decide) (by decide)
  have e4 := fun r : Run γ => send_other h hk r _ _ _ o4 (by decide) (by decide) (by decide)
  have e7 := fun r : Run γ => send_other h hk r _ _ _ o7 (by decide) (by decide) (by decide)
  have e8 := fun r : Run γ => send_other h hk r _ _ _ o8 (by decide) (by decide) (by decide)
  unfold init
  dsimp only
  rw [e8, e7]
  generalize hr4 : (send l _ (named "LEReadAdvertisingChannelTxPower") []).1 = r4
  have m4 : f r4.st = resetMasks := by rw [← hr4, e4, e3, e2, e1, e0]
  obtain ⟨s2, h2⟩ := e5 r4
  rw [m4] at h2
  obtain ⟨s1, h1⟩ := e6 (send l r4 (named "LESetEventMask") [.u64 0x000000000000001F]).1
  rw [h2] at h1
  refine ⟨s1, s2, ?_⟩
  rw [h1]
  split <;> split <;> rfl

theorem start_masks {l : Link γ} (h : Cooperative l) {f : γ → Masks} (hk : Keeps l f) (s : γ) (c : Cfg) (h6 : c.advDirect.length = 6) (hv : Valid c) :
    f (start l s c).1.st = f (init l s).1.st := by
  unfold start
  rw [if_pos (by simpa [Valid] using hv)]
  dsimp only
  rw [h.works]
  simp only [Bool.false_eq_true, if_false]
  cases newPool (init l s).2 with
  | none => rfl
  | some p =>
    dsimp only
    rw [send_other h hk _ _ _ _ (oScan c) (by simp [scanPkt]) (by simp [scanPkt]) (by simp [scanPkt]), send_other h hk _ _ _ _ (oAdv c h6) (by simp [advPkt]) (by simp [advPkt]) (by simp [advPkt])]

end Aux

/-- **C161** (part). After `Init`, with a controller that keeps its masks and accepts these, every event for which the library has a handler is sent, and every LE event for which it has one but the Remote Connection Parameter Request (0x06). Missing: 0x06
(`parameter_requests_not_sent`), and controllers that refuse a mask (`masks_refused`). (0x30 is not an LE event: C52.) -/
theorem handled_events_sent_partial {l : Link γ} (hl : Cooperative l) {f : γ → Masks} (hk : Keeps l f) (ha : AcceptsMasks l) (s : γ) (c : Cfg) (h6 : c.advDirect.length = 6) (hv : Valid c) :
    (∀ e ∈ handledEvents, (f (start l s c).1.st).sends e = true) ∧ (∀ e ∈ handledSubevents, e ≠ 0x06 → e ≠ 0x30 → (f (start l s c).1.st).sendsLE e = true) ∧
    (f (start l s c).1.st).sends 0x30 = true := by
  rw [start_masks hl hk s c h6 hv]
  obtain ⟨s1, s2, e⟩ := init_masks hl hk s
  have a1 : (l.xchg s1 [0x01, 0x01, 0x0C, 8, 0xFF, 0xFF, 0xFB, 0xFF, 0x07, 0xF8, 0xBF, 0x3D]).2 = some [0] := (ha s1 [0xFF, 0xFF, 0xFB, 0xFF, 0x07, 0xF8, 0xBF, 0x3D] rfl).1
  have a2 : (l.xchg s2 [0x01, 0x01, 0x20, 8, 0x1F, 0, 0, 0, 0, 0, 0, 0]).2 = some [0] := (ha s2 [0x1F, 0, 0, 0, 0, 0, 0, 0] rfl).2
  rw [e, if_pos a1, if_pos a2]
  decide

/-- **C161** fails. The library has code that answers the request of a peripheral for other connection parameters made through the controller, but after `Init` no controller sends that event: its bit is set neither by the host nor by a reset. -/
theorem parameter_requests_not_sent {l : Link γ} (hl : Cooperative l) {f : γ → Masks} (hk : Keeps l f) (s : γ) (c : Cfg) (h6 : c.advDirect.length = 6) (hv : Valid c) :
    0x06 ∈ handledSubevents ∧ (f (start l s c).1.st).sendsLE 0x06 = false := by
  refine ⟨by decide, ?_⟩
  rw [start_masks hl hk s c h6 hv]
  obtain ⟨s1, s2, e⟩ := init_masks hl hk s
  rw [e]
  split <;> split <;> decide

/-- **C161** fails. If the controller refuses the mask of the events, no LE event is sent at all: no advertisement and no connection is ever reported; and `Init` succeeds all the same, if the controller has buffers. -/
theorem masks_refused {l : Link γ} (hl : Cooperative l) {f : γ → Masks} (hk : Keeps l f) (hr : ∀ s (m : Bytes), (l.xchg s ([0x01, 0x01, 0x0C, 8] ++ m)).2 ≠ some [0])
    (s : γ) (c : Cfg) (h6 : c.advDirect.length = 6) (hv : Valid c) :
    (∀ e, (f (start l s c).1.st).sendsLE e = false) ∧ ((start l s c).2.isSome ↔ 2 ≤ (init l s).2.bufCnt) := by
  constructor
  · intro e
    rw [start_masks hl hk s c h6 hv]
    obtain ⟨s1, s2, he⟩ := init_masks hl hk s
    have a1 : (l.xchg s1 [0x01, 0x01, 0x0C, 8, 0xFF, 0xFF, 0xFB, 0xFF, 0x07, 0xF8, 0xBF, 0x3D]).2 ≠ some [0] := hr s1 [0xFF, 0xFF, 0xFB, 0xFF, 0x07, 0xF8, 0xBF, 0x3D]
    rw [he, if_neg a1]
    have : (⟨resetMasks.evt, if (l.xchg s2 [0x01, 0x01, 0x20, 8, 0x1F, 0, 0, 0, 0, 0, 0, 0]).2 = some [0] then 0x1F else resetMasks.le⟩ : Masks).sends 0x3E = false := by
      show (decide (62 = 14) || decide (62 = 15) || decide (62 = 19) || resetMasks.evt.testBit (62 - 1)) = false
      decide
    simp [Masks.sendsLE, this]
  · unfold start
    rw [if_pos (by simpa [Valid] using hv)]
    dsimp only
    rw [hl.works]
    simp only [Bool.false_eq_true, if_false, newPool]
    split
    · rename_i hn
      split at hn
      · simp; omega
      · cases hn
    · rename_i hn
      split at hn
      · cases hn
      · simp; omega

/-! ## Example -/

/-- A controller with eight ACL buffers of 1021 octets and 15 LE buffers of 27, that keeps masks and accepts all. `ok := false`: it refuses the mask of the events. -/
def exLink (ok : Bool) : Link Masks :=
  { failed := fun _ => false
    ready := fun s => (s, true)
    xchg := fun s p =>
      if p.take 3 = [0x01, 0x03, 0x0C] then (resetMasks, some [0])
      else if p.take 3 = [0x01, 0x01, 0x0C] then if ok then ({ s with evt := ofOctets (p.drop 4) }, some [0]) else (s, some [0x12])
      else if p.take 3 = [0x01, 0x01, 0x20] then ({ s with le := ofOctets (p.drop 4) }, some [0])
      else if p.take 3 = [0x01, 0x09, 0x10] then (s, some [0, 3, 2, 1, 0x32, 0xA6, 0xDC])
      else if p.take 3 = [0x01, 0x05, 0x10] then (s, some [0, 0xFD, 3, 64, 8, 0, 1, 0])
      else if p.take 3 = [0x01, 0x02, 0x20] then (s, some [0, 27, 0, 15])
      else if p.take 3 = [0x01, 0x07, 0x20] then (s, some [0, 4])
      else (s, some [0]) }

/-- Controllers that meet the hypotheses; `Init` succeeds with both, also with the one that then sends no LE event. -/
theorem initseq_example : (∀ ok, Cooperative (exLink ok) ∧ Keeps (exLink ok) id) ∧ AcceptsMasks (exLink true) ∧ Valid defaultCfg ∧
    (∀ ok, (start (exLink ok) ⟨0, 0⟩ defaultCfg).2 = some (⟨[0xDC, 0xA6, 0x32, 1, 2, 3], 27, 15, 4⟩, ⟨14, 27⟩)) ∧
    (start (exLink true) ⟨0, 0⟩ defaultCfg).1.out = script defaultCfg ∧ (∀ s (m : Bytes), ((exLink false).xchg s ([0x01, 0x01, 0x0C, 8] ++ m)).2 ≠ some [0]) := by
  refine ⟨fun ok => ⟨⟨fun _ => rfl, fun _ => rfl⟩, ⟨fun _ => rfl, fun _ => rfl, ?_, fun _ _ _ => rfl, ?_⟩⟩, fun _ _ _ => ⟨rfl, rfl⟩, ⟨rfl, rfl⟩, ?_, ?_, ?_⟩
  · intro s m _
    cases ok <;> rfl
  · intro s p h1 h2 h3
    simp only [exLink, if_neg h1, if_neg h2, if_neg h3]
    repeat' split
    all_goals rfl
  · intro ok; cases ok <;> decide
  · decide
  · intro s m h; cases h

/-- C161: by their codes in the Core Specification, the events the library depends on: Disconnection Complete, Encryption Change, Command Complete, Command Status, Number Of Completed Packets and the LE events; of these LE Connection Complete,
LE Advertising Report, LE Connection Update Complete and LE Long Term Key Request. -/
theorem needed_events_sent {l : Link γ} (hl : Cooperative l) {f : γ → Masks} (hk : Keeps l f) (ha : AcceptsMasks l) (s : γ) (c : Cfg) (h6 : c.advDirect.length = 6) (hv : Valid c) (e : Nat) :
    (e ∈ [0x05, 0x08, 0x0E, 0x0F, 0x13, 0x3E] → (f (start l s c).1.st).sends e = true ∧ e ∈ handledEvents) ∧
    (e ∈ [0x01, 0x02, 0x03, 0x05] → (f (start l s c).1.st).sendsLE e = true ∧ e ∈ handledSubevents) := by
  obtain ⟨h1, h2, _⟩ := handled_events_sent_partial hl hk ha s c h6 hv
  constructor
  · intro he
    have : e ∈ handledEvents := by
      simp only [List.mem_cons, List.not_mem_nil, or_false] at he
      rcases he with rfl | rfl | rfl | rfl | rfl | rfl <;> decide
    exact ⟨h1 e this, this⟩
  · intro he
    simp only [List.mem_cons, List.not_mem_nil, or_false] at he
    have : e ∈ handledSubevents ∧ e ≠ 0x06 ∧ e ≠ 0x30 := by rcases he with rfl | rfl | rfl | rfl <;> decide
    exact ⟨h2 e this.1 this.2.1 this.2.2, this.1⟩

/-- C160: the parameters of a device made without options: connectable undirected advertising every 20 ms on all three channels, with the public address and no filter; active scanning, interval 4, window 4. -/
theorem default_parameters : advPkt defaultCfg = [0x01, 0x06, 0x20, 15, 0x20, 0, 0x20, 0, 0, 0, 0, 0, 0, 0, 0, 0, 0, 7, 0] ∧
    scanPkt defaultCfg = [0x01, 0x0B, 0x20, 7, 1, 4, 0, 4, 0, 0, 0] := by decide

end Ble.InitSeq
