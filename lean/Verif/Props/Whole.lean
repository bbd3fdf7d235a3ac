import Verif.Props.Options
import Verif.Props.Peripheral
import Verif.Props.Device
import Verif.Props.Sock
import Verif.Props.SockConc
import Verif.Props.H4Conc
import Verif.Props.AdvView
import Verif.Props.Locking
import Verif.Props.AttPdu
import Verif.Props.EvtGen
import Verif.Props.Air
import Verif.Props.Dials
import Verif.Props.Interrupt
import Verif.Props.CocRx
import Verif.Props.SigConc
import Verif.Props.Reenter
import Verif.Props.Pipe
import Verif.Props.Serial
set_option autoImplicit false

/-!
# What holds as it stands

Several properties of the list are false of the code in full and are proved in part where they belong. This file states what does hold of these matters, exactly or under a condition the application can see to, as properties of their own (C133 and following), and proves them in full.
-/

namespace Ble.Whole

open Ble.Options in
/-- **C133.** A `NewDevice` leaves a transport open that nobody will close exactly if the options were accepted, the transport they name could be opened, and the connection or scan parameters are not valid. -/
theorem newDevice_leaks_iff (w : World) (os : List Opt) :
    (newDevice w os).leaked = true ↔
      ∃ s o, applyAll {} none os = (s, none) ∧ getTransport s.transport = some o ∧ w.opens o = true ∧ (Params.validateConn s.conn = false ∨ Params.validateScan s.scan = false) := by
  constructor
  · intro h
    unfold newDevice at h
    split at h
    · simp [Outcome.leaked] at h
    · rename_i s hs
      split at h
      · simp [Outcome.leaked] at h
      · rename_i o ho
        split at h
        · simp [Outcome.leaked] at h
        · rename_i hop
          split at h
          · rename_i hv
            exact ⟨s, o, hs, ho, by simpa using hop, hv⟩
          · split at h <;> simp [Outcome.leaked] at h
  · rintro ⟨s, o, h, ht, ho, hv⟩
    exact (Props.newDevice_leaks w os s h o ht ho hv).2.2

open Ble.Options in
/-- **C133.** And in every other case in which it fails, nothing stays open: it opened nothing, or the receiving loop will close what was opened, since `Close` was called. -/
theorem newDevice_fails_clean (w : World) (os : List Opt) (e : NewErr) (h : (newDevice w os).res = .error e) (hb : e ≠ .badParams) :
    (newDevice w os).opened = none ∨ ((newDevice w os).loops = true ∧ (newDevice w os).closed = true) := by
  unfold newDevice at h ⊢
  split at h <;> try (rename_i hs; simp only [hs] at h ⊢)
  · left; trivial
  · split at h <;> try (rename_i hs; simp only [hs] at h ⊢)
    · left; trivial
    · split at h
      · rename_i hop; simp only [hop, if_true]; left; trivial
      · rename_i hop
        rw [if_neg hop]
        split at h
        · cases h; exact absurd rfl hb
        · rename_i hv
          rw [if_neg hv]
          split at h <;> try (rename_i hs; simp only [hs] at h ⊢)
          · right; simp
          · cases h

open Ble.Options in
/-- **C134.** `NewDevice` fails with an error of an option exactly if the last option it was given returns that error, after all the options before it have been applied; it then has opened nothing. -/
theorem option_error_iff (w : World) (os : List Opt) (e : Options.Err) :
    (newDevice w os).res = .error (.option e) ↔ ∃ pre o, os = pre ++ [o] ∧ (apply (applyAll {} none pre).1 o).2 = some e := by
  constructor
  · intro h
    rcases List.eq_nil_or_concat os with rfl | ⟨pre, o, rfl⟩
    · have h' := h
      unfold newDevice applyAll at h'
      simp [getTransport] at h'
    · rw [List.concat_eq_append] at h ⊢
      refine ⟨pre, o, rfl, ?_⟩
      cases hl : (apply (applyAll {} none pre).1 o).2 with
      | none => exact absurd h (Props.option_error_only_last w pre o hl e)
      | some e' =>
        have := (Props.last_option_error_reported_partial w pre o e' hl).1
        rw [this] at h
        cases h; rfl
  · rintro ⟨pre, o, rfl, h⟩
    exact (Props.last_option_error_reported_partial w pre o e h).1

open Ble.Options in
/-- **C134.** The options of the package never return an error, so they never make it fail this way. -/
theorem builtin_never_fails (w : World) (pre : List Opt) (c : Call) (e : Options.Err) : (newDevice w (pre ++ [.builtin c])).res ≠ .error (.option e) := by
  intro h
  obtain ⟨p, o, h1, h2⟩ := (option_error_iff w _ e).1 h
  have := List.append_inj' h1 rfl
  have h3 : o = .builtin c := by
    have := this.2; simp only [List.cons.injEq, and_true] at this; exact this.symm
  subst h3
  simp [apply] at h2

open Ble.Hci Ble.Props in
/-- **C135.** A peripheral without a listener timeout, on a controller that does not refuse to start advertising: after any history of calls, connections and disconnections, whatever was on its way, the program and the controller come to rest by
themselves, after at most a number of steps known beforehand; every central that connected has then been served, once and in order, the stack's connections are those of the controller, and if the last call was `Advertise` the controller
advertises. -/
theorem peripheral_goes_on (as : List Peripheral.Act) (s : Peripheral.St) (h : Peripheral.run {} as = some s)
    (hr : Peripheral.Act.exec true ∉ as) (hl : Peripheral.Act.listenerTimeout ∉ as) :
    (∀ bs s', (∀ b ∈ bs, Internal b) → Peripheral.run s bs = some s' → bs.length + PeriAux.work s' ≤ PeriAux.work s) ∧
    (∃ bs s', (∀ b ∈ bs, Internal b) ∧ Peripheral.run s bs = some s' ∧ Quiet s') ∧
    (∀ bs s', (∀ b ∈ bs, Internal b) → Peripheral.run s bs = some s' → Quiet s' →
      s'.served = List.range (as.count .central) ∧ s'.conns = s'.up ∧ (lastCall as = some true → s'.adv = true)) := by
  refine ⟨fun bs s' hb hr => internal_runs_bounded s bs s' hb hr, quiesces as s h hl, ?_⟩
  intro bs s' hb hr' hq
  have hall : Peripheral.run {} (as ++ bs) = some s' := runT_append.2 ⟨s, h, hr'⟩
  have hc : bs.count .central = 0 := by
    rw [List.count_eq_zero]
    intro hm
    exact hb _ hm
  have hcount : (as ++ bs).count .central = as.count .central := by rw [List.count_append, hc, Nat.add_zero]
  have h1 := every_central_served_partial (as ++ bs) s' hall hq
  rw [hcount] at h1
  refine ⟨h1.1, h1.2.1, fun hlc => ?_⟩
  refine advertising_goes_on_partial (as ++ bs) s' hall ?_ hq ?_
  · simp only [List.mem_append, not_or]
    exact ⟨hr, fun hm => hb _ hm⟩
  · unfold lastCall at hlc ⊢
    rw [List.filterMap_append]
    have key : ∀ f : Peripheral.Act → Option Bool, (∀ b ∈ bs, f b = none) → (List.filterMap f as).getLast? = some true → (List.filterMap f as ++ List.filterMap f bs).getLast? = some true := by
      intro f hf hlc
      rw [List.filterMap_eq_nil_iff.2 hf, List.append_nil]; exact hlc
    refine key _ ?_ hlc
    intro a ha
    have := hb a ha
    cases a <;> first | exact this.elim | rfl

open Ble.Device Ble.Props in
/-- **C136.** On a controller that keeps to the specification, all histories of advertising calls, ends of their contexts, `AdvertiseRaw` and `StopAdvertising` have exactly the effect that `airRun` says: what is broadcast with which parameters, and
what each call returns. -/
theorem advertising_calls_exact (cs : List AppCall) (a : Air) :
    ((appRun airExec (fresh a) cs).1.params, (appRun airExec (fresh a) cs).1.ctl, (appRun airExec (fresh a) cs).2) = airRun Options.defaultAdv a cs :=
  app_run_refines cs (fresh a) (by simp [fresh]) (by simp [fresh])

open Ble.Sock in
/-- **C137.** Opening the adapter with a given number succeeds exactly if the adapter is available at the first attempt; the socket is then bound to that adapter and nothing else has changed. -/
theorem open_adapter_exact (os : OS) (fd : Nat) (id : Int) (d : Dev) (oth : List Other) (rest : List (Dev × List Other)) :
    ((newSocketId os fd id ((d, oth) :: rest)).2.isSome = true ↔ d.Available) ∧
    (d.Available → (newSocketId os fd id ((d, oth) :: rest)).2 = some fd ∧ (newSocketId os fd id ((d, oth) :: rest)).1.fds fd = some (.user id) ∧
      (newSocketId os fd id ((d, oth) :: rest)).1.down = os.down ∧ ∀ n, n ≠ fd → (newSocketId os fd id ((d, oth) :: rest)).1.fds n = os.fds n) :=
  ⟨newSocketId_iff os fd id d oth rest, newSocketId_first os fd id d oth rest⟩

open Ble.Sock in
/-- **C137.** If it fails, and nobody else opens or closes files meanwhile, it leaves every descriptor as it was: its own is closed. -/
theorem open_adapter_fails_clean (os : OS) (fd : Nat) (id : Int) (ds : List Dev) (hne : ds ≠ []) (hf : (newSocketId os fd id (ds.map fun d => (d, []))).2 = none) (n : Nat) :
    (newSocketId os fd id (ds.map fun d => (d, []))).1.fds n = if n = fd then none else os.fds n := newSocketId_fail_clean_partial os fd id ds hne hf n

open Ble.SockConc in
/-- **C138.** Whatever goroutines call `Read`, `Write` and `Close` on an HCI socket, in whatever interleaving: its descriptor is closed at most once, and only while it stands for this socket; when any `Close` has returned it has been closed; a `Read` that
polled the socket reads the socket; nothing is read from a number that stands for nothing. -/
theorem socket_closed_once {es : List Ev} {s : State} (h : runT step init es = some s) :
    ((s.log.filter fun x => x.sys = .close).length ≤ 1 ∧ ∀ x ∈ s.log, x.sys = .close → x.file = .ours) ∧
    (∀ t r, s.pc t = some (.fin .close r) → s.fd ≠ .ours) ∧
    (∀ t p s', s.pc t = some (.rRead .ours) → step s (.go t p) = some s' → s'.log = s.log ++ [⟨t, .read, .ours⟩]) ∧
    ∀ t, s.pc t ≠ some (.rRead .free) :=
  ⟨closed_once_partial h, fun _ _ hf => close_returned h hf, fun _ _ _ hr hs => read_polled h hr hs, read_not_free h⟩

open Ble.H4Conc in
/-- **C139.** When an H4 transport has been closed and no `Read` is in progress, its receive loop can end if, and only if, the packets it holds fit on the queue of 64 with those that were not read. -/
theorem rx_ends_iff {es : List Ev} {s : State} (h : runT step init es = some s) {t : Nat} (hf : s.pc t = some (.fin .closed) ∨ s.pc t = some (.fin .already))
    (hn : ∀ t p, s.pc t = some p → p.reading = false) :
    (∃ es' s', runT step s es' = some s' ∧ s'.rx = .ended) ↔ (s.q ++ pushing s).length ≤ 64 := by
  have inv := inv_run h
  obtain ⟨hd, hu⟩ := inv.fi t hf
  constructor
  · rintro ⟨es', s', hr, he⟩
    refine Classical.byContradiction fun hc => ?_
    have key := runT_ind (P := fun _ u => u.done = true ∧ u.q.length ≤ 64 ∧ (∃ ps, u.rx = .push ps ∧ 64 < u.q.length + ps.length) ∧ ∀ t p, u.pc t = some p → p.reading = false)
      ⟨hd, inv.ql, ?_, hn⟩ ?_ es' s' hr
    · obtain ⟨_, _, ⟨ps, hx, _⟩, _⟩ := key
      rw [hx] at he; cases he
    · have hl := inv.ql
      simp only [cap] at hl
      cases hx : s.rx with
      | push ps => exact ⟨ps, rfl, by simp [pushing, hx] at hc; omega⟩
      | test => simp [pushing, hx] at hc; omega
      | read => simp [pushing, hx] at hc; omega
      | ended => simp [pushing, hx] at hc; omega
    · intro _ u e u' _ i hs
      obtain ⟨i1, i2, ⟨ps, i3, i5⟩, i4⟩ := i
      cases e with
      | call t o =>
        simp only [step] at hs; split at hs <;> simp only [Option.some.injEq, reduceCtorEq] at hs; subst hs
        refine ⟨i1, i2, ⟨ps, i3, i5⟩, ?_⟩
        intro t' p hp
        simp only [State.at_] at hp
        split at hp
        · simp only [Option.some.injEq] at hp; subst hp; rfl
        · exact i4 _ _ hp
      | rx r =>
        cases ps with
        | nil => simp only [List.length_nil] at i5; omega
        | cons b ps =>
          simp only [step, rxStep, i3] at hs
          have hcap : cap = 64 := rfl
          by_cases hlt : u.q.length < cap
          · rw [if_pos hlt] at hs
            simp only [Option.some.injEq] at hs
            subst hs
            refine ⟨i1, ?_, ⟨ps, rfl, ?_⟩, i4⟩
            · simp only [List.length_append, List.length_cons, List.length_nil]; omega
            · simp only [List.length_append, List.length_cons, List.length_nil] at i5 ⊢; omega
          · rw [if_neg hlt] at hs
            cases hs
      | go t p =>
        simp only [step, go] at hs
        repeat' split at hs
        all_goals simp only [Option.some.injEq, reduceCtorEq] at hs
        all_goals subst hs
        all_goals simp only [State.at_] at *
        all_goals grind [PC.reading]
  · intro hroom
    obtain ⟨n, s', h1, h2⟩ := rx_ends_partial hd hu hroom
    exact ⟨_, s', h1, h2⟩

open Ble.Sock in
/-- **C137.** Asking for any adapter, on a machine that numbers at most 16 adapters without a gap and where no socket reports an error right after it was bound: the first available one is opened; if there is none, the socket is closed again; no other
descriptor is touched. -/
theorem open_first_adapter (os : OS) (fd : Nat) (ids : List Int) (dev : Int → Dev) (hg : Gapless ids) (hl : ids.length ≤ 16) (hp : ∀ i, (dev i).pollErr = false) :
    (newSocketAny os fd ids dev).2 = ids.find? (fun i => decide ((dev i).Available)) ∧
      ((newSocketAny os fd ids dev).2 = none → (newSocketAny os fd ids dev).1.fds fd = none) ∧
      ∀ n, n ≠ fd → (newSocketAny os fd ids dev).1.fds n = os.fds n := newSocketAny_partial os fd ids dev hg hl hp

open Ble.AdvHist Ble.Evt Ble.Props in
/-- **C140.** Exactly how an advertisement that was handed out can change afterwards: not at all, or by a scan response from the same address, if it was made in this scan from a connectable or scannable undirected report; then the scan response is this one
and the decoded content is that of both. Address, types, connectability, signal strength and advertising data stay in any case. -/
theorem handed_out_change_exact (objs : List Adv) (es : List Bytes) (h : Heap) (os : List Nat) (hr : Heap.run (Heap.started objs) es = .ok (h, os))
    (es' : List Bytes) (h' : Heap) (os' : List Nat) (hr' : h.run es' = .ok (h', os')) (r : Nat) (a : Adv) (ha : h.objs[r]? = some a) :
    ∃ a', h'.objs[r]? = some a' ∧ aAddr a' = aAddr a ∧ aAddrType a' = aAddrType a ∧ aEventType a' = aEventType a ∧ aConnectable a' = aConnectable a ∧ aRSSI a' = aRSSI a ∧ a'.data = a.data ∧
      (a' = a ∨ (objs.length ≤ r ∧ (aEventType a = .ok 0x00 ∨ aEventType a = .ok 0x02) ∧ ∃ e ∈ es', eventType e 0 = .ok 0x04 ∧ addrOf e = addrOf a.e ∧ a'.sr = some e ∧
        ∃ d', data e 0 = .ok d' ∧ newRawPacket [a.data, d'] = .ok a'.p)) := handed_out_stable_partial objs es h os hr es' h' os' hr' r a ha

open Ble.Locking in
/-- **C141.** The calls of a GATT client and its notification handlers, if no handler calls a method of its own client: at most one of them is at work at a time, and whatever calls were made and whatever notifications came in, the program goes on by itself,
for at most a number of steps known beforehand, until every call has returned and every notification has been handled. -/
theorem client_calls_return {es : List Ev} {s : St} (h : runT step {} es = some s) (hh : HandlersKeepOut es) :
    ((∀ (i j : Nat) w w', s.calls[i]? = some (.inside w) → s.calls[j]? = some (.inside w') → i = j) ∧ ∀ (i : Nat) w, s.calls[i]? = some (.inside w) → ∀ a, s.worker ≠ .running a) ∧
    (∀ es' s', runT step s es' = some s' → (∀ e ∈ es', e.own = true) → es'.length + s'.left ≤ s.left) ∧
    (∀ es' s', runT step s es' = some s' → (∀ e ∈ es', e.own = true) → Finished s' ∨ ∃ e t, e.own = true ∧ step s' e = some t) :=
  ⟨one_at_a_time h, calls_return_partial h hh⟩

open Ble.AttPdu Ble.Props in
/-- **C142.** For every ATT PDU type but Signed Write Command: filling it in gives the octets of the specification; reading such octets gives every field its value; and setting a field changes nothing else. -/
theorem att_pdu_fields (p : Pdu) (hp : p ∈ pdus) (hn : p.name ≠ "SignedWriteCommand") (v : (f : AttPdu.Field) → f.ty.Val) :
    (∀ b : Bytes, b.length = (wire p v).length → p.fill v b = .ok (wire p v)) ∧
    (opcode (wire p v) = .ok p.code ∧ ∀ f ∈ p.fields, f.get (wire p v) = .ok (v f)) ∧
    ∀ f ∈ p.fields, ∀ (b b' : Bytes) (x : f.ty.Val), f.set b x = .ok b' → b'.length = b.length ∧ opcode b' = opcode b ∧ ∀ g ∈ p.fields, g ≠ f → g.get b' = g.get b :=
  ⟨fun b hb => att_fill_partial p hp hn v b hb, att_read_partial p hp hn v, fun f hf b b' x h => att_set_other p hp hn f hf b b' x h⟩

open Ble.EvtGen in
/-- **C143.** The event types have the names, subevent codes and parameters of the specification, in its order and sizes: each type is an event of the specification, and each event is a type. -/
theorem evt_params_are_spec :
    (∀ e ∈ evts, ∃ s ∈ specEvts, s.name = e.name ∧ s.sub = e.sub ∧ s.params = e.spec.params) ∧ (∀ s ∈ specEvts, ∃ e ∈ evts, e.name = s.name ∧ e.sub = s.sub ∧ e.spec.params = s.params) := by
  constructor <;> decide

open Ble.EvtGen in
/-- **C143.** Each parameter is read where the specification puts it, whatever follows; and the getter panics exactly if the event is too short. -/
theorem evt_params_read (e : Evt) (he : e ∈ evts) (v : (f : EvtGen.Field) → f.ty.Val) (post : Bytes) :
    (∀ f ∈ e.fields, f.get (wire e v ++ post) = .ok (v f)) ∧ ∀ f ∈ e.fields, ∀ b, f.get b = .panic ↔ b.length < f.off + (if f.ty = .addr then 0 else f.ty.size) :=
  ⟨evt_read e he v post, fun f _ b => evt_getter_panics_iff f b⟩

open Ble.Dials in
/-- **C145.** Overlapping calls of `Dial` that are all for one peer: each that succeeds returns a client of that peer. -/
theorem dials_same_peer (es : List Ev) (s : St) (h : runT step init es = some s) (t : Target) (hall : ∀ c ∈ s.calls, c.want = t) (i : Nat) (a b : Target) (hg : Got s i a b) : b = a ∧ b = t := by
  have h1 := dials_right_peer_partial es s h t hall i a b hg
  obtain ⟨k, h2, _⟩ := hg
  have h3 := hall _ (List.mem_of_getElem? h2)
  simp only at h3
  exact ⟨h1, h1.trans h3⟩

open Ble.CocRx in
/-- **C147.** A subscriber of a credit-based channel sees the end of its channel exactly when it has read everything and the application has ended the subscription, by `Unsubscribe` or `Close`. -/
theorem coc_end_iff {es : List Ev} {s : St} (h : run {} es = some s) (k : Nat) (hk : k < s.nsub) : sees_end s k ↔ (s.subs k).q = [] ∧ ∀ c ∈ s.chans, c.sub ≠ some k :=
  coc_end_iff_partial h k hk

open Ble.SigConc in
/-- **C148.** Signalling calls that do not overlap: a call never refuses a response because of its identifier; the response it returns is one to a request with the identifier of its own; and if no call has timed out, it is the response to its own request. -/
theorem serial_calls_get_their_response {es : List Ev} {s : St} (h : run {} es = some s) (hse : Serial es) (t : Nat) (r : Res) (hf : s.pc t = .fin r) :
    r ≠ .wrongId ∧ (∀ u, r = .ok u → SameId s t u) ∧ ((∀ t, Ev.timeout t ∉ es) → ∀ u, r = .ok u → u = t) := by
  have h1 := serial_response_matches_partial h hse t r hf
  refine ⟨h1.1, h1.2, fun hn u hu => ?_⟩
  subst hu
  exact serial_own_response_partial h hse hn t u hf

open Ble.Reenter in
/-- **C149.** If the error handler sends no commands, every call that sends commands can return, whatever has happened and without the controller, and so can every function that the event loop calls. -/
theorem calls_can_return {es : List Ev} {s : St} (h : run es = some s) (hf : ∀ i f, Ev.timeout i f ∈ es → quiet f) :
    (∀ (g : List Act) (i : Nat), quiet g → i < s.calls.length → ∃ es' s', runT step s es' = some s' ∧ (∀ e ∈ es', ownStep g e) ∧ returned s' i) ∧
    (inCallback s → ∃ es' s', runT step s es' = some s' ∧ s'.loop = .idle) :=
  ⟨fun _ _ hg hi => calls_can_return_partial h hf hg hi, fun hs => loop_callback_returns_partial h hf hs⟩

open Ble.Pipe Ble.Att in
/-- **C150.** What becomes of an indication that a handler has sent while nothing that came after it has been read: if the peer's next PDU is its confirmation, the call succeeds, within two steps. -/
theorem indication_confirmed {σ : Type} (s0 : Server σ) (es : List Ev) (s : St σ) (h : runT step (init s0) es = some s) (b : Nat) (hb : s.hd = .indicating b)
    (c : Bytes) (r : List Bytes) (hq : s.inq = (0x1E :: c) :: r) (hr : ∀ x, s.rd ≠ .offer x) (hd : s.rd ≠ .done) :
    ∃ es' s', es'.length ≤ 2 ∧ runT step s es' = some s' ∧ s'.hd = .handling b ∧ s'.inds = s.inds ++ [.ok] := pipe_confirmed_partial s0 es s h b hb c r hq hr hd

open Ble.Pipe Ble.Att in
/-- **C150.** And if it is any other PDU, the call cannot succeed any more, whatever the peer sends afterwards: it ends by the time-out only. -/
theorem indication_overtaken {σ : Type} (s : St σ) (b : Nat) (hb : s.hd = .indicating b) (x : UInt8) (p : Bytes) (r : List Bytes) (hq : s.inq = (x :: p) :: r) (hx : x ≠ 0x1E) (hd : s.rd ≠ .done)
    (es : List Ev) (s' : St σ) (h : runT step s es = some s') (ht : Ev.timeout ∉ es) : s'.hd = .indicating b ∧ s'.inds = s.inds := by
  have key := runT_ind (step := step) (s0 := s) (P := fun es s' => Ev.timeout ∉ es → s'.hd = .indicating b ∧ s'.inds = s.inds ∧ s'.rd ≠ .done ∧ ((∃ y, s'.rd = .offer y) ∨ ∃ l, s'.inq = (x :: p) :: l))
    (fun _ => ⟨hb, rfl, hd, .inr ⟨r, hq⟩⟩) ?_ es s' h
  · exact ⟨(key ht).1, (key ht).2.1⟩
  · intro es t e t' _ hp hs hn
    simp only [List.mem_append, List.mem_singleton, not_or] at hn
    obtain ⟨p1, p2, p3, p4⟩ := hp hn.1
    cases e <;> simp only [step, p1, reduceCtorEq] at hs
    case timeout => exact absurd rfl hn.2
    case arrive q =>
      split at hs <;> simp only [Option.some.injEq, reduceCtorEq] at hs
      rw [← hs]
      refine ⟨rfl, p2, p3, ?_⟩
      rcases p4 with h | ⟨l, h⟩
      · exact .inl h
      · exact .inr ⟨l ++ [q], by simp [h]⟩
    case down =>
      simp only [Option.some.injEq] at hs
      rw [← hs]; exact ⟨rfl, p2, p3, p4⟩
    case getBuf =>
      split at hs <;> simp only [Option.some.injEq, reduceCtorEq] at hs
      all_goals
        rename_i hrd _
        rw [← hs]
        refine ⟨rfl, p2, by simp, ?_⟩
        rcases p4 with ⟨y, h⟩ | h
        · rw [hrd] at h; cases h
        · exact .inr h
    case read =>
      split at hs
      · rename_i b0 q l hrd hin
        rcases p4 with ⟨y, h⟩ | ⟨l', h⟩
        · rw [hrd] at h; cases h
        · rw [hin] at h
          simp only [List.cons.injEq] at h
          obtain ⟨rfl, rfl⟩ := h
          simp [hx] at hs
          rw [← hs]
          exact ⟨rfl, p2, by simp, .inl ⟨_, rfl⟩⟩
      · cases hs
    case readErr =>
      split at hs
      · rename_i hrd hin
        rcases p4 with ⟨y, h⟩ | ⟨l', h⟩
        · rw [hrd] at h; cases h
        · rw [hin] at h; cases h
      · cases hs
    case hand =>
      split at hs <;> simp_all
    all_goals (split at hs <;> simp_all)

open Ble.H4 Ble.Spec Ble.Conns Ble.HciPkt Ble.HciSpec Ble.L2cap Ble.L2capSpec Ble.Props in
/-- **C151.** From the goroutine that writes on one host to the reader of the connection on another: under every schedule of writers, none failing, every cut into fragments with the header in the first, every mix with other connections' packets, events and
stray bytes, and every cut of the bytes on a serial line without pauses, the receiving connection delivers exactly the frames whose write has returned, whole, once, in that order, each at the place for its channel. -/
theorem pdus_cross_both_hosts (bufSize h rxMPS : Nat) (hb : 0 < bufSize) (hb2 : bufSize < 65536) (as : List Tx.Act) (t : Tx.St) (hr : Tx.run bufSize Tx.init as = some t) (hf : Tx.Act.fail h ∉ as)
    (hpd : ∀ x p, Tx.Act.start x p ∈ as → x < 4096 ∧ p ≠ []) (hlk : t.lock = none)
    (cidOf : Bytes → Nat) (hfr : ∀ p ∈ writtenOn h t, ∃ info, IsFrame (cidOf p) info p ∧ (cidOf p = 4 → info.length ≤ rxMPS))
    (s s' : State) (hs : ConnReachable s) (i : Nat) (c c' : Conn) (hc : s.conns[i]? = some c) (hl : s.table c.handle = some i) (hrx : c.rx = [])
    (l : List (Bytes × HciPacket)) (hj : ∀ x ∈ l, ∀ y ∈ x.1, y ≠ 0x04 ∧ y ≠ 0x02) (hp : ∀ x ∈ l, x.2.Fits ∧ x.2.bytes.length ≤ 4096)
    (frags : List Acl) (hfrags : (aclFor c.handle (l.map (·.2))).map parseAcl = frags.map some) (hlink : reassemble frags = reassemble (aclOf h t.wire))
    (hw : ∀ (i : Nat) f, frags[i]? = some f → (i = 0 → f.pb ≠ 1) ∧ (f.pb = 1 → f.data ≠ []) ∧ (f.pb ≠ 1 → 4 ≤ f.data.length))
    (cs : List (Bool × Bytes)) (ht : ∀ c ∈ cs, c.1 = false) (hcut : (cs.map Prod.snd).flatten = h4Stream l)
    (es : List Ev) (hes : packetsOf es = packetsRead cs) (hrun : Conns.run s es = .ok s') (hc' : s'.conns[i]? = some c') (hl' : s'.table c'.handle = some i) :
    recvLoop rxMPS c'.rx = ((writtenOn h t).map fun p => rightPlace (cidOf p) p, .waiting) := pdus_cross_both_hosts_partial bufSize h rxMPS hb hb2 as t hr hf hpd hlk cidOf hfr s s' hs i c c' hc hl hrx l hj hp frags hfrags hlink hw cs ht hcut es hes hrun hc' hl'

open Ble.Spec Ble.AdvHist Ble.Evt Ble.Props in
/-- **C152.** `ToMap` of an advertisement made from a report returns, with the address, the types, the signal strength and the decoded content; the transmit power is there exactly if the content has a non-empty record of it, as the unsigned value of its first octet. -/
theorem toMap_exact (r : Report) (hr : r.Ok) (a : Adv) (he : a.e = encodeRows [r]) (chunks : List Bytes) (hp : newRawPacket chunks = .ok a.p) :
    ∃ m, toMap a = .ok m ∧ m.mac = hexEncode r.addr.reverse ∧ m.addressType = r.addrType ∧ m.eventType = r.evType ∧ (m.connectable = true ↔ r.evType = 0 ∨ r.evType = 1) ∧
      m.rssi = (if int8 r.rssi = 0 then -128 else int8 r.rssi) ∧ m.name = (amap a).localName ∧ m.flags = (amap a).flags ∧ m.services = (amap a).services ∧ m.solicited = (amap a).solicited ∧
      m.serviceData = (amap a).serviceData ∧ m.mfg = (amap a).mfgdata ∧ m.error = a.p.advError ∧
      (∀ n, m.txPower = some n ↔ ∃ x xs, (amap a).txpwr = some (x :: xs) ∧ n = (x.toNat : Int)) := by
  obtain ⟨m, h1, h2, h3, h4, h5, h6, h7, h8, h9, h10, h11, h12, h13, h14⟩ := toMap_content_partial r hr a he chunks hp
  refine ⟨m, h1, h2, h3, h4, h5, h6, h7, h8, h9, h10, h11, h12, h13, fun n => ?_⟩
  rw [h14]
  cases (amap a).txpwr with
  | none => simp
  | some b =>
    cases b with
    | nil => simp
    | cons x xs => simp [eq_comm]

end Ble.Whole
