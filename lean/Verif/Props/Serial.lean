import Verif.Props.H4
import Verif.Props.Conns
import Verif.Props.Tx
set_option autoImplicit false

/-!
# From the serial line to the reader of a connection (C127)

The parts of the receive path, H4 assembler (`H4`), socket reader (`H4.sktRead`), packet dispatch and connection table (`HciPkt`, `Conns`) and recombination (`L2cap`), put together; and, with the
sending side (`Tx`), the way of a PDU from the goroutine that writes it on one host to the reader of the connection on another.
-/

namespace Ble.Spec

/-- The ACL packets for a handle [Core, Vol 4, Part E, 5.4.2] among the packets a controller sent, without the packet indicator, in order. -/
def aclFor (h : Nat) (ps : List HciPacket) : List Bytes :=
  ps.filterMap fun
    | .acl x y d => if x.toNat + 256 * (y.toNat % 16) = h then some (x :: y :: (put16 d.length ++ d)) else none
    | .event _ _ => none

end Ble.Spec

namespace Ble.Props

open Ble.H4 Ble.Spec Ble.Conns Ble.HciPkt Ble.HciSpec Ble.L2cap Ble.L2capSpec

namespace SerialAux
open ConnsAux

theorem effect_rx {s s' : State} (hs : ConnInv s) {e : Eff} (he : effect s e = .ok s') {i : Nat} {c c' : Conn} (hc : s.conns[i]? = some c) (hc' : s'.conns[i]? = some c')
    (hne : ∀ p, e ≠ .acl c.handle p) : c'.rx = c.rx ∧ c'.handle = c.handle := by
  have hlt : i < s.conns.length := (List.getElem?_eq_some_iff.1 hc).1
  have hmod : ∀ j (f : Conn → Conn), s'.conns = (s.modify j f).conns → (j = i → (f c).rx = c.rx ∧ (f c).handle = c.handle) → c'.rx = c.rx ∧ c'.handle = c.handle := by
    intro j f hf hx
    rw [hf] at hc'
    by_cases hji : j = i
    · subst hji
      rw [modify_conns_self, hc] at hc'
      cases hc'; exact hx rfl
    · rw [modify_conns_ne _ _ _ _ hji, hc] at hc'; cases hc'; exact ⟨rfl, rfl⟩
  have hsame : s'.conns = s.conns → c'.rx = c.rx ∧ c'.handle = c.handle := by
    intro h; rw [h, hc] at hc'; cases hc'; exact ⟨rfl, rfl⟩
  cases e with
  | acl x p =>
    simp only [effect] at he
    split at he
    · cases he; exact hsame rfl
    · rename_i j ht
      split at he
      · cases he
      · split at he
        · cases he
        · cases he
          refine hmod _ (fun c => { c with rx := c.rx ++ [p] }) rfl fun hj => ?_
          subst hj
          obtain ⟨c0, e1, e2, -⟩ := hs.listed _ j ht
          rw [hc] at e1; cases e1
          exact absurd (by rw [e2]) (hne p)
  | completed x n =>
    simp only [effect] at he
    split at he
    · cases he; exact hsame rfl
    · cases he; exact hmod _ (fun c => { c with returned := c.returned + n }) rfl fun _ => ⟨rfl, rfl⟩
  | encryption x d en =>
    simp only [effect] at he
    split at he
    · cases he; exact hsame rfl
    · cases he; exact hmod _ (fun c => { c with enc := en }) rfl fun _ => ⟨rfl, rfl⟩
  | disconnect x =>
    rcases cleanup_spec hs x with ⟨-, h1⟩ | ⟨j, d, -, -, h1⟩
    · rw [show effect s (.disconnect x) = cleanup s x from rfl, h1] at he; cases he; exact hsame rfl
    · rw [show effect s (.disconnect x) = cleanup s x from rfl, h1] at he; cases he
      exact hmod j (fun c => { c with done := c.done || (s.isOpen || !c.slave), rxClosed := true }) rfl fun _ => ⟨rfl, rfl⟩
  | connected x role addr =>
    cases he
    rw [List.getElem?_append_left hlt, hc] at hc'
    cases hc'; exact ⟨rfl, rfl⟩
  | complete _ _ _ => cases he; exact hsame rfl
  | status _ _ _ => cases he; exact hsame rfl
  | vendor => cases he; exact hsame rfl
  | advertisement _ => cases he; exact hsame rfl

theorem effects_rx {s s' : State} (hs : ConnInv s) {es : List Eff} (he : effects s es = .ok s') {i : Nat} {c c' : Conn} (hc : s.conns[i]? = some c) (hc' : s'.conns[i]? = some c')
    (hne : ∀ p, .acl c.handle p ∉ es) : c'.rx = c.rx ∧ c'.handle = c.handle := by
  induction es generalizing s c with
  | nil => cases he; rw [hc] at hc'; cases hc'; exact ⟨rfl, rfl⟩
  | cons e es ih =>
    simp only [effects, Go.bind_eq_ok] at he
    obtain ⟨s1, h1, h2⟩ := he
    obtain ⟨s1', h1', hs1⟩ := effect_ok hs e
    rw [h1] at h1'; cases h1'
    have hlt : i < s.conns.length := (List.getElem?_eq_some_iff.1 hc).1
    obtain ⟨c1, hc1⟩ : ∃ c1, s1.conns[i]? = some c1 := ⟨_, List.getElem?_eq_getElem (Nat.lt_of_lt_of_le hlt (local_effect hs h1).length)⟩
    obtain ⟨a1, a2⟩ := effect_rx hs h1 hc hc1 fun p hx => hne p (by simp [hx])
    obtain ⟨b1, b2⟩ := ih hs1 h2 hc1 (by intro p hx; rw [a2] at hx; exact hne p (by simp [hx]))
    exact ⟨b1.trans a1, b2.trans a2⟩

/-- One packet of the transport. -/
theorem packet_rx {s s' : State} (hs : ConnReachable s) {q : HciPacket} (he : Conns.packet s q.bytes = .ok s') {i : Nat} {c c' : Conn} (hc : s.conns[i]? = some c)
    (hl : s.table c.handle = some i) (hc' : s'.conns[i]? = some c') : c'.handle = c.handle ∧ c'.rx = c.rx ++ aclFor c.handle [q] := by
  have hi := reachable_inv hs
  have hnone : (∀ es sc, handlePkt s.env q.bytes = .ok (es, sc) → ∀ p, .acl c.handle p ∉ es) → aclFor c.handle [q] = [] → c'.handle = c.handle ∧ c'.rx = c.rx ++ aclFor c.handle [q] := by
    intro h1 h2
    rw [h2, List.append_nil]
    simp only [Conns.packet] at he
    split at he
    · rename_i es sc hp
      have := effects_rx (scan_inv hi sc) he hc hc' (h1 es sc hp)
      exact ⟨this.2, this.1⟩
    · cases he; rw [hc] at hc'; cases hc'; exact ⟨rfl, rfl⟩
    · cases he
  cases q with
  | event code p =>
    refine hnone (fun es sc hp b hb => ?_) rfl
    have := effects_cause hp _ hb
    generalize hx : (HciPacket.event code p).bytes = x at this
    generalize hy : Eff.acl c.handle b = y at this
    cases this with
    | acl x y r => simp [HciPacket.bytes] at hx
    | other b e h => subst hy; simp [handleOf] at h
    | _ => cases hy
  | acl x y d =>
    by_cases hh : x.toNat + 256 * (y.toNat % 16) = c.handle
    · have hx := x.toNat_lt
      have hy := y.toNat_lt
      obtain ⟨c0, e1, e2⟩ := (acl_reaches_connection s hs c.handle (y.toNat / 16) (by omega) (by omega) (put16 d.length ++ d)).2 i hl
      have eb : (HciPacket.acl x y d).bytes = aclPkt c.handle (y.toNat / 16) (put16 d.length ++ d) := by
        simp only [HciPacket.bytes, aclPkt]
        have a1 : UInt8.ofNat c.handle = x := by apply UInt8.toNat_inj.1; simp only [UInt8.toNat_ofNat']; omega
        have a2 : UInt8.ofNat (c.handle / 256 + 16 * (y.toNat / 16)) = y := by apply UInt8.toNat_inj.1; simp only [UInt8.toNat_ofNat']; omega
        rw [a1, a2]
      rw [hc] at e1; cases e1
      rw [eb, e2] at he
      cases he
      have hlt : i < s.conns.length := (List.getElem?_eq_some_iff.1 hc).1
      simp only [List.getElem?_set_self hlt, Option.some.injEq] at hc'
      subst hc'
      refine ⟨rfl, ?_⟩
      rw [← eb]
      simp [aclFor, hh, HciPacket.bytes]
    · refine hnone (fun es sc hp b hb => ?_) (by simp [aclFor, hh])
      have := effects_cause hp _ hb
      generalize hx : (HciPacket.acl x y d).bytes = z at this
      generalize hy : Eff.acl c.handle b = w at this
      cases this with
      | acl x' y' r =>
        simp only [HciPacket.bytes, List.cons.injEq, true_and] at hx
        simp only [Eff.acl.injEq] at hy
        obtain ⟨rfl, rfl, -⟩ := hx
        exact hh hy.1.symm
      | other b e h => subst hy; simp [handleOf] at h
      | _ => cases hy

theorem aclFor_cons (h : Nat) (q : HciPacket) (ps : List HciPacket) : aclFor h (q :: ps) = aclFor h [q] ++ aclFor h ps := by
  simp only [aclFor, List.filterMap_cons, List.filterMap_nil]
  split <;> simp_all

theorem run_rx (es : List Ev) : ∀ {s s' : State}, ConnReachable s → ∀ {i : Nat} {c c' : Conn}, s.conns[i]? = some c → s.table c.handle = some i → ∀ (ps : List HciPacket), packetsOf es = ps.map (·.bytes) →
    Conns.run s es = .ok s' → s'.conns[i]? = some c' → s'.table c'.handle = some i → c'.handle = c.handle ∧ c'.rx = c.rx ++ aclFor c.handle ps := by
  induction es with
  | nil =>
    intro s s' hs i c c' hc hl ps hps h hc' hl'
    cases h; rw [hc] at hc'; cases hc'
    cases ps with
    | nil => simp [aclFor]
    | cons => simp [packetsOf] at hps
  | cons e es ih =>
    intro s s' hs i c c' hc hl ps hps h hc' hl'
    have hi := reachable_inv hs
    simp only [Conns.run, Go.bind_eq_ok] at h
    obtain ⟨s1, h1, h2⟩ := h
    have hlt : i < s.conns.length := (List.getElem?_eq_some_iff.1 hc).1
    obtain ⟨c1, hc1⟩ : ∃ c1, s1.conns[i]? = some c1 := ⟨_, List.getElem?_eq_getElem (Nat.lt_of_lt_of_le hlt (local_step hi h1).length)⟩
    have hr1 := step_reachable hs h1
    have hl1 : s1.table c1.handle = some i := by
      apply Classical.byContradiction
      intro hn
      obtain ⟨b1, b2⟩ := unlisted_connection_frozen s1 s' hr1 i c1 hc1 hn es h2
      rw [hc'] at b1; cases b1
      exact b2 hl'
    have hcl : ∀ x, cleanup s x = .ok s1 → c1.rx = c.rx ∧ c1.handle = c.handle := fun x hx => effect_rx (e := .disconnect x) hi hx hc hc1 (by intro _ h; cases h)
    have hother : (∀ b, e ≠ .packet b) → c1.rx = c.rx ∧ c1.handle = c.handle := by
      intro hne
      cases e with
      | packet b => exact absurd rfl (hne b)
      | close j =>
        simp only [Conns.step] at h1
        split at h1
        · cases h1; rw [hc] at hc1; cases hc1; exact ⟨rfl, rfl⟩
        · exact hcl _ h1
      | readerFailed j =>
        simp only [Conns.step] at h1
        split at h1
        · cases h1; rw [hc] at hc1; cases hc1; exact ⟨rfl, rfl⟩
        · exact hcl _ h1
      | hciClose => simp only [Conns.step] at h1; cases h1; rw [hc] at hc1; cases hc1; exact ⟨rfl, rfl⟩
      | cleanupHandle x => exact hcl _ h1
    by_cases hp : ∃ b, e = .packet b
    · obtain ⟨b, rfl⟩ := hp
      cases ps with
      | nil => simp [packetsOf] at hps
      | cons q ps =>
        simp only [packetsOf, List.filterMap_cons, List.map_cons, List.cons.injEq] at hps
        obtain ⟨rfl, hps⟩ := hps
        obtain ⟨a1, a2⟩ := packet_rx hs h1 hc hl hc1
        obtain ⟨b1, b2⟩ := ih hr1 hc1 hl1 ps hps h2 hc' hl'
        exact ⟨b1.trans a1, by rw [b2, a2, a1, aclFor_cons _ q ps, List.append_assoc]⟩
    · obtain ⟨a1, a2⟩ := hother fun b hb => hp ⟨b, hb⟩
      have hps' : packetsOf es = ps.map (·.bytes) := by
        rw [← hps]
        cases e with
        | packet b => exact absurd ⟨b, rfl⟩ hp
        | _ => rfl
      obtain ⟨b1, b2⟩ := ih hr1 hc1 hl1 ps hps' h2 hc' hl'
      exact ⟨b1.trans a2, by rw [b2, a1, a2]⟩

end SerialAux

open SerialAux

/-- What the host's event loop is given of a byte stream that arrives in these reads. -/
def packetsRead (cs : List (Bool × Bytes)) : List Bytes := (sktRead (rxLoop {} cs).2).1

/-- The event loop is given exactly the packets of the stream. -/
theorem packetsRead_eq (l : List (Bytes × HciPacket)) (hj : ∀ x ∈ l, ∀ y ∈ x.1, y ≠ 0x04 ∧ y ≠ 0x02) (hp : ∀ x ∈ l, x.2.Fits ∧ x.2.bytes.length ≤ 4096)
    (cs : List (Bool × Bytes)) (ht : ∀ c ∈ cs, c.1 = false) (hcut : (cs.map Prod.snd).flatten = h4Stream l) : packetsRead cs = l.map fun x => x.2.bytes := by
  have h1 := (h4_delivers_packets l hj (fun x hx => (hp x hx).1) cs ht hcut).1
  rw [packetsRead, h1, hci_receives_packets]
  intro p hp'
  obtain ⟨x, hx, rfl⟩ := List.mem_map.1 hp'
  exact (hp x hx).2

/-- **C127, up to the connection.** The controller sends any packets, of any connections, with events among them, with stray bytes between them that start no packet, and the serial line delivers the
bytes in reads of any sizes (none later than the assembler's time-out). Whatever the rest of the host does meanwhile (`es`: the packets of the line, and closing other connections), a connection that
is open throughout has put in its queue exactly the ACL packets with its handle, unchanged, once, in order. -/
theorem serial_to_connection (s s' : State) (hs : ConnReachable s) (i : Nat) (c c' : Conn) (hc : s.conns[i]? = some c) (hl : s.table c.handle = some i)
    (l : List (Bytes × HciPacket)) (hj : ∀ x ∈ l, ∀ y ∈ x.1, y ≠ 0x04 ∧ y ≠ 0x02) (hp : ∀ x ∈ l, x.2.Fits ∧ x.2.bytes.length ≤ 4096)
    (cs : List (Bool × Bytes)) (ht : ∀ c ∈ cs, c.1 = false) (hcut : (cs.map Prod.snd).flatten = h4Stream l)
    (es : List Ev) (hes : packetsOf es = packetsRead cs) (h : Conns.run s es = .ok s') (hc' : s'.conns[i]? = some c') (hl' : s'.table c'.handle = some i) :
    c'.handle = c.handle ∧ c'.rx = c.rx ++ aclFor c.handle (l.map (·.2)) := by
  refine run_rx es hs hc hl (l.map (·.2)) ?_ h hc' hl'
  rw [hes, packetsRead_eq l hj hp cs ht hcut]
  simp

/-- **C127, up to the reader.** If the ACL packets for the connection carry L2CAP frames, each cut into fragments in any way (the first with at least the header), the connection's receive loop delivers
exactly these frames, each to the place for its channel, in order, and waits for more; whatever the packets of the other connections and the events in between. -/
theorem serial_frames_delivered (s s' : State) (hs : ConnReachable s) (i : Nat) (c c' : Conn) (hc : s.conns[i]? = some c) (hl : s.table c.handle = some i) (hrx : c.rx = [])
    (l : List (Bytes × HciPacket)) (hj : ∀ x ∈ l, ∀ y ∈ x.1, y ≠ 0x04 ∧ y ≠ 0x02) (hp : ∀ x ∈ l, x.2.Fits ∧ x.2.bytes.length ≤ 4096)
    (cs : List (Bool × Bytes)) (ht : ∀ c ∈ cs, c.1 = false) (hcut : (cs.map Prod.snd).flatten = h4Stream l)
    (es : List Ev) (hes : packetsOf es = packetsRead cs) (h : Conns.run s es = .ok s') (hc' : s'.conns[i]? = some c') (hl' : s'.table c'.handle = some i)
    (rxMPS : Nat) (as : List Arrival) (has : ∀ a ∈ as, a.ok rxMPS) (hfor : aclFor c.handle (l.map (·.2)) = as.flatMap (·.pkts)) :
    recvLoop rxMPS c'.rx = (as.map fun a => rightPlace a.cid a.p, .waiting) := by
  obtain ⟨-, h1⟩ := serial_to_connection s s' hs i c c' hc hl l hj hp cs ht hcut es hes h hc' hl'
  rw [h1, hrx, List.nil_append, hfor]
  exact recvLoop_delivers_frames rxMPS as has

/-- **C127, from one program to the other.** On one host any number of goroutines write PDUs on any connections, under every schedule, no write on connection `h` failing. The link hands over the PDUs of
`h` complete and in order, cut into fragments in any way (the first of each with at least the header, no empty continuations). The other controller sends them in ACL packets with its own handle for the
connection, mixed with other connections' packets, with events and with stray bytes, over a serial line that cuts the bytes anywhere. Then the receiving connection there, open throughout, delivers
exactly the frames whose write has returned, whole, once, in the order of return, each to the place for its channel. Missing, and false of the code: failed writes (`failed_write_breaks_next`), first
fragments without the header (`short_start_fragment_crashes`), pauses of the serial line (`h4_pause_forges_packet`), ACL buffers of no bytes (`writePDU_zero_buffer_diverges`). -/
theorem pdus_cross_both_hosts_partial (bufSize h rxMPS : Nat) (hb : 0 < bufSize) (hb2 : bufSize < 65536) (as : List Tx.Act) (t : Tx.St) (hr : Tx.run bufSize Tx.init as = some t) (hf : Tx.Act.fail h ∉ as)
    (hpd : ∀ x p, Tx.Act.start x p ∈ as → x < 4096 ∧ p ≠ []) (hlk : t.lock = none)
    (cidOf : Bytes → Nat) (hfr : ∀ p ∈ writtenOn h t, ∃ info, IsFrame (cidOf p) info p ∧ (cidOf p = 4 → info.length ≤ rxMPS))
    (s s' : State) (hs : ConnReachable s) (i : Nat) (c c' : Conn) (hc : s.conns[i]? = some c) (hl : s.table c.handle = some i) (hrx : c.rx = [])
    (l : List (Bytes × HciPacket)) (hj : ∀ x ∈ l, ∀ y ∈ x.1, y ≠ 0x04 ∧ y ≠ 0x02) (hp : ∀ x ∈ l, x.2.Fits ∧ x.2.bytes.length ≤ 4096)
    (frags : List Acl) (hfrags : (aclFor c.handle (l.map (·.2))).map parseAcl = frags.map some) (hlink : reassemble frags = reassemble (aclOf h t.wire))
    (hw : ∀ (i : Nat) f, frags[i]? = some f → (i = 0 → f.pb ≠ 1) ∧ (f.pb = 1 → f.data ≠ []) ∧ (f.pb ≠ 1 → 4 ≤ f.data.length))
    (cs : List (Bool × Bytes)) (ht : ∀ c ∈ cs, c.1 = false) (hcut : (cs.map Prod.snd).flatten = h4Stream l)
    (es : List Ev) (hes : packetsOf es = packetsRead cs) (hrun : Conns.run s es = .ok s') (hc' : s'.conns[i]? = some c') (hl' : s'.table c'.handle = some i) :
    recvLoop rxMPS c'.rx = ((writtenOn h t).map fun p => rightPlace (cidOf p) p, .waiting) := by
  obtain ⟨-, h1⟩ := serial_to_connection s s' hs i c c' hc hl l hj hp cs ht hcut es hes hrun hc' hl'
  rw [h1, hrx, List.nil_append]
  exact concurrent_writes_delivered bufSize h rxMPS hb hb2 as t hr hf hpd hlk cidOf hfr _ frags hfrags hlink hw

/-! ## Non-vacuity -/

/-- What the controller of the example sends: the frame of `[1, 2, 3]` for handle 0x41 in two ACL packets; a stray byte, a Number Of Completed Packets event and a packet of another connection between them. -/
def exampleStream : List (Bytes × HciPacket) :=
  [([], .acl 0x41 0x20 [3, 0, 4, 0, 1]), ([0x55], .event 0x13 [1, 0x40, 0, 1, 0]), ([], .acl 0x40 0x20 [1, 0, 4, 0, 9]), ([0, 0], .acl 0x41 0x10 [2, 3])]

/-- The same bytes as the line delivers them. -/
def exampleReads : List (Bool × Bytes) := [(false, [0x02, 0x41]), (false, [0x20, 5, 0, 3, 0, 4]), (false, [0, 1, 0x55, 0x04, 0x13, 5, 1, 0x40, 0]), (false, []), (false, [1, 0, 0x02, 0x40, 0x20, 5, 0, 1, 0, 4, 0, 9, 0]),
  (false, [0, 0x02, 0x41, 0x10, 2]), (false, [0, 2, 3])]

theorem exampleStream_ok : (∀ x ∈ exampleStream, ∀ y ∈ x.1, y ≠ 0x04 ∧ y ≠ 0x02) ∧ (∀ x ∈ exampleStream, x.2.Fits ∧ x.2.bytes.length ≤ 4096) ∧ (∀ c ∈ exampleReads, c.1 = false) ∧
    (exampleReads.map Prod.snd).flatten = h4Stream exampleStream := by
  refine ⟨by simp [exampleStream], by simp [exampleStream, HciPacket.Fits, HciPacket.bytes], by simp [exampleReads], rfl⟩

/-- Two connections, 0x40 and 0x41; one goroutine of another host has written `[1, 2, 3]`; the bytes of `exampleReads` arrive; meanwhile connection 0x40 is closed. The connection with handle 0x41
delivers the frame written. -/
theorem serial_example : ∃ (t : Tx.St) (s s' : State) (c c' : Conn), Tx.run 27 Tx.init [.start 0x7 (bframe 4 [1, 2, 3]), .xmit, .stop] = some t ∧ ConnReachable s ∧
    s.conns[1]? = some c ∧ s.table c.handle = some 1 ∧ c.rx = [] ∧
    Conns.run s ((exampleStream.map fun x => Ev.packet x.2.bytes) ++ [.close 0]) = .ok s' ∧ s'.conns[1]? = some c' ∧ s'.table c'.handle = some 1 ∧
    recvLoop 23 c'.rx = ([.att (bframe 4 [1, 2, 3])], .waiting) := by
  obtain ⟨h1, h2, h3, h4⟩ := exampleStream_ok
  obtain ⟨s, hs0, hs⟩ : ∃ s, Conns.run (init false true AdvHist.initial) [.packet (leConnection 0 0x40 0 0 [1, 2, 3, 4, 5, 6] [0, 0, 0, 0, 0, 0, 0]), .packet (leConnection 0 0x41 1 0 [1, 2, 3, 4, 5, 7] [0, 0, 0, 0, 0, 0, 0])] = .ok s ∧ ConnReachable s := ⟨_, rfl, false, true, AdvHist.initial, [.packet (leConnection 0 0x40 0 0 [1, 2, 3, 4, 5, 6] [0, 0, 0, 0, 0, 0, 0]), .packet (leConnection 0 0x41 1 0 [1, 2, 3, 4, 5, 7] [0, 0, 0, 0, 0, 0, 0])], rfl⟩
  injection hs0 with hs0
  subst hs0
  refine ⟨_, _, _, _, _, rfl, hs, rfl, rfl, rfl, rfl, rfl, rfl, ?_⟩
  refine pdus_cross_both_hosts_partial 27 7 23 (by decide) (by decide) [.start 0x7 (bframe 4 [1, 2, 3]), .xmit, .stop] _ rfl (by decide) (by simp [bframe, put16]) rfl (fun _ => 4) ?_
    _ _ hs 1 _ _ rfl rfl rfl exampleStream h1 h2 [⟨0x41, 2, 0, [3, 0, 4, 0, 1]⟩, ⟨0x41, 1, 0, [2, 3]⟩] (by decide) (by decide) ?_ exampleReads h3 h4
    ((exampleStream.map fun x => Ev.packet x.2.bytes) ++ [.close 0]) ?_ rfl rfl rfl
  · intro p hp
    refine ⟨[1, 2, 3], ?_, fun _ => by decide⟩
    have : p = bframe 4 [1, 2, 3] := by simpa [writtenOn, Tx.init] using hp
    subst this
    exact ⟨by decide, by decide, rfl⟩
  · intro i f hf
    match i with
    | 0 => simp only [List.getElem?_cons_zero, Option.some.injEq] at hf; subst hf; decide
    | 1 => simp only [List.getElem?_cons_succ, List.getElem?_cons_zero, Option.some.injEq] at hf; subst hf; decide
    | n + 2 => simp at hf
  · rw [packetsRead_eq exampleStream h1 h2 exampleReads h3 h4]; rfl

end Ble.Props
