import Verif.Hci.L2cap
import Verif.Hci.L2capSpec
set_option autoImplicit false

/-!
# C29, C32 (part): L2CAP fragmentation, recombination, and malformed packets
-/

namespace Ble.Props

open Ble.L2cap Ble.L2capSpec

/-! ## Fragmentation -/

private theorem or_flag (h : Nat) (hh : h < 4096) : h ||| (0x10 <<< 8) = h + 4096 := by
  have : h ||| 4096 = 4096 + h := by
    have := Nat.two_pow_add_eq_or_of_lt (i := 12) (b := h) (by omega) 1
    rw [Nat.or_comm]; simpa using this.symm
  show h ||| 4096 = _
  omega

theorem parse_aclPacket (handle flags : Nat) (frag : Bytes) (hh : handle < 4096) (hf : flags = 0 ∨ flags = 0x10)
    (hl : frag.length < 65536) :
    parseHci (aclPacket handle flags frag) = some ⟨handle, if flags = 0 then 0 else 1, 0, frag⟩ := by
  have hl' : le16 (UInt8.ofNat frag.length) (UInt8.ofNat (frag.length / 256)) = frag.length := le16_put16 _ hl
  rcases hf with rfl | rfl
  · have he : handle ||| (0 <<< 8) = handle := by simp
    simp only [aclPacket, he, put16, List.cons_append, List.nil_append, parseHci, parseAcl, hl', if_true,
      le16_put16 handle (by omega)]
    congr 2 <;> omega
  · have he := or_flag handle hh
    simp only [aclPacket, he, put16, List.cons_append, List.nil_append, parseHci, parseAcl, hl', if_true,
      le16_put16 (handle + 4096) (by omega)]
    simp only [Option.some.injEq, Acl.mk.injEq, and_true]
    refine ⟨by omega, ?_, by omega⟩
    simp; omega

/-- What the packets written for a PDU must look like. -/
def GoodFragments (handle bufSize : Nat) (pdu : Bytes) (frags : List Acl) : Prop :=
  frags.flatMap (·.data) = pdu ∧
  (∀ f ∈ frags, f.handle = handle ∧ f.bc = 0 ∧ f.data ≠ [] ∧ f.data.length ≤ bufSize) ∧
  frags.length = (pdu.length + bufSize - 1) / bufSize

private theorem writeLoop_frags (handle m : Nat) (hh : handle < 4096) (hm : 0 < m) (hm2 : m < 65536) :
    ∀ (n flags : Nat) (pdu : Bytes), flags = 0 ∨ flags = 0x10 → pdu.length ≤ n * m →
      ∃ frags : List Acl, (writeLoop handle (1 + 4 + m) n flags pdu).1.map parseHci = frags.map some ∧
        (writeLoop handle (1 + 4 + m) n flags pdu).2 = [] ∧ GoodFragments handle m pdu frags ∧
        ∀ (i : Nat) f, frags[i]? = some f → f.pb = if i = 0 ∧ flags = 0 then 0 else 1 := by
  intro n
  induction n with
  | zero =>
    intro flags pdu hf hl
    have : pdu = [] := by apply List.length_eq_zero_iff.1; omega
    subst this
    refine ⟨[], rfl, rfl, ⟨rfl, by simp, ?_⟩, by simp⟩
    simp only [List.length_nil]
    rw [Nat.div_eq_of_lt (by omega)]
  | succ n ih =>
    intro flags pdu hf hl
    by_cases hp : pdu = []
    · subst hp
      refine ⟨[], by simp [writeLoop], by simp [writeLoop], ⟨rfl, by simp, ?_⟩, by simp⟩
      simp only [List.length_nil]
      rw [Nat.div_eq_of_lt (by omega)]
    · have hpos : 0 < pdu.length := List.length_pos_iff.2 hp
      let k := if pdu.length > m then m else pdu.length
      have hk : (if pdu.length > 1 + 4 + m - 1 - 4 then 1 + 4 + m - 1 - 4 else pdu.length) = k := by
        have : 1 + 4 + m - 1 - 4 = m := by omega
        rw [this]
      have hk1 : 0 < k := by show 0 < (if pdu.length > m then m else pdu.length); split <;> omega
      have hk2 : k ≤ m := by show (if pdu.length > m then m else pdu.length) ≤ m; split <;> omega
      have hk3 : k ≤ pdu.length := by show (if pdu.length > m then m else pdu.length) ≤ _; split <;> omega
      have hk4 : pdu.length ≤ m ∧ k = pdu.length ∨ m < pdu.length ∧ k = m := by
        by_cases h : pdu.length > m
        · right; exact ⟨h, if_pos h⟩
        · left; exact ⟨by omega, if_neg h⟩
      have hd : (pdu.drop k).length ≤ n * m := by
        rw [List.length_drop]
        rw [Nat.succ_mul] at hl
        rcases hk4 with ⟨_, h⟩ | ⟨_, h⟩ <;> omega
      obtain ⟨frags, h1, h2, ⟨h3, h4, h5⟩, h6⟩ := ih 0x10 (pdu.drop k) (Or.inr rfl) hd
      have he : writeLoop handle (1 + 4 + m) (n + 1) flags pdu =
          (aclPacket handle flags (pdu.take k) :: (writeLoop handle (1 + 4 + m) n 0x10 (pdu.drop k)).1,
            (writeLoop handle (1 + 4 + m) n 0x10 (pdu.drop k)).2) := by
        rw [writeLoop, if_neg hp]
        simp only [hk]
      have htl : (pdu.take k).length = k := by rw [List.length_take]; omega
      rw [he]
      refine ⟨⟨handle, if flags = 0 then 0 else 1, 0, pdu.take k⟩ :: frags, ?_, h2, ⟨?_, ?_, ?_⟩, ?_⟩
      · simp only [List.map_cons, h1]
        rw [parse_aclPacket handle flags _ hh hf (by omega)]
      · simp only [List.flatMap_cons, h3, List.take_append_drop]
      · intro f hf'
        rcases List.mem_cons.1 hf' with rfl | hf'
        · refine ⟨rfl, rfl, ?_, by simp only; omega⟩
          intro h0
          simp only at h0
          rw [h0] at htl; simp at htl; omega
        · exact h4 f hf'
      · simp only [List.length_cons, h5, List.length_drop]
        rcases hk4 with ⟨hle, h⟩ | ⟨hle, h⟩
        · rw [h]
          rw [Nat.div_eq_of_lt (by omega)]
          have : (pdu.length + m - 1) / m = 1 := by
            rw [Nat.div_eq_iff (by omega)]; omega
          omega
        · rw [h]
          have : pdu.length + m - 1 = (pdu.length - m + m - 1) + m := by omega
          rw [this, Nat.add_div_right _ hm]
      · intro i f hi
        cases i with
        | zero =>
          simp only [List.getElem?_cons_zero, Option.some.injEq] at hi
          subst hi
          simp
        | succ i =>
          simp only [List.getElem?_cons_succ] at hi
          rw [h6 i f hi]
          simp

/-- C29, sending. For every connection handle, every controller buffer size of at least one byte and every PDU, once the pool has supplied the buffers needed,
`writePDU` has sent the whole PDU as packets of type ACL for this handle, the first marked start and the others continuation, none empty, none larger than the
controller's buffer, whose data concatenated is the PDU; and it took as many buffers as the size requires, no more. -/
theorem writePDU_fragments (handle bufSize n : Nat) (pdu : Bytes) (hh : handle < 4096) (hb : 0 < bufSize) (hb2 : bufSize < 65536)
    (hn : pdu.length ≤ n * bufSize) :
    ∃ frags : List Acl, (writePDU handle bufSize n pdu).1.map parseHci = frags.map some ∧
      (writePDU handle bufSize n pdu).2 = [] ∧
      frags.flatMap (·.data) = pdu ∧
      (∀ f ∈ frags, f.handle = handle ∧ f.bc = 0 ∧ f.data ≠ [] ∧ f.data.length ≤ bufSize) ∧
      (∀ (i : Nat) f, frags[i]? = some f → f.pb = if i = 0 then 0 else 1) ∧
      frags.length = (pdu.length + bufSize - 1) / bufSize := by
  obtain ⟨frags, h1, h2, ⟨h3, h4, h5⟩, h6⟩ := writeLoop_frags handle bufSize hh hb hb2 n 0 pdu (Or.inl rfl) hn
  refine ⟨frags, h1, h2, h3, h4, ?_, h5⟩
  intro i f hi
  rw [h6 i f hi]; simp

example : (writePDU 0x0040 4 3 [5, 0, 4, 0, 1, 2, 3, 4, 5]).1 =
    [[2, 0x40, 0x00, 4, 0, 5, 0, 4, 0], [2, 0x40, 0x10, 4, 0, 1, 2, 3, 4], [2, 0x40, 0x10, 1, 0, 5]] := by decide

/-- If the controller announces a data packet length of 0, `writePDU` never finishes: however many buffers it is given, it has sent only empty packets and still has
the whole PDU to send. -/
theorem writePDU_zero_buffer_diverges (handle n : Nat) (pdu : Bytes) (hp : pdu ≠ []) :
    (writePDU handle 0 n pdu).2 = pdu ∧ (writePDU handle 0 n pdu).1.length = n := by
  unfold writePDU
  suffices ∀ (n flags : Nat), (writeLoop handle (1 + 4 + 0) n flags pdu).2 = pdu ∧
      (writeLoop handle (1 + 4 + 0) n flags pdu).1.length = n from this n 0
  intro n
  induction n with
  | zero => intro flags; exact ⟨rfl, rfl⟩
  | succ n ih =>
    intro flags
    have hpos : 0 < pdu.length := List.length_pos_iff.2 hp
    have : writeLoop handle (1 + 4 + 0) (n + 1) flags pdu =
        (aclPacket handle flags [] :: (writeLoop handle (1 + 4 + 0) n 0x10 pdu).1, (writeLoop handle (1 + 4 + 0) n 0x10 pdu).2) := by
      rw [writeLoop, if_neg hp]
      simp only [Nat.add_zero, Nat.reduceAdd, Nat.reduceSub, if_pos hpos, List.take_zero, List.drop_zero]
    rw [this]
    simp only [List.length_cons]
    exact ⟨(ih 0x10).1, by rw [(ih 0x10).2]⟩

/-! ## Recombination -/

private theorem pktData_of_parse {a : Bytes} {f : Acl} (h : parseAcl a = some f) : pktData a = some f.data ∧ pktPbf a = some f.pb := by
  unfold parseAcl at h
  split at h
  · rename_i x y c d data
    split at h
    · injection h with h; subst h
      refine ⟨by simp [pktData], ?_⟩
      simp only [pktPbf, List.getElem?_cons_succ, List.getElem?_cons_zero, Option.some.injEq]
      have hx := x.toNat_lt; have hy := y.toNat_lt
      have e1 : (y.toNat >>> 4) &&& 3 = y.toNat / 16 % 4 := by
        rw [Nat.shiftRight_eq_div_pow]
        exact Nat.and_two_pow_sub_one_eq_mod _ 2
      rw [e1]; unfold le16; omega
    · cases h
  · cases h

theorem bframe_len {cid : Nat} {info p : Bytes} (h : IsFrame cid info p) :
    ∃ a b c d, p = a :: b :: c :: d :: info ∧ le16 a b = info.length ∧ le16 c d = cid := by
  obtain ⟨h1, h2, rfl⟩ := h
  exact ⟨_, _, _, _, rfl, le16_put16 _ h2, le16_put16 _ h1⟩

private theorem header_prefix {q r : Bytes} {a b c d : UInt8} {info : Bytes} (h : q ++ r = a :: b :: c :: d :: info) (hq : 4 ≤ q.length) :
    ∃ q', q = a :: b :: c :: d :: q' := by
  match q, hq with
  | w :: x :: y :: z :: q', _ =>
    simp only [List.cons_append, List.cons.injEq] at h
    obtain ⟨rfl, rfl, rfl, rfl, _⟩ := h
    exact ⟨q', rfl⟩

private theorem collect_frags (dlen : Nat) : ∀ (pkts : List Bytes) (fs : List Acl) (p : Bytes) (rest : List Bytes),
    pkts.map parseAcl = fs.map some → (∀ g ∈ fs, g.pb = 1 ∧ g.data ≠ []) →
    (p ++ fs.flatMap (·.data)).length = 4 + dlen →
    collect p dlen (pkts ++ rest) = .done (p ++ fs.flatMap (·.data)) rest := by
  intro pkts
  induction pkts with
  | nil =>
    intro fs p rest hm _ hl
    have : fs = [] := by cases fs <;> simp_all
    subst this
    simp only [List.flatMap_nil, List.append_nil] at hl
    have hn : ¬ p.length < 4 + dlen := by omega
    cases rest <;> simp [collect, hn]
  | cons q qs ih =>
    intro fs p rest hm hg hl
    cases fs with
    | nil => simp at hm
    | cons g gs =>
      simp only [List.map_cons, List.cons.injEq] at hm
      obtain ⟨hd, hp⟩ := pktData_of_parse hm.1
      obtain ⟨g1, g2⟩ := hg g (by simp)
      have glen : 0 < g.data.length := List.length_pos_iff.2 g2
      have hlt : p.length < 4 + dlen := by
        simp only [List.flatMap_cons, List.length_append] at hl; omega
      rw [List.cons_append, collect, if_pos hlt, hp, g1]
      simp only [hd, Nat.reduceAnd, Nat.one_ne_zero, if_false]
      have := ih gs (p ++ g.data) rest hm.2 (fun x hx => hg x (by simp [hx]))
        (by simp only [List.flatMap_cons, List.length_append] at hl ⊢; omega)
      rw [this]
      simp

/-- C29, receiving. For every L2CAP frame on any channel, however the controller fragments it (first fragment with the header, at most the ATT receive MPS for the ATT
channel), `recombine` returns exactly the frame and consumes exactly its packets. -/
theorem recombine_returns_frame (rxMPS cid : Nat) (info p : Bytes) (pkts rest : List Bytes) (frags : List Acl)
    (hf : IsFrame cid info p) (hp : pkts.map parseAcl = frags.map some) (hg : IsFragmentation p frags)
    (hm : cid = 4 → info.length ≤ rxMPS) :
    recombine rxMPS (pkts ++ rest) = .done p rest := by
  obtain ⟨f, fs, rfl, hpe, hlen, hcont⟩ := hg
  obtain ⟨a, b, c, d, hpa, ha, hc⟩ := bframe_len hf
  cases pkts with
  | nil => simp at hp
  | cons q qs =>
    simp only [List.map_cons, List.cons.injEq] at hp
    obtain ⟨hd, _⟩ := pktData_of_parse hp.1
    obtain ⟨q', hq'⟩ := header_prefix (hpe.symm.trans hpa) hlen
    rw [List.cons_append, recombine, hd]
    have e1 : pduCid f.data = some cid := by rw [hq', ← hc]; rfl
    have e2 : pduLen f.data = some info.length := by rw [hq', ← ha]; rfl
    simp only [e1, e2]
    have hno : ¬ (cid = cidAtt ∧ info.length > rxMPS) := by
      rintro ⟨h1, h2⟩; have := hm h1; omega
    rw [if_neg hno]
    have hl : (f.data ++ fs.flatMap (·.data)).length = 4 + info.length := by
      rw [← hpe, hpa]; simp; omega
    rw [collect_frags info.length qs fs f.data rest hp.2 hcont hl, ← hpe]

/-- Where a frame has to go, by channel: ATT, signalling, security manager, dynamic channels, nothing else [Core, Vol 3, Part A, 2.1]. -/
def rightPlace (cid : Nat) (p : Bytes) : Delivery :=
  if cid = 4 then .att p else if cid = 5 then .signal p else if cid = 6 then .smp p else if 0x40 ≤ cid then .dynamic p else .unknown p

theorem dispatch_frame {cid : Nat} {info p : Bytes} (hf : IsFrame cid info p) : dispatch p = rightPlace cid p := by
  obtain ⟨a, b, c, d, hpa, ha, hc⟩ := bframe_len hf
  have : pduCid p = some cid := by rw [hpa, ← hc]; rfl
  unfold dispatch rightPlace
  rw [this]
  have hlt := hf.1
  simp only [cidAtt, cidSignal, cidSmp]
  have : (0x40 ≤ cid ∧ cid ≤ 0xffff) ↔ 0x40 ≤ cid := by omega
  simp only [this]

/-- A frame on a channel, with the ACL packets the controller delivered it in. -/
structure Arrival where
  cid : Nat
  info : Bytes
  p : Bytes
  pkts : List Bytes

/-- The packets carry the frame, fragmented in some way. -/
def Arrival.ok (rxMPS : Nat) (a : Arrival) : Prop :=
  IsFrame a.cid a.info a.p ∧ (∃ frags, a.pkts.map parseAcl = frags.map some ∧ IsFragmentation a.p frags) ∧ (a.cid = 4 → a.info.length ≤ rxMPS)

/-- C29, receiving a stream. For every sequence of frames on any channels and every fragmentation of each, the connection delivers exactly these frames, in this order,
each to the place for its channel, and then waits for more. -/
theorem recvLoop_delivers_frames (rxMPS : Nat) (as : List Arrival) (h : ∀ a ∈ as, a.ok rxMPS) :
    recvLoop rxMPS (as.flatMap (·.pkts)) = (as.map fun a => rightPlace a.cid a.p, .waiting) := by
  induction as with
  | nil => rw [List.flatMap_nil, recvLoop]; rfl
  | cons a as ih =>
    obtain ⟨h1, ⟨frags, h2, h3⟩, h4⟩ := h a (by simp)
    have hr := recombine_returns_frame rxMPS a.cid a.info a.p a.pkts (as.flatMap (·.pkts)) frags h1 h2 h3 h4
    rw [List.flatMap_cons, recvLoop]
    split
    · rename_i p rest he
      rw [hr] at he
      injection he with e1 e2
      subst e1; subst e2
      rw [ih (fun x hx => h x (by simp [hx])), dispatch_frame h1]
      rfl
    all_goals (rename_i he; rw [hr] at he; cases he)

/-- Non-vacuity: a three-byte ATT PDU in two fragments. -/
example : (Arrival.mk 4 [1, 2, 3] [3, 0, 4, 0, 1, 2, 3] [[0x40, 0x20, 5, 0, 3, 0, 4, 0, 1], [0x40, 0x10, 2, 0, 2, 3]]).ok 23 := by
  refine ⟨⟨by decide, by decide, rfl⟩, ⟨[⟨0x40, 2, 0, [3, 0, 4, 0, 1]⟩, ⟨0x40, 1, 0, [2, 3]⟩], by decide, ?_⟩, by decide⟩
  exact ⟨_, _, rfl, by decide, by decide, by decide⟩

/-! ## Write on one side, Read on the other -/

/-- `Read` returns the information of a frame: for a buffer large enough, the first bytes of the buffer are the information and the count is its length. -/
theorem connRead_returns_info (cid : Nat) (info p buf : Bytes) (hf : IsFrame cid info p) (hb : info.length ≤ buf.length) :
    ∃ buf', connRead p buf = .ok (buf', info.length) ∧ buf'.take info.length = info ∧ buf'.length = buf.length := by
  obtain ⟨a, b, c, d, hpa, ha, hc⟩ := bframe_len hf
  refine ⟨info ++ buf.drop info.length, ?_, by simp, by simp; omega⟩
  have e2 : pduLen p = some info.length := by rw [hpa, ← ha]; rfl
  have hlen : p.length = info.length + 4 := by rw [hpa]; rfl
  have hdrop : p.drop 4 = info := by rw [hpa]; rfl
  unfold connRead
  rw [if_neg (by intro h; rw [h] at hlen; simp at hlen), e2]
  simp only
  rw [if_neg (by omega), if_neg (by omega), hdrop]
  simp only [bufWrite]
  rw [if_pos hb]

/-- C29 end to end. Whatever is written with `Write` on one side (at most the MTU), if the controllers deliver its bytes in order, fragmented in any way that keeps the header
in the first fragment, then the other side's connection delivers one ATT PDU and `Read` puts exactly the written bytes in the caller's buffer. -/
theorem write_then_read (handle bufSize txMTU n rxMPS : Nat) (sdu buf : Bytes) (hh : handle < 4096) (hb : 0 < bufSize) (hb2 : bufSize < 65536)
    (hmtu : sdu.length ≤ txMTU) (htx : txMTU < 65536) (hn : sdu.length + 4 ≤ n * bufSize) (hmps : sdu.length ≤ rxMPS) (hbuf : sdu.length ≤ buf.length) :
    ∃ (pkts : List Bytes) (rest : Bytes) (sentFrags : List Acl), connWrite handle bufSize txMTU n sdu = some (pkts, rest) ∧ rest = [] ∧
      pkts.map parseHci = sentFrags.map some ∧
      ∀ (rx : List Bytes) (frags : List Acl), rx.map parseAcl = frags.map some → IsFragmentation (sentFrags.flatMap (·.data)) frags →
        ∃ p buf', recvLoop rxMPS rx = ([.att p], .waiting) ∧ connRead p buf = .ok (buf', sdu.length) ∧ buf'.take sdu.length = sdu := by
  have hfr : IsFrame 4 sdu (bframe cidAtt sdu) := ⟨by decide, by omega, rfl⟩
  have hlen : (bframe cidAtt sdu).length = sdu.length + 4 := by simp [bframe]; omega
  obtain ⟨frags, h1, h2, h3, -, -, -⟩ := writePDU_fragments handle bufSize n (bframe cidAtt sdu) hh hb hb2 (by omega)
  refine ⟨_, _, frags, ?_, h2, h1, ?_⟩
  · unfold connWrite; rw [if_neg (by omega)]
  · intro rx fr hrx hfrag
    rw [h3] at hfrag
    obtain ⟨buf', hr, ht, -⟩ := connRead_returns_info 4 sdu _ buf hfr hbuf
    refine ⟨bframe cidAtt sdu, buf', ?_, hr, ht⟩
    have := recvLoop_delivers_frames rxMPS [⟨4, sdu, bframe cidAtt sdu, rx⟩] (by
      intro a ha; simp only [List.mem_singleton] at ha; subst ha
      exact ⟨hfr, ⟨fr, hrx, hfrag⟩, fun _ => hmps⟩)
    simpa [rightPlace] using this

/-- **C29, the part that holds.** Missing: a buffer size of 0 (`writePDU_zero_buffer_diverges`) and first fragments that do not contain the header (`short_start_fragment_crashes`). -/
theorem write_then_read_partial (handle bufSize txMTU n rxMPS : Nat) (sdu buf : Bytes) (hh : handle < 4096) (hb : 0 < bufSize) (hb2 : bufSize < 65536)
    (hmtu : sdu.length ≤ txMTU) (htx : txMTU < 65536) (hn : sdu.length + 4 ≤ n * bufSize) (hmps : sdu.length ≤ rxMPS) (hbuf : sdu.length ≤ buf.length) :
    ∃ (pkts : List Bytes) (rest : Bytes) (sentFrags : List Acl), connWrite handle bufSize txMTU n sdu = some (pkts, rest) ∧ rest = [] ∧
      pkts.map parseHci = sentFrags.map some ∧
      ∀ (rx : List Bytes) (frags : List Acl), rx.map parseAcl = frags.map some → IsFragmentation (sentFrags.flatMap (·.data)) frags →
        ∃ p buf', recvLoop rxMPS rx = ([.att p], .waiting) ∧ connRead p buf = .ok (buf', sdu.length) ∧ buf'.take sdu.length = sdu :=
  write_then_read handle bufSize txMTU n rxMPS sdu buf hh hb hb2 hmtu htx hn hmps hbuf

/-- The fragments `writePDU` makes are themselves such a fragmentation when the controller's buffer holds at least the header. -/
theorem writePDU_isFragmentation (handle bufSize n : Nat) (pdu : Bytes) (hh : handle < 4096) (hb : 4 ≤ bufSize) (hb2 : bufSize < 65536)
    (hp : 4 ≤ pdu.length) (hn : pdu.length ≤ n * bufSize) :
    ∃ frags, (writePDU handle bufSize n pdu).1.map parseHci = frags.map some ∧ IsFragmentation pdu frags := by
  obtain ⟨frags, h1, h2, h3, h4, h5, h6⟩ := writePDU_fragments handle bufSize n pdu hh (by omega) hb2 hn
  refine ⟨frags, h1, ?_⟩
  cases hfr : frags with
  | nil => rw [hfr] at h3; simp at h3; subst h3; simp at hp
  | cons f fs =>
    subst hfr
    refine ⟨f, fs, rfl, by rw [← h3]; rfl, ?_, ?_⟩
    · -- the first fragment is full or it is the whole PDU
      unfold writePDU at h1
      cases n with
      | zero => omega
      | succ n =>
        have hne : pdu ≠ [] := by intro h; subst h; simp at hp
        rw [writeLoop, if_neg hne] at h1
        simp only [List.map_cons, List.cons.injEq] at h1
        have hc : 1 + 4 + bufSize - 1 - 4 = bufSize := by omega
        rw [hc] at h1
        rw [parse_aclPacket handle 0 _ hh (Or.inl rfl) (by rw [List.length_take]; split <;> omega)] at h1
        have := h1.1
        injection this with this
        rw [← this]
        simp only [List.length_take]
        split <;> omega
    · intro g hg
      refine ⟨?_, (h4 g (by simp [hg])).2.2.1⟩
      obtain ⟨i, hi, rfl⟩ := List.mem_iff_getElem.1 hg
      have := h5 (i + 1) fs[i] (by simp [hi])
      simpa using this

/-- A payload longer than the MTU is refused and nothing is sent. -/
theorem write_over_mtu_refused (handle bufSize txMTU n : Nat) (sdu : Bytes) (h : txMTU < sdu.length) : connWrite handle bufSize txMTU n sdu = none := by
  unfold connWrite; rw [if_pos h]

/-! ## Malformed packets (C32) -/

/-- No packet stream whose packets all have at least the ACL and L2CAP headers (eight bytes) crashes the receive path. -/
theorem collect_no_panic (dlen : Nat) : ∀ (pkts : List Bytes) (p : Bytes), (∀ q ∈ pkts, 4 ≤ q.length) → collect p dlen pkts ≠ .panic := by
  intro pkts
  induction pkts with
  | nil => intro p _; unfold collect; split <;> simp
  | cons q qs ih =>
    intro p h
    have hq := h q (by simp)
    rw [collect]
    split
    · have : ∃ f, pktPbf q = some f := by
        unfold pktPbf
        rw [List.getElem?_eq_getElem (by omega : 1 < q.length)]
        exact ⟨_, rfl⟩
      obtain ⟨f, hf⟩ := this
      rw [hf]
      simp only
      split
      · simp
      · have : pktData q = some (q.drop 4) := by unfold pktData; rw [if_pos hq]
        rw [this]
        exact ih _ (fun x hx => h x (by simp [hx]))
    · simp

theorem recombine_no_panic (rxMPS : Nat) (pkts : List Bytes) (h : ∀ q ∈ pkts, 8 ≤ q.length) : recombine rxMPS pkts ≠ .panic := by
  cases pkts with
  | nil => unfold recombine; simp
  | cons q qs =>
    have hq := h q (by simp)
    rw [recombine]
    have hd : pktData q = some (q.drop 4) := by unfold pktData; rw [if_pos (by omega)]
    rw [hd]
    have hl : 4 ≤ (q.drop 4).length := by rw [List.length_drop]; omega
    match hq' : q.drop 4, hl with
    | a :: b :: c :: d :: r, _ =>
      simp only [pduCid, pduLen]
      split
      · simp
      · exact collect_no_panic _ _ _ (fun x hx => by have := h x (by simp [hx]); omega)

/-- C32, receive path: if every ACL packet carries at least four bytes of data, no sequence of packets, however inconsistent, crashes the connection. Missing: first fragments of fewer than four bytes, signalling and credit frames, which crash under exactly the conditions of `short_start_fragment_crashes`, `signal_panics_iff` and `coc_receive_panics_iff`. -/
theorem recvLoop_no_panic_partial (rxMPS : Nat) (pkts : List Bytes) (h : ∀ q ∈ pkts, 8 ≤ q.length) : (recvLoop rxMPS pkts).2 ≠ .crashed := by
  suffices ∀ n (pkts : List Bytes), pkts.length ≤ n → (∀ q ∈ pkts, 8 ≤ q.length) → (recvLoop rxMPS pkts).2 ≠ .crashed from this _ pkts (Nat.le_refl _) h
  intro n
  induction n with
  | zero =>
    intro pkts hn h
    have : pkts = [] := List.length_eq_zero_iff.1 (by omega)
    subst this
    rw [recvLoop]; simp [recombine]
  | succ n ih =>
    intro pkts hn h
    rw [recvLoop]
    split
    · rename_i p rest he
      have h1 := recombine_rest he
      apply ih rest (by omega)
      have : ∃ pre, pkts = pre ++ rest := by
        have hc : ∀ (pk : List Bytes) (p : Bytes) (d : Nat) (q : Bytes) (rs : List Bytes), collect p d pk = .done q rs → ∃ pre, pk = pre ++ rs := by
          intro pk
          induction pk with
          | nil =>
            intro p d q rs hh
            unfold collect at hh
            split at hh
            · cases hh
            · injection hh with _ hh; exact ⟨[], by simpa using hh⟩
          | cons x xs ihx =>
            intro p d q rs hh
            rw [collect] at hh
            split at hh
            · split at hh
              · cases hh
              · split at hh
                · cases hh
                · split at hh
                  · cases hh
                  · obtain ⟨pre, hpre⟩ := ihx _ _ _ _ hh
                    exact ⟨x :: pre, by rw [hpre]; rfl⟩
            · injection hh with _ hh; exact ⟨[], by simpa using hh⟩
        cases pkts with
        | nil => simp [recombine] at he
        | cons pkt pkts' =>
          rw [recombine] at he
          split at he
          · cases he
          · split at he
            · split at he
              · cases he
              · obtain ⟨pre, hpre⟩ := hc _ _ _ _ _ he
                exact ⟨pkt :: pre, by rw [hpre]; rfl⟩
            · cases he
      obtain ⟨pre, rfl⟩ := this
      intro q hq
      exact h q (by simp [hq])
    · simp
    · simp
    · rename_i he
      exact absurd he (recombine_no_panic rxMPS pkts h)

/-- C32 fails for short start fragments: a first packet of a frame with fewer than four data bytes (four to seven bytes in all, which the transport accepts, and which a
peer produces by sending a start fragment of one to three bytes) crashes the host, whatever came before on the connection was complete. -/
theorem short_start_fragment_crashes (rxMPS : Nat) (a b c d : UInt8) (data : Bytes) (rest : List Bytes) (h : data.length < 4) :
    recvLoop rxMPS ((a :: b :: c :: d :: data) :: rest) = ([], .crashed) := by
  have : recombine rxMPS ((a :: b :: c :: d :: data) :: rest) = .panic := by
    rw [recombine]
    have : pktData (a :: b :: c :: d :: data) = some data := by simp [pktData]
    rw [this]
    match data, h with
    | [], _ => rfl
    | [_], _ => rfl
    | [_, _], _ => rfl
    | [_, _, _], _ => rfl
  rw [recvLoop]
  split
  all_goals (rename_i he; rw [this] at he; try cases he)
  all_goals rfl

/-- A frame of an attribute PDU that announces more than the receive MPS, or a frame interrupted by a new start fragment, ends the connection: it is reported, not crashed. -/
theorem oversized_att_frame_fails (rxMPS : Nat) (pkt : Bytes) (rest : List Bytes) (p : Bytes) (dlen : Nat) (hd : pktData pkt = some p)
    (hc : pduCid p = some 4) (hl : pduLen p = some dlen) (ho : rxMPS < dlen) : recvLoop rxMPS (pkt :: rest) = ([], .failed) := by
  have : recombine rxMPS (pkt :: rest) = .fail := by
    rw [recombine, hd]
    simp only [hc, hl]
    rw [if_pos ⟨rfl, ho⟩]
  rw [recvLoop]
  split
  all_goals (rename_i he; rw [this] at he; try cases he)
  all_goals rfl

/-- A frame whose packet carries more data than its length field announces is not trimmed; if the surplus does not fit the reader's buffer, `Read` reports the announced count but
leaves the caller's buffer unchanged, so the caller processes the bytes of the previous PDU. -/
theorem surplus_data_makes_read_stale (cid n : Nat) (info buf : Bytes) (hn : n < 65536) (hni : n ≤ info.length)
    (hsur : buf.length < info.length) (hfit : n ≤ buf.length) :
    connRead (put16 n ++ put16 cid ++ info) buf = .ok (buf, n) := by
  have hp : put16 n ++ put16 cid ++ info ≠ [] := by simp [put16]
  have hl : pduLen (put16 n ++ put16 cid ++ info) = some n := by
    show some (le16 _ _) = _
    rw [le16_put16 n hn]
  unfold connRead
  rw [if_neg hp, hl]
  simp only
  rw [if_neg (by simp [put16]), if_neg (by omega)]
  have : (put16 n ++ put16 cid ++ info).drop 4 = info := rfl
  rw [this, bufWrite, if_neg (by omega)]

example : connRead ([1, 0, 4, 0] ++ [0xAA, 0xBB, 0xCC]) [0x0A, 0x0B] = .ok ([0x0A, 0x0B], 1) := by decide

end Ble.Props
