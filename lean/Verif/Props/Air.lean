import Verif.Client.Air
import Verif.Client.Sim
import Verif.Props.L2cap
import Verif.Props.AttWrite
import Verif.Props.ReadLong
import Verif.Props.DiscoveryChars
set_option autoImplicit false

/-!
# Client and server at the two ends of a radio link (C122)
-/

namespace Ble.Air

open Ble.Att Ble.Client Ble.L2cap Ble.L2capSpec Ble.Spec Ble.Props

variable {α σ : Type}

/-! ## Specification -/

/-- What the controllers and the air must do: hand over the data of each PDU, in order and complete, in ACL packets of any sizes, the first of which contains the L2CAP header,
the others marked as continuations. -/
def Faithful (radio : Radio) : Prop :=
  ∀ (k : Nat) (pkts : List Bytes) (sent : List Acl), pkts.map parseHci = sent.map some → 4 ≤ (sent.flatMap (·.data)).length →
    (sent.flatMap (·.data)).length < 65536 →
    ∃ got : List Acl, (radio k pkts).map parseAcl = got.map some ∧ IsFragmentation (sent.flatMap (·.data)) got

/-- Sensible parameters: 12-bit handles, ACL buffers that hold something, as many of them as it takes, and neither side transmits more than the other says it can receive. -/
structure Link.Ok (L : Link) : Prop where
  cliHandle : L.cliHandle < 4096
  srvHandle : L.srvHandle < 4096
  cliBuf : 0 < L.cliBuf ∧ L.cliBuf < 65536
  srvBuf : 0 < L.srvBuf ∧ L.srvBuf < 65536
  cliBufs : 519 ≤ L.bufs * L.cliBuf
  srvBufs : 519 ≤ L.bufs * L.srvBuf
  cliTx : L.cliTx ≤ L.srvRx
  srvRx : L.srvRx ≤ 515
  cliRx : L.cliRx ≤ 515

/-! ## One PDU -/

/-- A PDU that the MTUs allow arrives as it was sent. -/
theorem transfer_delivers {radio : Radio} (hr : Faithful radio) (k handle bufSize bufs tx rxMPS : Nat) (buf pdu : Bytes) (hh : handle < 4096)
    (hb : 0 < bufSize) (hb2 : bufSize < 65536) (hn : 519 ≤ bufs * bufSize) (htx : pdu.length ≤ tx) (hrx : pdu.length ≤ rxMPS) (hmax : pdu.length ≤ 515)
    (hbuf : buf.length = 515) : transfer (radio k) handle bufSize bufs tx rxMPS buf pdu = some pdu := by
  -- the transmit MTU enters only through its being at least the length
  have hcw : connWrite handle bufSize tx bufs pdu = connWrite handle bufSize 515 bufs pdu := by
    unfold connWrite; rw [if_neg (by omega), if_neg (by omega)]
  obtain ⟨pkts, rest, sent, h1, -, h3, h4⟩ := write_then_read handle bufSize 515 bufs rxMPS pdu buf hh hb hb2 (by omega) (by omega) (by omega) hrx (by omega)
  have hlen : (sent.flatMap (·.data)).length = pdu.length + 4 := by
    obtain ⟨fr, e1, -, e3, -⟩ := writePDU_fragments handle bufSize bufs (bframe cidAtt pdu) hh hb hb2 (by simp [bframe]; omega)
    have hp : connWrite handle bufSize 515 bufs pdu = some (writePDU handle bufSize bufs (bframe cidAtt pdu)) := by
      unfold connWrite; rw [if_neg (by omega)]
    rw [h1] at hp
    injection hp with hp
    rw [← hp] at e1
    simp only at e1
    rw [h3] at e1
    have : sent = fr := (List.map_inj_right (fun a b (h : some a = some b) => Option.some.inj h)).1 e1
    rw [this, e3]
    simp [bframe]; omega
  obtain ⟨got, g1, g2⟩ := hr k pkts sent h3 (by omega) (by omega)
  obtain ⟨p, buf', r1, r2, r3⟩ := h4 _ got g1 g2
  unfold transfer
  rw [hcw, h1]
  simp only [r1, r2, r3]

/-- A PDU longer than the transmit MTU does not arrive at all. -/
theorem transfer_too_long (radio : List Bytes → List Bytes) (handle bufSize bufs tx rxMPS : Nat) (buf pdu : Bytes) (h : tx < pdu.length) :
    transfer radio handle bufSize bufs tx rxMPS buf pdu = none := by
  unfold transfer
  rw [write_over_mtu_refused _ _ _ _ _ h]

/-! ## One request -/

/-- The server at the other end, the MTU it uses within what the client can receive. -/
def AtEnd (L : Link) (t : Server σ × Nat) (s : Server σ) : Prop := t.1 = s ∧ 23 ≤ s.mtu ∧ s.mtu ≤ L.cliRx

/-- The length of a response, and the MTU after the request. -/
theorem response_length {s s' : Server σ} {req rsp : Bytes} (h16 : req.head? ≠ some 0x16) (hm : 23 ≤ s.mtu)
    (h : handleRequest s req = .ok (s', some rsp)) : rsp.length ≤ s.mtu ∧ 23 ≤ s'.mtu ∧ (req.head? ≠ some 0x02 → s'.mtu = s.mtu) ∧
      (req.head? = some 0x02 → rsp.length ≤ 23) := by
  cases req with
  | nil => cases h
  | cons op t =>
    simp only [List.head?_cons, ne_eq, Option.some.injEq] at h16 ⊢
    by_cases h2 : op = 0x02
    · subst h2
      have h' := h
      unfold handleRequest at h'
      simp only [if_true] at h'
      have hg := handleExchangeMTU_good rfl h'
      obtain ⟨r, e1, e2, e3⟩ := hg.ans
      cases e1
      refine ⟨e3 hm, hg.mtu hm, fun x => absurd rfl x, fun _ => ?_⟩
      unfold handleExchangeMTU at h'
      simp only [index_cons_zero, Go.bind_ok] at h'
      split at h'
      · cases h'; simp [errorRsp]
      · obtain ⟨m, -, h'⟩ := Go.bind_eq_ok.1 h'
        split at h'
        · cases h'; simp [errorRsp]
        · cases h'; simp
    · rcases handleRequest_cases h with ⟨-, e, -⟩ | ⟨e, -⟩ | ⟨-, c, -, hg⟩ | ⟨-, -, rfl, e⟩
      · cases e
      · exact absurd e h16
      · obtain ⟨r, e1, e2, e3⟩ := hg.ans
        cases e1
        exact ⟨e3 hm, hg.mtu hm, hg.mtuSame, fun x => absurd x h2⟩
      · cases e
        exact ⟨by rw [errorRsp_length]; omega, hm, fun _ => rfl, fun x => absurd x h2⟩

/-- **C122, one request.** Over the air the client gets the answer this library's server gives, for every request that fits the client's transmit MTU (Prepare Write and Exchange MTU apart),
whatever the sizes of the controllers' buffers and however the data is cut up on the way, and whatever the read buffers contained.
Missing: Prepare Write, whose response may be longer than the server may send (`air_long_response_lost`); for Exchange MTU see `air_exchange_mtu`. -/
theorem air_exchange_partial {L : Link} (hL : L.Ok) {radio : Radio} (hr : Faithful radio) {scratch : Nat → Bytes} (hs : ∀ k, (scratch k).length = 515) :
    ExSim (AtEnd (σ := σ) L) L.cliTx (airPeer L radio scratch) serverPeer := by
  rintro ⟨s, k⟩ s' req ⟨rfl, h23, hrx⟩ ⟨hlen, h2, h16⟩
  have hb := hL.cliTx
  have hc := hL.srvRx
  have hd := hL.cliRx
  simp only at h23 hrx ⊢
  unfold airPeer serverPeer
  simp only
  rw [transfer_delivers hr k _ _ _ _ _ _ req hL.cliHandle hL.cliBuf.1 hL.cliBuf.2 hL.cliBufs hlen (by omega) (by omega) (hs k)]
  simp only
  cases hq : handleRequest s req with
  | panic => exact .err _
  | err e => exact .err _
  | ok r =>
    obtain ⟨s', o⟩ := r
    cases o with
    | none => exact .err _
    | some rsp =>
      obtain ⟨l1, l2, l3, -⟩ := response_length h16 h23 hq
      have l3 := l3 h2
      simp only
      rw [transfer_delivers hr (k + 1) _ _ _ _ _ _ rsp hL.srvHandle hL.srvBuf.1 hL.srvBuf.2 hL.srvBufs (by omega) (by omega) (by omega) (hs (k + 1))]
      simp only
      split
      · exact .ok ⟨⟨rfl, by simp only; omega, by simp only; omega⟩, rfl⟩
      · exact .err _

/-! ## Calls -/

/-- The client at this end of the link. -/
def clientOver (c : Cli (Server σ)) (k : Nat) : Cli (Server σ × Nat) := ⟨(c.peer, k), c.buf, c.txMTU, c.rxMTU⟩

theorem clientOver_sim {L : Link} {c : Cli (Server σ)} {k : Nat} (h23 : 23 ≤ c.peer.mtu) (hrx : c.peer.mtu ≤ L.cliRx) :
    CliSim (AtEnd L) (clientOver c k) c := ⟨⟨rfl, h23, hrx⟩, rfl, rfl, rfl⟩

/-- **C122, every call.** All the calls of the ATT and GATT clients that are answered, `ExchangeMTU` and `PrepareWrite` apart, have the same outcome over the air as with the server called directly:
the same result, error or panic, and afterwards the same state of client and server. -/
theorem air_calls {L : Link} (hL : L.Ok) (h7 : 21 ≤ L.cliTx) {radio : Radio} (hr : Faithful radio) {scratch : Nat → Bytes} (hs : ∀ k, (scratch k).length = 515)
    (c : Cli (Server σ)) (k : Nat) (hm : 23 ≤ c.peer.mtu) (hrx : c.peer.mtu ≤ L.cliRx) (htx : c.txMTU ≤ L.cliTx) :
    let air := airPeer L radio scratch
    let c' := clientOver c k
    (∀ h, GoSim (Same (AtEnd L) Bytes) (Client.read air c' h) (Client.read serverPeer c h)) ∧
    (∀ h off, GoSim (Same (AtEnd L) Bytes) (readBlob air c' h off) (readBlob serverPeer c h off)) ∧
    (∀ l, GoSim (Same (AtEnd L) Bytes) (readMultiple air c' l) (readMultiple serverPeer c l)) ∧
    (∀ h v, GoSim (CliSim (AtEnd L)) (write air c' h v) (write serverPeer c h v)) ∧
    (∀ lo hi, GoSim (Same (AtEnd L) (Nat × Bytes)) (findInformation air c' lo hi) (findInformation serverPeer c lo hi)) ∧
    (∀ lo hi u, u.length ≤ 16 → GoSim (Same (AtEnd L) (Nat × Bytes)) (readByType air c' lo hi u) (readByType serverPeer c lo hi u)) ∧
    (∀ lo hi u, u.length ≤ 16 → GoSim (Same (AtEnd L) (Nat × Bytes)) (readByGroupType air c' lo hi u) (readByGroupType serverPeer c lo hi u)) ∧
    (∀ filter fuel acc, GoSim (OptSim (Same (AtEnd L) (List SvcInfo))) (discoverServices air filter fuel c' 1 acc) (discoverServices serverPeer filter fuel c 1 acc)) ∧
    (∀ filter fuel s, GoSim (OptSim (Same (AtEnd L) (List CharInfo))) (discoverCharacteristics air filter fuel c' s) (discoverCharacteristics serverPeer filter fuel c s)) ∧
    (∀ filter fuel ch, GoSim (OptSim (Same (AtEnd L) (List DescInfo × Option DescInfo))) (discoverDescriptors air filter fuel c' ch)
      (discoverDescriptors serverPeer filter fuel c ch)) ∧
    (∀ fuel force prof, (discoverProfile air fuel force c' prof).1 = (discoverProfile serverPeer fuel force c prof).1 ∧
      GoSim (OptSim (CliSim (AtEnd L))) (discoverProfile air fuel force c' prof).2 (discoverProfile serverPeer fuel force c prof).2) ∧
    (∀ fuel h, GoSim (OptSim (Same (AtEnd L) Bytes)) (readLong air fuel c' h) (readLong serverPeer fuel c h)) := by
  have he := air_exchange_partial (σ := σ) hL hr hs
  have hc := clientOver_sim (L := L) (c := c) (k := k) hm hrx
  have h7' : 7 ≤ L.cliTx := by omega
  exact ⟨read_sim he hc h7', readBlob_sim he hc h7', readMultiple_sim he hc htx, write_sim he hc htx, findInformation_sim he hc h7',
    fun lo hi u hu => readList_sim he hc 0x08 (by decide) (by decide) lo hi u (by omega), fun lo hi u hu => readList_sim he hc 0x10 (by decide) (by decide) lo hi u (by omega),
    fun filter fuel acc => discoverServices_sim he h7' filter fuel _ _ 1 acc hc, fun filter fuel s => discoverCharacteristics_sim he h7' filter fuel hc s,
    fun filter fuel ch => discoverDescriptors_sim he h7' filter fuel hc ch, fun fuel force prof => discoverProfile_sim he h7' fuel force hc prof,
    fun fuel h => readLong_sim he h7' fuel hc h⟩

/-- **C122, discovery.** A first `DiscoverProfile` over the air returns the whole profile of the server. -/
theorem air_discover_profile (L : Link) (hL : L.Ok) (h7 : 7 ≤ L.cliTx) (radio : Radio) (hr : Faithful radio) (scratch : Nat → Bytes)
    (hs : ∀ k, (scratch k).length = 515) (ss : List (Svc α)) (hp : Proper ss) (hf : 1 + dbSize ss ≤ 65535) (srv : Server (CState α))
    (hdb : srv.db = newDB ss 1) (hm : 23 ≤ srv.mtu) (hrx : srv.mtu ≤ L.cliRx) (buf : Bytes) (hb : 7 ≤ buf.length) (txMTU rxMTU k : Nat) (force : Bool) :
    ∃ c', c'.peer.1 = srv ∧
      discoverProfile (airPeer L radio scratch) (enough ss) force ⟨(srv, k), buf, txMTU, rxMTU⟩ none = (some (svcProfs ss 1), .ok (some c')) := by
  obtain ⟨d', hd, hrun⟩ := discover_profile ss hp hf srv hdb hm ⟨srv, buf, txMTU, rxMTU⟩ rfl hb force
  obtain ⟨h1, h2⟩ := discoverProfile_sim (air_exchange_partial hL hr hs) h7 (enough ss) force (clientOver_sim (c := ⟨srv, buf, txMTU, rxMTU⟩) (k := k) hm hrx) none
  simp only [clientOver] at h1 h2
  rw [hrun] at h1 h2
  generalize hx : discoverProfile (airPeer L radio scratch) (enough ss) force ⟨(srv, k), buf, txMTU, rxMTU⟩ none = x at h1 h2
  obtain ⟨x1, x2⟩ := x
  simp only at h1 h2
  subst h1
  cases h2 with
  | ok h =>
    cases h with
    | some h => exact ⟨_, h.peer.1.trans hd, rfl⟩

/-- **C122, reading.** `ReadLongCharacteristic` over the air returns the whole value a handler serves. -/
theorem air_read_long (L : Link) (hL : L.Ok) (h7 : 7 ≤ L.cliTx) (radio : Radio) (hr : Faithful radio) (scratch : Nat → Bytes)
    (hs : ∀ k, (scratch k).length = 515) (srv : Server σ) (hm : 23 ≤ srv.mtu) (hrx : srv.mtu ≤ L.cliRx) (h : Nat) (a : Attr σ) (f : ReadH σ) (v : Bytes)
    (hh : h < 65536) (ha : srv.db.at h = some a) (hv : a.v = none) (hf : a.rh = some f) (hserves : Serves f v) (hvl : v.length < 65536)
    (buf : Bytes) (hb : 5 ≤ buf.length) (txMTU rxMTU k : Nat) (h2 : 2 ≤ txMTU) (hmt : txMTU ≤ srv.mtu) :
    ∃ c', readLong (airPeer L radio scratch) (v.length + 2) ⟨(srv, k), buf, txMTU, rxMTU⟩ h = .ok (some (c', v)) := by
  obtain ⟨d', hrun⟩ := readLong_returns_value_partial srv ⟨srv, buf, txMTU, rxMTU⟩ h a f v hh ha hv hf hserves hvl rfl hb h2 hmt
  have hsim := readLong_sim (air_exchange_partial hL hr hs) h7 (v.length + 2) (clientOver_sim (c := ⟨srv, buf, txMTU, rxMTU⟩) (k := k) hm hrx) h
  simp only [clientOver] at hsim
  rw [hrun] at hsim
  generalize readLong (airPeer L radio scratch) (v.length + 2) ⟨(srv, k), buf, txMTU, rxMTU⟩ h = x at hsim
  cases hsim with
  | ok h =>
    cases h with
    | some h =>
      rename_i a
      obtain ⟨c', v'⟩ := a
      exact ⟨c', by rw [show v' = v from h.2]⟩

/-- **C122, writing.** `Write` over the air runs the write handler of the attribute at the server, once, on exactly the bytes the client was given, and reports its verdict. -/
theorem air_write (L : Link) (hL : L.Ok) (radio : Radio) (hr : Faithful radio) (scratch : Nat → Bytes)
    (hs : ∀ k, (scratch k).length = 515) (srv : Server σ) (hm : 23 ≤ srv.mtu) (hrx : srv.mtu ≤ L.cliRx) (h : Nat) (a : Attr σ) (f : WriteH σ) (v : Bytes)
    (hh : h < 65536) (ha : srv.db.at h = some a) (hf : a.wh = some f) (st' : σ) (e : UInt8) (hres : f srv.st v = .ok (st', e))
    (buf : Bytes) (txMTU rxMTU k : Nat) (hv : v.length + 3 ≤ txMTU) (hb : txMTU ≤ buf.length) (htx : txMTU ≤ L.cliTx) :
    if e = 0 then ∃ c', c'.peer.1 = { srv with st := st' } ∧ write (airPeer L radio scratch) ⟨(srv, k), buf, txMTU, rxMTU⟩ h v = .ok c'
    else write (airPeer L radio scratch) ⟨(srv, k), buf, txMTU, rxMTU⟩ h v = .err (.att e) := by
  have hq := write_request_delivers srv h hh v a f st' e ha hf hres
  have hlen : (0x12 :: (put16 h ++ v)).length = v.length + 3 := by simp; omega
  have hsim := write_sim (air_exchange_partial hL hr hs) (clientOver_sim (c := ⟨srv, buf, txMTU, rxMTU⟩) (k := k) hm hrx) htx h v
  simp only [clientOver] at hsim
  by_cases he : e = 0
  · rw [if_pos he]
    rw [if_pos he] at hq
    obtain ⟨d', hd, hsend⟩ := send_server (c := ⟨srv, buf, txMTU, rxMTU⟩) (s := srv) (n := buf.length) (tx := txMTU) (rx := rxMTU) ⟨rfl, rfl, rfl, rfl⟩
      (req := 0x12 :: (put16 h ++ v)) (op := 0x13) (by omega) hq rfl (.inr rfl)
    have hrun : write serverPeer ⟨srv, buf, txMTU, rxMTU⟩ h v = .ok d' := by
      unfold write
      rw [if_neg (by simp only; omega), hsend]
      rfl
    rw [hrun] at hsim
    generalize write (airPeer L radio scratch) ⟨(srv, k), buf, txMTU, rxMTU⟩ h v = x at hsim ⊢
    cases hsim with
    | ok h => exact ⟨_, h.peer.1.trans hd.peer, rfl⟩
  · rw [if_neg he]
    rw [if_neg he] at hq
    obtain ⟨d', hd, hsend⟩ := send_server (c := ⟨srv, buf, txMTU, rxMTU⟩) (s := srv) (n := buf.length) (tx := txMTU) (rx := rxMTU) ⟨rfl, rfl, rfl, rfl⟩
      (req := 0x12 :: (put16 h ++ v)) (op := 0x01) (by omega) hq rfl (.inl rfl)
    have hrun : write serverPeer ⟨srv, buf, txMTU, rxMTU⟩ h v = .err (.att e) := by
      unfold write
      rw [if_neg (by simp only; omega), hsend]
      simp only [Go.bind_ok, checkError_error, Go.bind_err]
    rw [hrun] at hsim
    generalize write (airPeer L radio scratch) ⟨(srv, k), buf, txMTU, rxMTU⟩ h v = x at hsim ⊢
    cases hsim with
    | err _ => rfl

/-- **C122, the MTU.** `ExchangeMTU m` over the air (the client's connection takes `m` bytes from then on, client.go:84) gives 515; the server then uses `m`, within
what the client can receive. -/
theorem air_exchange_mtu (L : Link) (hL : L.Ok) (h23 : 23 ≤ L.cliTx) (radio : Radio) (hr : Faithful radio) (scratch : Nat → Bytes)
    (hs : ∀ k, (scratch k).length = 515) (srv : Server σ) (hm : 23 ≤ srv.mtu) (buf : Bytes) (rxMTU k m : Nat) (hb : 3 ≤ buf.length) (hb5 : buf.length ≤ 515) (h1 : 23 ≤ m)
    (h2 : m ≤ 515) (hrx : L.cliRx = m) :
    ∃ c', exchangeMTU (airPeer L radio scratch) ⟨(srv, k), buf, buf.length, rxMTU⟩ m = .ok (c', 515) ∧ c'.peer = ({ srv with mtu := m, rxMTU := 515 }, k + 2) ∧
      c'.txMTU = 515 ∧ c'.buf.length = 515 ∧ c'.rxMTU = m := by
  have hreq : handleRequest srv (0x02 :: put16 m) = .ok ({ srv with mtu := m, rxMTU := 515 }, some (0x03 :: put16 515)) :=
    mtu_request_accepted srv m h1 (by omega)
  have hcc := hL.cliTx
  have hc := hL.srvRx
  have hex : airPeer L radio scratch (srv, k) (0x02 :: put16 m) = .ok (({ srv with mtu := m, rxMTU := 515 }, k + 2), 0x03 :: put16 515) := by
    unfold airPeer
    simp only
    rw [transfer_delivers hr k _ _ _ _ _ _ (0x02 :: put16 m) hL.cliHandle hL.cliBuf.1 hL.cliBuf.2 hL.cliBufs (by simp; omega) (by simp; omega) (by simp) (hs k)]
    simp only [hreq]
    rw [transfer_delivers hr (k + 1) _ _ _ _ _ _ (0x03 :: put16 515) hL.srvHandle hL.srvBuf.1 hL.srvBuf.2 hL.srvBufs (by simp; omega) (by simp; omega) (by simp)
      (hs (k + 1))]
    rfl
  have hsend := send_ok (ex := airPeer L radio scratch) (c := ⟨(srv, k), buf, buf.length, m⟩) (req := 0x02 :: put16 m) (by simp; omega) hex
  have e1 : le16At (ε := CErr) (0x03 :: put16 515) 1 = .ok 515 := by rfl
  unfold exchangeMTU
  rw [if_neg (by omega)]
  simp only
  rw [hsend]
  simp only [Go.bind_ok, checkError_other (show (0x03 : UInt8) ≠ 0x01 by decide), e1]
  rw [if_neg (by simp)]
  split
  · exact ⟨_, rfl, rfl, rfl, by rw [List.length_replicate], rfl⟩
  · rename_i hne
    simp only [List.length_append, List.length_cons, put16_length, List.length_drop] at hne
    refine ⟨_, rfl, rfl, ?_, ?_, rfl⟩
    · simp only; omega
    · simp only [List.length_append, List.length_cons, put16_length, List.length_drop]; omega

/-- What is missing from C122: a response longer than the server's transmit MTU, which only a Prepare Write can have (C10), is never sent: the call fails after its timeout. -/
theorem air_long_response_lost (L : Link) (hL : L.Ok) (radio : Radio) (hr : Faithful radio) (scratch : Nat → Bytes) (hs : ∀ k, (scratch k).length = 515)
    (srv s' : Server σ) (k : Nat) (req rsp : Bytes) (hlen : req.length ≤ L.cliTx) (hq : handleRequest srv req = .ok (s', some rsp)) (hlong : s'.mtu < rsp.length) :
    airPeer L radio scratch (srv, k) req = .err .transport := by
  have hb := hL.cliTx
  have hc := hL.srvRx
  unfold airPeer
  simp only
  rw [transfer_delivers hr k _ _ _ _ _ _ req hL.cliHandle hL.cliBuf.1 hL.cliBuf.2 hL.cliBufs hlen (by omega) (by omega) (hs k)]
  simp only [hq]
  rw [transfer_too_long _ _ _ _ _ _ _ _ hlong]

/-! ## A faithful radio that cuts each PDU in two, in a different place each time -/

/-- The data of the packets the host wrote. -/
def dataOf (pkts : List Bytes) : Bytes := pkts.flatMap (·.drop 5)

/-- An ACL packet as the controller hands it to the host. -/
def rxPkt (pb : UInt8) (d : Bytes) : Bytes := 0x40 :: pb :: (put16 d.length ++ d)

def cuttingRadio : Radio := fun k pkts =>
  let d := dataOf pkts
  rxPkt 0x20 (d.take (4 + k % 20)) :: (if d.drop (4 + k % 20) = [] then [] else [rxPkt 0x10 (d.drop (4 + k % 20))])

private theorem parse_rxPkt (pb : UInt8) (d : Bytes) (h : d.length < 65536) :
    parseAcl (rxPkt pb d) = some ⟨le16 0x40 pb % 4096, le16 0x40 pb / 4096 % 4, le16 0x40 pb / 16384, d⟩ := by
  have e : put16 d.length = [UInt8.ofNat d.length, UInt8.ofNat (d.length / 256)] := rfl
  simp only [rxPkt, e, List.cons_append, List.nil_append, parseAcl]
  rw [if_pos]
  simp only [le16, UInt8.toNat_ofNat']
  omega

private theorem data_of_parseHci {q : Bytes} {f : Acl} (h : parseHci q = some f) : q.drop 5 = f.data := by
  unfold parseHci at h
  split at h
  · unfold parseAcl at h
    split at h
    · split at h
      · injection h with h; subst h; rfl
      · cases h
    · cases h
  · cases h

private theorem dataOf_sent : ∀ (pkts : List Bytes) (sent : List Acl), pkts.map parseHci = sent.map some → dataOf pkts = sent.flatMap (·.data)
  | [], [], _ => rfl
  | [], _ :: _, h => by cases h
  | _ :: _, [], h => by cases h
  | q :: qs, f :: fs, h => by
    simp only [List.map_cons, List.cons.injEq] at h
    have ih := dataOf_sent qs fs h.2
    unfold dataOf at ih ⊢
    rw [List.flatMap_cons, List.flatMap_cons, ih, data_of_parseHci h.1]

theorem cuttingRadio_faithful : Faithful cuttingRadio := by
  intro k pkts sent h h4 h6
  have hd := dataOf_sent pkts sent h
  rw [← hd] at h4 h6 ⊢
  unfold cuttingRadio
  simp only
  generalize dataOf pkts = d at *
  have hk : 4 ≤ 4 + k % 20 := by omega
  generalize 4 + k % 20 = n at hk
  by_cases he : d.drop n = []
  · rw [if_pos he]
    refine ⟨[⟨0x40, 2, 0, d.take n⟩], ?_, _, [], rfl, ?_, ?_, by simp⟩
    · rw [List.map_cons, parse_rxPkt _ _ (by rw [List.length_take]; omega)]; rfl
    · have := List.take_append_drop n d
      rw [he] at this
      simpa using this.symm
    · simp only [List.length_take]; omega
  · rw [if_neg he]
    refine ⟨[⟨0x40, 2, 0, d.take n⟩, ⟨0x40, 1, 0, d.drop n⟩], ?_, _, [_], rfl, ?_, ?_, ?_⟩
    · rw [List.map_cons, List.map_cons, parse_rxPkt _ _ (by rw [List.length_take]; omega), parse_rxPkt _ _ (by rw [List.length_drop]; omega)]; rfl
    · simp
    · simp only [List.length_take]; omega
    · intro g hg
      simp only [List.mem_singleton] at hg
      subst hg
      exact ⟨rfl, he⟩

/-- Two controllers with buffers of 27 and 251 bytes, default MTU. -/
def exampleLink : Link := ⟨0x40, 0x41, 27, 251, 20, 23, 23, 515⟩

/-- Non-vacuity: the parameters are sensible, and a value of 60 bytes is read through 27-byte buffers and a radio that cuts in changing places. -/
theorem air_example : exampleLink.Ok ∧ Faithful cuttingRadio ∧
    ∃ c', readLong (airPeer exampleLink cuttingRadio fun _ => List.replicate 515 0xEE) 62 ⟨(longServer 23, 0), List.replicate 23 0, 23, 23⟩ 3 =
      .ok (some (c', List.replicate 60 7)) := by
  have hL : exampleLink.Ok := ⟨by decide, by decide, by decide, by decide, by decide, by decide, by decide, by decide, by decide⟩
  refine ⟨hL, cuttingRadio_faithful, ?_⟩
  have := air_read_long exampleLink hL (by decide) cuttingRadio cuttingRadio_faithful (fun _ => List.replicate 515 0xEE) (fun _ => List.length_replicate) (longServer 23) (by decide)
    (by decide) 3 _ _ (List.replicate 60 7) (by decide) rfl rfl rfl (fun _ _ _ => rfl) (by simp) (List.replicate 23 0) (by simp) 23 23 0 (by decide) (by decide)
  exact this

end Ble.Air
