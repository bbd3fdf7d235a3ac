import Verif.Basic
set_option autoImplicit false

/-!
# Model of L2CAP over HCI ACL: fragmentation, recombination, dispatch

linux/hci/conn.go. `leFrame` (conn.go:66) is never set anywhere in /repo, so the branches under it are not modelled.
-/

namespace Ble.L2cap

/-- `cidLEAtt`, `cidLESignal`, `CidSMP` (const.go:23-27) and the dynamic range (coc.go). -/
def cidAtt : Nat := 4
def cidSignal : Nat := 5
def cidSmp : Nat := 6

/-! ## Sending -/

/-- The ACL packet the host writes for one fragment: conn.go:355-372: packet type, handle and flags, length, data.
`flags` is `pbfHostToControllerStart<<4 = 0` or `pbfContinuing<<4 = 0x10`. -/
def aclPacket (handle flags : Nat) (frag : Bytes) : Bytes :=
  0x02 :: (put16 (handle ||| (flags <<< 8)) ++ put16 frag.length ++ frag)

/-- The loop of `writePDU` (conn.go:347-389) after `n` buffers have been obtained from the pool: the packets written and the part of the PDU not yet
sent. `cap` is the capacity of a pool buffer. No error from the socket. The loop has ended when nothing is left to send. -/
def writeLoop (handle cap : Nat) : Nat → Nat → Bytes → List Bytes × Bytes
  | 0, _, pdu => ([], pdu)
  | n + 1, flags, pdu =>
    if pdu = [] then ([], [])
    else
      let flen := if pdu.length > cap - 1 - 4 then cap - 1 - 4 else pdu.length
      let r := writeLoop handle cap n 0x10 (pdu.drop flen)
      (aclPacket handle flags (pdu.take flen) :: r.1, r.2)

/-- `writePDU`: conn.go:328-391, on an open connection. `cap` is 1+4+bufSize (hci.go:186). -/
def writePDU (handle bufSize n : Nat) (pdu : Bytes) : List Bytes × Bytes := writeLoop handle (1 + 4 + bufSize) n 0 pdu

/-- The L2CAP basic frame built by `Write`: conn.go:226-234. -/
def bframe (cid : Nat) (sdu : Bytes) : Bytes := put16 sdu.length ++ put16 cid ++ sdu

/-- `Conn.Write`: conn.go:217-254: `none` when the payload exceeds the MTU; otherwise what is written (the second loop never runs). -/
def connWrite (handle bufSize txMTU n : Nat) (sdu : Bytes) : Option (List Bytes × Bytes) :=
  if sdu.length > txMTU then none else some (writePDU handle bufSize n (bframe cidAtt sdu))

/-! ## Receiving -/

/-- Outcome of a step that consumes packets from `chInPkt`. -/
inductive Recv (α : Type) where
  /-- complete; the packets not consumed -/
  | done (a : α) (rest : List Bytes)
  /-- waiting for another packet -/
  | wait
  /-- an error is returned: the connection is torn down -/
  | fail
  /-- run-time panic: the process dies -/
  | panic
deriving Repr, DecidableEq

/-- `packet.pbf`: conn.go:580. -/
def pktPbf (a : Bytes) : Option Nat :=
  match a[1]? with
  | some y => some ((y.toNat >>> 4) &&& 3)
  | none => none

/-- `packet.data`: conn.go:583: `a[4:]`; panics for fewer than four bytes. -/
def pktData (a : Bytes) : Option Bytes := if 4 ≤ a.length then some (a.drop 4) else none

/-- `pdu.dlen`: conn.go:587. -/
def pduLen (p : Bytes) : Option Nat :=
  match p with
  | a :: b :: _ => some (le16 a b)
  | _ => none

/-- `pdu.cid`: conn.go:588. -/
def pduCid (p : Bytes) : Option Nat :=
  match p with
  | _ :: _ :: c :: d :: _ => some (le16 c d)
  | _ => none

/-- The loop of `recombine` that collects continuation fragments: conn.go:421-432. -/
def collect (p : Bytes) (dlen : Nat) : List Bytes → Recv Bytes
  | [] => if p.length < 4 + dlen then .wait else .done p []
  | q :: qs =>
    if p.length < 4 + dlen then
      match pktPbf q with
      | none => .panic
      | some f =>
        if f &&& 1 = 0 then .fail
        else match pktData q with
          | none => .panic
          | some d => collect (p ++ d) dlen qs
    else .done p (q :: qs)

/-- `recombine` up to the dispatch: conn.go:394-432. -/
def recombine (rxMPS : Nat) : List Bytes → Recv Bytes
  | [] => .wait
  | pkt :: pkts =>
    match pktData pkt with
    | none => .panic
    | some p =>
      match pduCid p, pduLen p with
      | some cid, some dlen =>
        if cid = cidAtt ∧ dlen > rxMPS then .fail else collect p dlen pkts
      | _, _ => .panic

/-- Where `recombine` sends a complete PDU: conn.go:434-454. -/
inductive Delivery where
  | att (p : Bytes)
  | signal (p : Bytes)
  | smp (p : Bytes)
  | dynamic (p : Bytes)
  | unknown (p : Bytes)
deriving Repr, DecidableEq

/-- The dispatch on the CID: conn.go:434-454, with minDynamicCID = 0x40 and maxDynamicCID = 0xffff (coc.go). -/
def dispatch (p : Bytes) : Delivery :=
  match pduCid p with
  | some cid =>
    if cid = cidAtt then .att p
    else if cid = cidSignal then .signal p
    else if cid = cidSmp then .smp p
    else if 0x40 ≤ cid ∧ cid ≤ 0xffff then .dynamic p
    else .unknown p
  | none => .unknown p

/-- How the receive loop of a connection ended. -/
inductive Fin where
  | waiting
  | failed
  | crashed
deriving Repr, DecidableEq

theorem collect_rest {p : Bytes} {dlen : Nat} {pkts : List Bytes} {q : Bytes} {rest : List Bytes}
    (h : collect p dlen pkts = .done q rest) : rest.length ≤ pkts.length := by
  induction pkts generalizing p with
  | nil =>
    unfold collect at h
    by_cases hc : p.length < 4 + dlen
    · rw [if_pos hc] at h; cases h
    · rw [if_neg hc] at h; injection h with _ h; subst h; simp
  | cons a as ih =>
    unfold collect at h
    by_cases hc : p.length < 4 + dlen
    · rw [if_pos hc] at h
      split at h
      · cases h
      · split at h
        · cases h
        · split at h
          · cases h
          · have := ih h; simp; omega
    · rw [if_neg hc] at h; injection h with _ h; subst h; simp

theorem recombine_rest {m : Nat} {pkts : List Bytes} {q : Bytes} {rest : List Bytes}
    (h : recombine m pkts = .done q rest) : rest.length < pkts.length := by
  unfold recombine at h
  split at h
  · cases h
  · split at h
    · cases h
    · split at h
      · split at h
        · cases h
        · have := collect_rest h; simp; omega
      · cases h

/-- The receive goroutine of a connection (conn.go:122-139) on the packets that arrive: what is delivered, and how it ends. -/
def recvLoop (rxMPS : Nat) (pkts : List Bytes) : List Delivery × Fin :=
  match _h : recombine rxMPS pkts with
  | .done p rest => let r := recvLoop rxMPS rest; (dispatch p :: r.1, r.2)
  | .wait => ([], .waiting)
  | .fail => ([], .failed)
  | .panic => ([], .crashed)
termination_by pkts.length
decreasing_by exact recombine_rest _h

/-- `bytes.NewBuffer(sdu)`, `Reset`, `Write(data)` (conn.go:206-208) seen from the caller's array `buf`: the data goes to its start if it fits, otherwise the
`bytes.Buffer` reallocates and the caller's array keeps its old contents. -/
def bufWrite (buf data : Bytes) : Bytes := if data.length ≤ buf.length then data ++ buf.drop data.length else buf

/-- `Conn.Read`: conn.go:186-214, for the PDU `p` taken from `chInPDU` and a caller's buffer `buf` (length = capacity): the caller's buffer afterwards and the
count returned. `recombine` only queues PDUs at least as long as their length field says, so the refill loop (209-212) is not entered. -/
def connRead (p buf : Bytes) : Go Unit (Bytes × Nat) :=
  if p = [] then .err ()
  else match pduLen p with
    | none => .panic
    | some slen =>
      if p.length < 4 then .panic
      else if buf.length < slen then .err ()
      else .ok (bufWrite buf (p.drop 4), slen)

end Ble.L2cap
