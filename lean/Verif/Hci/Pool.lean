import Verif.Basic
set_option autoImplicit false

/-!
# Model of the ACL transmit buffers shared by all connections

linux/hci/buffer.go, `writePDU` (conn.go:328-391), `cleanupConnectionHandle` (hci.go:851-894), `handleNumberOfCompletedPackets` (hci.go:937-954),
`handleLEConnectionComplete` (hci.go:790-839), `handleDisconnectionComplete` (hci.go:896-909), `Conn.Close` (conn.go:514-529), at the granularity of
lock operations, together with what the controller holds.

Simplifications: an event is handled by the host at the moment the controller raises it (the queue of bytes in between is not modelled); the delivery of a new
connection to `Dial` or `Accept` (channels `chMasterConn`, `chSlaveConn`) is not modelled; the payload is not modelled (see L2cap.lean).
-/

namespace Ble.Pool

/-- Replace the value of a function at one point. -/
def upd {α : Type} (f : Nat → α) (i : Nat) (v : α) : Nat → α := fun j => if j = i then v else f j

/-- The writer that holds the pool mutex: which connection, how many fragments it still has to send, whether it has taken a buffer it has not sent yet. -/
structure Writer where
  conn : Nat
  left : Nat
  hasBuf : Bool
deriving DecidableEq, Repr

/-- Connections are numbered in the order in which they are made; buffers are numbered 0 … cnt-1. -/
structure St where
  /-- `Pool.ch` -/
  free : List Nat
  /-- `Client.sent` of each connection -/
  sent : Nat → List Nat
  /-- `HCI.conns`: handle to connection -/
  conns : Nat → Option Nat
  /-- `chDone` of the connection is closed -/
  closed : Nat → Bool
  /-- the pool mutex -/
  lock : Option Writer
  /-- `cleanupConnectionHandle` holds `muConns` and waits for the pool mutex, for this connection -/
  cleaning : Option Nat
  /-- number of connections made so far -/
  next : Nat
  handleOf : Nat → Nat
  slave : Nat → Bool
  /-- `h.isOpen()` -/
  isOpen : Bool
  /-- controller: number of packets of this connection it holds -/
  ctl : Nat → Nat
  /-- controller: the link is up -/
  link : Nat → Bool

/-- After `Init` (hci.go:186): `NewPool` (buffer.go:19-28) with `cnt = bufCnt - 1` buffers. -/
def init (cnt : Nat) : St :=
  { free := List.range cnt, sent := fun _ => [], conns := fun _ => none, closed := fun _ => false, lock := none, cleaning := none, next := 0,
    handleOf := fun _ => 0, slave := fun _ => false, isOpen := true, ctl := fun _ => 0, link := fun _ => false }

/-- `Put` (buffer.go:60-66) `k` times: the oldest buffers of the connection go back to the pool. -/
def putN (s : St) (c k : Nat) : St :=
  { s with free := s.free ++ (s.sent c).take k, sent := upd s.sent c ((s.sent c).drop k) }

/-- `cleanupConnectionHandle` up to the pool lock: hci.go:851-890. If the handle is not known nothing happens. `chDone` is closed unless the device is closed and
the connection is a peripheral's (the condition of hci.go:863). -/
def cleanupStart (s : St) (h : Nat) : St :=
  match s.conns h with
  | none => s
  | some c =>
    { s with conns := upd s.conns h none, closed := if ¬ s.isOpen ∧ s.slave c then s.closed else upd s.closed c true, cleaning := some c }

/-- What can happen. -/
inductive Act where
  /-- LE Connection Complete for a handle -/
  | connect (h : Nat) (slave : Bool)
  /-- a goroutine calls `writePDU` with a PDU of `n` fragments and gets the pool mutex -/
  | wStart (c n : Nat)
  /-- `Get` returns -/
  | wGet (c : Nat)
  /-- the fragment is written to the controller -/
  | wXmit (c : Nat)
  /-- the write loop ends because the PDU is sent -/
  | wStop (c : Nat)
  /-- the write loop ends because `chDone` is closed or the socket fails -/
  | wFail (c : Nat)
  /-- Number Of Completed Packets for connection `c`'s link -/
  | complete (c k : Nat)
  /-- Disconnection Complete for connection `c`'s link, for a reason other than 0x16 -/
  | linkDown (c : Nat)
  /-- Disconnection Complete for connection `c`'s link with reason 0x16 (connection terminated by local host), which the host ignores (hci.go:900-905) -/
  | linkDownLocal (c : Nat)
  /-- `Close` after sending the Disconnect command, or the clean-up after a receive error (conn.go:131) -/
  | localCleanup (c : Nat)
  /-- the clean-up in progress gets the pool mutex: `PutAll` (hci.go:890-892) -/
  | cleanupEnd
  /-- `HCI.Close` -/
  | hciClose
deriving DecidableEq, Repr

/-- One step; `none` when the action cannot happen in this state. -/
def step (s : St) : Act → Option St
  | .connect h sl =>
    -- muConns is needed; the controller uses a handle for one link at a time
    if s.cleaning = none ∧ (List.range s.next).all (fun c => !(s.link c && s.handleOf c == h)) then
      some { s with conns := upd s.conns h (some s.next), next := s.next + 1, handleOf := upd s.handleOf s.next h, slave := upd s.slave s.next sl,
                    link := upd s.link s.next true }
    else none
  | .wStart c n =>
    if c < s.next ∧ s.lock = none then
      if s.closed c then some s else some { s with lock := some ⟨c, n, false⟩ }
    else none
  | .wGet c =>
    match s.lock, s.free with
    | some w, b :: r => if w.conn = c ∧ 0 < w.left ∧ w.hasBuf = false then
        some { s with free := r, sent := upd s.sent c (s.sent c ++ [b]), lock := some { w with hasBuf := true } } else none
    | _, _ => none
  | .wXmit c =>
    match s.lock with
    | some w => if w.conn = c ∧ w.hasBuf ∧ s.closed c = false then
        some { s with lock := some ⟨c, w.left - 1, false⟩, ctl := if s.link c then upd s.ctl c (s.ctl c + 1) else s.ctl } else none
    | none => none
  | .wStop c =>
    match s.lock with
    | some w => if w.conn = c ∧ w.left = 0 ∧ w.hasBuf = false then some { s with lock := none } else none
    | none => none
  | .wFail c =>
    match s.lock with
    | some w => if w.conn = c ∧ w.hasBuf then some { s with lock := none } else none
    | none => none
  | .complete c k =>
    if s.cleaning = none ∧ c < s.next ∧ s.link c ∧ k ≤ s.ctl c then
      let s' := { s with ctl := upd s.ctl c (s.ctl c - k) }
      match s.conns (s.handleOf c) with
      | none => some s'
      | some d => some (putN s' d k)
    else none
  | .linkDown c =>
    if s.cleaning = none ∧ c < s.next ∧ s.link c then
      some (cleanupStart { s with link := upd s.link c false, ctl := upd s.ctl c 0 } (s.handleOf c))
    else none
  | .linkDownLocal c =>
    if c < s.next ∧ s.link c then some { s with link := upd s.link c false, ctl := upd s.ctl c 0 } else none
  | .localCleanup c =>
    if s.cleaning = none ∧ c < s.next then some (cleanupStart s (s.handleOf c)) else none
  | .cleanupEnd =>
    match s.cleaning, s.lock with
    | some c, none => some { s with free := s.free ++ s.sent c, sent := upd s.sent c [], cleaning := none }
    | _, _ => none
  | .hciClose => some { s with isOpen := false }

/-- Any sequence of steps. -/
def run (s : St) : List Act → Option St
  | [] => some s
  | a :: as => (step s a).bind fun s' => run s' as

/-- The total over all connections made so far. -/
def total (s : St) (f : Nat → Nat) : Nat := ((List.range s.next).map f).sum

end Ble.Pool
