import Verif.Hci.HciPkt
set_option autoImplicit false

/-!
# Model of the connection table and the life of a connection

linux/hci/hci.go:195-238, 549-562, 790-909; conn.go:89-141, 458-493, 509-529. Connections are numbered in the order of their creation. The mutex `muConns` makes each access to the table a
step. What a connection does with its packets and buffers is modelled in `L2cap` and `Pool`.
-/

namespace Ble.Conns

open Ble.HciPkt Ble.AdvHist

/-- A connection (conn.go:22-82), as far as it is shared with the HCI. -/
structure Conn where
  handle : Nat
  slave : Bool
  /-- `c.smp` is not nil -/
  smp : Bool
  /-- packets put in `chInPkt`, in order -/
  rx : List Bytes := []
  /-- buffers returned to the pool on behalf of the controller -/
  returned : Nat := 0
  /-- `encryptionEnabled` -/
  enc : Bool := false
  /-- `chDone` is closed: `Disconnected()` fires -/
  done : Bool := false
  /-- `chInPkt` is closed: `Read` returns an error after the packets received so far -/
  rxClosed : Bool := false

structure State where
  /-- `h.conns` -/
  table : Nat → Option Nat
  /-- all connections ever created -/
  conns : List Conn
  /-- `h.smpEnabled` -/
  smpEnabled : Bool
  /-- `h.isOpen()` -/
  isOpen : Bool
  handler : Bool
  scan : Scan

/-- The state after `Init`. -/
def init (smp handler : Bool) (scan : Scan) : State := { table := fun _ => none, conns := [], smpEnabled := smp, isOpen := true, handler := handler, scan := scan }

/-- Change one connection. -/
def State.modify (s : State) (i : Nat) (f : Conn → Conn) : State :=
  { s with conns := match s.conns[i]? with | some c => s.conns.set i (f c) | none => s.conns }

/-- `cleanupConnectionHandle`: hci.go:851-894. Closing a closed channel panics. (Slave connections of a closed HCI are not announced as closed.) -/
def cleanup (s : State) (h : Nat) : Go Unit State :=
  match s.table h with
  | none => .ok s
  | some i =>
    match s.conns[i]? with
    | none => .panic
    | some c =>
      if !s.isOpen && c.slave then
        if c.rxClosed then .panic
        else .ok ({ s with table := fun x => if x = h then none else s.table x }.modify i fun c => { c with rxClosed := true })
      else if c.done || c.rxClosed then .panic
      else .ok ({ s with table := fun x => if x = h then none else s.table x }.modify i fun c => { c with done := true, rxClosed := true })

/-- What a packet's handler does to the table and to the connections: hci.go:555-556 (a send on a closed channel panics), 806-811, 908, 919, 948-951. The send does not block here: `chInPkt` is
taken to be unbounded. Effects for the commands, the vendor channel and the application do not touch connections. -/
def effect (s : State) : Eff → Go Unit State
  | .acl h p =>
    match s.table h with
    | none => .ok s
    | some i =>
      match s.conns[i]? with
      | none => .panic
      | some c => if c.rxClosed then .panic else .ok (s.modify i fun c => { c with rx := c.rx ++ [p] })
  | .completed h n =>
    match s.table h with
    | none => .ok s
    | some i => .ok (s.modify i fun c => { c with returned := c.returned + n })
  | .encryption h _ en =>
    match s.table h with
    | none => .ok s
    | some i => .ok (s.modify i fun c => { c with enc := en })
  | .disconnect h => cleanup s h
  | .connected h role _ => .ok { s with
      conns := s.conns ++ [{ handle := h, slave := role ≠ 0, smp := s.smpEnabled }]
      table := fun x => if x = h then some s.conns.length else s.table x }
  | _ => .ok s

def effects (s : State) : List Eff → Go Unit State
  | [] => .ok s
  | e :: es => do
    let s ← effect s e
    effects s es

/-- What the handlers of `HciPkt` see of the state. -/
def State.env (s : State) : Env :=
  { conns := fun h => ((s.table h).bind (s.conns[·]?)).map (·.smp), handler := s.handler, scan := s.scan }

/-- A packet from the controller: `sktProcessLoop`, hci.go:450-470. Errors are logged. -/
def packet (s : State) (b : Bytes) : Go Unit State :=
  match handlePkt s.env b with
  | .ok (es, scan) => effects { s with scan := scan } es
  | .err _ => .ok s
  | .panic => .panic

/-- The steps of a history. -/
inductive Ev where
  /-- a packet from the controller is handled -/
  | packet (b : Bytes)
  /-- `Close` of connection `i` has sent its Disconnect command and cleans up (conn.go:523-526). That it found `chDone` open before sending is not required: other steps may come between -/
  | close (i : Nat)
  /-- the reader of connection `i` failed (conn.go:121-131) -/
  | readerFailed (i : Nat)
  /-- `HCI.Close` (hci.go:226-238) -/
  | hciClose
  /-- `HCI.cleanup` (hci.go:195-223) for one handle -/
  | cleanupHandle (h : Nat)

def step (s : State) : Ev → Go Unit State
  | .packet b => Conns.packet s b
  | .close i | .readerFailed i =>
    match s.conns[i]? with
    | none => .ok s
    | some c => cleanup s c.handle
  | .hciClose => .ok { s with isOpen := false }
  | .cleanupHandle h => cleanup s h

/-- A history from a state. -/
def run (s : State) : List Ev → Go Unit State
  | [] => .ok s
  | e :: es => do
    let s ← step s e
    run s es

end Ble.Conns
