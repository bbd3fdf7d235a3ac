import Verif.Client.Loop
set_option autoImplicit false

/-!
# Back-pressure: the event loop, the queues of each connection and the ATT client that reads them

linux/hci/hci.go:444-471 (`sktProcessLoop`), 549-562 (`handleACL`), 937-954 (`handleNumberOfCompletedPackets`), linux/hci/conn.go:103-104 and 121-140 (the two queues and the goroutine between them), 186-214 (`Read`),
394-455 (`recombine`), linux/hci/buffer.go (the transmit buffers), linux/att/client.go:509-717 (`sendReq`, `Loop`), as a transition system whose steps are the points where goroutines meet.

Simplifications: every L2CAP PDU is one ACL packet and carries one ATT PDU of at least one octet (fragments: L2cap.lean; other channels: Signal.lean, Coc.lean); every connection is a central's and is up throughout, so a Disconnection Complete
event is `evt` and has no effect; a write takes one buffer; the mutex of the buffers (Pool.lean), which only blocks more, and closing of the device are not modelled. `inc` and `ch` of the client never block `Loop` (client.go:676, 707: `default`).
-/

namespace Ble.Flow

open Ble.Client (Kind classify rspOfReq)

/-- An ATT PDU: opcode and parameters. -/
structure Pdu where
  op : UInt8
  par : Bytes
deriving DecidableEq, Repr

/-- What `Loop` takes the PDU for: client.go:662-716. -/
def Pdu.kind (p : Pdu) : Kind :=
  match classify (p.op :: p.par) with
  | .ok k => k
  | _ => .request

/-- What the controller sends to the host. -/
inductive Item where
  /-- ACL data for a connection -/
  | acl (h : Nat) (p : Pdu)
  /-- Number Of Completed Packets -/
  | completed (h n : Nat)
  /-- any other event, for instance the Command Complete event of command number `n` -/
  | evt (n : Nat)
deriving DecidableEq, Repr

/-- `sendReq` of the connection's client: client.go:514-542. -/
inductive Call where
  | idle
  /-- in the `select`, with the opcode of the request -/
  | waiting (op : UInt8)
  /-- writing the error response for an unexpected PDU: client.go:531 -/
  | rejecting (op : UInt8)
deriving DecidableEq, Repr

/-- What `Loop` of the connection's client is doing. -/
inductive Reader where
  /-- in `Read`: client.go:630 -/
  | reading
  /-- handing a response over on the unbuffered `rspc`: client.go:683-692 -/
  | offering (p : Pdu)
  /-- writing the confirmation of an indication: client.go:714 -/
  | confirming
deriving DecidableEq, Repr

structure Lnk where
  /-- `chInPkt`: 16 places (conn.go:103) -/
  pkts : List Pdu := []
  /-- the PDU `recombine` has taken and wants to put into `chInPDU` (conn.go:437) -/
  hand : Option Pdu := none
  /-- `chInPDU`: 16 places (conn.go:104) -/
  pdus : List Pdu := []
  reader : Reader := .reading
  call : Call := .idle
  /-- transmit buffers in use by the connection: `Client.sent` (buffer.go:33) -/
  held : Nat := 0
  /-- the PDUs `Loop` has read -/
  seen : List Pdu := []
deriving DecidableEq, Repr

structure St where
  /-- what the controller has sent and the event loop has not handled -/
  input : List Item := []
  lnks : List Lnk
  /-- free transmit buffers: `Pool.ch` -/
  free : Nat
  /-- what the event loop has handled -/
  handled : List Item := []
deriving DecidableEq, Repr

/-- `n` connections, whose clients are idle, and `free` buffers. -/
def init (n free : Nat) : St := { lnks := List.replicate n {}, free := free }

def upd (s : St) (h : Nat) (l : Lnk) : St := { s with lnks := s.lnks.set h l }

inductive Ev where
  /-- the controller sends an item -/
  | arrive (i : Item)
  /-- the event loop handles the next item: hci.go:468 -/
  | handle
  /-- the goroutine of a connection takes a packet: conn.go:400 -/
  | take (h : Nat)
  /-- it puts the PDU into `chInPDU`: conn.go:437 -/
  | put (h : Nat)
  /-- `Loop` reads a PDU: client.go:630 -/
  | read (h : Nat)
  /-- `sendReq` receives from `rspc`: client.go:521 -/
  | receive (h : Nat)
  /-- `Loop` has written a confirmation: client.go:714 -/
  | confirm (h : Nat)
  /-- `sendReq` has written an error response: client.go:531 -/
  | reject (h : Nat)
  /-- the application calls a method that sends a request: client.go:516 -/
  | call (h : Nat) (op : UInt8)
  /-- `sendReq` has waited for 2 s: client.go:537 -/
  | timeout (h : Nat)
  /-- anything else writes on the connection -/
  | write (h : Nat)
deriving DecidableEq, Repr

/-- What the reader does after it has read a PDU: client.go:666-716. -/
def next (p : Pdu) : Reader :=
  match p.kind with
  | .request => .reading
  | .response => .offering p
  | .value true => .confirming
  | .value false => .reading

/-- One step; `none` when it cannot happen in this state: a goroutine that would block does not move. -/
def step (s : St) : Ev → Option St
  | .arrive i => some { s with input := s.input ++ [i] }
  | .handle =>
    match s.input with
    | [] => none
    | i :: rest =>
      let s' := { s with input := rest, handled := s.handled ++ [i] }
      match i with
      | .acl h p =>
        match s.lnks[h]? with
        | none => some s'
        | some l => if l.pkts.length < 16 then some (upd s' h { l with pkts := l.pkts ++ [p] }) else none
      | .completed h n =>
        match s.lnks[h]? with
        | none => some s'
        | some l => some { upd s' h { l with held := l.held - min n l.held } with free := s.free + min n l.held }
      | .evt _ => some s'
  | .take h =>
    match s.lnks[h]? with
    | none => none
    | some l =>
      match l.hand, l.pkts with
      | none, p :: rest => some (upd s h { l with pkts := rest, hand := some p })
      | _, _ => none
  | .put h =>
    match s.lnks[h]? with
    | none => none
    | some l =>
      match l.hand with
      | some p => if l.pdus.length < 16 then some (upd s h { l with hand := none, pdus := l.pdus ++ [p] }) else none
      | none => none
  | .read h =>
    match s.lnks[h]? with
    | none => none
    | some l =>
      match l.reader, l.pdus with
      | .reading, p :: rest => some (upd s h { l with pdus := rest, seen := l.seen ++ [p], reader := next p })
      | _, _ => none
  | .receive h =>
    match s.lnks[h]? with
    | none => none
    | some l =>
      match l.reader, l.call with
      | .offering p, .waiting op =>
        some (upd s h { l with reader := .reading, call := if p.op = 0x01 ∨ p.op = rspOfReq op then .idle else .rejecting op })
      | _, _ => none
  | .confirm h =>
    match s.lnks[h]? with
    | none => none
    | some l =>
      if l.reader = .confirming ∧ 0 < s.free then some { upd s h { l with reader := .reading, held := l.held + 1 } with free := s.free - 1 } else none
  | .reject h =>
    match s.lnks[h]? with
    | none => none
    | some l =>
      match l.call with
      | .rejecting op => if 0 < s.free then some { upd s h { l with call := .waiting op, held := l.held + 1 } with free := s.free - 1 } else none
      | _ => none
  | .call h op =>
    match s.lnks[h]? with
    | none => none
    | some l =>
      if l.call = .idle ∧ 0 < s.free then some { upd s h { l with call := .waiting op, held := l.held + 1 } with free := s.free - 1 } else none
  | .timeout h =>
    match s.lnks[h]? with
    | none => none
    | some l =>
      match l.call with
      | .waiting _ => some (upd s h { l with call := .idle })
      | _ => none
  | .write h =>
    match s.lnks[h]? with
    | none => none
    | some l => if 0 < s.free then some { upd s h { l with held := l.held + 1 } with free := s.free - 1 } else none

def run (s : St) : List Ev → Option St
  | [] => some s
  | e :: es =>
    match step s e with
    | none => none
    | some s' => run s' es

end Ble.Flow
