import Verif.Att.SrvEnd
import Verif.Hci.L2cap
set_option autoImplicit false

/-!
# The goroutines of an accepted connection, in octets

`recombine` (hci/conn.go:394-456) over the packets as they come from the controller, with the parsers of `L2cap`; the other goroutines as in `SrvEnd`. Simplifications: those of `SrvEnd`, but for fragments and other channels; what is done with a PDU of another channel takes no
step of its own and ends (conn.go:438-453); of a PDU with more octets than its header says, those after are left out when the server reads it (they can only matter if the PDU is longer than the buffer of 515 octets, `L2cap.bufWrite`).
-/

namespace Ble.SrvBytes

open Ble.SrvEnd (Pdu)
open Ble.L2cap (pktData pktPbf pduLen pduCid cidAtt)

/-- A packet in `chInPkt`. -/
structure Packet where
  bytes : Bytes
  /-- `c.rxMPS` at the time at which the packet is taken, should it then be the first one of a PDU; `SetRxMTU` (conn.go:560) may change it at any time -/
  mps : Nat
deriving DecidableEq, Repr

/-- A PDU that is begun: what has been collected, and the length its header says. -/
abbrev Part := Option (Bytes × Nat)

/-- What `recombine` makes of a packet. -/
inductive Out where
  | done (p : Bytes)
  | wait (p : Bytes) (dlen : Nat)
  | fail
  /-- run-time panic -/
  | crash
deriving DecidableEq, Repr

/-- The condition of the loop: conn.go:421. -/
def collected (p : Bytes) (dlen : Nat) : Out := if p.length < 4 + dlen then .wait p dlen else .done p

/-- `recombine`, for one packet: conn.go:400-420 for the first packet of a PDU, 421-432 for others. -/
def out : Part → Packet → Out
  | none, f =>
    match pktData f.bytes with
    | none => .crash
    | some p =>
      match pduCid p, pduLen p with
      | some cid, some dlen => if cid = cidAtt ∧ dlen > f.mps then .fail else collected p dlen
      | _, _ => .crash
  | some (p, dlen), f =>
    match pktPbf f.bytes with
    | none => .crash
    | some b =>
      if b &&& 1 = 0 then .fail
      else match pktData f.bytes with
        | none => .crash
        | some d => collected (p ++ d) dlen

/-- What a PDU is for the server: none on other channels (conn.go:434-454). `Read` fails or returns no octets (conn.go:199-207, att/server.go:140), or the PDU is a confirmation (att/server.go:146), or a request; `nm` names requests by their octets. -/
def classify (nm : Bytes → Nat) (p : Bytes) : Option Pdu :=
  if pduCid p = some cidAtt then
    match pduLen p with
    | none => some .empty
    | some n => match (p.drop 4).take n with
      | [] => some .empty
      | b :: bs => if 515 < n then some .empty else if b = 0x1e then some .conf else some (.req (nm (b :: bs)))
  else none

structure State where
  /-- the other goroutines; `base.pkts` and `base.received` are not used -/
  base : SrvEnd.State := {}
  /-- `chInPkt` -/
  frags : List Packet := []
  /-- conn.go:408-432 -/
  part : Part := none
  /-- the program has crashed -/
  crashed : Bool := false
  /-- history: everything the controller has delivered -/
  got : List Packet := []
deriving DecidableEq, Repr

def init : State := {}

inductive Ev where
  /-- the controller delivers a packet -/
  | arrive (f : Packet)
  /-- `recombine` takes a packet -/
  | take
  /-- `recombine` finds `chInPkt` closed and empty -/
  | recEnd
  /-- the other steps; `SrvEnd.Ev.arrive`, `take` and `recEnd` are excluded -/
  | other (e : SrvEnd.Ev)
deriving DecidableEq, Repr

/-- The PDU is complete: conn.go:434-454. -/
def complete (s : State) (p : Option Pdu) : State :=
  match p with
  | some q => { s with base := { s.base with rdr := .sending q }, part := none }
  | none => { s with part := none }

/-- `recombine` returns an error other than `io.EOF`; the connection is taken down: conn.go:123-136. -/
def fail (s : State) : State := { s with base := { s.base with rdr := .ended, up := false }, part := none }

/-- A step of a program that has not crashed; `none`: not possible. After a crash what the goroutines have done does not matter; nothing follows. -/
def stepUp (nm : Bytes → Nat) (s : State) : Ev → Option State
  -- hci.go:549-562
  | .arrive f => if s.base.up ∧ s.frags.length < 16 then some { s with frags := s.frags ++ [f], got := s.got ++ [f] } else none
  | .take =>
    if s.base.rdr = .idle then
      match s.frags with
      | f :: rest =>
        match out s.part f with
        | .done p => some (complete { s with frags := rest } (classify nm p))
        | .wait p dlen => some { s with frags := rest, part := some (p, dlen) }
        | .fail => some (fail { s with frags := rest })
        | .crash => some (fail { s with frags := rest, crashed := true })
      | [] => none
    else none
  -- conn.go:402, or 429 in the middle of a PDU
  | .recEnd => if s.base.rdr = .idle ∧ s.frags = [] ∧ s.base.up = false then some { s with base := { s.base with rdr := .ended }, part := none } else none
  | .other (.arrive _) | .other .take | .other .recEnd => none
  | .other e =>
    match SrvEnd.step s.base e with
    | some b => some { s with base := b }
    | none => none

/-- One step; `none`: not possible. -/
def step (nm : Bytes → Nat) (s : State) (e : Ev) : Option State := if s.crashed then none else stepUp nm s e

def run (nm : Bytes → Nat) : State → List Ev → Option State := runT (step nm)

end Ble.SrvBytes
