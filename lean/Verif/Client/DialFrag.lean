import Verif.Client.Ending
set_option autoImplicit false

/-!
# The goroutines of a dialled connection, with PDUs in fragments

`recombine` (hci/conn.go:394-456) over packets that are fragments of PDUs of the ATT channel and of others; the other goroutines as in `Ending`. A packet is described by what `recombine` can make of it: whether it is marked as continuing, and, should it
be read as the first packet of a PDU, which PDU that is and how many packets more it takes (their sizes and the length in the header determine this). Simplifications: those of `Ending`, but for fragments and other channels; packets too short for a
header crash the program (`L2cap`) and are left out here; what is done with a PDU of another channel takes no step of its own and ends (conn.go:438-453).
-/

namespace Ble.DialFrag

open Ble.Ending (Kind)

/-- A packet in `chInPkt`. -/
structure Frag where
  /-- the packet boundary flag says: continuing (conn.go:429) -/
  cont : Bool
  /-- read as a first packet: the ATT PDU, or none for a PDU of another channel -/
  pdu : Option Kind
  /-- read as a first packet: an ATT PDU longer than the receiving MPS (conn.go:411) -/
  big : Bool := false
  /-- read as a first packet: how many packets are missing until the PDU is complete -/
  more : Nat
deriving DecidableEq, Repr

structure State where
  /-- the other goroutines; `base.pkts` is not used -/
  base : Ending.State
  /-- `chInPkt` -/
  frags : List Frag := []
  /-- the PDU being put together, and the number of packets it still takes: conn.go:417-432 -/
  part : Option (Option Kind × Nat) := none
deriving DecidableEq, Repr

def init (server : Bool) : State := { base := Ending.init server }

inductive Ev where
  /-- the controller delivers a packet -/
  | arrive (f : Frag)
  /-- `recombine` takes a packet -/
  | take
  /-- `recombine` finds `chInPkt` closed and empty -/
  | recEnd
  /-- the other steps; `Ending.Ev.arrive`, `take` and `recEnd` are excluded -/
  | other (e : Ending.Ev)
deriving DecidableEq, Repr

/-- The PDU is complete: conn.go:434-454. -/
def complete (s : State) (p : Option Kind) : State :=
  match p with
  | some k => { s with base := { s.base with rdr := .sending k }, part := none }
  | none => { s with part := none }

/-- `recombine` returns an error other than `io.EOF`; the connection is taken down: conn.go:123-136. -/
def fail (s : State) : State := { s with base := { s.base with rdr := .ended, up := false }, part := none }

/-- One step; `none`: not possible. -/
def step (s : State) : Ev → Option State
  -- hci.go:549-562
  | .arrive f => if s.base.up ∧ s.frags.length < 16 then some { s with frags := s.frags ++ [f] } else none
  | .take =>
    if s.base.rdr = .idle then
      match s.part, s.frags with
      | none, f :: rest =>
        let s := { s with frags := rest }
        -- conn.go:411-413: decided when the first packet is there
        if f.big then some (fail s)
        else if f.more = 0 then some (complete s f.pdu)
        else some { s with part := some (f.pdu, f.more) }
      | some (p, k), f :: rest =>
        let s := { s with frags := rest }
        -- conn.go:429
        if f.cont = false then some (fail s)
        else if k ≤ 1 then some (complete s p)
        else some { s with part := some (p, k - 1) }
      | _, [] => none
    else none
  -- conn.go:402, or 429 in the middle of a PDU
  | .recEnd => if s.base.rdr = .idle ∧ s.frags = [] ∧ s.base.up = false then some { s with base := { s.base with rdr := .ended }, part := none } else none
  | .other (.arrive _) | .other .take | .other .recEnd => none
  | .other e =>
    match Ending.step s.base e with
    | some b => some { s with base := b }
    | none => none

def run : State → List Ev → Option State := runT step

end Ble.DialFrag
