import Verif.Trans
import Verif.Hci.Conns
import Verif.Hci.ConnsSpec
set_option autoImplicit false

/-!
# Connections of the host and links of the controller

linux/hci/hci.go:549-562 (`handleACL`), conn.go:328-391 (`writePDU`: what is written on a connection is sent to the controller with the connection's handle, unless `chDone` is closed), 515-529 (`Close`), hci.go:790-909 (the events), over the connection table of `Conns`. The
controller is what the Core specification says [Vol 4, Part E]: links with handles that are unique among the links in existence, events in order, data sent to the link that has the handle. Link `i` is the `i`-th one made; the host makes connection
`i` for it. Simplifications: one write is one step; events wait in a queue until the host handles them (hci.go:444-471), data and events in one order, as on the sockets and serial lines the library uses; the HCI stays open; `chInPkt` is taken to be unbounded, as in `Conns`.
-/

namespace Ble.Links

open Ble.Conns

structure Link where
  handle : Nat
  role : UInt8
  addr : Bytes
  up : Bool

/-- An event on its way to the host. -/
inductive Note where
  /-- LE Connection Complete for link `i` -/
  | made (i : Nat)
  /-- Disconnection Complete -/
  | lost (handle : Nat) (reason : UInt8)
  /-- an ACL data packet from link `i`; `rest` is its length field and data -/
  | data (i : Nat) (handle flags : Nat) (rest : Bytes)
deriving DecidableEq

structure State where
  links : List Link
  /-- events the host has not handled yet -/
  notes : List Note
  host : Conns.State
  /-- `Close` calls between the Disconnect command and the cleanup (conn.go:519-526) -/
  closing : List Nat
  /-- for each write in order: the connection it was made on, and the link it went to -/
  sent : List (Nat × Option Nat)
  /-- for each packet the controller received from a peer, in order: the link, and the packet without its type octet -/
  air : List (Nat × Bytes)

def init (smp handler : Bool) (scan : AdvHist.Scan) : State := ⟨[], [], Conns.init smp handler scan, [], [], []⟩

/-- The link that has the handle now. -/
def target (ls : List Link) (h : Nat) : Option Nat := ls.findIdx? fun l => l.up && l.handle == h

def takeDown (ls : List Link) (i : Nat) : List Link :=
  match ls[i]? with
  | some l => ls.set i { l with up := false }
  | none => ls

inductive Ev where
  /-- another device and the controller make a link -/
  | connect (handle : Nat) (role : UInt8) (addr : Bytes)
  /-- link `i` is lost, or its peer ends it -/
  | lose (i : Nat) (reason : UInt8)
  /-- the peer of link `i` sends a packet -/
  | peerSend (i flags : Nat) (rest : Bytes)
  /-- the host handles the next event: hci.go:790-837, 896-909 -/
  | handle
  /-- `Close` of connection `i` finds `chDone` open and has its Disconnect command carried out: conn.go:517-523 -/
  | close (i : Nat)
  /-- it goes on with `cleanupConnectionHandle`: conn.go:526 -/
  | cleanup (i : Nat)
  /-- a write on connection `i` that finds `chDone` open: conn.go:340-345, 374-383 -/
  | write (i : Nat)

def step (s : State) : Ev → Option State
  | .connect h role addr =>
    if target s.links h = none ∧ h < 4096 ∧ addr.length = 6 then
      some { s with links := s.links ++ [⟨h, role, addr, true⟩], notes := s.notes ++ [.made s.links.length] }
    else none
  | .lose i reason =>
    match s.links[i]? with
    | some l => if l.up ∧ reason ≠ 0x16 then some { s with links := takeDown s.links i, notes := s.notes ++ [.lost l.handle reason] } else none
    | none => none
  | .peerSend i flags rest =>
    match s.links[i]? with
    | some l =>
      if l.up ∧ flags < 16 then
        some { s with notes := s.notes ++ [.data i l.handle flags rest], air := s.air ++ [(i, (HciSpec.aclPkt l.handle flags rest).drop 1)] }
      else none
    | none => none
  | .handle =>
    match s.notes with
    | [] => none
    | .made i :: rest =>
      match s.links[i]? with
      | some l => match Conns.packet s.host (HciSpec.leConnection 0 l.handle l.role 0 l.addr [0, 0, 0, 0, 0, 0, 0]) with
        | .ok b => some { s with host := b, notes := rest }
        | _ => none
      | none => none
    | .lost h reason :: rest =>
      match Conns.packet s.host (HciSpec.disconnection 0 h reason) with
      | .ok b => some { s with host := b, notes := rest }
      | _ => none
    | .data _ h flags p :: rest =>
      match Conns.packet s.host (HciSpec.aclPkt h flags p) with
      | .ok b => some { s with host := b, notes := rest }
      | _ => none
  | .close i =>
    match s.host.conns[i]? with
    | some c =>
      if c.done = false then
        match target s.links c.handle with
        | some j => some { s with links := takeDown s.links j, notes := s.notes ++ [.lost c.handle 0x16], closing := s.closing ++ [i] }
        -- the controller refuses the command; the connection is cleaned up all the same
        | none => some { s with closing := s.closing ++ [i] }
      else none
    | none => none
  | .cleanup i =>
    if i ∈ s.closing then
      match Conns.step s.host (.close i) with
      | .ok b => some { s with host := b, closing := s.closing.erase i }
      | _ => none
    else none
  | .write i =>
    match s.host.conns[i]? with
    | some c => if c.done = false then some { s with sent := s.sent ++ [(i, target s.links c.handle)] } else none
    | none => none

def run : State → List Ev → Option State := runT step

end Ble.Links
