import Verif.Hci.L2cap
set_option autoImplicit false

/-!
# Many writers: what `writePDU` puts on the wire under every schedule

linux/hci/conn.go:328-391 at the granularity of single writes to the socket. Every L2CAP PDU of the host goes through `writePDU`: ATT (conn.go:235, 246), signalling (signal.go:77, 129), the security manager
(smp/transport.go:75 through conn.go:118) and dynamic channels (coc.go). Commands are written to the same socket without the pool mutex (hci.go:409). A connection is its handle; buffers and flow control are in Pool.lean.
-/

namespace Ble.Tx

open Ble.L2cap

/-- The writer that holds the pool mutex. -/
structure Writer where
  handle : Nat
  pdu : Bytes
  /-- the boundary flags of the next fragment -/
  flags : Nat
  /-- what is left of the PDU -/
  rest : Bytes
deriving DecidableEq, Repr

structure St where
  /-- everything written to the socket, in order -/
  wire : List Bytes
  lock : Option Writer
  /-- the PDUs whose `writePDU` returned nil, in the order of return, with the handle -/
  returned : List (Nat × Bytes)

def init : St := ⟨[], none, []⟩

inductive Act where
  /-- a goroutine in `writePDU` gets the pool mutex on an open connection: conn.go:335-345 -/
  | start (handle : Nat) (pdu : Bytes)
  /-- it writes one fragment: conn.go:348-388 -/
  | xmit
  /-- it returns: conn.go:390 -/
  | stop
  /-- it returns an error, between two fragments, because the connection is closed or the socket failed: conn.go:374-384 -/
  | fail (handle : Nat)
  /-- a command packet is written by `Send`: hci.go:409 -/
  | command (params : Bytes)
deriving DecidableEq, Repr

/-- One step. `bufSize` is the controller's ACL data length; the capacity of a buffer is 1+4+bufSize (hci.go:186). -/
def step (bufSize : Nat) (s : St) : Act → Option St
  | .start h pdu =>
    match s.lock with
    | none => some { s with lock := some ⟨h, pdu, 0, pdu⟩ }
    | some _ => none
  | .xmit =>
    match s.lock with
    | none => none
    | some w =>
      if w.rest = [] then none
      else
        let cap := 1 + 4 + bufSize
        let flen := if w.rest.length > cap - 1 - 4 then cap - 1 - 4 else w.rest.length
        some { s with wire := s.wire ++ [aclPacket w.handle w.flags (w.rest.take flen)], lock := some { w with flags := 0x10, rest := w.rest.drop flen } }
  | .stop =>
    match s.lock with
    | none => none
    | some w => if w.rest = [] then some { s with lock := none, returned := s.returned ++ [(w.handle, w.pdu)] } else none
  | .fail h =>
    match s.lock with
    | none => none
    | some w => if w.handle = h then some { s with lock := none } else none
  | .command params => some { s with wire := s.wire ++ [0x01 :: params] }

def run (bufSize : Nat) (s : St) : List Act → Option St
  | [] => some s
  | a :: as =>
    match step bufSize s a with
    | none => none
    | some s' => run bufSize s' as

end Ble.Tx
