import Verif.Trans
import Verif.Hci.Conns
import Verif.Hci.L2cap
set_option autoImplicit false

/-!
# The connections together with their reading goroutines

linux/hci/conn.go:122-139 (the goroutine each connection starts), 394-432 (`recombine`), hci.go:851-894 (`cleanupConnectionHandle`), as transition system over the connection table of `Conns`. The goroutine of a connection is not bound
to the life of the connection: it goes on with the packets queued when the connection ends, and ends some time later. Simplifications: taking the fragments of one PDU from the queue is one step (nothing else looks at the queue's reading end);
what is done with a complete PDU (conn.go:434-454) is not modelled here (`L2cap.dispatch`); a crash of the process ends the run.
-/

namespace Ble.Readers

open Ble.Conns

inductive RSt where
  /-- in `recombine` -/
  | running
  /-- `recombine` returned an error other than io.EOF; before `cleanupConnectionHandle`: conn.go:125-131 -/
  | failing
  /-- returned: conn.go:135-136 -/
  | ended
deriving Repr, DecidableEq

/-- The reading goroutine of a connection. -/
structure Reader where
  /-- packets taken from `chInPkt` -/
  pos : Nat := 0
  st : RSt := .running

structure State where
  base : Conns.State
  /-- the goroutine of connection `i`; started with the connection -/
  rd : Nat → Reader

def init (smp handler : Bool) (scan : AdvHist.Scan) : State := ⟨Conns.init smp handler scan, fun _ => {}⟩

inductive Ev where
  /-- everything else: packets of the controller, `Close`, the end of the HCI -/
  | base (e : Conns.Ev)
  /-- the goroutine of connection `i` calls `recombine`; `mps` is `c.rxMPS` at that time -/
  | read (i mps : Nat)
  /-- the goroutine of connection `i`, whose `recombine` failed, calls `cleanupConnectionHandle` and returns -/
  | clean (i : Nat)
  /-- the goroutine of connection `i` sees that the HCI is closed: conn.go:398-399, 424-425 -/
  | stop (i : Nat)

def setRd (s : State) (i : Nat) (r : Reader) : State := { s with rd := fun j => if j = i then r else s.rd j }

/-- One step; `none`: not possible, or the process crashes. -/
def step (s : State) : Ev → Option State
  | .base e =>
    match e with
    | .readerFailed _ => none
    | _ => match Conns.step s.base e with
      | .ok b => some { s with base := b }
      | _ => none
  | .read i mps =>
    match s.base.conns[i]? with
    | none => none
    | some c =>
      if (s.rd i).st = .running then
        match L2cap.recombine mps (c.rx.drop (s.rd i).pos) with
        -- one PDU: conn.go:434-456
        | .done _ rest => some (setRd s i { pos := c.rx.length - rest.length })
        -- the queue is empty: blocked, or closed: io.EOF at the start of a PDU (conn.go:401-403), io.ErrUnexpectedEOF within (conn.go:427-428)
        | .wait =>
          if c.rxClosed then
            if c.rx.drop (s.rd i).pos = [] then some (setRd s i { s.rd i with st := .ended }) else some (setRd s i { s.rd i with st := .failing })
          else none
        | .fail => some (setRd s i { s.rd i with st := .failing })
        | .panic => none
      else none
  | .clean i =>
    match s.base.conns[i]? with
    | none => none
    | some c =>
      if (s.rd i).st = .failing then
        match Conns.cleanup s.base c.handle with
        | .ok b => some { setRd s i { s.rd i with st := .ended } with base := b }
        | _ => none
      else none
  | .stop i => if s.base.isOpen = false ∧ i < s.base.conns.length ∧ (s.rd i).st = .running then some (setRd s i { s.rd i with st := .ended }) else none

def run : State → List Ev → Option State := runT step

/-- The events of a history as the connection table sees them. -/
def project : List Ev → List Conns.Ev
  | [] => []
  | .base e :: es => e :: project es
  | .clean i :: es => .readerFailed i :: project es
  | _ :: es => project es

end Ble.Readers
