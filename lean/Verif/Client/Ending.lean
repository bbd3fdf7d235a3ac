import Verif.Trans
set_option autoImplicit false

/-!
# The goroutines of a dialled connection, and how they end

Five goroutines are started for a dialled connection: the one that recombines packets (hci/conn.go:122-139), the one that waits for the end of the connection (att/client.go:52-55), `Loop` (gatt/client.go:54, att/client.go:589-717),
its worker (att/client.go:597-602) and `asyncReqLoop` (att/client.go:559-587). Transition system of their steps together with those of the controller and of the application. Simplifications: every ATT PDU is one packet, and nothing else is
received (conn.go:434-456: pairing, signalling and credit-based channels are other properties); handlers return and writes end (C202 says when they do not); `done`, the end of the whole adapter, is not modelled (C91).
-/

namespace Ble.Ending

/-- What `Loop` distinguishes: att/client.go:665, 682. -/
inductive Kind where
  /-- even opcode -/
  | req
  | rsp
  /-- notification or indication -/
  | val
deriving DecidableEq, Repr

/-- The recombining goroutine. -/
inductive Rec where
  /-- in the `select` of conn.go:397-404 -/
  | idle
  /-- at `c.chInPDU <- p`: conn.go:437 -/
  | sending (k : Kind)
  /-- has closed `chInPDU` and returned: conn.go:135-136 -/
  | ended
deriving DecidableEq, Repr

/-- `Loop`. -/
inductive Loop where
  /-- before the first `select`: att/client.go:617 -/
  | top
  /-- in `Read`: att/client.go:634 -/
  | reading
  /-- before the second `select`, with a PDU or the error: att/client.go:636 -/
  | got (k : Option Kind)
  /-- after it, at the `select` for this kind of PDU: att/client.go:666, 684, 698 -/
  | dispatch (k : Kind)
  /-- writes the confirmation, if any: att/client.go:712-715 -/
  | confirm
  /-- has returned, and so closed `ch` and `inc`: att/client.go:596, 607-609 -/
  | ended
deriving DecidableEq, Repr

/-- `asyncReqLoop`. -/
inductive Async where
  /-- before its `select`: att/client.go:561 -/
  | top
  /-- at `<-c.inc`: att/client.go:576 -/
  | waiting
  /-- in `HandleRequest`: att/client.go:577 -/
  | handling
  /-- in `sendResp`, at `<-c.chTxBuf`: att/client.go:546 -/
  | wantBuf
  | ended
deriving DecidableEq, Repr

/-- The worker. -/
inductive Worker where
  | idle
  | running
  | ended
deriving DecidableEq, Repr

structure State where
  /-- the connection exists; otherwise `chInPkt` and `chDone` are closed: hci.go:851-894 -/
  up : Bool := true
  /-- `chInPkt` -/
  pkts : List Kind := []
  rdr : Rec := .idle
  /-- `chInPDU` -/
  pdus : List Kind := []
  /-- the goroutine that waits for `Disconnected()` has closed `connClosed` and ended: att/client.go:52-55 -/
  connClosed : Bool := false
  loop : Loop := .top
  /-- number of requests in `inc` -/
  inc : Nat := 0
  async : Async
  /-- number of values in `ch` -/
  work : Nat := 0
  worker : Worker := .idle
  /-- a call of the application waits in `sendReq` and has the transmit buffer: att/client.go:514-542 -/
  call : Bool := false
deriving DecidableEq, Repr

/-- A new connection, with or without own attribute database (and `Loop` having seen it: att/client.go:605). -/
def init (server : Bool) : State := { async := if server then .top else .ended }

inductive Ev where
  /-- the controller delivers a packet -/
  | arrive (k : Kind)
  /-- the connection ends -/
  | down
  /-- the application makes a call -/
  | call
  /-- `sendReq` returns: it gives up, has got its response or the error of `Loop`: att/client.go:521-538 -/
  | giveUp
  /-- the recombining goroutine -/
  | take
  | push
  | recEnd
  /-- the waiting goroutine -/
  | close
  /-- `Loop`: at a `select` -/
  | loopTop
  | loopRead
  | loopCheck
  /-- the case of the `select` that is not `connClosed` (or `default`) -/
  | loopGo
  /-- the case `connClosed` -/
  | loopQuit
  | loopConfirm
  | asyncTop
  | asyncTake
  /-- the request is answered, or it needs no answer -/
  | asyncHandle (answer : Bool)
  | asyncSend
  | workerTake
  | workerDone
  | workerEnd
deriving DecidableEq, Repr

/-- One step; `none`: not possible. -/
def step (s : State) : Ev → Option State
  | .arrive k => if s.up ∧ s.pkts.length < 16 then some { s with pkts := s.pkts ++ [k] } else none
  | .down => if s.up then some { s with up := false } else none
  | .call => if s.call then none else some { s with call := true }
  | .giveUp => if s.call then some { s with call := false } else none
  | .take => match s.rdr, s.pkts with
    | .idle, k :: rest => some { s with rdr := .sending k, pkts := rest }
    | _, _ => none
  | .push => match s.rdr with
    | .sending k => if s.pdus.length < 16 then some { s with rdr := .idle, pdus := s.pdus ++ [k] } else none
    | _ => none
  | .recEnd => if s.rdr = .idle ∧ s.pkts = [] ∧ s.up = false then some { s with rdr := .ended } else none
  | .close => if s.up = false ∧ s.connClosed = false then some { s with connClosed := true } else none
  | .loopTop => if s.loop = .top then some { s with loop := if s.connClosed then .ended else .reading } else none
  | .loopRead =>
    if s.loop = .reading then
      match s.pdus with
      | k :: rest => some { s with loop := .got (some k), pdus := rest }
      | [] => if s.rdr = .ended then some { s with loop := .got none } else none
    else none
  | .loopCheck => match s.loop with
    | .got (some k) => some { s with loop := if s.connClosed then .ended else .dispatch k }
    -- the error is put in `chErr`, which has room for one, and `Loop` returns: att/client.go:646-659
    | .got none => some { s with loop := .ended }
    | _ => none
  | .loopGo => match s.loop with
    | .dispatch .req => some { s with loop := .top, inc := if s.inc < 10 then s.inc + 1 else s.inc }
    -- a waiting `sendReq` takes the response, and returns if it is the one it waits for
    | .dispatch .rsp => if s.call then some { s with loop := .top } else none
    | .dispatch .val => some { s with loop := .confirm, work := if s.work < 16 then s.work + 1 else s.work }
    | _ => none
  | .loopQuit => match s.loop with
    | .dispatch _ => if s.connClosed then some { s with loop := .ended } else none
    | _ => none
  | .loopConfirm => if s.loop = .confirm then some { s with loop := .top } else none
  | .asyncTop => if s.async = .top then some { s with async := if s.connClosed then .ended else .waiting } else none
  | .asyncTake =>
    if s.async = .waiting then
      match s.inc with
      | n + 1 => some { s with async := .handling, inc := n }
      -- `inc` is closed: a nil request, which is not answered (server.go:185-187)
      | 0 => if s.loop = .ended then some { s with async := .top } else none
    else none
  | .asyncHandle answer => if s.async = .handling then some { s with async := if answer then .wantBuf else .top } else none
  | .asyncSend => if s.async = .wantBuf ∧ s.call = false then some { s with async := .top } else none
  | .workerTake => if s.worker = .idle ∧ 0 < s.work then some { s with worker := .running, work := s.work - 1 } else none
  | .workerDone => if s.worker = .running then some { s with worker := .idle } else none
  | .workerEnd => if s.worker = .idle ∧ s.work = 0 ∧ s.loop = .ended then some { s with worker := .ended } else none

def run : State → List Ev → Option State := runT step

end Ble.Ending
