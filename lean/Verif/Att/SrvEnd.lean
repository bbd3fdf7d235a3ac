import Verif.Trans
set_option autoImplicit false

/-!
# The goroutines of an accepted connection, and how they end

Three goroutines are started for a connection a central has made: the one that recombines packets (hci/conn.go:122-139), `Server.Loop`, which handles requests (linux/device.go:85, att/server.go:124-177), and the one that reads for it
(att/server.go:136-158). Transition system of their steps together with those of the controller and of calls of `indicate` (att/server.go:95-121). The buffers are numbers here; their contents are in `Att/Pipe.lean`. Simplifications: every ATT
PDU is one packet, and nothing else is received (conn.go:434-456); handlers return and writes end; `done`, the end of the whole adapter, is not modelled (C91); a call of `indicate` whose write fails returns in the same step as one that is told
that the connection is closed.
-/

namespace Ble.SrvEnd

/-- What the code distinguishes among received PDUs. -/
inductive Pdu where
  /-- a request or command, with a name -/
  | req (n : Nat)
  /-- a confirmation: att/server.go:146 -/
  | conf
  /-- without octets: att/server.go:140 -/
  | empty
  /-- announces more than `rxMPS` octets: conn.go:411-413 -/
  | big
deriving DecidableEq, Repr

/-- The recombining goroutine. -/
inductive Rec where
  /-- in the `select` of conn.go:397-404 -/
  | idle
  /-- at `c.chInPDU <- p`: conn.go:437 -/
  | sending (p : Pdu)
  /-- has closed `chInPDU` and returned: conn.go:135-136 -/
  | ended
deriving DecidableEq, Repr

/-- The reading goroutine. -/
inductive Reader where
  /-- in `Read`: att/server.go:139 -/
  | reading
  /-- at `seq <- b`: att/server.go:155 -/
  | offer (n : Nat)
  /-- at `b = <-pool`: att/server.go:156 -/
  | swap
  /-- about to close `seq` and `chConfirm`: att/server.go:141-142 -/
  | closing
  /-- in `conn.Close()`: att/server.go:143 -/
  | hangup
  | ended
deriving DecidableEq, Repr

/-- `Loop`. -/
inductive Loop where
  /-- at `range seq`: att/server.go:159 -/
  | waiting
  /-- in `handleRequest` or `Write`: att/server.go:160-164 -/
  | handling
  /-- at `pool <- req`: att/server.go:165 -/
  | giving
  /-- closes the notifiers: att/server.go:167-177 -/
  | cleaning
  | ended
deriving DecidableEq, Repr

structure State where
  /-- the connection exists; otherwise `chInPkt` is closed: hci.go:851-894 -/
  up : Bool := true
  /-- `chInPkt` -/
  pkts : List Pdu := []
  rdr : Rec := .idle
  /-- `chInPDU` -/
  pdus : List Pdu := []
  reader : Reader := .reading
  /-- number of buffers in `pool`; the reading goroutine has taken one: att/server.go:129-137 -/
  pool : Nat := 1
  /-- `seq` and `chConfirm` are closed -/
  closed : Bool := false
  loop : Loop := .waiting
  /-- number of calls at `<-s.chIndBuf`: att/server.go:97 -/
  ind : Nat := 0
  /-- a call has it, and has sent its indication: att/server.go:112-120 -/
  indWait : Bool := false
  /-- history: everything the controller has delivered -/
  received : List Pdu := []
  /-- history: the requests handled or being handled -/
  handled : List Nat := []
deriving DecidableEq, Repr

def init : State := {}

inductive Ev where
  /-- the controller delivers a packet -/
  | arrive (p : Pdu)
  /-- the connection ends -/
  | down
  /-- the application sends an indication -/
  | indCall
  /-- a call of `indicate` gets the buffer -/
  | indGet
  /-- a call of `indicate` returns because `chConfirm` is closed, the write has failed, or 30 seconds have passed -/
  | indEnd
  /-- the recombining goroutine -/
  | take
  | push
  | recEnd
  /-- the reading goroutine; for a confirmation: whether a call takes it -/
  | read (taken : Bool)
  /-- the reading goroutine hands a request to `Loop` -/
  | give
  | swap
  | close
  | hangup
  /-- `Loop` -/
  | handle
  | giveBack
  | loopEnd
  | clean
deriving DecidableEq, Repr

/-- One step; `none`: not possible. -/
def step (s : State) : Ev → Option State
  | .arrive p => if s.up ∧ s.pkts.length < 16 then some { s with pkts := s.pkts ++ [p], received := s.received ++ [p] } else none
  | .down => if s.up then some { s with up := false } else none
  | .indCall => some { s with ind := s.ind + 1 }
  | .indGet => if 0 < s.ind ∧ s.indWait = false then some { s with ind := s.ind - 1, indWait := true } else none
  | .indEnd => if s.indWait then some { s with indWait := false } else none
  | .take => match s.rdr, s.pkts with
    -- the error of `recombine`; the connection is taken down: conn.go:123-136
    | .idle, .big :: rest => some { s with rdr := .ended, pkts := rest, up := false }
    | .idle, p :: rest => some { s with rdr := .sending p, pkts := rest }
    | _, _ => none
  | .push => match s.rdr with
    | .sending p => if s.pdus.length < 16 then some { s with rdr := .idle, pdus := s.pdus ++ [p] } else none
    | _ => none
  | .recEnd => if s.rdr = .idle ∧ s.pkts = [] ∧ s.up = false then some { s with rdr := .ended } else none
  | .read taken =>
    if s.reader = .reading then
      match s.pdus with
      | .req n :: rest => some { s with reader := .offer n, pdus := rest }
      | .conf :: rest => if taken then (if s.indWait then some { s with pdus := rest, indWait := false } else none) else some { s with pdus := rest }
      | _ :: rest => some { s with reader := .closing, pdus := rest }
      | [] => if s.rdr = .ended then some { s with reader := .closing } else none
    else none
  | .give => match s.reader with
    | .offer n => if s.loop = .waiting then some { s with reader := .swap, loop := .handling, handled := s.handled ++ [n] } else none
    | _ => none
  | .swap => if s.reader = .swap ∧ 0 < s.pool then some { s with reader := .reading, pool := s.pool - 1 } else none
  | .close => if s.reader = .closing then some { s with reader := .hangup, closed := true } else none
  | .hangup => if s.reader = .hangup then some { s with reader := .ended } else none
  | .handle => if s.loop = .handling then some { s with loop := .giving } else none
  | .giveBack => if s.loop = .giving ∧ s.pool < 2 then some { s with loop := .waiting, pool := s.pool + 1 } else none
  | .loopEnd => if s.loop = .waiting ∧ s.closed then some { s with loop := .cleaning } else none
  | .clean => if s.loop = .cleaning then some { s with loop := .ended } else none

def run : State → List Ev → Option State := runT step

end Ble.SrvEnd
