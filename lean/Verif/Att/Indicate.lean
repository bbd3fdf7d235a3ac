import Verif.Att.Model
set_option autoImplicit false

/-!
# Model of the ATT server's goroutines: requests, notifications, indications

linux/att/server.go:77-165 (`notify`, `indicate`, `Loop`) and 224-254 (`handleExchangeMTURequest`) as a transition system whose steps are the points where goroutines meet: the channels `chNotBuf` and
`chIndBuf` (one buffer each), the unbuffered `chConfirm` and `seq`, and the writes to the connection. Any number of application goroutines write to notifiers. Requests other than Exchange MTU are
handled in one step (what they do is in `Att/Model.lean`). Disconnection and write errors are not modelled.
-/

namespace Ble.Ind

open Ble.Att (notifyPDU indicatePDU)

/-- A PDU from the peer. -/
inductive In where
  /-- Handle Value Confirmation -/
  | confirm
  /-- Exchange MTU Request with an acceptable value -/
  | mtu (m : Nat)
  /-- any other request -/
  | req
  /-- Write Command -/
  | cmd
deriving DecidableEq, Repr

/-- A PDU to the peer. Indications carry their number, which the peer does not see. -/
inductive Out where
  | ntf (h : Nat) (data pdu : Bytes)
  | ind (id h : Nat) (data pdu : Bytes)
  /-- Exchange MTU Response to a request for `m` -/
  | mtuRsp (m : Nat)
  | rsp
deriving DecidableEq, Repr

/-- Where the goroutine that ranges over `seq` is. -/
inductive Main where
  | idle
  /-- at `<-s.chNotBuf` in the deferred function: server.go:241 -/
  | swapNot (m : Nat)
  /-- at `<-s.chIndBuf`: server.go:243 -/
  | swapInd (m : Nat)
  /-- at `s.conn.Write(rsp)`: server.go:161 -/
  | reply (m : Nat)
deriving DecidableEq, Repr

/-- Where the call of `indicate` that holds the buffer is. -/
inductive Phase where
  /-- has the buffer, has not written: server.go:97-108 -/
  | taken
  /-- has written, is not in the `select` yet: server.go:109-112 -/
  | written
  /-- in the `select`: server.go:112-120 -/
  | waiting
deriving DecidableEq, Repr

/-- The call of `indicate` that holds the buffer. -/
structure Call where
  id : Nat
  size : Nat
  h : Nat
  data : Bytes
  phase : Phase
deriving DecidableEq, Repr

/-- What a call of `indicate` returned. -/
inductive Res where
  /-- `n, nil` -/
  | ok
  /-- `ErrSeqProtoTimeout` -/
  | timeout
deriving DecidableEq, Repr

/-- State of the server and the link. -/
structure St where
  main : Main := .idle
  /-- `len(s.txBuf)` -/
  cur : Nat := 23
  /-- the buffer in `chNotBuf` and its size; `none` while a `notify` has it -/
  notBuf : Option Nat := some 23
  /-- the call of `notify` that has it: size, handle, data -/
  ntf : Option (Nat × Nat × Bytes) := none
  /-- the buffer in `chIndBuf` -/
  indBuf : Option Nat := some 23
  ind : Option Call := none
  /-- PDUs of the peer that the reader has not taken, oldest first -/
  inq : List In := []
  /-- PDUs sent, oldest first -/
  sent : List Out := []
  /-- number of calls of `indicate` that got the buffer -/
  calls : Nat := 0
  /-- results of `indicate`, oldest first -/
  results : List (Nat × Res) := []
  /-- what the peer knows: numbers of the indications it has got and not confirmed, oldest first -/
  owed : List Nat := []
  /-- numbers of the indications the peer has confirmed -/
  confirmed : List Nat := []
deriving DecidableEq, Repr

inductive Ev where
  /-- a call of `notify` gets the buffer: server.go:79 -/
  | notifyTake (h : Nat) (data : Bytes)
  /-- and writes its PDU, and gives the buffer back: server.go:80-91 -/
  | notifyWrite
  /-- a call of `indicate` gets the buffer: server.go:97 -/
  | indTake (h : Nat) (data : Bytes)
  /-- and writes its PDU: server.go:98-109 -/
  | indWrite
  /-- and enters the `select`: server.go:113 -/
  | indWait
  /-- 30 s have passed: server.go:119 -/
  | indTimeout
  /-- the peer confirms the oldest indication it has got -/
  | peerConfirm
  /-- the peer sends something else -/
  | peerSend (b : In)
  /-- the reader takes the next PDU: server.go:136-155 -/
  | read
  /-- the main goroutine passes its next channel operation -/
  | mainStep
deriving DecidableEq, Repr

/-- One step; `none` if it is not possible in this state. -/
def step (s : St) : Ev → Option St
  | .notifyTake h data =>
    match s.notBuf with
    | some n => some { s with notBuf := none, ntf := some (n, h, data) }
    | none => none
  | .notifyWrite =>
    match s.ntf with
    | some (n, h, data) => some { s with ntf := none, notBuf := some n, sent := s.sent ++ [.ntf h data (notifyPDU n h data)] }
    | none => none
  | .indTake h data =>
    match s.indBuf with
    | some n => some { s with indBuf := none, ind := some ⟨s.calls, n, h, data, .taken⟩, calls := s.calls + 1 }
    | none => none
  | .indWrite =>
    match s.ind with
    | some c =>
      if c.phase = .taken then
        some { s with ind := some { c with phase := .written }, sent := s.sent ++ [.ind c.id c.h c.data (indicatePDU c.size c.h c.data)], owed := s.owed ++ [c.id] }
      else none
    | none => none
  | .indWait =>
    match s.ind with
    | some c => if c.phase = .written then some { s with ind := some { c with phase := .waiting } } else none
    | none => none
  | .indTimeout =>
    match s.ind with
    | some c =>
      if c.phase = .waiting then some { s with ind := none, indBuf := some c.size, results := s.results ++ [(c.id, .timeout)] } else none
    | none => none
  | .peerConfirm =>
    match s.owed with
    | i :: rest => some { s with owed := rest, confirmed := s.confirmed ++ [i], inq := s.inq ++ [.confirm] }
    | [] => none
  | .peerSend b => if b = .confirm then none else some { s with inq := s.inq ++ [b] }
  | .read =>
    match s.inq with
    | [] => none
    | .confirm :: rest =>
      -- server.go:145-152: `chConfirm <- true` if somebody is receiving, else "spurious confirmation"
      match s.ind with
      | some c =>
        if c.phase = .waiting then
          some { s with inq := rest, ind := none, indBuf := some c.size, results := s.results ++ [(c.id, .ok)] }
        else some { s with inq := rest }
      | none => some { s with inq := rest }
    | b :: rest =>
      -- server.go:153-155: `seq <- b`, and the handling of the request up to the first channel operation
      match s.main with
      | .idle =>
        match b with
        | .mtu m => if m = s.cur then some { s with inq := rest, main := .reply m } else some { s with inq := rest, cur := m, main := .swapNot m }
        | .req => some { s with inq := rest, sent := s.sent ++ [.rsp] }
        | _ => some { s with inq := rest }
      | _ => none
  | .mainStep =>
    match s.main with
    | .idle => none
    | .swapNot m =>
      match s.notBuf with
      | some _ => some { s with notBuf := some m, main := .swapInd m }
      | none => none
    | .swapInd m =>
      match s.indBuf with
      | some _ => some { s with indBuf := some m, main := .reply m }
      | none => none
    | .reply m => some { s with main := .idle, sent := s.sent ++ [.mtuRsp m] }

/-- Runs from the start of a connection. -/
def run (s : St) : List Ev → Option St
  | [] => some s
  | e :: es => (step s e).bind fun s' => run s' es

end Ble.Ind
