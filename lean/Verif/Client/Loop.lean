import Verif.Client.Model
set_option autoImplicit false

/-!
# Model of the ATT client's receive loop and of the GATT client's subscriptions

linux/att/client.go:509-717 (`sendReq`, `asyncReqLoop`, `Loop`) as a transition system whose steps are the points where goroutines meet, and
linux/gatt/client.go:345-467 (`Subscribe` to `HandleNotification`).
-/

namespace Ble.Client

open Ble.Att (errorRsp)

/-! ## sendReq and Loop -/

/-- What `Loop` does with a received PDU: client.go:662-716. -/
inductive Kind where
  | request
  | value (ind : Bool)
  | response
deriving Repr, DecidableEq

/-- The test on the opcode: client.go:665 (`b[0]&0x01 == 0x00`), 682 (0x1B notification, 0x1D indication). `b[0]` panics if the PDU is empty. -/
def classify (b : Bytes) : Go Empty Kind := do
  let op ← index b 0
  if op &&& 1 = 0 then pure .request
  else if op ≠ 0x1B ∧ op ≠ 0x1D then pure .response
  else pure (.value (op == 0x1D))

/-- A PDU on its way from the server, with (not visible to the client) the number of the request it answers, if any. -/
structure Msg where
  tag : Option Nat
  pdu : Bytes
deriving Repr, DecidableEq

/-- What a call of `sendReq` returned. -/
inductive Outcome where
  | rsp (m : Msg)
  | timeout
deriving Repr, DecidableEq

/-- State of one connection. Calls are numbered from 0. -/
structure Net where
  /-- number of calls of `sendReq` made -/
  calls : Nat := 0
  /-- the call that is waiting in the `select` of `sendReq`, and the opcode of its request -/
  waiting : Option (Nat × UInt8) := none
  /-- requests the server has not answered, oldest first -/
  inbox : List (Nat × Bytes) := []
  /-- PDUs the server has sent that `Loop` has not read, oldest first -/
  wire : List Msg := []
  /-- the PDU `Loop` is trying to hand over on the unbuffered `rspc` (client.go:690) -/
  offer : Option Msg := none
  /-- `ch`, notifications and indications not handled yet (client.go:596: 16 places) -/
  queue : List Bytes := []
  /-- notifications and indications handed to `HandleNotification` -/
  handled : List Bytes := []
  /-- `inc`, incoming requests (client.go:41: 10 places) -/
  inc : List Bytes := []
  /-- PDUs read by `Loop` -/
  seen : List Bytes := []
  /-- PDUs written by the client other than requests -/
  sent : List Bytes := []
  /-- results of the calls that have returned -/
  results : List (Nat × Outcome) := []
deriving Repr, DecidableEq

/-- `Loop`'s handling of a notification or indication: client.go:696-715. Queued if there is room, confirmed if it is an indication. -/
def Net.value (s : Net) (ind : Bool) (b : Bytes) : Net :=
  { s with
    queue := if s.queue.length < 16 then s.queue ++ [b] else s.queue
    sent := if ind then s.sent ++ [[0x1E]] else s.sent }

/-- `Loop`'s handling of an incoming request: client.go:667-679. -/
def Net.request (s : Net) (b : Bytes) : Net := { s with inc := if s.inc.length < 10 then s.inc ++ [b] else s.inc }

/-- `sendReq` receiving from `rspc`: client.go:521-535. An unexpected PDU is answered with an error response and the call goes on waiting. -/
def Net.receive (s : Net) (i : Nat) (op : UInt8) (m : Msg) : Net :=
  if m.pdu.head? = some 0x01 ∨ m.pdu.head? = some (rspOfReq op) then
    { s with waiting := none, offer := none, results := s.results ++ [(i, .rsp m)] }
  else { s with offer := none, sent := s.sent ++ [errorRsp (m.pdu.headD 0) 0 0x06] }

/-- The steps. The server is any program that answers its requests in order, each once, with the response of the request or an error, and that may
send requests, commands, notifications and indications of its own at any time. -/
inductive Ev where
  /-- a call sends `req`; calls exclude each other because each keeps the transmit buffer until it returns (`chTxBuf`, e.g. client.go:80-81) -/
  | call (req : Bytes)
  /-- the server answers its oldest request -/
  | answer (rsp : Bytes)
  /-- the server sends something of its own -/
  | push (b : Bytes)
  /-- `Loop` reads the next PDU (client.go:634-716) -/
  | read
  /-- `sendReq` receives from `rspc` -/
  | receive
  /-- `sendReq` waited for 2 s (client.go:537) -/
  | timeout
  /-- the worker of `Loop` handles the next notification (client.go:597-602) -/
  | work
deriving Repr, DecidableEq

/-- One step: `none` if the step is not possible in this state. Disconnection and read errors are not modelled. A PDU that makes `Loop` panic is no
step. -/
def step (s : Net) : Ev → Option Net
  | .call req =>
    match s.waiting with
    | none => some { s with calls := s.calls + 1, waiting := some (s.calls, req.headD 0), inbox := s.inbox ++ [(s.calls, req)] }
    | some _ => none
  | .answer rsp =>
    match s.inbox with
    | [] => none
    | (i, req) :: rest =>
      if rsp.head? = some 0x01 ∨ (rsp.head? = some (rspOfReq (req.headD 0)) ∧ rspOfReq (req.headD 0) ≠ 0) then
        some { s with inbox := rest, wire := s.wire ++ [⟨some i, rsp⟩] }
      else none
  | .push b =>
    match classify b with
    | .ok .response => none
    | .ok _ => some { s with wire := s.wire ++ [⟨none, b⟩] }
    | _ => none
  | .read =>
    match s.offer, s.wire with
    | none, m :: rest =>
      let s' := { s with wire := rest, seen := s.seen ++ [m.pdu] }
      match classify m.pdu with
      | .ok .request => some (s'.request m.pdu)
      | .ok (.value ind) => some (s'.value ind m.pdu)
      | .ok .response => some { s' with offer := some m }
      | _ => none
    | _, _ => none
  | .receive =>
    match s.waiting, s.offer with
    | some (i, op), some m => some (s.receive i op m)
    | _, _ => none
  | .timeout =>
    match s.waiting with
    | some (i, _) => some { s with waiting := none, results := s.results ++ [(i, .timeout)] }
    | none => none
  | .work =>
    match s.queue with
    | b :: rest => some { s with queue := rest, handled := s.handled ++ [b] }
    | [] => none

/-- A run: the state after the steps `evs`. -/
def run (s : Net) : List Ev → Option Net
  | [] => some s
  | e :: es => (step s e).bind fun s' => run s' es

/-! ## Subscriptions -/

/-- `sub`: gatt/client.go:35-41. Handlers are numbers. -/
structure Sub where
  cccdh : Nat
  ccc : UInt16 := 0
  nHandler : Option Nat := none
  iHandler : Option Nat := none
  id : Nat := 0
deriving Repr, DecidableEq

/-- `p.subs`: gatt/client.go:25. -/
abbrev Subs := Nat → Option Sub

/-- Map update. -/
def Subs.set (m : Subs) (vh : Nat) (s : Option Sub) : Subs := fun k => if k = vh then s else m k

/-- `cccNotify`, `cccIndicate`: gatt/client.go:14-17. -/
def cccFlag (ind : Bool) : UInt16 := if ind then 2 else 1

/-- `setHandlers`: gatt/client.go:373-403, called by `Subscribe` (345-357) and `Unsubscribe` (361-371) with the handle of the CCCD. `ok` says
whether the write to the CCCD succeeds. Result: the new map and the write, if any. -/
def setHandlers (m : Subs) (cccdh vh : Nat) (ind : Bool) (h : Option Nat) (ok : Bool) : Subs × Option (Nat × UInt16) :=
  let s := (m vh).getD { cccdh := cccdh }
  let m := m.set vh (some s)
  let flag := cccFlag ind
  match h with
  | none =>
    if s.ccc &&& flag = 0 then (m, none)
    else
      let s := { s with ccc := s.ccc &&& ~~~flag }
      let s := if ind then { s with iHandler := none } else { s with nHandler := none }
      (m.set vh (if ok then some s else none), some (s.cccdh, s.ccc))
  | some h =>
    if s.ccc &&& flag ≠ 0 then (m, none)
    else
      let s := { s with ccc := s.ccc ||| flag }
      let s := if ind then { s with iHandler := some h } else { s with nHandler := some h }
      (m.set vh (if ok then some s else none), some (s.cccdh, s.ccc))

/-- `ClearSubscriptions`: gatt/client.go:406-417. `vhs` are the entries visited, in the (arbitrary) order of the map iteration, whose write succeeded,
`failed` the one whose write failed, if any. -/
def clearSubs (m : Subs) (vhs : List Nat) (failed : Option Nat) : Subs × List (Nat × UInt16) :=
  (fun k => if k ∈ vhs then none else m k,
   (vhs ++ failed.toList).filterMap fun vh => (m vh).map fun s => (s.cccdh, 0))

/-- `HandleNotification`: gatt/client.go:439-467. Result: the new map and the handler call (handler, id, data), if any. -/
def handleNotification (m : Subs) (req : Bytes) : Go Empty (Subs × Option (Nat × Nat × Bytes)) := do
  let vh ← le16At req 1
  match m vh with
  | none => pure (m, none)
  | some s => do
    let op ← index req 0
    let nd ← sliceFrom req 3
    let m' := m.set vh (some { s with id := s.id + 1 })
    match (if op = 0x1D then s.iHandler else none) with
    | some h => pure (m', some (h, s.id, nd))
    | none =>
      match s.nHandler with
      | some h => pure (m', some (h, s.id, nd))
      | none => pure (m', none)

end Ble.Client
