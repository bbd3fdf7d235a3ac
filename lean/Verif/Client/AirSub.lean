import Verif.Client.Air
import Verif.Client.SubSpec
import Verif.Att.CccdSpec
import Verif.Trans
set_option autoImplicit false

/-!
# Subscriptions and values between a client and a server of this library on two ends of a radio link

`Subscribe`, `Unsubscribe` and `ClearSubscriptions` (linux/gatt/client.go:345-417) with the write of the CCCD going over the air (Client/Air.lean) to the server, whose CCCD handler starts and stops the application's
notifiers (linux/att/db.go:165-212); and what these write, going over the air to the handlers of the client (gatt/client.go:439-467).

Simplifications: one thing at a time; no MTU exchange within a history (it may be before); a history is followed up to the first call that fails. The confirmation of indications
is in C78, C124 and C150.
-/

namespace Ble.AirSub

open Ble.Att Ble.Client Ble.L2cap Ble.Air Ble.Spec

/-- A characteristic as the server declared it (its handle, properties and handlers) and the handle of its CCCD as the client has discovered it. -/
structure Chr where
  ref : CharRef
  cccdh : Nat
deriving DecidableEq

/-- `ValueHandle`: att/db.go:114-118. -/
def Chr.vh (c : Chr) : Nat := c.ref.handle + 1

/-- What happens at the two ends. -/
inductive Op (α : Type) where
  /-- the client's `Subscribe` with a handler (a number) -/
  | subscribe (c : Chr) (ind : Bool) (h : Nat)
  | unsubscribe (c : Chr) (ind : Bool)
  /-- `ClearSubscriptions`, visiting these entries in this order -/
  | clear (order : List Nat)
  /-- the application of the server changes its state -/
  | app (a : α)
  /-- the function of the server's application that got the notifier started as number `k` on this connection (handler.go:150-183) writes to it -/
  | value (k : Nat) (data : Bytes)

/-- The two ends. `got`: the calls of handlers at the client, in order. `failed`: the error of the call the history ended with. -/
structure Ends (α : Type) where
  subs : Subs := fun _ => none
  cli : Cli (Server (CState α) × Nat)
  got : List (Nat × Bytes) := []
  failed : Option CErr := none

variable {α : Type}

/-- `setHandlers`: gatt/client.go:373-403, with the write of line 398 over the air. -/
def setSub (ex : Exchange (Server (CState α) × Nat)) (e : Ends α) (cccdh vh : Nat) (ind : Bool) (h : Option Nat) : Option (Ends α) :=
  match (setHandlers e.subs cccdh vh ind h true).2 with
  | none => some { e with subs := (setHandlers e.subs cccdh vh ind h true).1 }
  | some (a, v) =>
    match write ex e.cli a (put16 v.toNat) with
    | .ok c => some { e with subs := (setHandlers e.subs cccdh vh ind h true).1, cli := c }
    | .err x => some { e with subs := (setHandlers e.subs cccdh vh ind h false).1, failed := some x }
    | .panic => none

/-- The loop of `ClearSubscriptions`: gatt/client.go:410-415. -/
def clearAll (ex : Exchange (Server (CState α) × Nat)) (e : Ends α) : List Nat → Option (Ends α)
  | [] => some e
  | vh :: vhs =>
    match e.subs vh with
    | none => none
    | some s =>
      match write ex e.cli s.cccdh [0, 0] with
      | .ok c => clearAll ex { e with subs := e.subs.set vh none, cli := c } vhs
      | .err x => some { e with failed := some x }
      | .panic => none

/-- `notifier.Write` (handler.go:172-174), which does not look at whether the notifier has been closed; `notify` and `indicate` (att/server.go:77-122) with the value handle of the characteristic
(db.go:190, 203); the PDU over the air; `HandleNotification` (gatt/client.go:439-467). A PDU that does not arrive is lost. -/
def sendValue (L : Link) (radio : Radio) (scratch : Nat → Bytes) (e : Ends α) (n : Ntf) (data : Bytes) : Option (Ends α) :=
  let srv := e.cli.peer.1
  let t := e.cli.peer.2
  let pdu := if n.ind then indicatePDU srv.mtu (n.char + 1) data else notifyPDU srv.mtu (n.char + 1) data
  let e' := { e with cli := { e.cli with peer := (srv, t + 1) } }
  match transfer (radio t) L.srvHandle L.srvBuf L.bufs srv.mtu L.cliRx (scratch t) pdu with
  | none => some e'
  | some p =>
    match handleNotification e.subs p with
    | .ok (m, o) => some { e' with subs := m, got := e.got ++ (o.map fun x => (x.1, x.2.2)).toList }
    | _ => none

/-- One thing happens. `none`: not possible (the history has ended, the notifier was never started, an entry that is not in the map) or a panic. -/
def step (L : Link) (radio : Radio) (scratch : Nat → Bytes) (e : Ends α) (o : Op α) : Option (Ends α) :=
  if e.failed.isSome then none
  else match o with
    | .subscribe c ind h => setSub (airPeer L radio scratch) e c.cccdh c.vh ind (some h)
    | .unsubscribe c ind => setSub (airPeer L radio scratch) e c.cccdh c.vh ind none
    | .clear order => if order.Nodup then clearAll (airPeer L radio scratch) e order else none
    | .app a => some { e with cli := { e.cli with peer := ({ e.cli.peer.1 with st := { e.cli.peer.1.st with app := a } }, e.cli.peer.2) } }
    | .value k data =>
      match e.cli.peer.1.st.ntfs[k]? with
      | none => none
      | some n => sendValue L radio scratch e n data

/-- A history. -/
abbrev run (L : Link) (radio : Radio) (scratch : Nat → Bytes) : Ends α → List (Op α) → Option (Ends α) := Ble.runT (step L radio scratch)

end Ble.AirSub
