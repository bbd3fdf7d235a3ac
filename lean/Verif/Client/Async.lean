import Verif.Client.Loop
import Verif.Att.Model
set_option autoImplicit false

/-!
# Model of a dialled connection's own GATT database

linux/device.go:247-266 (`Dial`), linux/gatt/client.go:43-62 (`NewClient`, `ClientWithServer`), linux/att/client.go:544-612 (`sendResp`, `asyncReqLoop`, the start of `Loop`): a central answers the
requests of the peripheral it dialled with its own attribute database. The rest of the connection is `Client.Net` (`Client/Loop.lean`).
-/

namespace Ble.Client

open Ble.Att (Server handleRequest indicatePDU)

/-- State of a dialled connection. -/
structure Central (σ : Type) where
  net : Net := {}
  /-- `c.server`: att/client.go:32, 62 -/
  server : Option (Server σ) := none
  /-- whether `Loop` has started, and if so whether it found a server and started `asyncReqLoop`: att/client.go:605-610 -/
  loop : Option Bool := none
  /-- the response that `sendResp` has, waiting for the transmit buffer: att/client.go:546 -/
  held : Option Bytes := none
  /-- requests taken from `inc`, oldest first -/
  taken : List Bytes := []
  /-- responses sent, oldest first -/
  answers : List Bytes := []
  /-- calls of `indicate` that wait for the server's `chConfirm` (att/server.go:113) -/
  indWaiting : Nat := 0
  /-- results of `indicate`: `true` for success -/
  indResults : List Bool := []

/-- Steps. -/
inductive CEv where
  /-- a step of the connection -/
  | net (e : Ev)
  /-- `Dial` gives the client the server: device.go:258-263, att/client.go:60-68 -/
  | attach
  /-- the goroutine of `Loop`, started by `NewClient` before (gatt/client.go:54), gets to att/client.go:605 -/
  | start
  /-- `asyncReqLoop` takes a request and computes the response: att/client.go:576-580. If the server panics the program ends, which is no step. -/
  | take
  /-- `sendResp` gets the transmit buffer and sends: att/client.go:545-556 -/
  | respond
  /-- the application sends an indication through the server: att/server.go:95-112 -/
  | indicate (h : Nat) (data : Bytes)
  /-- and waited for 30 s: att/server.go:119. The other case of the `select`, a value on `chConfirm`, needs somebody to send one; only `Server.Loop` (att/server.go:147) does, and no `Server.Loop`
  runs for a dialled connection (the only one is started in device.go:85 for accepted connections). -/
  | indTimeout
deriving Repr, DecidableEq

/-- One step. `s0` is the server that `Dial` makes (`Att.Server.new`). -/
def cstep {σ : Type} (s0 : Server σ) (c : Central σ) : CEv → Option (Central σ)
  | .net e =>
    if e = .read ∧ c.loop = none then none
    else (step c.net e).map fun n => { c with net := n }
  | .attach => match c.server with
    | none => some { c with server := some s0 }
    | some _ => none
  | .start => match c.loop with
    | none => some { c with loop := some c.server.isSome }
    | some _ => none
  | .take =>
    match c.loop, c.held, c.server, c.net.inc with
    | some true, none, some srv, b :: rest =>
      match handleRequest srv b with
      | .ok (srv', o) => some { c with server := some srv', held := o, taken := c.taken ++ [b], net := { c.net with inc := rest } }
      | _ => none
    | _, _, _, _ => none
  | .respond =>
    match c.held, c.net.waiting with
    | some r, none => some { c with held := none, answers := c.answers ++ [r], net := { c.net with sent := c.net.sent ++ [r] } }
    | _, _ => none
  | .indicate h data =>
    match c.server with
    | some srv => some { c with indWaiting := c.indWaiting + 1, net := { c.net with sent := c.net.sent ++ [indicatePDU srv.mtu h data] } }
    | none => none
  | .indTimeout => if 0 < c.indWaiting then some { c with indWaiting := c.indWaiting - 1, indResults := c.indResults ++ [false] } else none

def crun {σ : Type} (s0 : Server σ) (c : Central σ) : List CEv → Option (Central σ)
  | [] => some c
  | e :: es => (cstep s0 c e).bind fun c' => crun s0 c' es

end Ble.Client
