import Verif.Trans
set_option autoImplicit false

/-!
# Model of a peripheral: advertising, connections of centrals and the accept loop

linux/hci/gap.go:178-197 and 271-279 (`StopAdvertising`, `Accept`, `Advertise`), linux/hci/hci.go:353-442 (`send`, only as far as the
command that enables advertising is concerned), 790-839 (`handleLEConnectionComplete`), 851-909 (`cleanupConnectionHandle`,
`handleDisconnectionComplete`) and linux/device.go:54-87 (`loop`), together with the controller, as a transition system.

Simplifications: the commands that set parameters and data are sent before and are not in this model (Advertise.lean). All sends of the
enable command use one opcode and hence one lock (hci.go:372, 1037-1054); what happens under the lock up to the write is one step, in which
the current value of `params.advEnable` is marshalled. The device stays open (Shutdown.lean has its end). Handles of connections are
not reused. A connection is that of a central (role slave). An event loop that waits for `chSlaveConn` handles no event.
-/

namespace Ble.Hci.Peripheral

/-- Who called `Send(&h.params.advEnable, nil)`: the application's call with this number, or the event loop (hci.go:834). -/
inductive Who where
  | advertise (id : Nat)
  | stop (id : Nat)
  | reenable
deriving DecidableEq, Repr

/-- An event on its way from the controller to the host. -/
inductive Ev where
  /-- LE Connection Complete of the central with this handle -/
  | connected (h : Nat)
  /-- Disconnection Complete, for a reason other than the host's request -/
  | disconnected (h : Nat)
  /-- Command Complete of the enable command -/
  | answer (ok : Bool)
deriving DecidableEq, Repr

structure St where
  /-- the controller advertises -/
  adv : Bool := false
  /-- connections that are up in the controller -/
  up : List Nat := []
  /-- handles used so far -/
  used : Nat := 0
  /-- enable commands written to the controller and not executed yet: the value of their field -/
  cmds : List Bool := []
  /-- events that the event loop has not handled yet -/
  evq : List Ev := []
  /-- `h.params.advEnable.AdvertisingEnable == 1` -/
  field : Bool := false
  /-- sends that wait for the lock of the opcode: hci.go:372 -/
  pend : List Who := []
  /-- the send that waits for the answer: hci.go:420-432 -/
  held : Option Who := none
  /-- what sends returned: nil or an error -/
  results : List (Who × Bool) := []
  /-- calls so far -/
  calls : Nat := 0
  /-- the event loop waits in `h.chSlaveConn <- c`: hci.go:822 -/
  offering : Option Nat := none
  /-- `loop` (device.go:54-87) has not returned -/
  accepting : Bool := true
  /-- connections that got an ATT server, in order: device.go:76-85 -/
  served : List Nat := []
  /-- `h.conns` -/
  conns : List Nat := []
  /-- connections whose `chDone` was closed -/
  gone : List Nat := []
deriving Repr

inductive Act where
  /-- the application: `Advertise` has set the parameters and goes on (gap.go:277-278) -/
  | advertise
  /-- the application: `StopAdvertising` (gap.go:178-181) -/
  | stop
  /-- the `i`-th waiting send gets the lock, marshals and writes: hci.go:372-413 -/
  | lock (i : Nat)
  /-- the controller executes the next command; it may refuse to start advertising (it does when it has as many connections as it can) -/
  | exec (refuse : Bool)
  /-- a central connects: the controller stops advertising and reports it -/
  | central
  /-- the connection ends -/
  | drop (h : Nat)
  /-- the event loop handles the next event -/
  | event
  /-- the accept loop receives the connection the event loop offers -/
  | accept
  /-- `Accept` times out (only if `OptListenerTimeout` is used): gap.go:194-195, device.go:57-65 -/
  | listenerTimeout
  /-- the waiting send gives up after 3 s: hci.go:421-425 -/
  | sendTimeout
deriving DecidableEq, Repr

/-- One event: hci.go:740-762 (answers; the caller that is waiting gets it), 790-803 and 821-822, 896-908 with 851-882. -/
def handle (s : St) : Ev → St
  | .answer ok =>
    match s.held with
    | some w => { s with held := none, results := s.results ++ [(w, ok)] }
    | none => s
  | .connected h => { s with conns := s.conns ++ [h], offering := some h }
  | .disconnected h =>
    -- `!h.isOpen()` is false, so advertising is not enabled again (hci.go:863-877)
    if h ∈ s.conns then { s with conns := s.conns.erase h, gone := s.gone ++ [h] } else s

def step (s : St) : Act → Option St
  | .advertise => some { s with field := true, pend := s.pend ++ [.advertise s.calls], calls := s.calls + 1 }
  | .stop => some { s with field := false, pend := s.pend ++ [.stop s.calls], calls := s.calls + 1 }
  | .lock i =>
    match s.held, s.pend[i]? with
    | none, some w => some { s with held := some w, pend := s.pend.eraseIdx i, cmds := s.cmds ++ [s.field] }
    | _, _ => none
  | .exec refuse =>
    match s.cmds with
    | [] => none
    | true :: cs => some { s with cmds := cs, adv := if refuse then s.adv else true, evq := s.evq ++ [.answer (!refuse)] }
    | false :: cs => some { s with cmds := cs, adv := false, evq := s.evq ++ [.answer true] }
  | .central =>
    if s.adv then some { s with adv := false, up := s.up ++ [s.used], used := s.used + 1, evq := s.evq ++ [.connected s.used] } else none
  | .drop h => if h ∈ s.up then some { s with up := s.up.erase h, evq := s.evq ++ [.disconnected h] } else none
  | .event =>
    match s.offering, s.evq with
    | none, e :: es => some (handle { s with evq := es } e)
    | _, _ => none
  | .accept =>
    match s.offering with
    | some h =>
      -- device.go:76-85, and then the event loop goes on with hci.go:832-836
      if s.accepting then
        some { s with offering := none, served := s.served ++ [h], pend := if s.field then s.pend ++ [.reenable] else s.pend }
      else none
    | none => none
  | .listenerTimeout => if s.accepting then some { s with accepting := false } else none
  | .sendTimeout =>
    match s.held with
    | some w => some { s with held := none, results := s.results ++ [(w, false)] }
    | none => none

abbrev run := runT step

end Ble.Hci.Peripheral
