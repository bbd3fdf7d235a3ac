import Verif.Basic
set_option autoImplicit false

/-!
# Model of `Dial` after the command: waiting, cancelling, and who gets the connection

linux/hci/gap.go:223-268 (`Dial`, `cancelDial`) and hci.go:790-817 (`handleLEConnectionComplete` as central), with the controller's initiator.

One `Dial` at a time (concurrent calls overwrite each other's parameters, gap.go:211-219, and are not modelled); the device stays open; commands get their replies. When a `select` of the code has a
channel ready and a fresh 50 ms timer, it takes the channel.
-/

namespace Ble.DialConn

/-- A peer address. -/
abbrev Peer := Bytes

/-- A command on its way to the controller. -/
inductive Cmd where
  | create (a : Peer)
  | cancel
deriving DecidableEq, Repr

/-- An event raised by the controller and not yet handled by the host. -/
inductive Ev where
  /-- reply to LE Create Connection: accepted, or command disallowed -/
  | created (ok : Bool)
  /-- reply to LE Create Connection Cancel: cancelled, or command disallowed -/
  | cancelled (ok : Bool)
  /-- LE Connection Complete, role central, status 0 -/
  | conn (a : Peer)
deriving DecidableEq, Repr

/-- Where the call of `Dial` is. -/
inductive Phase where
  /-- no call -/
  | idle
  /-- in `Send(&connParams)`: gap.go:222 -/
  | creating (a : Peer)
  /-- in the select of gap.go:230-242 -/
  | waiting (a : Peer)
  /-- in `Send(&connCancel)`: gap.go:247 -/
  | cancelling (a : Peer)
  /-- in the select of gap.go:256-263, after command disallowed -/
  | grace (a : Peer)
deriving DecidableEq, Repr

structure St where
  phase : Phase
  cmd : Option Cmd
  /-- the address the controller is trying to connect to -/
  ctl : Option Peer
  /-- connections made by the controller whose event it has not raised yet -/
  held : List Peer
  evq : List Ev
  /-- `chMasterConn`, capacity 1: hci.go:52 -/
  chan : Option Peer
  /-- finished calls: address dialled, and the peer of the client returned (`none`: an error) -/
  log : List (Peer × Option Peer)
  /-- connections closed by the host because nobody took them: hci.go:811 -/
  dropped : List Peer
deriving DecidableEq, Repr

def init : St := ⟨.idle, none, none, [], [], none, [], []⟩

/-- The call returns. -/
def St.finish (s : St) (a : Peer) (r : Option Peer) : St := { s with phase := .idle, log := s.log ++ [(a, r)] }

/-- Steps. With `prompt`, the controller answers a command only after it has raised the events of the connections it made before. -/
inductive Step (prompt : Bool) : St → St → Prop
  /-- the application calls `Dial`: gap.go:201-223 -/
  | dial (s : St) (a : Peer) : s.phase = .idle → Step prompt s { s with phase := .creating a, cmd := some (.create a) }
  /-- the controller accepts or rejects LE Create Connection -/
  | ctlCreate (s : St) (a : Peer) : s.cmd = some (.create a) → (prompt → s.held = []) →
      Step prompt s (if s.ctl = none then { s with cmd := none, ctl := some a, evq := s.evq ++ [.created true] } else { s with cmd := none, evq := s.evq ++ [.created false] })
  /-- the controller connects -/
  | ctlConnect (s : St) (a : Peer) : s.ctl = some a → Step prompt s { s with ctl := none, held := s.held ++ [a] }
  /-- and raises the event -/
  | ctlAnnounce (s : St) (a : Peer) (r : List Peer) : s.held = a :: r → Step prompt s { s with held := r, evq := s.evq ++ [.conn a] }
  /-- the controller handles LE Create Connection Cancel -/
  | ctlCancel (s : St) : s.cmd = some .cancel → (prompt → s.held = []) →
      Step prompt s { s with cmd := none, ctl := none, evq := s.evq ++ [.cancelled s.ctl.isSome] }
  /-- reply to LE Create Connection: gap.go:222-224 -/
  | created (s : St) (a : Peer) (ok : Bool) (r : List Ev) : s.phase = .creating a → s.evq = .created ok :: r →
      Step prompt s (if ok then { s with phase := .waiting a, evq := r } else { s with evq := r }.finish a none)
  /-- reply to the cancel command: gap.go:246-256 -/
  | cancelled (s : St) (a : Peer) (ok : Bool) (r : List Ev) : s.phase = .cancelling a → s.evq = .cancelled ok :: r →
      Step prompt s (if ok then { s with evq := r }.finish a none else { s with phase := .grace a, evq := r })
  /-- the event loop hands a connection over: hci.go:808-809; it waits while the channel is full -/
  | push (s : St) (c : Peer) (r : List Ev) : s.evq = .conn c :: r → s.chan = none → Step prompt s { s with evq := r, chan := some c }
  /-- … for 100 ms, then closes the connection: hci.go:810-811 -/
  | drop (s : St) (c d : Peer) (r : List Ev) : s.evq = .conn c :: r → s.chan = some d → Step prompt s { s with evq := r, dropped := s.dropped ++ [c] }
  /-- `Dial` takes a connection from the channel: gap.go:237-241 -/
  | take (s : St) (a c : Peer) : s.phase = .waiting a → s.chan = some c → Step prompt s ({ s with chan := none }.finish a (some c))
  /-- the context ends or the dial time-out fires: gap.go:231-234 -/
  | interrupt (s : St) (a : Peer) : s.phase = .waiting a → Step prompt s { s with phase := .cancelling a, cmd := some .cancel }
  /-- `cancelDial` takes a connection from the channel: gap.go:257-259 -/
  | takeLate (s : St) (a c : Peer) : s.phase = .grace a → s.chan = some c → Step prompt s ({ s with chan := none }.finish a (some c))
  /-- or gives up after 50 ms: gap.go:260-262 -/
  | giveUp (s : St) (a : Peer) : s.phase = .grace a → s.chan = none → Step prompt s (s.finish a none)

/-- Executions. -/
inductive Reach (prompt : Bool) : St → Prop
  | init : Reach prompt init
  | step (s t : St) : Reach prompt s → Step prompt s t → Reach prompt t

end Ble.DialConn
