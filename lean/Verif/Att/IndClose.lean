import Verif.Att.Indicate
set_option autoImplicit false

/-!
# The ATT server's goroutines when the connection ends and when writes fail

linux/att/server.go:77-177: the transition system of `Att/Indicate.lean` with the end of the connection and with writes that fail. A write that fails has sent nothing that the peer could confirm.
-/

namespace Ble.Ind

/-- How a call of `indicate` failed, other than by time-out. -/
inductive Fail where
  /-- the error of the connection's `Write`: server.go:110-112 -/
  | write
  /-- `io.ErrClosedPipe`: server.go:115-117 -/
  | closed
deriving DecidableEq, Repr

structure Full where
  base : St := {}
  /-- the reader can still get something from the connection -/
  here : Bool := true
  /-- the reader has ended, `seq` and `chConfirm` are closed: server.go:138-143 -/
  ended : Bool := false
  /-- the loop over `seq` has ended: server.go:159-168 -/
  stopped : Bool := false
  /-- calls of `indicate` that failed otherwise than by time-out, oldest first -/
  errs : List (Nat × Fail) := []
deriving DecidableEq, Repr

inductive FEv where
  /-- a step of the server or of the peer, as in `Att/Indicate.lean` -/
  | base (e : Ev)
  /-- the connection is lost or the peer sends an empty PDU: what comes after is not read (server.go:138: `n == 0 || err != nil`) -/
  | peerGone
  /-- the reader notices it, once it has read what came before -/
  | readEnd
  /-- a call of `notify` cannot write: server.go:91 -/
  | notifyFail
  /-- a call of `indicate` cannot write: server.go:109-112 -/
  | indFail
  /-- a call of `indicate` receives from the closed `chConfirm`: server.go:114-117 -/
  | indClosed
  /-- the loop ends; the notifiers of the connection are closed: server.go:159-177 -/
  | loopEnd
deriving DecidableEq, Repr

/-- One step; `none` if it is not possible in this state. -/
def fstep (s : Full) : FEv → Option Full
  | .base e =>
    match e with
    | .peerConfirm => if s.here then (step s.base e).map fun b => { s with base := b } else none
    | .peerSend _ => if s.here then (step s.base e).map fun b => { s with base := b } else none
    | .read => if s.ended then none else (step s.base e).map fun b => { s with base := b }
    | _ => (step s.base e).map fun b => { s with base := b }
  | .peerGone => if s.here then some { s with here := false } else none
  | .readEnd => if s.here = false ∧ s.base.inq = [] ∧ s.ended = false then some { s with ended := true } else none
  | .notifyFail =>
    match s.base.ntf with
    | some (n, _, _) => some { s with base := { s.base with ntf := none, notBuf := some n } }
    | none => none
  | .indFail =>
    match s.base.ind with
    | some c =>
      if c.phase = .taken then some { s with base := { s.base with ind := none, indBuf := some c.size }, errs := s.errs ++ [(c.id, .write)] } else none
    | none => none
  | .indClosed =>
    match s.base.ind with
    | some c =>
      if c.phase = .waiting ∧ s.ended then some { s with base := { s.base with ind := none, indBuf := some c.size }, errs := s.errs ++ [(c.id, .closed)] } else none
    | none => none
  | .loopEnd => if s.ended ∧ s.base.main = .idle ∧ s.stopped = false then some { s with stopped := true } else none

/-- Runs. -/
def frun (s : Full) : List FEv → Option Full
  | [] => some s
  | e :: es => (fstep s e).bind fun s' => frun s' es

end Ble.Ind
