import Verif.Trans
set_option autoImplicit false

/-!
# Model of the scanning calls of a device, from any number of goroutines

linux/device.go:211-250 (`Scan`, `NonblockingScan`, `StopScan`), linux/hci/gap.go:21-44 (`SetAdvHandler`, `Scan`, `StopScanning`), the part of `send` (linux/hci/hci.go:353-442) that orders commands with the same operation code, and the
dispatch of a report to the handler (hci.go:609-612, 727-732).

The calls share the handler and the parameters of the command (`h.params.scanEnable`), without a lock: `Scan` and `StopScanning` write the fields, then `Send` waits for the opcode lock (hci.go:373) and only then marshals them
(hci.go:383), so that what is sent is what the fields are by then.

Simplifications: a report is an abstract value of type `R`, dispatched once (AdvHist.lean has its decoding; reports that cannot be decoded are not dispatched); `Send` is answered, with success or not (Cmd.lean has the time-out); the two
fields are written in one step; the goroutine a handler runs in is not modelled, dispatching it is.
-/

namespace Ble.Scanning

variable {R : Type}

inductive Kind where
  /-- device.go:211-225 -/
  | scan
  /-- device.go:227-237 -/
  | nonblocking
  /-- device.go:239-244 -/
  | stop
deriving DecidableEq, Repr

/-- Where a call is. -/
inductive Phase where
  | called
  /-- `SetAdvHandler` done -/
  | handlerSet
  /-- fields written, before the opcode lock -/
  | wantOn
  /-- command written, the answer has not been handled; `on`: it is that of `Scan`, not of `StopScanning` -/
  | sent (on : Bool)
  /-- waits for its context: device.go:219 -/
  | scanning
  /-- `LEScanEnable = 0` written, before the opcode lock -/
  | wantOff
  /-- `ok`: no command failed -/
  | returned (ok : Bool)
deriving DecidableEq, Repr

structure Call where
  kind : Kind
  allowDup : Bool
  /-- its context has ended -/
  ended : Bool
  phase : Phase

/-- What the event loop reads from the controller, in order. -/
inductive In (R : Type) where
  | report (r : R)
  /-- the answer to the command in flight -/
  | answer (ok : Bool)

structure St (R : Type) where
  /-- number of calls made -/
  n : Nat := 0
  calls : Nat → Option Call := fun _ => none
  /-- `h.params.scanEnable` -/
  enable : Bool := false
  filter : Bool := false
  /-- `h.advHandler`: the call whose handler it is -/
  handler : Option Nat := none
  /-- holder of the opcode lock -/
  holder : Option Nat := none
  /-- command on its way to the controller: enable, filter duplicates -/
  cmd : Option (Bool × Bool) := none
  /-- the controller: not scanning, or scanning and filtering duplicates or not -/
  ctl : Option Bool := none
  queue : List (In R) := []
  /-- handlers dispatched -/
  log : List (Nat × R) := []
  /-- ghost: reports the controller has sent, with the number of calls made by then -/
  emitted : List (Nat × R) := []

/-- Put a call into a phase. -/
def St.at_ (s : St R) (i : Nat) (c : Call) (p : Phase) : St R := { s with calls := fun j => if j = i then some { c with phase := p } else s.calls j }

inductive Ev (R : Type) where
  | call (k : Kind) (allowDup : Bool)
  /-- device.go:212, 228 -/
  | setHandler (i : Nat)
  /-- gap.go:29-35 -/
  | setFields (i : Nat)
  /-- the context of a call ends -/
  | endCtx (i : Nat)
  /-- gap.go:42, after device.go:219 or in `StopScan` -/
  | clear (i : Nat)
  /-- hci.go:373-413: lock, marshal, write -/
  | write (i : Nat)
  /-- the controller takes the command, with this success, and answers -/
  | exec (ok : Bool)
  /-- the controller reports an advertiser -/
  | emit (r : R)
  /-- the event loop takes the next input -/
  | handle

/-- The phase after the answer to a command: gap.go:37, 43; device.go:216-224. -/
def answered (k : Kind) (on ok : Bool) : Phase :=
  if on then (if ok then (if k = .scan then .scanning else .returned true) else .returned false) else .returned ok

def step (s : St R) : Ev R → Option (St R)
  | .call k d => some { s with n := s.n + 1, calls := fun j => if j = s.n then some ⟨k, d, false, .called⟩ else s.calls j }
  | .setHandler i =>
    match s.calls i with
    | some c => if c.kind ≠ .stop ∧ c.phase = .called then some { s.at_ i c .handlerSet with handler := some i } else none
    | none => none
  | .setFields i =>
    match s.calls i with
    | some c => if c.phase = .handlerSet then some { s.at_ i c .wantOn with enable := true, filter := !c.allowDup } else none
    | none => none
  | .endCtx i =>
    match s.calls i with
    | some c => some (s.at_ i { c with ended := true } c.phase)
    | none => none
  | .clear i =>
    match s.calls i with
    | some c => if (c.phase = .scanning ∧ c.ended = true) ∨ (c.kind = .stop ∧ c.phase = .called) then some { s.at_ i c .wantOff with enable := false } else none
    | none => none
  | .write i =>
    match s.calls i with
    | some c =>
      if (c.phase = .wantOn ∨ c.phase = .wantOff) ∧ s.holder = none then some { s.at_ i c (.sent (c.phase = .wantOn)) with holder := some i, cmd := some (s.enable, s.filter) } else none
    | none => none
  | .exec ok =>
    match s.cmd with
    | some (e, f) => some { s with cmd := none, ctl := if ok then (if e then some f else none) else s.ctl, queue := s.queue ++ [.answer ok] }
    | none => none
  | .emit r => if s.ctl ≠ none then some { s with queue := s.queue ++ [.report r], emitted := s.emitted ++ [(s.n, r)] } else none
  | .handle =>
    match s.queue with
    | [] => none
    | .report r :: q =>
      match s.handler with
      | some h => some { s with queue := q, log := s.log ++ [(h, r)] }
      | none => some { s with queue := q }
    | .answer ok :: q =>
      match s.holder with
      | some i =>
        match s.calls i with
        | some c =>
          match c.phase with
          | .sent on => some { s.at_ i c (answered c.kind on ok) with holder := none, queue := q }
          | _ => none
        | none => none
      | none => none

end Ble.Scanning
