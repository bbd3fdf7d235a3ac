import Verif.Basic
import Verif.Trans
set_option autoImplicit false

/-!
# Model of the concurrent use of an H4 transport

linux/hci/h4/h4.go:116-220 (`Read`, `Close`, `isOpen`, `rxLoop`) and h4.go:222-255 (`resetAndWaitIdle`). Any number of goroutines call `Read` and `Close`; the receive loop runs beside them. A step is the code up to the next operation on a mutex, a channel or the transport.

Simplifications: the packets found in the bytes of one read of the transport are an input of the step (they are what `assemble` of Hci/H4.lean gives); `Write` is not included (it holds `wmu` only); the closed transport gives an error to a pending read (`net.Conn` and `os.File` do).
-/

namespace Ble.H4Conc

inductive Op where
  /-- with a buffer of this size -/
  | read (cap : Nat)
  | close
deriving DecidableEq, Repr

inductive Ret where
  | packet (b : Bytes)
  /-- "buffer too small" -/
  | small
  /-- `0, nil` after one second -/
  | quiet
  /-- `io.EOF` -/
  | eof
  /-- `Close` has closed the transport -/
  | closed
  /-- `Close`: nothing to do -/
  | already
deriving DecidableEq, Repr

inductive PC where
  | start (op : Op)
  /-- `Read` before `rmu.Lock()`: h4.go:121 -/
  | rWait (cap : Nat)
  /-- `Read` before the select: h4.go:126 -/
  | rSel (cap : Nat)
  /-- `Read` before the second `isOpen`, with the packet copied: h4.go:139 -/
  | rCheck (b : Bytes)
  /-- `Close` before the select: h4.go:160 -/
  | cTest
  /-- `Close` before `rmu.Lock()`: h4.go:168 -/
  | cWait
  /-- `Close` before closing the transport: h4.go:169 -/
  | cClose
  | fin (r : Ret)
deriving DecidableEq, Repr

/-- Where the receive loop is. -/
inductive Rx where
  /-- before the select: h4.go:192 -/
  | test
  /-- before reading the transport: h4.go:204 -/
  | read
  /-- in `Assemble`, with these packets still to be put on the queue: frame.go:64 -/
  | push (ps : List Bytes)
  | ended
deriving DecidableEq, Repr

structure State where
  pc : Nat → Option PC := fun _ => none
  rx : Rx := .test
  done : Bool := false
  rmu : Option Nat := none
  cmu : Option Nat := none
  /-- the transport is open -/
  up : Bool := true
  /-- `rxQueue` -/
  q : List Bytes := []
  /-- packets found in the bytes received, in order -/
  made : List Bytes := []
  /-- packets taken from the queue by calls that have returned, in order; whether they were returned -/
  taken : List (Bytes × Bool) := []

/-- `rxQueueSize`: h4.go:16. -/
def cap : Nat := 64

/-- What a read of the transport gives. -/
inductive RxRes where
  /-- bytes that complete these packets -/
  | data (ps : List Bytes)
  /-- a time-out, or an end of file that stands for one: h4.go:209-213 -/
  | again
  | err
deriving DecidableEq, Repr

inductive Ev where
  | call (t : Nat) (op : Op)
  /-- a call makes its next step; `timeUp`: in the select of `Read`, the second is over -/
  | go (t : Nat) (timeUp : Bool)
  /-- the receive loop makes its next step -/
  | rx (r : RxRes)
deriving DecidableEq, Repr

def State.at_ (s : State) (t : Nat) (p : PC) : State := { s with pc := fun n => if n = t then some p else s.pc n }

/-- One step of a call: h4.go:116-143, 156-174. -/
def go (s : State) (t : Nat) (timeUp : Bool) : Option State :=
  match s.pc t with
  -- h4.go:117-119
  | some (.start (.read n)) => some (if s.done then s.at_ t (.fin .eof) else s.at_ t (.rWait n))
  | some (.rWait n) => if s.rmu = none then some ({ s with rmu := some t }.at_ t (.rSel n)) else none
  -- h4.go:126-136
  | some (.rSel n) =>
    if timeUp then some ({ s with rmu := none }.at_ t (.fin .quiet))
    else match s.q with
      | [] => none
      | b :: q =>
        if n < b.length then some ({ s with q := q, rmu := none, taken := s.taken ++ [(b, false)] }.at_ t (.fin .small))
        else some ({ s with q := q }.at_ t (.rCheck b))
  -- h4.go:139-142
  | some (.rCheck b) =>
    some ({ s with rmu := none, taken := s.taken ++ [(b, !s.done)] }.at_ t (.fin (if s.done then .eof else .packet b)))
  -- h4.go:157-158
  | some (.start .close) => if s.cmu = none then some ({ s with cmu := some t }.at_ t .cTest) else none
  -- h4.go:160-166
  | some .cTest =>
    if s.done then some ({ s with cmu := none }.at_ t (.fin .already))
    else some ({ s with done := true }.at_ t .cWait)
  | some .cWait => if s.rmu = none then some ({ s with rmu := some t }.at_ t .cClose) else none
  -- h4.go:169-172
  | some .cClose => some ({ s with rmu := none, cmu := none, up := false }.at_ t (.fin .closed))
  | some (.fin _) => none
  | none => none

/-- One step of `rxLoop`: h4.go:187-220. At its end it calls `Close` (the deferred call of h4.go:188), as the call with number 0. -/
def rxStep (s : State) (r : RxRes) : Option State :=
  match s.rx with
  -- h4.go:191-201
  | .test => some (if s.done then { s with rx := .ended }.at_ 0 (.start .close) else { s with rx := .read })
  -- h4.go:204-219
  | .read =>
    match (if s.up then r else .err) with
    | .data ps => some { s with rx := .push ps, made := s.made ++ ps }
    | .again => some { s with rx := .test }
    | .err => some ({ s with rx := .ended }.at_ 0 (.start .close))
  -- frame.go:64
  | .push [] => some { s with rx := .test }
  | .push (b :: ps) => if s.q.length < cap then some { s with rx := .push ps, q := s.q ++ [b] } else none
  | .ended => none

def step (s : State) : Ev → Option State
  | .call t op => if t ≠ 0 ∧ s.pc t = none then some (s.at_ t (.start op)) else none
  | .go t u => go s t u
  | .rx r => rxStep s r

/-- A transport that was just opened: h4.go:69-78, 103-112. -/
def init : State := {}

/-! ## `resetAndWaitIdle` -/

/-- What a read of the transport gives while waiting for silence. -/
inductive Rd where
  /-- `n` bytes -/
  | data (n : Nat)
  | timeout
  | eof
  | fail
deriving DecidableEq, Repr

inductive Idle where
  | idle
  /-- "timeout waiting for idle state" -/
  | late
  | error (r : Rd)
  /-- still reading -/
  | waiting
deriving DecidableEq, Repr

/-- The loop of `resetAndWaitIdle`: h4.go:231-254. Each read with whether the time was over when it returned. -/
def waitIdle (eofAsError : Bool) : List (Rd × Bool) → Idle
  | [] => .waiting
  | (.data 0, _) :: _ => .idle
  | (_, true) :: _ => .late
  | (.data _, false) :: rest => waitIdle eofAsError rest
  | (.timeout, false) :: _ => .idle
  | (.eof, false) :: _ => if eofAsError then .error .eof else .idle
  | (.fail, false) :: _ => .error .fail

/-- `resetAndWaitIdle`: h4.go:222-255: what it writes, and its result. -/
def resetAndWaitIdle (eofAsError writeOk : Bool) (reads : List (Rd × Bool)) : Bytes × Idle :=
  ([1, 3, 12, 0], if writeOk then waitIdle eofAsError reads else .error .fail)

end Ble.H4Conc
