import Verif.Att.Model
import Verif.Trans
set_option autoImplicit false

/-!
# Model of the two goroutines of `Server.Loop`

linux/att/server.go:124-177: a goroutine reads PDUs from the connection into one of two buffers and hands them over the unbuffered channel `seq` to the goroutine that handles requests; the
buffers come from and go back to the channel `pool`. The buffers are shared memory: the handler works on the very bytes the reader could overwrite. A handler of the application may
take any time and may call `indicate` (server.go:95-121) itself, which waits for a confirmation that only the reader can deliver. Indications of other goroutines are in `Att/Indicate.lean`.
-/

namespace Ble.Pipe

open Ble.Att

/-- Where the reading goroutine is. -/
inductive Rd where
  /-- at `b := <-pool`: server.go:137 -/
  | start
  /-- at `s.conn.Read(b.buf)`: server.go:139 -/
  | hold (b : Nat)
  /-- at `seq <- b`: server.go:155 -/
  | offer (b : Nat)
  /-- at `b = <-pool`: server.go:156 -/
  | swap
  /-- returned: server.go:140-145 -/
  | done
deriving DecidableEq, Repr

/-- Where the handling goroutine is. -/
inductive Hd where
  /-- at `range seq`: server.go:159 -/
  | idle
  /-- in `handleRequest`: server.go:160 -/
  | handling (b : Nat)
  /-- in the `select` of an `indicate` called by a handler: server.go:112-120 -/
  | indicating (b : Nat)
  /-- at `pool <- req`: server.go:165 -/
  | giving (b : Nat)
  /-- after the loop: server.go:167-177 -/
  | ended
deriving DecidableEq, Repr

/-- How an `indicate` ended: server.go:113-120. -/
inductive Res where
  | ok
  | timeout
  | closed
deriving DecidableEq, Repr

structure St (σ : Type) where
  srv : Server σ
  /-- contents of the buffers of 515 bytes: server.go:133-134 -/
  mem : Nat → Bytes := fun _ => List.replicate 515 0
  /-- `len` of the buffers -/
  len : Nat → Nat := fun _ => 0
  pool : List Nat := [0, 1]
  rd : Rd := .start
  hd : Hd := .idle
  /-- PDUs that have arrived and have not been read -/
  inq : List Bytes := []
  up : Bool := true
  /-- all PDUs that have arrived -/
  recv : List Bytes := []
  /-- the requests as the handling goroutine found them when it got them -/
  seen : List Bytes := []
  /-- PDUs sent -/
  sent : List Bytes := []
  /-- results of the calls of `indicate` made by handlers -/
  inds : List Res := []
  crashed : Bool := false

inductive Ev where
  /-- a PDU arrives; the connection accepts at most 515 bytes (conn.go:411, device.go:74) -/
  | arrive (p : Bytes)
  /-- the connection ends -/
  | down
  /-- the reader gets a buffer from the pool -/
  | getBuf
  /-- `Read` returns a PDU -/
  | read
  /-- `Read` fails because the connection has ended -/
  | readErr
  /-- the two goroutines meet at `seq` -/
  | hand
  /-- a handler has sent an indication and waits -/
  | indicate
  /-- 30 s have passed -/
  | timeout
  /-- `chConfirm` is closed -/
  | indClosed
  /-- `handleRequest` returns and the response is sent -/
  | finish
  /-- the buffer goes back -/
  | give
  /-- `seq` is closed: the loop ends -/
  | stop
deriving DecidableEq, Repr

variable {σ : Type}

/-- The request in a buffer, `req.buf[:req.len]`: server.go:160. -/
def St.slice (s : St σ) (b : Nat) : Bytes := (s.mem b).take (s.len b)

/-- One step; `none` if it is not possible. -/
def step (s : St σ) : Ev → Option (St σ)
  | .arrive p => if s.up ∧ p.length ≤ 515 then some { s with inq := s.inq ++ [p], recv := s.recv ++ [p] } else none
  | .down => some { s with up := false }
  | .getBuf =>
    match s.rd, s.pool with
    | .start, b :: r => some { s with rd := .hold b, pool := r }
    | .swap, b :: r => some { s with rd := .hold b, pool := r }
    | _, _ => none
  | .read =>
    match s.rd, s.inq with
    | .hold b, p :: r =>
      -- server.go:139: the PDU is copied to the start of the buffer
      let s' := { s with inq := r, mem := fun i => if i = b then p ++ (s.mem b).drop p.length else s.mem i }
      if p.length = 0 then some { s' with rd := .done }  -- server.go:140
      else if (s'.mem b).head? = some 0x1E then           -- server.go:146
        match s.hd with
        | .indicating c => some { s' with hd := .handling c, inds := s.inds ++ [.ok] }  -- server.go:148
        | _ => some s'                                     -- server.go:149
      else some { s' with len := fun i => if i = b then p.length else s.len i, rd := .offer b }
    | _, _ => none
  | .readErr =>
    match s.rd, s.inq with
    | .hold _, [] => if s.up = false then some { s with rd := .done } else none
    | _, _ => none
  | .hand =>
    match s.rd, s.hd with
    | .offer b, .idle => some { s with rd := .swap, hd := .handling b, seen := s.seen ++ [s.slice b] }
    | _, _ => none
  | .indicate =>
    match s.hd with
    | .handling b => some { s with hd := .indicating b }
    | _ => none
  | .timeout =>
    match s.hd with
    | .indicating b => some { s with hd := .handling b, inds := s.inds ++ [.timeout] }
    | _ => none
  | .indClosed =>
    match s.hd, s.rd with
    | .indicating b, .done => some { s with hd := .handling b, inds := s.inds ++ [.closed] }
    | _, _ => none
  | .finish =>
    match s.hd with
    | .handling b =>
      -- the request is looked at here again, after whatever happened meanwhile
      match loopStep s.srv (s.slice b) with
      | .ok (srv', out) => some { s with srv := srv', sent := s.sent ++ out, hd := .giving b }
      | _ => some { s with crashed := true, hd := .ended, rd := .done }
    | _ => none
  | .give =>
    -- `pool` has room for two (server.go:132)
    match s.hd with
    | .giving b => if s.pool.length < 2 then some { s with hd := .idle, pool := s.pool ++ [b] } else none
    | _ => none
  | .stop =>
    match s.hd, s.rd with
    | .idle, .done => some { s with hd := .ended }
    | _, _ => none

/-- `Loop` of a server on a fresh connection. -/
def init (srv : Server σ) : St σ := { srv := srv }

end Ble.Pipe
