import Verif.Trans
set_option autoImplicit false

/-!
# Model of the concurrent use of an HCI socket

linux/hci/socket/socket.go:141-213 (`Read`, `Write`, `Close`, `isOpen`). Any number of goroutines call the three methods; a step of a call is the code up to the next operation on a mutex, on the channel `done` or on the descriptor. Between steps, the rest of the program may be given the number of the descriptor once it is free (the system hands out the lowest free number), and may give it back.

Simplifications: the bytes read and written are not kept; what the system reports for a file that belongs to somebody else is arbitrary.
-/

namespace Ble.SockConc

inductive Op where
  | read | write | close
deriving DecidableEq, Repr

/-- What the number of the socket's descriptor stands for. -/
inductive Fd where
  /-- the HCI socket -/
  | ours
  /-- nothing -/
  | free
  /-- a file of another part of the program -/
  | foreign
deriving DecidableEq, Repr

inductive Ret where
  /-- `io.EOF` -/
  | eof
  /-- the result of the system call -/
  | sys
  /-- `0, nil`: nothing to read -/
  | quiet
  /-- `Close`: nothing to do -/
  | already
deriving DecidableEq, Repr

/-- Where a call is. -/
inductive PC where
  /-- before the first statement -/
  | start (op : Op)
  /-- `Read` before `rmu.Lock()`: socket.go:148 -/
  | rWait
  /-- `Read` before the poll: socket.go:152 -/
  | rPoll
  /-- `Read` before the read: socket.go:162; the poll was for this file -/
  | rRead (polled : Fd)
  /-- `Read` before the second `isOpen`: socket.go:170 -/
  | rCheck
  /-- `Write` before `wmu.Lock()`: socket.go:181 -/
  | wWait
  /-- `Write` before the write: socket.go:183 -/
  | wWrite
  /-- `Close` before the select: socket.go:191 -/
  | cTest
  /-- `Close` before `rmu.Lock()`: socket.go:198 -/
  | cWait
  /-- `Close` before closing the descriptor: socket.go:199 -/
  | cClose
  /-- the call has returned -/
  | fin (op : Op) (r : Ret)
deriving DecidableEq, Repr

/-- A system call on the descriptor. -/
inductive Sys where
  | poll | read | write | close
deriving DecidableEq, Repr

structure Touch where
  by_ : Nat
  sys : Sys
  file : Fd
deriving DecidableEq, Repr

structure State where
  pc : Nat → Option PC := fun _ => none
  /-- the channel `done` is closed -/
  done : Bool := false
  rmu : Option Nat := none
  wmu : Option Nat := none
  cmu : Option Nat := none
  fd : Fd := .ours
  /-- the system calls on the descriptor, in order -/
  log : List Touch := []

/-- What a poll reports. -/
inductive Poll where
  | data | none_ | error
deriving DecidableEq, Repr

inductive Ev where
  /-- a goroutine calls a method -/
  | call (t : Nat) (op : Op)
  /-- a call makes its next step; `p` is what a poll reports -/
  | go (t : Nat) (p : Poll)
  /-- another part of the program opens a file and is given the number -/
  | reuse
  /-- it closes that file -/
  | release
deriving DecidableEq, Repr

def State.at_ (s : State) (t : Nat) (p : PC) : State := { s with pc := fun n => if n = t then some p else s.pc n }

def State.touch (s : State) (t : Nat) (k : Sys) : State := { s with log := s.log ++ [⟨t, k, s.fd⟩] }

/-- One step of a call: socket.go:141-213. -/
def go (s : State) (t : Nat) (p : Poll) : Option State :=
  match s.pc t with
  -- socket.go:142-144
  | some (.start .read) => some (if s.done then s.at_ t (.fin .read .eof) else s.at_ t .rWait)
  | some .rWait => if s.rmu = none then some ({ s with rmu := some t }.at_ t .rPoll) else none
  -- socket.go:152-168
  | some .rPoll =>
    let s' := s.touch t .poll
    match (if s.fd = .free then .error else p) with
    | .error => some ({ s' with rmu := none }.at_ t (.fin .read .eof))
    | .data => some (s'.at_ t (.rRead s.fd))
    | .none_ => some ({ s' with rmu := none }.at_ t (.fin .read .quiet))
  | some (.rRead _) => some ((s.touch t .read).at_ t .rCheck)
  -- socket.go:170-174
  | some .rCheck => some ({ s with rmu := none }.at_ t (.fin .read (if s.done then .eof else .sys)))
  -- socket.go:177-179
  | some (.start .write) => some (if s.done then s.at_ t (.fin .write .eof) else s.at_ t .wWait)
  | some .wWait => if s.wmu = none then some ({ s with wmu := some t }.at_ t .wWrite) else none
  | some .wWrite => some ({ s.touch t .write with wmu := none }.at_ t (.fin .write .sys))
  -- socket.go:188-189
  | some (.start .close) => if s.cmu = none then some ({ s with cmu := some t }.at_ t .cTest) else none
  -- socket.go:191-196
  | some .cTest =>
    if s.done then some ({ s with cmu := none }.at_ t (.fin .close .already))
    else some ({ s with done := true }.at_ t .cWait)
  | some .cWait => if s.rmu = none then some ({ s with rmu := some t }.at_ t .cClose) else none
  -- socket.go:199-202
  | some .cClose => some ({ s.touch t .close with rmu := none, cmu := none, fd := .free }.at_ t (.fin .close .sys))
  | some (.fin _ _) => none
  | none => none

def step (s : State) : Ev → Option State
  | .call t op => if s.pc t = none then some (s.at_ t (.start op)) else none
  | .go t p => go s t p
  | .reuse => if s.fd = .free then some { s with fd := .foreign } else none
  | .release => if s.fd = .foreign then some { s with fd := .free } else none

/-- A socket that was just opened: socket.go:138. -/
def init : State := {}

end Ble.SockConc
