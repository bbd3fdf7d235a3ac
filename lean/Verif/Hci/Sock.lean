import Verif.Basic
set_option autoImplicit false

/-!
# Model of opening an HCI socket

linux/hci/socket/socket.go:69-139 (`NewSocket`, `open`), with the table of file descriptors of the process and the adapters of the machine.

Simplifications: creating a socket and reading the list of devices succeed. An attempt is one step; other goroutines of the process open and close files between attempts (in the second in which `NewSocket` sleeps).
-/

namespace Ble.Sock

/-- What a file descriptor stands for. -/
inductive File where
  /-- an HCI socket that is not bound -/
  | raw
  /-- an HCI socket bound to the user channel of this adapter -/
  | user (dev : Int)
  /-- a file of another part of the program -/
  | foreign (k : Nat)
deriving DecidableEq, Repr

/-- The process and the machine. -/
structure OS where
  fds : Nat → Option File
  /-- adapters that were taken down by an ioctl and not bound -/
  down : List Int

/-- How an adapter responds at some time. -/
structure Dev where
  /-- the ioctl `HCIDEVDOWN` succeeds (it fails if there is no such adapter) -/
  canDown : Bool
  /-- `bind` to the user channel succeeds -/
  canBind : Bool
  /-- the poll right after it reports an error -/
  pollErr : Bool := false
deriving DecidableEq, Repr

def setFd (fds : Nat → Option File) (fd : Nat) (x : Option File) : Nat → Option File := fun n => if n = fd then x else fds n

/-- `open`: socket.go:110-139. A descriptor that is closed, belongs to another file or is bound already makes the ioctl or the bind fail. -/
def openDev (os : OS) (fd : Nat) (id : Int) (d : Dev) : OS × Bool :=
  match os.fds fd with
  | some .raw =>
    if d.canDown = false then (os, false)
    else if d.canBind = false then ({ os with down := os.down ++ [id] }, false)
    else
      let os' := { os with fds := setFd os.fds fd (some (.user id)) }
      (os', !d.pollErr)
  | _ => (os, false)

/-- What other goroutines do between two attempts. -/
inductive Other where
  /-- open a file; the system gives it a number that is free -/
  | openFile (fd : Nat) (k : Nat)
  | closeFile (fd : Nat)
deriving DecidableEq, Repr

def other (os : OS) : Other → OS
  | .openFile fd k => if os.fds fd = none then { os with fds := setFd os.fds fd (some (.foreign k)) } else os
  | .closeFile fd => match os.fds fd with
    | some (.foreign _) => { os with fds := setFd os.fds fd none }
    | _ => os

def others (os : OS) (l : List Other) : OS := l.foldl other os

/-- `unix.Close(fd)`: whatever the number stands for. -/
def closeFd (os : OS) (fd : Nat) : OS := { os with fds := setFd os.fds fd none }

/-- The loop of `NewSocket` for a given adapter: socket.go:76-91: attempts until 60 s are over; each with the adapter's state and what happens in the second before the next. The same `fd` is used throughout. -/
def attempts (os : OS) (fd : Nat) (id : Int) : List (Dev × List Other) → OS × Option Nat
  | [] => (os, none)
  | (d, oth) :: rest =>
    match openDev os fd id d with
    | (os', true) => (os', some fd)
    | (os', false) => attempts (others (closeFd os' fd) oth) fd id rest

/-- socket.go:69-91: the new socket gets a free number. -/
def newSocketId (os : OS) (fd : Nat) (id : Int) (l : List (Dev × List Other)) : OS × Option Nat :=
  attempts { os with fds := setFd os.fds fd (some .raw) } fd id l

/-- The loop over the devices: socket.go:100-106: the numbers from 0 on, as many as there are devices. -/
def tryAll (os : OS) (fd : Nat) (dev : Int → Dev) : List Nat → OS × Option Int
  | [] => (os, none)
  | i :: is =>
    match openDev os fd i (dev i) with
    | (os', true) => (os', some i)
    | (os', false) => tryAll os' fd dev is

/-- `NewSocket(-1)`: socket.go:94-108, for a machine with these adapters, at most 16 of which are listed. -/
def newSocketAny (os : OS) (fd : Nat) (ids : List Int) (dev : Int → Dev) : OS × Option Int :=
  let r := tryAll { os with fds := setFd os.fds fd (some .raw) } fd dev (List.range (min ids.length 16))
  match r.2 with
  | some i => (r.1, some i)
  | none => (closeFd r.1 fd, none)

end Ble.Sock
