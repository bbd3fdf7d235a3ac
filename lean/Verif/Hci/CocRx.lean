import Verif.Hci.Coc
import Verif.Trans
set_option autoImplicit false

/-!
# Model of the goroutines that use the receiving side of credit-based channels

linux/hci/coc.go: `addChannel` (103-121), `CloseChannel` (123-138), `Subscribe` (150-167), `Unsubscribe` (169-185), `recieve` (235-297), with Go's channels: the application reads from the channel that `Subscribe` gave it while the
goroutine that recombines the PDUs of the connection (conn.go:125-140, 400-457) puts SDUs there, and other goroutines subscribe, unsubscribe and close. All functions of coc.go hold the table's mutex from beginning to end; `recieve` holds it also
while it waits in its select (coc.go:278-284). Sending the returned credit (coc.go:246) is not part of this model.
-/

namespace Ble.CocRx

/-- A channel made by `Subscribe` (coc.go:163), numbered in the order in which they were made. -/
structure Sub where
  /-- what it holds -/
  q : List Bytes := []
  closed : Bool := false
  /-- what the application has read from it, in order -/
  got : List Bytes := []

/-- `cocRxChannelSize`: coc.go:16. -/
def cap : Nat := 8

/-- An entry of `remoteCidLut`; `sub` is `rxChan`. -/
structure Ch where
  loc : Nat
  rem : Nat
  sub : Option Nat
deriving DecidableEq, Repr

structure St where
  chans : List Ch := []
  nsub : Nat := 0
  subs : Nat → Sub := fun _ => {}
  /-- `recieve` is in its select, with this channel (none: nil) and these bytes, and holds the mutex -/
  rx : Option (Option Nat × Bytes) := none
  /-- the recombining goroutine runs -/
  up : Bool := true
  crashed : Bool := false

inductive Ev where
  /-- the end of a successful `Open`: local and remote identifier -/
  | opened (l r : Nat)
  | subscribe (l : Nat)
  | unsubscribe (l : Nat)
  | close (r : Nat)
  /-- a frame with this payload for this local identifier is recombined -/
  | frame (l : Nat) (data : Bytes)
  /-- the select of `recieve`: the send is done -/
  | put
  /-- the five seconds are over -/
  | timeout
  /-- the application reads from a channel -/
  | read (k : Nat)
  /-- the connection ends and with it the recombining goroutine -/
  | down
deriving DecidableEq, Repr

def setSub (s : St) (k : Nat) (v : Sub) : St := { s with subs := fun j => if j = k then v else s.subs j }

/-- The entry with this local identifier, as `lookupLocalCID` (coc.go:140-148) finds it. -/
def look (s : St) (l : Nat) : Option Ch := s.chans.find? fun c => c.loc = l

/-- Put a changed copy back: coc.go:164, 182. -/
def putBack (s : St) (c : Ch) : St := { s with chans := s.chans.map fun d => if d.rem = c.rem then c else d }

/-- `close(ch)`, a panic if it is closed. -/
def closeSub (s : St) (k : Nat) : St := if (s.subs k).closed then { s with crashed := true } else setSub s k { s.subs k with closed := true }

/-- The channel the bytes are sent to when `recieve` gets to its select (coc.go:265-284): `none`: it does not get there. The transaction in the table is always nil (see Hci/Coc.lean). -/
def toSelect (c : Ch) (announced : Nat) (rest : Bytes) : Option (Option Nat) :=
  if rest.length < announced then none
  else if rest.length > announced || c.sub.isSome then some c.sub
  else none

/-- One step. Calls that return an error change nothing. -/
def step (s : St) : Ev → Option St
  | .opened l r =>
    if s.crashed || s.rx.isSome then none
    -- local identifiers are not given out twice: `coc_local_ids_never_reused` in Props/Coc.lean
    else if s.chans.any fun c => c.rem == r || c.loc == l then some s
    else some { s with chans := s.chans ++ [⟨l, r, none⟩] }
  | .subscribe l =>
    if s.crashed || s.rx.isSome then none
    else match look s l with
      | none => some s
      | some c => if c.sub.isSome then some s else some { putBack s { c with sub := some s.nsub } with nsub := s.nsub + 1 }
  | .unsubscribe l =>
    if s.crashed || s.rx.isSome then none
    else match look s l with
      | none => some s
      | some c => match c.sub with
        | none => some s
        | some k => some (putBack (closeSub s k) { c with sub := none })
  | .close r =>
    if s.crashed || s.rx.isSome then none
    else match s.chans.find? fun c => c.rem = r with
      | none => some s
      | some c => match c.sub with
        | none => some { s with chans := s.chans.filter fun d => d.rem ≠ r }
        | some k => some { closeSub s k with chans := s.chans.filter fun d => d.rem ≠ r }
  | .frame l data =>
    if s.crashed || s.rx.isSome || !s.up then none
    else match look s l with
      | none => some s
      | some c => match data with
        | a :: b :: rest => match toSelect c (le16 a b) rest with
          | none => some s
          | some ch => some { s with rx := some (ch, rest) }
        | _ => some { s with crashed := true }
  | .put => match s.rx with
    | some (some k, b) =>
      if s.crashed then none
      else if (s.subs k).closed then some { s with crashed := true }
      else if (s.subs k).q.length < cap then some { setSub s k { s.subs k with q := (s.subs k).q ++ [b] } with rx := none }
      else none
    | _ => none
  -- a send that can be done is done before the time is over
  | .timeout => match s.rx with
    | some (some k, _) => if s.crashed || ((s.subs k).q.length < cap) then none else some { s with rx := none }
    | some (none, _) => if s.crashed then none else some { s with rx := none }
    | none => none
  | .read k =>
    if s.crashed then none
    else match (s.subs k).q with
      | [] => none
      | b :: q => some (setSub s k { s.subs k with q := q, got := (s.subs k).got ++ [b] })
  | .down => if s.crashed || s.rx.isSome then none else some { s with up := false }

def run : St → List Ev → Option St := runT step

/-- The application's read sees the end of the channel. -/
def sees_end (s : St) (k : Nat) : Prop := (s.subs k).closed = true ∧ (s.subs k).q = []

end Ble.CocRx
