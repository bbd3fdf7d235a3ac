import Verif.Store.BondConc
import Verif.Trans
set_option autoImplicit false

/-!
# Concurrent calls of the bond manager with a file system that fails, and crashes

As `Store/BondConc.lean`, but what the file system does is an input of each call (`Env`), the process may crash at any point, and there may be several managers (`NewBondManager`, linux/hci/bond/manager.go:33-41) for the same
file, each with a lock of its own. Calls that were waiting for the lock when the process crashed are made by the next process, if at all.

Simplification: `loadBonds` is one step. A crash between its `os.Create` and its `ioutil.ReadFile` is the case that the read fails and the process crashes before the call returns.
-/

namespace Ble.Store.BondCrash

open Ble.Store

/-- What a call returns when `storeBonds` fails: bond/manager.go:86-92 (Find), 125 (Save), 143-146 (Delete). -/
def failed : Op → Res
  | .exists_ _ => .bool false
  | .find _ => .bond (.err ())
  | .save _ _ => .done (.err ())
  | .delete _ => .done (.err ())

/-- A call that is made: of which manager, what the file system will do, and what is called. -/
structure Call where
  obj : Nat
  env : Env
  op : Op

/-- Where a call is. -/
inductive Phase where
  | start
  | locked
  /-- in `WriteFile` with this text, to return `r` if that returns nil; `some n`: it has truncated the file and written `n` bytes -/
  | writing (out : Bytes) (r : Res) (n : Option Nat)
  | returning (r : Res)
  | done (r : Res)
  /-- the process crashed during the call -/
  | dead

/-- The call holds the lock. -/
def Phase.holds : Phase → Bool
  | .locked => true
  | .writing _ _ _ => true
  | .returning _ => true
  | _ => false

/-- A call that took effect. -/
structure Entry where
  id : Nat
  env : Env
  op : Op
  res : Res

/-- The file, the calls, and, as history, the calls that took effect, in that order, with their results. -/
structure St where
  file : File
  threads : List (Call × Phase)
  log : List Entry := []

inductive Ev where
  /-- the early checks of call `i`, then `Lock` or `RLock` -/
  | acquire (i : Nat)
  /-- `loadBonds`, and what follows up to `WriteFile` or the return -/
  | load (i : Nat)
  /-- `WriteFile` has truncated the file and written `n` bytes -/
  | chunk (i n : Nat)
  /-- `WriteFile` returns -/
  | written (i : Nat)
  /-- unlock and return -/
  | ret (i : Nat)
  /-- the process crashes -/
  | crash
deriving Repr

/-- The lock can be taken for this call: `sync.RWMutex` of its manager. -/
def free (ts : List (Call × Phase)) (c : Call) : Bool := ts.all fun t => !(t.2.holds && t.1.obj == c.obj && (exclusive c.op || exclusive t.1.op))

/-- `WriteFile` can get to the point where `n` bytes are written. -/
def reaches : Write → Nat → Bool
  | .done, _ => true
  | .torn k, n => decide (n ≤ k)
  | .refused, _ => false

/-- What a crash does to a call. -/
def Phase.crash (p : Phase) : Phase := if p.holds then .dead else p

/-- A call that a crash interrupts while it writes counts as one whose write was torn there, or refused if it had not begun. -/
def torn (x : (Call × Phase) × Nat) : Option Entry :=
  match x.1.2 with
  | .writing _ _ n => some ⟨x.2, { x.1.1.env with write := match n with | some k => .torn k | none => .refused }, x.1.1.op, failed x.1.1.op⟩
  | _ => none

/-- A step; `none` if it is not possible. bond/manager.go:44-149. -/
def step (J : Json BondData) (s : St) : Ev → Option St
  | .acquire i =>
    match s.threads[i]? with
    | some (c, .start) =>
      match early c.op with
      | some r => some { s with threads := s.threads.set i (c, .done r), log := s.log ++ [⟨i, c.env, c.op, r⟩] }
      | none => if free s.threads c then some { s with threads := s.threads.set i (c, .locked) } else none
    | _ => none
  | .load i =>
    match s.threads[i]? with
    | some (c, .locked) =>
      match plan J (loadBonds J c.env s.file).2 c.op with
      | .ret r => some { file := (loadBonds J c.env s.file).1, threads := s.threads.set i (c, .returning r), log := s.log ++ [⟨i, c.env, c.op, r⟩] }
      | .store out r => some { s with file := (loadBonds J c.env s.file).1, threads := s.threads.set i (c, .writing out r none) }
    | _ => none
  | .chunk i n =>
    match s.threads[i]? with
    | some (c, .writing out r _) => if reaches c.env.write n then some { s with file := some (out.take n), threads := s.threads.set i (c, .writing out r (some n)) } else none
    | _ => none
  | .written i =>
    match s.threads[i]? with
    | some (c, .writing out r _) =>
      some { file := (writeFile c.env.write s.file out).1, threads := s.threads.set i (c, .returning (if (writeFile c.env.write s.file out).2 then r else failed c.op)),
             log := s.log ++ [⟨i, c.env, c.op, if (writeFile c.env.write s.file out).2 then r else failed c.op⟩] }
    | _ => none
  | .ret i =>
    match s.threads[i]? with
    | some (c, .returning r) => some { s with threads := s.threads.set i (c, .done r) }
    | _ => none
  | .crash => some { s with threads := s.threads.map fun t => (t.1, t.2.crash), log := s.log ++ s.threads.zipIdx.filterMap torn }

/-- Calls about to be made at the same time on a file. -/
def init (f : File) (cs : List Call) : St := { file := f, threads := cs.map fun c => (c, .start) }

def run (J : Json BondData) : St → List Ev → Option St := runT (step J)

/-- The calls that took effect, one after the other. -/
def order (s : St) : List (Env × Op) := s.log.map fun x => (x.env, x.op)

end Ble.Store.BondCrash
