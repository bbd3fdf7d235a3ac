import Verif.Store.Cache
import Verif.Trans
set_option autoImplicit false

/-!
# Concurrent calls of the profile cache, and crashes

`Load` takes the read lock, `Store` and `Clear` the write lock of the cache object (cache/cache.go:26, 50, 67); all unlock when they return. Each device that was given `OptGattCacheFile` has an object of its own
(linux/hci/option.go:103-105), all its clients share it (linux/gatt/client.go:44). What the file system does with a call is an input, as in `Store/Cache.lean`. The process may crash at any point; calls that were
waiting for the lock are then made by the next process, if at all.

Simplification: reading the file is one step, and so is removing it; only writing has intermediate states.
-/

namespace Ble.Store.CacheConc

open Ble.Store

variable {α : Type}

/-- What a call returned. -/
inductive Res (α : Type) where
  | done (r : Go Unit Unit)
  | profile (r : Go Unit α)

/-- One call made while no other is in progress: file afterwards and result. cache/cache.go:25-76. -/
def callOne (J : Json α) (e : CacheEnv) (f : File) : CacheOp α → File × Res α
  | .store a p r => ((cacheStore J e f a p r).1, .done (cacheStore J e f a p r).2)
  | .load a => (f, .profile (cacheLoad J e f a))
  | .clear => ((cacheClear e f).1, .done (cacheClear e f).2)

/-- Calls one after the other. -/
def callAll (J : Json α) (f : File) : List (CacheEnv × CacheOp α) → File × List (Res α)
  | [] => (f, [])
  | (e, o) :: os => ((callAll J (callOne J e f o).1 os).1, (callOne J e f o).2 :: (callAll J (callOne J e f o).1 os).2)

/-- The text `storeCache` gives to `WriteFile`, if the call comes to that: cache/cache.go:29-40, 98-104. -/
def text (J : Json α) (e : CacheEnv) (f : File) : CacheOp α → Option Bytes
  | .store a p r =>
    match loadExisting J e f with
    | some (some m) =>
      if (m.lookup a).isSome && !r then none
      else p.map fun p => J.enc (put m a p)
    | _ => none
  | _ => none

/-- A call that is made: on which object, what the file system will do, and what is called. -/
structure Call (α : Type) where
  obj : Nat
  env : CacheEnv
  op : CacheOp α

/-- The call takes the write lock: cache/cache.go:26, 67. -/
def exclusive : CacheOp α → Bool
  | .load _ => false
  | _ => true

/-- Where a call is. -/
inductive Phase (α : Type) where
  | start
  | locked
  /-- in `WriteFile` with this text; `some n`: it has truncated the file and written `n` bytes -/
  | writing (out : Bytes) (n : Option Nat)
  | returning (r : Res α)
  | done (r : Res α)
  /-- the process crashed during the call -/
  | dead

/-- The call holds the lock. -/
def Phase.holds : Phase α → Bool
  | .locked => true
  | .writing _ _ => true
  | .returning _ => true
  | _ => false

/-- A call that took effect. -/
structure Entry (α : Type) where
  id : Nat
  env : CacheEnv
  op : CacheOp α
  res : Res α

/-- The file, the calls, and, as history, the calls that took effect, in that order, with their results. -/
structure St (α : Type) where
  file : File
  threads : List (Call α × Phase α)
  log : List (Entry α) := []

inductive Ev where
  /-- call `i` gets the lock: `Lock`, `RLock` -/
  | acquire (i : Nat)
  /-- `loadExisting` and what follows up to `WriteFile`, or up to the return -/
  | load (i : Nat)
  /-- `WriteFile` has truncated the file and written `n` bytes -/
  | chunk (i n : Nat)
  /-- `WriteFile` returns -/
  | written (i : Nat)
  /-- unlock and return -/
  | ret (i : Nat)
  /-- the process crashes -/
  | crash
deriving Repr

/-- The lock can be taken for this call: `sync.RWMutex` of its object. -/
def free (ts : List (Call α × Phase α)) (c : Call α) : Bool := ts.all fun t => !(t.2.holds && t.1.obj == c.obj && (exclusive c.op || exclusive t.1.op))

/-- `WriteFile` can get to the point where `n` bytes are written. -/
def reaches : Write → Nat → Bool
  | .done, _ => true
  | .torn k, n => decide (n ≤ k)
  | .refused, _ => false

/-- What a crash does to a call. -/
def Phase.crash (p : Phase α) : Phase α := if p.holds then .dead else p

/-- A call that a crash interrupts while it writes counts as one whose write was torn there. -/
def torn (x : (Call α × Phase α) × Nat) : Option (Entry α) :=
  match x.1.2 with
  | .writing _ (some n) => some ⟨x.2, { x.1.1.env with write := .torn n }, x.1.1.op, .done (.err ())⟩
  | _ => none

/-- A step; `none` if it is not possible. -/
def step (J : Json α) (s : St α) : Ev → Option (St α)
  | .acquire i =>
    match s.threads[i]? with
    | some (c, .start) => if free s.threads c then some { s with threads := s.threads.set i (c, .locked) } else none
    | _ => none
  | .load i =>
    match s.threads[i]? with
    | some (c, .locked) =>
      match text J c.env s.file c.op with
      | some out => some { s with threads := s.threads.set i (c, .writing out none) }
      | none => some { file := (callOne J c.env s.file c.op).1, threads := s.threads.set i (c, .returning (callOne J c.env s.file c.op).2), log := s.log ++ [⟨i, c.env, c.op, (callOne J c.env s.file c.op).2⟩] }
    | _ => none
  | .chunk i n =>
    match s.threads[i]? with
    | some (c, .writing out _) => if reaches c.env.write n then some { s with file := some (out.take n), threads := s.threads.set i (c, .writing out (some n)) } else none
    | _ => none
  | .written i =>
    match s.threads[i]? with
    | some (c, .writing out _) =>
      some { file := (writeFile c.env.write s.file out).1, threads := s.threads.set i (c, .returning (.done (if (writeFile c.env.write s.file out).2 then .ok () else .err ()))),
             log := s.log ++ [⟨i, c.env, c.op, .done (if (writeFile c.env.write s.file out).2 then .ok () else .err ())⟩] }
    | _ => none
  | .ret i =>
    match s.threads[i]? with
    | some (c, .returning r) => some { s with threads := s.threads.set i (c, .done r) }
    | _ => none
  | .crash => some { s with threads := s.threads.map fun t => (t.1, t.2.crash), log := s.log ++ s.threads.zipIdx.filterMap torn }

/-- Calls about to be made at the same time on a file. -/
def init (f : File) (cs : List (Call α)) : St α := { file := f, threads := cs.map fun c => (c, .start) }

def run (J : Json α) : St α → List Ev → Option (St α) := runT (step J)

/-- The calls that took effect, one after the other. -/
def order (s : St α) : List (CacheEnv × CacheOp α) := s.log.map fun x => (x.env, x.op)

end Ble.Store.CacheConc
