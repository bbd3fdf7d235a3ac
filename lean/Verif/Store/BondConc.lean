import Verif.Store.Bond
set_option autoImplicit false

/-!
# Concurrent calls of the bond manager

`Exists` and `Find` take the read lock, `Save` and `Delete` the write lock (linux/hci/bond/manager.go:49, 72, 108, 129). All unlock when they return. Between the lock and the return a call loads the file and, if it
changes something, truncates and writes it. The file system does not fail here (`Env.fine`).
-/

namespace Ble.Store

/-- What a call does when it has loaded the bonds: return, or write and then return. -/
inductive Plan where
  | ret (r : Res)
  | store (out : Bytes) (r : Res)

/-- The body of each call between `loadBonds` and the return; `none`: `loadBonds` failed. bond/manager.go:51-63 (Exists), 73-96 (Find), 110-125 (Save), 131-148 (Delete). -/
def plan (J : Json BondData) (m : Option (List (Text × BondData))) : Op → Plan
  | .exists_ a => .ret (.bool (match m with | none => false | some m => m.any fun x => x.1 = a))
  | .find a =>
    match m with
    | none => .ret (.bond (.err ()))
    | some m =>
      match m.lookup a with
      | none => .ret (.bond (.err ()))
      | some d =>
        match createBondInfo d with
        | .err _ => .store (J.enc (del m a)) (.bond (.err ()))
        | .panic => .ret (.bond .panic)
        | .ok b => .ret (.bond (.ok b))
  | .save a b =>
    match b with
    | none => .ret (.done (.err ()))
    | some b =>
      match m with
      | none => .ret (.done (.err ()))
      | some m => .store (J.enc (put m a (createBondData b))) (.done (.ok ()))
  | .delete a =>
    match m with
    | none => .ret (.done (.err ()))
    | some m =>
      match m.lookup a with
      | none => .ret (.done (.err ()))
      | some _ => .store (J.enc (del m a)) (.done (.ok ()))

/-- The checks before the lock is taken: bond/manager.go:45-47, 68-70, 100-106. -/
def early : Op → Option Res
  | .exists_ a => if strLen a ≠ 12 then some (.bool false) else none
  | .find a => if strLen a ≠ 12 then some (.bond (.err ())) else none
  | .save a b => if strLen a ≠ 12 then some (.done (.err ())) else match b with | none => some (.done (.err ())) | some _ => none
  | .delete _ => none

/-- The call takes the write lock: bond/manager.go:108, 129. -/
def exclusive : Op → Bool
  | .save _ _ => true
  | .delete _ => true
  | _ => false

/-- Where a call is. -/
inductive Phase where
  | start
  | locked
  | writing (out : Bytes) (r : Res)
  | returning (r : Res)
  | done (r : Res)

/-- The call holds the lock. -/
def Phase.holds : Phase → Bool
  | .locked => true
  | .writing _ _ => true
  | .returning _ => true
  | _ => false

/-- The file, the calls in progress, and, as history, the calls that took effect, in that order, with their results. -/
structure Conc where
  file : File
  threads : List (Op × Phase)
  log : List (Nat × Op × Res)

/-- One step of call `i`. -/
inductive Step where
  /-- the early checks, then `Lock` or `RLock` -/
  | acquire (i : Nat)
  /-- `loadBonds` -/
  | load (i : Nat)
  /-- `WriteFile` has truncated the file and written `n` bytes -/
  | chunk (i n : Nat)
  /-- the rest of `WriteFile`, if there is one; unlock and return -/
  | finish (i : Nat)

/-- The lock can be taken for this call: `sync.RWMutex`. -/
def free (ts : List (Op × Phase)) (o : Op) : Bool := ts.all fun t => !(t.2.holds && (exclusive o || exclusive t.1))

/-- A step; `none` if it is not possible. -/
def cstep (J : Json BondData) (s : Conc) : Step → Option Conc
  | .acquire i =>
    match s.threads[i]? with
    | some (o, .start) =>
      match early o with
      | some r => some { s with threads := s.threads.set i (o, .done r), log := s.log ++ [(i, o, r)] }
      | none => if free s.threads o then some { s with threads := s.threads.set i (o, .locked) } else none
    | _ => none
  | .load i =>
    match s.threads[i]? with
    | some (o, .locked) =>
      match plan J (loadBonds J Env.fine s.file).2 o with
      | .ret r => some { file := (loadBonds J Env.fine s.file).1, threads := s.threads.set i (o, .returning r), log := s.log ++ [(i, o, r)] }
      | .store out r => some { s with file := (loadBonds J Env.fine s.file).1, threads := s.threads.set i (o, .writing out r) }
    | _ => none
  | .chunk i n =>
    match s.threads[i]? with
    | some (_, .writing out _) => some { s with file := some (out.take n) }
    | _ => none
  | .finish i =>
    match s.threads[i]? with
    | some (o, .writing out r) => some { file := some out, threads := s.threads.set i (o, .done r), log := s.log ++ [(i, o, r)] }
    | some (o, .returning r) => some { s with threads := s.threads.set i (o, .done r) }
    | _ => none

def crun (J : Json BondData) (s : Conc) : List Step → Option Conc
  | [] => some s
  | a :: as => (cstep J s a).bind fun s' => crun J s' as

/-- Calls about to be made at the same time on a file. -/
def cinit (f : File) (os : List Op) : Conc := ⟨f, os.map fun o => (o, .start), []⟩

end Ble.Store
