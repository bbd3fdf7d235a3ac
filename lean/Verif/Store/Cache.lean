import Verif.Store.File
set_option autoImplicit false

/-!
# Model of cache/cache.go

The type `α` stands for the contents of a `ble.Profile` that JSON carries. A profile that `jsoniter.Marshal` refuses (one with a handler function in it) is `none` where a profile is stored. That a loaded profile
is a copy, in which the CCCD of a characteristic is no longer the same object as its entry in the descriptor list, is not modelled.
-/

namespace Ble.Store

/-- `os.Remove` succeeds on an existing file unless the file system refuses: cache/cache.go:70-73. -/
structure CacheEnv where
  read : Bool
  write : Write
  remove : Bool

def CacheEnv.fine : CacheEnv := ⟨true, .done, true⟩

/-- `loadExisting`: cache/cache.go:78-96. Outer `none`: an error; inner `none`: the nil map that `Unmarshal` leaves for the text `null`. -/
def loadExisting {α : Type} (J : Json α) (e : CacheEnv) (f : File) : Option (Option (List (Text × α))) :=
  match f with
  | none => some (some [])
  | some b => if e.read then J.dec b else none

/-- `Store`: cache/cache.go:25-47. An assignment to an entry of a nil map panics. -/
def cacheStore {α : Type} (J : Json α) (e : CacheEnv) (f : File) (mac : Text) (p : Option α) (replace : Bool) : File × Go Unit Unit :=
  match loadExisting J e f with
  | none => (f, .err ())
  | some om =>
    if ((om.getD []).lookup mac).isSome && !replace then (f, .err ())
    else match om with
      | none => (f, .panic)
      | some m =>
        match p with
        | none => (f, .err ())                         -- cache.go:99-102
        | some p =>
          match writeFile e.write f (J.enc (put m mac p)) with
          | (f', true) => (f', .ok ())
          | (f', false) => (f', .err ())

/-- `Load`: cache/cache.go:49-64. -/
def cacheLoad {α : Type} (J : Json α) (e : CacheEnv) (f : File) (mac : Text) : Go Unit α :=
  match loadExisting J e f with
  | none => .err ()
  | some om =>
    match (om.getD []).lookup mac with
    | none => .err ()
    | some p => .ok p

/-- `Clear`: cache/cache.go:66-76. Removing a file that does not exist is an error. -/
def cacheClear (e : CacheEnv) (f : File) : File × Go Unit Unit :=
  match f with
  | none => (none, .err ())
  | some b => if e.remove then (none, .ok ()) else (some b, .err ())

inductive CacheOp (α : Type) where
  | store (mac : Text) (p : Option α) (replace : Bool)
  | load (mac : Text)
  | clear

/-- The file after a call. -/
def cacheCall {α : Type} (J : Json α) (e : CacheEnv) (f : File) : CacheOp α → File
  | .store a p r => (cacheStore J e f a p r).1
  | .load _ => f
  | .clear => (cacheClear e f).1

/-- The file after a history of calls. -/
def cacheCalls {α : Type} (J : Json α) (f : File) : List (CacheEnv × CacheOp α) → File
  | [] => f
  | (e, o) :: os => cacheCalls J (cacheCall J e f o) os

end Ble.Store
