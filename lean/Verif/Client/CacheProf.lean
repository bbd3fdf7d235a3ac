import Verif.Client.Model
import Verif.Store.Cache
set_option autoImplicit false

/-!
# Model of `DiscoverAndCacheProfile`

linux/gatt/client.go:110-134, over `DiscoverProfile` (Client/Model.lean) and cache/cache.go (Store/Cache.lean).

Simplifications: a profile is what discovery finds (services, characteristics, descriptors, with UUIDs, handles and properties); values that were read into it are cached too, but not modelled. Discovery only makes profiles
that JSON can carry (no handlers). The address is the text `p.Addr().String()`.
-/

namespace Ble.CacheProf

open Ble.Store Ble.Client

/-- What the call returns. -/
inductive Ret where
  /-- the profile, and nil -/
  | profile (p : List SvcProf)
  /-- nil, and an error -/
  | failed (e : CErr)
  /-- the profile, and the error of `Store` -/
  | unsaved (p : List SvcProf)
  | panic
  /-- the call does not return (the peer answers for ever) -/
  | never
deriving DecidableEq, Repr

/-- The client's `p.profile` and the cache file afterwards, and the result. The cache is `none` if the client has none: the nil interface. -/
structure Out where
  prof : Option (List SvcProf)
  cache : Option File
  ret : Ret

/-- The second half: gatt/client.go:122-133: discovery, then `Store` with `replace`. A method of a nil interface panics. -/
def discoverAndStore {σ : Type} (J : Json (List SvcProf)) (e : CacheEnv) (cache : Option File) (mac : Text) (ex : Exchange σ) (fuel : Nat) (force : Bool) (c : Cli σ) (prof : Option (List SvcProf)) : Out :=
  let d := discoverProfile ex fuel force c prof
  match d.2 with
  | .err e => ⟨d.1, cache, .failed e⟩
  | .panic => ⟨d.1, cache, .panic⟩
  | .ok none => ⟨d.1, cache, .never⟩
  | .ok (some _) =>
    match cache with
    | none => ⟨d.1, none, .panic⟩
    | some f =>
      let r := cacheStore J e f mac (some (d.1.getD [])) true
      match r.2 with
      | .ok () => ⟨d.1, some r.1, .profile (d.1.getD [])⟩
      | .err () => ⟨d.1, some r.1, .unsaved (d.1.getD [])⟩
      | .panic => ⟨d.1, some r.1, .panic⟩

/-- `DiscoverAndCacheProfile`: gatt/client.go:110-134. `el` and `es` are what the file system does during `Load` and during `Store`. -/
def discoverAndCache {σ : Type} (J : Json (List SvcProf)) (el es : CacheEnv) (cache : Option File) (mac : Text) (ex : Exchange σ) (fuel : Nat) (force : Bool) (c : Cli σ) (prof : Option (List SvcProf)) : Out :=
  if force then discoverAndStore J es cache mac ex fuel force c prof
  else
    match cache with
    | none => discoverAndStore J es cache mac ex fuel force c prof
    | some f =>
      match cacheLoad J el f mac with
      | .ok p => ⟨some p, cache, .profile p⟩
      | _ => discoverAndStore J es cache mac ex fuel force c prof

end Ble.CacheProf
