import Verif.Client.Model
set_option autoImplicit false

/-!
# Histories of discovery calls on one client

linux/gatt/client.go:86-257. The profile of a client is a list of services that only grows: `DiscoverServices` appends to it, `DiscoverCharacteristics` and `DiscoverDescriptors` append to the objects in it, also when they fail, and so does
`DiscoverProfile`, which calls all three. The objects the calls return are those of the profile, so a service or characteristic the application passes back is given here by its place. Simplification: an application that passes a service or
characteristic it made itself is not modelled, nor is `DiscoverAndCacheProfile`, which can replace the profile (CacheProf.lean).
-/

namespace Ble.Client.History

open Ble.Att

/-- Loop of `DiscoverServices` with the services the profile has when it returns, also when it fails: gatt/client.go:137-175 (`svcRun` of Client/Model.lean, with a filter). -/
def svcFound {σ : Type} (ex : Exchange σ) (filter : Option (List Bytes)) : (fuel : Nat) → Cli σ → (start : Nat) → (acc : List SvcInfo) → List SvcInfo × Call (Option (Cli σ))
  | 0, _, _, acc => (acc, .ok none)
  | n + 1, c, start, acc =>
    match readByGroupType ex c start 0xFFFF (put16 0x2800) with
    | .panic => (acc, .panic)
    | .err (.att 0x0A) => (acc, .ok (some c))
    | .err e => (acc, .err e)
    | .ok (c, len, b) =>
      match svcLoop filter len b start acc with
      | .panic => (acc, .panic)
      | .err e => (acc, .err e)
      | .ok (.ret acc) => (acc, .ok (some c))
      | .ok (.again start acc) => svcFound ex filter n c start acc

/-- Whether a call returns a nil error. -/
def succeeded {β : Type} : Call (Option β) → Bool
  | .ok (some _) => true
  | _ => false

/-- `DiscoverServices` on a profile: gatt/client.go:137-175. -/
def addSvcs {σ : Type} (ex : Exchange σ) (filter : Option (List Bytes)) (fuel : Nat) (c : Cli σ) (p : List SvcProf) : List SvcProf × Bool :=
  let r := svcFound ex filter fuel c 1 (p.map SvcProf.info)
  (p ++ (r.1.drop p.length).map fun i => { info := i }, succeeded r.2)

/-- `DiscoverCharacteristics` on a service: gatt/client.go:187-223. What it finds is appended as it is found. -/
def addChars {σ : Type} (ex : Exchange σ) (filter : Option (List Bytes)) (fuel : Nat) (c : Cli σ) (s : SvcProf) : SvcProf × Bool :=
  ({ s with chars := s.chars ++ ((charFound ex s.info.endHandle fuel c s.info.handle []).filter fun x => kept filter x.uuid).map fun i => { info := i } },
   succeeded (discoverCharacteristics ex filter fuel c s.info))

/-- `DiscoverDescriptors` on a characteristic: gatt/client.go:227-257. The CCCD is set whatever the filter. -/
def addDescs {σ : Type} (ex : Exchange σ) (filter : Option (List Bytes)) (fuel : Nat) (c : Cli σ) (ch : CharProf) : CharProf × Bool :=
  let ds := descFound ex ch.info.endHandle fuel c (add16 ch.info.valueHandle 1) []
  (ch.add (ds.filter fun x => kept filter x.uuid) (ds.filter fun x => x.uuid == put16 0x2902).getLast?,
   succeeded (discoverDescriptors ex filter fuel c ch.info))

/-- A discovery call of the application. -/
inductive Op where
  | services (filter : Option (List Bytes))
  | chars (i : Nat) (filter : Option (List Bytes))
  | descs (i j : Nat) (filter : Option (List Bytes))
  | profile (force : Bool)

/-- A service after `DiscoverDescriptors` on its characteristic number `j`. -/
def inService {σ : Type} (ex : Exchange σ) (filter : Option (List Bytes)) (fuel : Nat) (c : Cli σ) (j : Nat) (s : SvcProf) : SvcProf :=
  { s with chars := s.chars.modify j fun ch => (addDescs ex filter fuel c ch).1 }

/-- One call: the profile afterwards, and whether the call returns a nil error. -/
def step {σ : Type} (ex : Exchange σ) (fuel : Nat) (c : Cli σ) (p : Option (List SvcProf)) : Op → Option (List SvcProf) × Bool
  | .services f => (some (addSvcs ex f fuel c (p.getD [])).1, (addSvcs ex f fuel c (p.getD [])).2)
  | .chars i f => (p.map fun l => l.modify i fun s => (addChars ex f fuel c s).1, ((p.getD [])[i]?.map fun s => (addChars ex f fuel c s).2).getD false)
  | .descs i j f => (p.map fun l => l.modify i (inService ex f fuel c j), (((p.getD [])[i]?.bind fun s => s.chars[j]?).map fun ch => (addDescs ex f fuel c ch).2).getD false)
  | .profile force => ((discoverProfile ex fuel force c p).1, succeeded (discoverProfile ex fuel force c p).2)

/-- A history: each call with the state of the client when it is made and what its requests meet. -/
def run {σ : Type} (fuel : Nat) (l : List (Op × Exchange σ × Cli σ)) : Option (List SvcProf) :=
  l.foldl (fun p t => (step t.2.1 fuel t.2.2 p t.1).1) none

end Ble.Client.History
