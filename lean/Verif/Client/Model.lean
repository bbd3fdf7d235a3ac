import Verif.Att.Model
set_option autoImplicit false

/-!
# Model of the ATT client and the GATT client

linux/att/client.go, linux/att/att.go, the parts of linux/att/att_gen.go they use, and linux/gatt/client.go. One connection, calls made one after
the other (each holds the transmit buffer, `chTxBuf`, for its whole duration). The peer is a function from its state and a request to its new state
and the response that `sendReq` hands back; `Client/Loop.lean` models how responses get there.
-/

namespace Ble.Client

open Ble.Att (add16 pred16)

/-- Errors of the client: `ErrInvalidArgument`, `ErrInvalidResponse` (att.go:9-12), an ATT error code (`ble.ATTError`), or a failure of the
transport, including the 2 s timeout (client.go:514-542). -/
inductive CErr where
  | invalidArgument
  | invalidResponse
  | att (code : UInt8)
  | transport
deriving Repr, DecidableEq

/-- Outcome of a client call. -/
abbrev Call (α : Type) := Go CErr α

/-- `sendReq` (client.go:514-542): request to response or transport error. -/
abbrev Exchange (σ : Type) := σ → Bytes → Call (σ × Bytes)

/-- `rspOfReq`: att.go:20-33 (0, the map's zero value, for others). -/
def rspOfReq (op : UInt8) : UInt8 :=
  if op ∈ ([0x02, 0x04, 0x06, 0x08, 0x0A, 0x0C, 0x0E, 0x10, 0x12, 0x16, 0x18, 0x1D] : List UInt8) then op + 1 else 0

/-- `Client` (client.go:19-33): the peer, the contents of the transmit buffer (its capacity is its length) and what the connection says its MTUs are. -/
structure Cli (σ : Type) where
  peer : σ
  buf : Bytes
  txMTU : Nat
  rxMTU : Nat

/-- `NewClient`: client.go:36-57. -/
def Cli.new {σ : Type} (peer : σ) (txMTU rxMTU : Nat) : Cli σ :=
  { peer := peer, buf := List.replicate txMTU 0, txMTU := txMTU, rxMTU := rxMTU }

/-- Taking the first `n` bytes of the buffer (`txBuf[:n]`, panics if it is shorter), writing the request there and exchanging it. -/
def Cli.send {σ : Type} (ex : Exchange σ) (c : Cli σ) (req : Bytes) : Call (Cli σ × Bytes) :=
  if c.buf.length < req.length then .panic
  else do
    let (p, rsp) ← ex c.peer req
    pure ({ c with peer := p, buf := req ++ c.buf.drop req.length }, rsp)

/-- The first cases of every response check, e.g. client.go:96-104: `rsp[0]` panics on an empty slice. (`rsp[0] != rsp.AttributeOpcode()` compares a
byte with itself.) -/
def checkError (rsp : Bytes) : Call Unit := do
  let op ← index rsp 0
  if op = 0x01 then
    if rsp.length = 5 then do
      let e ← index rsp 4
      .err (.att e)
    else .err .invalidResponse
  else pure ()

/-- `ExchangeMTU`: client.go:70-115. 23 is `ble.DefaultMTU`, 515 `ble.MaxMTU`. -/
def exchangeMTU {σ : Type} (ex : Exchange σ) (c : Cli σ) (m : Nat) : Call (Cli σ × Nat) :=
  if m < 23 ∨ m > 515 then .err .invalidArgument
  else do
    let (c, rsp) ← Cli.send ex { c with rxMTU := m } (0x02 :: put16 m)
    checkError rsp
    if rsp.length ≠ 3 then .err .invalidResponse
    else do
      let t ← le16At rsp 1
      if c.buf.length ≠ t then pure ({ c with txMTU := t, buf := List.replicate t 0 }, t) else pure (c, t)

/-- `FindInformation`: client.go:124-163. -/
def findInformation {σ : Type} (ex : Exchange σ) (c : Cli σ) (starth endh : Nat) : Call (Cli σ × Nat × Bytes) :=
  if starth = 0 ∨ starth > endh then .err .invalidArgument
  else do
    let (c, rsp) ← Cli.send ex c (0x04 :: (put16 starth ++ put16 endh))
    checkError rsp
    if rsp.length < 6 then .err .invalidResponse
    else do
      let f ← index rsp 1
      if f = 1 ∧ (rsp.length - 2) % 4 ≠ 0 then .err .invalidResponse
      else if f = 2 ∧ (rsp.length - 2) % 18 ≠ 0 then .err .invalidResponse
      else pure (c, f.toNat, rsp.drop 2)

/-- Common part of `ReadByType` (client.go:180-212) and `ReadByGroupType` (323-360). An entry length of 0 makes the remainder computation panic. -/
def readList {σ : Type} (op : UInt8) (ex : Exchange σ) (c : Cli σ) (starth endh : Nat) (uuid : Bytes) : Call (Cli σ × Nat × Bytes) :=
  if starth > endh ∨ (uuid.length ≠ 2 ∧ uuid.length ≠ 16) then .err .invalidArgument
  else do
    let (c, rsp) ← Cli.send ex c (op :: (put16 starth ++ (put16 endh ++ uuid)))
    checkError rsp
    if rsp.length < 4 then .err .invalidResponse
    else do
      let l ← index rsp 1
      if l = 0 then .panic
      else if (rsp.length - 2) % l.toNat ≠ 0 then .err .invalidResponse
      else pure (c, l.toNat, rsp.drop 2)

/-- `ReadByType`: client.go:180-212. -/
def readByType {σ : Type} (ex : Exchange σ) := readList (σ := σ) 0x08 ex
/-- `ReadByGroupType`: client.go:329-365. -/
def readByGroupType {σ : Type} (ex : Exchange σ) := readList (σ := σ) 0x10 ex

/-- `Read`: client.go:216-243. -/
def read {σ : Type} (ex : Exchange σ) (c : Cli σ) (h : Nat) : Call (Cli σ × Bytes) := do
  let (c, rsp) ← Cli.send ex c (0x0A :: put16 h)
  checkError rsp
  pure (c, rsp.drop 1)

/-- `ReadBlob`: client.go:248-276. -/
def readBlob {σ : Type} (ex : Exchange σ) (c : Cli σ) (h off : Nat) : Call (Cli σ × Bytes) := do
  let (c, rsp) ← Cli.send ex c (0x0C :: (put16 h ++ put16 off))
  checkError rsp
  pure (c, rsp.drop 1)

/-- `ReadMultiple`: client.go:284-318. -/
def readMultiple {σ : Type} (ex : Exchange σ) (c : Cli σ) (hs : List Nat) : Call (Cli σ × Bytes) :=
  if hs.length < 2 ∨ (hs.length * 2 : Int) > (c.txMTU : Int) - 1 then .err .invalidArgument
  else do
    let (c, rsp) ← Cli.send ex c (0x0E :: hs.flatMap put16)
    checkError rsp
    pure (c, rsp.drop 1)

/-- `Write`: client.go:369-399. -/
def write {σ : Type} (ex : Exchange σ) (c : Cli σ) (h : Nat) (v : Bytes) : Call (Cli σ) :=
  if (v.length : Int) > (c.txMTU : Int) - 3 then .err .invalidArgument
  else do
    let (c, rsp) ← Cli.send ex c (0x12 :: (put16 h ++ v))
    checkError rsp
    pure c

/-- `WriteCommand`: client.go:403-418, up to the write to the connection: the PDU sent. -/
def writeCommandPDU {σ : Type} (c : Cli σ) (h : Nat) (v : Bytes) : Call Bytes :=
  if (v.length : Int) > (c.txMTU : Int) - 3 then .err .invalidArgument
  else if c.buf.length < 3 + v.length then .panic
  else pure (0x52 :: (put16 h ++ v))

/-- `SignedWrite`: client.go:422-438 and att_gen.go:477, 487: the signature is copied over the first twelve bytes of the value area, and the bytes
after value or signature are whatever the buffer held. -/
def signedWritePDU {σ : Type} (c : Cli σ) (h : Nat) (v sig : Bytes) : Call Bytes :=
  if (v.length : Int) > (c.txMTU : Int) - 15 then .err .invalidArgument
  else if c.buf.length < 15 + v.length then .panic
  else pure (0xD2 :: (put16 h ++ (sig ++ (v.drop 12 ++ ((c.buf.take (15 + v.length)).drop (3 + max 12 v.length))))))

/-- `PrepareWrite`: client.go:439-475. The value is not copied into the request: its bytes are whatever the buffer held. -/
def prepareWrite {σ : Type} (ex : Exchange σ) (c : Cli σ) (h off : Nat) (v : Bytes) : Call (Cli σ × Nat × Nat × Bytes) :=
  if (v.length : Int) > (c.txMTU : Int) - 5 then .err .invalidArgument
  else if c.buf.length < 5 + v.length then .panic
  else do
    let (c, rsp) ← Cli.send ex c (0x16 :: (put16 h ++ (put16 off ++ ((c.buf.take (5 + v.length)).drop 5))))
    checkError rsp
    if rsp.length < 5 then .err .invalidResponse
    else do
      let h' ← le16At rsp 1
      let o' ← le16At rsp 3
      pure (c, h', o', rsp.drop 5)

/-- `ExecuteWrite`: client.go:481-507. The request slice has one byte, so `SetFlags` (att_gen.go:565, `r[1] = v`) is out of range. -/
def executeWrite {σ : Type} (_ex : Exchange σ) (_c : Cli σ) (_flags : UInt8) : Call (Cli σ) := .panic

/-! ## GATT discovery: linux/gatt/client.go -/

/-- A discovered service: gatt/client.go:153-161. -/
structure SvcInfo where
  uuid : Bytes
  handle : Nat
  endHandle : Nat
deriving Repr, DecidableEq

/-- A discovered characteristic: gatt/client.go:200-210. -/
structure CharInfo where
  uuid : Bytes
  prop : UInt8
  handle : Nat
  valueHandle : Nat
  endHandle : Nat
deriving Repr, DecidableEq

/-- A discovered descriptor: gatt/client.go:243-245. -/
structure DescInfo where
  uuid : Bytes
  handle : Nat
deriving Repr, DecidableEq

/-- Whether a discovered UUID is kept: `filter == nil || ble.Contains(filter, u)`. -/
def kept (filter : Option (List Bytes)) (u : Bytes) : Bool :=
  match filter with
  | none => true
  | some l => l.contains u

/-- How the loop over one response ended: return to the caller, or ask again from `start`. -/
inductive Step (β : Type) where
  | ret (acc : List β)
  | again (start : Nat) (acc : List β)
deriving Repr

/-- Loop over one Read By Group Type Response: gatt/client.go:148-168. -/
def svcLoop (filter : Option (List Bytes)) (len : Nat) (b : Bytes) (start : Nat) (acc : List SvcInfo) : Call (Step SvcInfo) :=
  match b with
  | [] => pure (.again start acc)
  | x :: xs =>
    if len < 4 ∨ (x :: xs).length < len then .panic
    else do
      let h ← le16At (x :: xs) 0
      let endh ← le16At (x :: xs) 2
      let u := ((x :: xs).take len).drop 4
      let acc' := if kept filter u then acc ++ [⟨u, h, endh⟩] else acc
      if endh = 0xFFFF then pure (.ret acc')
      else if acc'.length = (filter.getD []).length then pure (.ret acc')
      else svcLoop filter len ((x :: xs).drop len) (add16 endh 1) acc'
termination_by b.length
decreasing_by simp only [List.length_drop, List.length_cons] at *; omega

/-- `DiscoverServices`: gatt/client.go:137-175, `acc` the services the profile has already. The result is `none` if it has not returned
after `fuel` requests. -/
def discoverServices {σ : Type} (ex : Exchange σ) (filter : Option (List Bytes)) :
    (fuel : Nat) → Cli σ → (start : Nat) → (acc : List SvcInfo) → Call (Option (Cli σ × List SvcInfo))
  | 0, _, _, _ => pure none
  | n + 1, c, start, acc =>
    match readByGroupType ex c start 0xFFFF (put16 0x2800) with
    | .panic => .panic
    | .err (.att 0x0A) => pure (some (c, acc))
    | .err e => .err e
    | .ok (c, len, b) =>
      match svcLoop filter len b start acc with
      | .panic => .panic
      | .err e => .err e
      | .ok (.ret acc) => pure (some (c, acc))
      | .ok (.again start acc) => discoverServices ex filter n c start acc

/-- `lastChar.EndHandle = c.Handle - 1`: gatt/client.go:214-216. -/
def closeLast (acc : List CharInfo) (h : Nat) : List CharInfo :=
  acc.modify (acc.length - 1) fun l => { l with endHandle := pred16 h }

/-- Loop over one Read By Type Response: gatt/client.go:193-214. `acc` holds every characteristic found (filtered at the end). -/
def charLoop (svcEnd len : Nat) (b : Bytes) (start : Nat) (acc : List CharInfo) : Call (Nat × List CharInfo) :=
  match b with
  | [] => pure (start, acc)
  | x :: xs =>
    if len < 5 ∨ (x :: xs).length < len then .panic
    else do
      let h ← le16At (x :: xs) 0
      let p ← index (x :: xs) 2
      let vh ← le16At (x :: xs) 3
      let u := ((x :: xs).take len).drop 5
      charLoop svcEnd len ((x :: xs).drop len) (add16 vh 1) (closeLast acc h ++ [⟨u, p, h, vh, svcEnd⟩])
termination_by b.length
decreasing_by simp only [List.length_drop, List.length_cons] at *; omega

/-- Loop of `DiscoverCharacteristics`: gatt/client.go:187-215. -/
def charOuter {σ : Type} (ex : Exchange σ) (svcEnd : Nat) :
    (fuel : Nat) → Cli σ → (start : Nat) → (acc : List CharInfo) → Call (Option (Cli σ × List CharInfo))
  | 0, _, _, _ => pure none
  | n + 1, c, start, acc =>
    if start > svcEnd then pure (some (c, acc))
    else
      match readByType ex c start svcEnd (put16 0x2803) with
      | .panic => .panic
      | .err (.att 0x0A) => pure (some (c, acc))
      | .err e => .err e
      | .ok (c, len, b) =>
        match charLoop svcEnd len b start acc with
        | .panic => .panic
        | .err e => .err e
        | .ok (start, acc) => charOuter ex svcEnd n c start acc

/-- `DiscoverCharacteristics` of a service with none yet: gatt/client.go:187-223. -/
def discoverCharacteristics {σ : Type} (ex : Exchange σ) (filter : Option (List Bytes)) (fuel : Nat) (c : Cli σ) (s : SvcInfo) :
    Call (Option (Cli σ × List CharInfo)) := do
  let r ← charOuter ex s.endHandle fuel c s.handle []
  pure (r.map fun (c, l) => (c, l.filter fun x => kept filter x.uuid))

/-- Loop over one Find Information Response: gatt/client.go:239-251. -/
def descLoop (len : Nat) (b : Bytes) (start : Nat) (acc : List DescInfo) : Call (Nat × List DescInfo) :=
  match b with
  | [] => pure (start, acc)
  | x :: xs =>
    if len < 2 ∨ (x :: xs).length < len then .panic
    else do
      let h ← le16At (x :: xs) 0
      let u := ((x :: xs).take len).drop 2
      descLoop len ((x :: xs).drop len) (add16 h 1) (acc ++ [⟨u, h⟩])
termination_by b.length
decreasing_by simp only [List.length_drop, List.length_cons] at *; omega

/-- Loop of `DiscoverDescriptors`: gatt/client.go:227-252. -/
def descOuter {σ : Type} (ex : Exchange σ) (endh : Nat) :
    (fuel : Nat) → Cli σ → (start : Nat) → (acc : List DescInfo) → Call (Option (Cli σ × List DescInfo))
  | 0, _, _, _ => pure none
  | n + 1, c, start, acc =>
    if start > endh then pure (some (c, acc))
    else
      match findInformation ex c start endh with
      | .panic => .panic
      | .err (.att 0x0A) => pure (some (c, acc))
      | .err e => .err e
      | .ok (c, f, b) =>
        match descLoop (if f = 2 then 18 else 4) b start acc with
        | .panic => .panic
        | .err e => .err e
        | .ok (start, acc) => descOuter ex endh n c start acc

/-- `DiscoverDescriptors` of a characteristic with none yet: gatt/client.go:227-257. Result: the descriptors kept and the CCCD (the last one found
with that type, whatever the filter). -/
def discoverDescriptors {σ : Type} (ex : Exchange σ) (filter : Option (List Bytes)) (fuel : Nat) (c : Cli σ) (ch : CharInfo) :
    Call (Option (Cli σ × List DescInfo × Option DescInfo)) := do
  let r ← descOuter ex ch.endHandle fuel c (add16 ch.valueHandle 1) []
  pure (r.map fun (c, l) => (c, l.filter (fun x => kept filter x.uuid), (l.filter fun x => x.uuid == put16 0x2902).getLast?))

/-! ### The whole profile -/

/-- A characteristic with its descriptors (profile.go:117-134). -/
structure CharProf where
  info : CharInfo
  descs : List DescInfo := []
  cccd : Option DescInfo := none
deriving Repr, DecidableEq

/-- A service with its characteristics (profile.go:90-96). -/
structure SvcProf where
  info : SvcInfo
  chars : List CharProf := []
deriving Repr, DecidableEq

/-- What `DiscoverDescriptors` has appended to `c.Descriptors` when it returns, also when it fails: gatt/client.go:227-257 appends as it goes. Meant for the loop of `descOuter`; a response on which the loop panics adds nothing (the program
has ended). -/
def descFound {σ : Type} (ex : Exchange σ) (endh : Nat) : (fuel : Nat) → Cli σ → (start : Nat) → (acc : List DescInfo) → List DescInfo
  | 0, _, _, acc => acc
  | n + 1, c, start, acc =>
    if start > endh then acc
    else
      match findInformation ex c start endh with
      | .ok (c, f, b) =>
        match descLoop (if f = 2 then 18 else 4) b start acc with
        | .ok (start, acc) => descFound ex endh n c start acc
        | _ => acc
      | _ => acc

/-- What `DiscoverCharacteristics` has appended to `s.Characteristics` when it returns, also when it fails: gatt/client.go:187-223, as `descFound`. -/
def charFound {σ : Type} (ex : Exchange σ) (svcEnd : Nat) : (fuel : Nat) → Cli σ → (start : Nat) → (acc : List CharInfo) → List CharInfo
  | 0, _, _, acc => acc
  | n + 1, c, start, acc =>
    if start > svcEnd then acc
    else
      match readByType ex c start svcEnd (put16 0x2803) with
      | .ok (c, len, b) =>
        match charLoop svcEnd len b start acc with
        | .ok (start, acc) => charFound ex svcEnd n c start acc
        | _ => acc
      | _ => acc

/-- A characteristic with descriptors added: gatt/client.go:244-249. -/
def CharProf.add (ch : CharProf) (ds : List DescInfo) (cccd : Option DescInfo) : CharProf := { ch with descs := ch.descs ++ ds, cccd := cccd <|> ch.cccd }

/-- A characteristic after a `DiscoverDescriptors` that did not succeed. -/
def CharProf.broken {σ : Type} (ex : Exchange σ) (fuel : Nat) (c : Cli σ) (ch : CharProf) : CharProf :=
  let ds := descFound ex ch.info.endHandle fuel c (add16 ch.info.valueHandle 1) []
  ch.add ds (ds.filter fun x => x.uuid == put16 0x2902).getLast?

/-- Inner loop of `DiscoverProfile`: gatt/client.go:99-104. First component: the characteristics as they are when it ends; the second tells how it
ended. -/
def profDescs {σ : Type} (ex : Exchange σ) (fuel : Nat) : Cli σ → List CharProf → List CharProf × Call (Option (Cli σ))
  | c, [] => ([], .ok (some c))
  | c, ch :: chs =>
    match discoverDescriptors ex none fuel c ch.info with
    | .ok (some (c, ds, cccd)) =>
      let r := profDescs ex fuel c chs
      (ch.add ds cccd :: r.1, r.2)
    | .ok none => (ch.broken ex fuel c :: chs, .ok none)
    | .err e => (ch.broken ex fuel c :: chs, .err e)
    | .panic => (ch.broken ex fuel c :: chs, .panic)

/-- A service after a `DiscoverCharacteristics` that did not succeed. -/
def SvcProf.broken {σ : Type} (ex : Exchange σ) (fuel : Nat) (c : Cli σ) (s : SvcProf) : SvcProf :=
  { s with chars := s.chars ++ (charFound ex s.info.endHandle fuel c s.info.handle []).map fun i => { info := i } }

/-- Outer loop of `DiscoverProfile`: gatt/client.go:94-105. -/
def profSvcs {σ : Type} (ex : Exchange σ) (fuel : Nat) : Cli σ → List SvcProf → List SvcProf × Call (Option (Cli σ))
  | c, [] => ([], .ok (some c))
  | c, s :: ss =>
    match discoverCharacteristics ex none fuel c s.info with
    | .ok (some (c, l)) =>
      let d := profDescs ex fuel c (s.chars ++ l.map fun i => { info := i })
      match d.2 with
      | .ok (some c) =>
        let r := profSvcs ex fuel c ss
        ({ s with chars := d.1 } :: r.1, r.2)
      | o => ({ s with chars := d.1 } :: ss, o)
    | .ok none => (s.broken ex fuel c :: ss, .ok none)
    | .err e => (s.broken ex fuel c :: ss, .err e)
    | .panic => (s.broken ex fuel c :: ss, .panic)

/-- `DiscoverServices` as in `discoverServices`, but with the services the profile has when it ends, also when it fails: it appends to
`p.profile.Services` as it goes (gatt/client.go:162). -/
def svcRun {σ : Type} (ex : Exchange σ) : (fuel : Nat) → Cli σ → (start : Nat) → (acc : List SvcInfo) → List SvcInfo × Call (Option (Cli σ))
  | 0, _, _, acc => (acc, .ok none)
  | n + 1, c, start, acc =>
    match readByGroupType ex c start 0xFFFF (put16 0x2800) with
    | .panic => (acc, .panic)
    | .err (.att 0x0A) => (acc, .ok (some c))
    | .err e => (acc, .err e)
    | .ok (c, len, b) =>
      match svcLoop none len b start acc with
      | .panic => (acc, .panic)
      | .err e => (acc, .err e)
      | .ok (.ret acc) => (acc, .ok (some c))
      | .ok (.again start acc) => svcRun ex n c start acc

/-- `DiscoverProfile`: gatt/client.go:86-108. The state is `p.profile`; the result is the state afterwards and how the call ended. -/
def discoverProfile {σ : Type} (ex : Exchange σ) (fuel : Nat) (force : Bool) (c : Cli σ) (prof : Option (List SvcProf)) :
    Option (List SvcProf) × Call (Option (Cli σ)) :=
  if prof.isSome && !force then (prof, .ok (some c))
  else
    let r := svcRun ex fuel c 1 ((prof.getD []).map SvcProf.info)
    let ss := (prof.getD []) ++ (r.1.drop (prof.getD []).length).map fun i => { info := i }
    match r.2 with
    | .ok (some c) =>
      let q := profSvcs ex fuel c ss
      (some q.1, q.2)
    | o => (some ss, o)

/-- Loop of `ReadLongCharacteristic`: gatt/client.go:286-291. -/
def readLongLoop {σ : Type} (ex : Exchange σ) (h : Nat) :
    (fuel : Nat) → Cli σ → (last buffer : Bytes) → Call (Option (Cli σ × Bytes))
  | 0, _, _, _ => pure none
  | n + 1, c, last, buffer =>
    if (last.length : Int) ≥ (c.txMTU : Int) - 1 then
      match readBlob ex c h (buffer.length % 65536) with
      | .panic => .panic
      | .err e => .err e
      | .ok (c, r) => readLongLoop ex h n c r (buffer ++ r)
    else pure (some (c, buffer))

/-- `ReadLongCharacteristic`: gatt/client.go:273-295. -/
def readLong {σ : Type} (ex : Exchange σ) (fuel : Nat) (c : Cli σ) (h : Nat) : Call (Option (Cli σ × Bytes)) :=
  match read ex c h with
  | .panic => .panic
  | .err e => .err e
  | .ok (c, r) => readLongLoop ex h fuel c r r

/-! ## This library's server as the peer -/

open Ble.Att in
/-- The ATT server of this library as the peer: a response is handed back if its opcode is the expected one or an error (client.go:522-524);
no answer is a timeout; a crash of the server ends the connection. -/
def serverPeer {σ : Type} : Exchange (Server σ) := fun s req =>
  match handleRequest s req with
  | .ok (s', some rsp) =>
    if rsp.head? = some 0x01 ∨ rsp.head? = some (rspOfReq (req.headD 0)) then .ok (s', rsp) else .err .transport
  | _ => .err .transport

end Ble.Client
