import Verif.Basic
set_option autoImplicit false

/-!
# Model of the ATT server

linux/att/db.go, linux/att/attr.go, linux/att/server.go, handler.go (`ResponseWriter`), profile.go (the data
of services, characteristics and descriptors) and linux/gatt/server.go.

Application callbacks are arbitrary functions of an application state, of what the request shows them and of the capacity
of the `ResponseWriter`. They may write any list of chunks, set any status, or panic. Callbacks that use `Request.Conn()` to talk
to the link layer directly are not modelled. Logging calls are left out except where evaluating their arguments can panic.
A response slice of the server's transmit buffer is modelled by its contents.
-/

namespace Ble.Att

/-- Outcome of a function that can only return or panic. -/
abbrev Run (α : Type) := Go Empty α

/-- A `ReadHandler` (handler.go:10-12): state, request offset and capacity of the response writer to new state, the chunks passed to
`rsp.Write` one after the other, and the last status given to `rsp.SetStatus` (0 if it is not called). The outcome of each `Write`
is a function of the capacity and the earlier chunks, so a handler reacting to it is also of this form. -/
abbrev ReadH (σ : Type) := σ → (offset cap : Nat) → Run (σ × List Bytes × UInt8)

/-- A `WriteHandler` (handler.go:23-25): state and request data to new state and status. Its response writer has no buffer
(server.go:67, 542, 567, 591), so writes to it have no effect. -/
abbrev WriteH (σ : Type) := σ → Bytes → Run (σ × UInt8)

/-- `attr`: linux/att/attr.go:6-14. `v = none` is a nil slice, handlers `none` are nil. -/
structure Attr (σ : Type) where
  h : Nat
  endh : Nat := 0
  typ : Bytes
  v : Option Bytes := none
  rh : Option (ReadH σ) := none
  wh : Option (WriteH σ) := none

/-- `PrimaryServiceUUID`, `CharacteristicUUID`, `ClientCharacteristicConfigUUID`: const.go:19-24 with `UUID16` (uuid.go:15-19). -/
def primaryServiceUUID : Bytes := put16 0x2800
def characteristicUUID : Bytes := put16 0x2803
def cccUUID : Bytes := put16 0x2902

/-! ## Per-connection state of the CCCDs -/

/-- A notifier (handler.go:156-161): the characteristic it serves, whether it is for indications, and whether its context is
still open. -/
structure Ntf where
  char : Nat
  ind : Bool
  isOpen : Bool
deriving Repr, DecidableEq

/-- The part of `conn` the CCCD handlers use (server.go:13-19). `ntfs` holds every notifier ever made on this connection;
the maps `nn` and `in` hold positions in that list. Maps are keyed by characteristic handle; a missing key of `cccs` reads as 0. -/
structure CState (α : Type) where
  cccs : Nat → Nat
  nn : Nat → Option Nat
  ind : Nat → Option Nat
  ntfs : List Ntf
  app : α

/-- Connection state of a new server: server.go:55-57. -/
def CState.init {α : Type} (app : α) : CState α :=
  { cccs := fun _ => 0, nn := fun _ => none, ind := fun _ => none, ntfs := [], app := app }

/-- Update of a Go map. -/
def upd {β : Type} (f : Nat → β) (k : Nat) (x : β) : Nat → β := fun i => if i = k then x else f i

/-- `notifier.Close`: handler.go:180-183. -/
def closeNtf (l : List Ntf) (i : Nat) : List Ntf := l.modify i fun n => { n with isOpen := false }

/-- `cn.nn[c.Handle].Close()` (db.go:194, 207, server.go:171, 174): a missing entry is a nil interface, calling it panics. -/
def closeAt {α : Type} (st : CState α) (m : Nat → Option Nat) (h : Nat) : Run (CState α) :=
  match m h with
  | none => .panic
  | some i => .ok { st with ntfs := closeNtf st.ntfs i }

/-- What `newCCCD` captures of its characteristic: handle, properties, and whether the notify and indicate handlers are set. -/
structure CharRef where
  handle : Nat
  prop : UInt8
  hasNotify : Bool
  hasIndicate : Bool
deriving Repr, DecidableEq

/-- Read handler of a CCCD: db.go:168-172. -/
def cccdRead {α : Type} (c : CharRef) : ReadH (CState α) := fun st _ _ =>
  .ok (st, [put16 (st.cccs c.handle)], 0)

/-- db.go:184-192: the notify half of the CCCD write, when the bit goes up. `none` means "status Unlikely, return".
Starting the application's handler when it is nil panics (in the new goroutine, which ends the process). -/
def cccdStartNotify {α : Type} (c : CharRef) (st : CState α) : Run (Option (CState α)) :=
  if c.prop &&& 0x10 = 0 then .ok none
  else if c.hasNotify then
    .ok (some { st with
      nn := upd st.nn c.handle (some st.ntfs.length)
      ntfs := st.ntfs ++ [⟨c.handle, false, true⟩] })
  else .panic

/-- db.go:197-205: the indicate half. -/
def cccdStartIndicate {α : Type} (c : CharRef) (st : CState α) : Run (Option (CState α)) :=
  if c.prop &&& 0x20 = 0 then .ok none
  else if c.hasIndicate then
    .ok (some { st with
      ind := upd st.ind c.handle (some st.ntfs.length)
      ntfs := st.ntfs ++ [⟨c.handle, true, true⟩] })
  else .panic

/-- db.go:184-195. -/
def cccdNotifyPart {α : Type} (c : CharRef) (oldB newB : Bool) (st : CState α) : Run (Option (CState α)) :=
  if newB && !oldB then cccdStartNotify c st
  else if !newB && oldB then do let st ← closeAt st st.nn c.handle; pure (some st)
  else pure (some st)

/-- db.go:197-208. -/
def cccdIndicatePart {α : Type} (c : CharRef) (oldB newB : Bool) (st : CState α) : Run (Option (CState α)) :=
  if newB && !oldB then cccdStartIndicate c st
  else if !newB && oldB then do let st ← closeAt st st.ind c.handle; pure (some st)
  else pure (some st)

/-- Write handler of a CCCD: db.go:174-210. 0x0E is `ErrUnlikely` (error.go). `binary.LittleEndian.Uint16` panics on fewer than
two bytes. -/
def cccdWrite {α : Type} (c : CharRef) : WriteH (CState α) := fun st data => do
  let ccc ← le16At data 0
  let old := st.cccs c.handle
  match ← cccdNotifyPart c (old % 2 = 1) (ccc % 2 = 1) st with
  | none => pure (st, 0x0E)
  | some st1 =>
    match ← cccdIndicatePart c (old / 2 % 2 = 1) (ccc / 2 % 2 = 1) st1 with
    | none => pure (st1, 0x0E)
    | some st2 => pure ({ st2 with cccs := upd st2.cccs c.handle ccc }, 0)

/-! ## Services and the attribute table -/

/-- An application's read handler sees only the application state. -/
def liftRead {α : Type} (f : ReadH α) : ReadH (CState α) := fun st off cap => do
  let (a, w, e) ← f st.app off cap
  pure ({ st with app := a }, w, e)

/-- An application's write handler sees only the application state. -/
def liftWrite {α : Type} (f : WriteH α) : WriteH (CState α) := fun st d => do
  let (a, e) ← f st.app d
  pure ({ st with app := a }, e)

/-- `Descriptor`: profile.go:200-209; `cccd` is one made by `newCCCD` (db.go:165-212), whose handlers refer to the
characteristic it is attached to. -/
inductive Desc (α : Type) where
  | app (uuid : Bytes) (v : Option Bytes) (rh : Option (ReadH α)) (wh : Option (WriteH α))
  | cccd

/-- `Characteristic`: profile.go:117-134. `prop` is `byte(c.Property)`. -/
structure Char (α : Type) where
  uuid : Bytes
  prop : UInt8 := 0
  v : Option Bytes := none
  rh : Option (ReadH α) := none
  wh : Option (WriteH α) := none
  hasNotify : Bool := false
  hasIndicate : Bool := false
  descs : List (Desc α) := []

/-- `Service`: profile.go:90-96. The UUID is not a nil slice. -/
structure Svc (α : Type) where
  uuid : Bytes
  chars : List (Char α) := []

/-- `uint16` addition. -/
def add16 (h n : Nat) : Nat := (h + n) % 65536
/-- `uint16` subtraction of one. -/
def pred16 (h : Nat) : Nat := (h + 65535) % 65536

/-- `genDescAttr`: db.go:137-145, for the characteristic `c`. -/
def genDescAttr {α : Type} (c : CharRef) (d : Desc α) (h : Nat) : Attr (CState α) :=
  match d with
  | .app uuid v rh wh => { h := h, typ := uuid, v := v, rh := rh.map liftRead, wh := wh.map liftWrite }
  | .cccd => { h := h, typ := cccUUID, rh := some (cccdRead c), wh := some (cccdWrite c) }

/-- db.go:120-123: a characteristic with a notify or indicate handler gets a CCCD appended to its descriptors (every time a table is
built). -/
def attachCCCD {α : Type} (c : Char α) : Char α :=
  if c.hasNotify || c.hasIndicate then { c with descs := c.descs ++ [.cccd] } else c

/-- Loop over the descriptors: db.go:128-131. -/
def genDescs {α : Type} (r : CharRef) : List (Desc α) → Nat → Nat × List (Attr (CState α))
  | [], h => (h, [])
  | d :: ds, h =>
    let (h', aa) := genDescs r ds (add16 h 1)
    (h', genDescAttr r d h :: aa)

/-- `genCharAttr`: db.go:101-135. -/
def genCharAttr {α : Type} (c : Char α) (h : Nat) : Nat × List (Attr (CState α)) :=
  let vh := add16 h 1
  let r : CharRef := ⟨h, c.prop, c.hasNotify, c.hasIndicate⟩
  let (h', ds) := genDescs r (attachCCCD c).descs (add16 h 2)
  (h', { h := h, endh := pred16 h', typ := characteristicUUID, v := some (c.prop :: put16 vh ++ c.uuid) } ::
       { h := vh, typ := c.uuid, v := c.v, rh := c.rh.map liftRead, wh := c.wh.map liftWrite } :: ds)

/-- Loop over the characteristics: db.go:92-95. -/
def genChars {α : Type} : List (Char α) → Nat → Nat × List (Attr (CState α))
  | [], h => (h, [])
  | c :: cs, h =>
    let (h1, aa) := genCharAttr c h
    let (h2, bb) := genChars cs h1
    (h2, aa ++ bb)

/-- `genSvcAttr`: db.go:82-99, except that the end handle of the declaration is set by `newDB`'s caller when the service is the last
(`last`, db.go:71-73). -/
def genSvcAttr {α : Type} (s : Svc α) (h : Nat) (last : Bool) : Nat × List (Attr (CState α)) :=
  let (h', aa) := genChars s.chars (add16 h 1)
  (h', { h := h, endh := if last then 0xFFFF else pred16 h', typ := primaryServiceUUID, v := some s.uuid } :: aa)

/-- Loop of `NewDB`: db.go:69-75. -/
def genSvcs {α : Type} : List (Svc α) → Nat → List (Attr (CState α))
  | [], _ => []
  | s :: ss, h =>
    let (h', aa) := genSvcAttr s h ss.isEmpty
    aa ++ genSvcs ss h'

/-- `DB`: db.go:10-14. -/
structure DB (σ : Type) where
  base : Nat
  attrs : List (Attr σ)

/-- `NewDB`: db.go:65-80. -/
def newDB {α : Type} (ss : List (Svc α)) (base : Nat) : DB (CState α) := ⟨base, genSvcs ss base⟩

/-- What `NewDB` does to the services it is given: db.go:120-123 appends a CCCD to `c.Descriptors`. -/
def attachAll {α : Type} (ss : List (Svc α)) : List (Svc α) :=
  ss.map fun s => { s with chars := s.chars.map attachCCCD }

/-- Result of `idx`: db.go:24-32. -/
inductive Idx where
  | tooSmall | tooLarge | at (i : Nat)
deriving Repr, DecidableEq

/-- `idx`: db.go:24-32. -/
def DB.idx {σ : Type} (db : DB σ) (h : Nat) : Idx :=
  if h < db.base then .tooSmall
  else if h ≥ db.base + db.attrs.length then .tooLarge
  else .at (h - db.base)

/-- `at`: db.go:35-41. -/
def DB.at {σ : Type} (db : DB σ) (h : Nat) : Option (Attr σ) :=
  match db.idx h with
  | .at i => db.attrs[i]?
  | _ => none

/-- `subrange`: db.go:45-62. The Go slice expression panics when the start index exceeds the end index. -/
def DB.subrange {σ : Type} (db : DB σ) (start stop : Nat) : Run (List (Attr σ)) :=
  match db.idx start with
  | .tooLarge => .ok []
  | s =>
    let lo := match s with | .at i => i | _ => 0
    match db.idx (stop + 1) with
    | .tooSmall => .ok []
    | e =>
      let hi := match e with | .at i => i | _ => db.attrs.length
      if lo ≤ hi then .ok ((db.attrs.take hi).drop lo) else .panic

/-! ## The GATT server -/

/-- `gatt.Server`: linux/gatt/server.go:32-39; `dflt` is the result of `defaultServices` (73-97), which makes new objects on
every call. -/
structure Gatt (α : Type) where
  svcs : List (Svc α)
  db : DB (CState α)

/-- `NewServerWithNameAndHandler`: linux/gatt/server.go:17-24. The table and the service list are built from different objects. -/
def Gatt.new {α : Type} (dfltHandler dflt : List (Svc α)) : Gatt α := ⟨dfltHandler, newDB dflt 1⟩

/-- `AddService`: linux/gatt/server.go:42-48. -/
def Gatt.addService {α : Type} (g : Gatt α) (s : Svc α) : Gatt α :=
  let svcs := g.svcs ++ [s]
  ⟨attachAll svcs, newDB svcs 1⟩

/-- `RemoveAllServices`: linux/gatt/server.go:51-57. -/
def Gatt.removeAll {α : Type} (dflt : List (Svc α)) : Gatt α := ⟨attachAll dflt, newDB dflt 1⟩

/-- `SetServices`: linux/gatt/server.go:60-66. -/
def Gatt.setServices {α : Type} (dflt ss : List (Svc α)) : Gatt α :=
  let svcs := dflt ++ ss
  ⟨attachAll svcs, newDB svcs 1⟩

/-! ## The ATT server -/

/-- `Server`: server.go:22-41. `mtu` is `len(txBuf)`, which is also the size of the notification and indication buffers between
requests. -/
structure Server (σ : Type) where
  db : DB σ
  mtu : Nat
  rxMTU : Nat
  prep : Option (Attr σ)
  prepData : Bytes
  st : σ

/-- `NewServer`: server.go:44-74. `none` is the "invalid MTU" error. -/
def Server.new {σ : Type} (db : DB σ) (l2cRxMTU : Nat) (st : σ) : Option (Server σ) :=
  if l2cRxMTU < 23 ∨ l2cRxMTU > 515 then none
  else some { db := db, mtu := 23, rxMTU := l2cRxMTU, prep := none, prepData := [], st := st }

/-- Error codes used by the server (error.go). -/
def errInvalidHandle : UInt8 := 0x01
def errReadNotPerm : UInt8 := 0x02
def errWriteNotPerm : UInt8 := 0x03
def errInvalidPDU : UInt8 := 0x04
def errReqNotSupp : UInt8 := 0x06
def errAttrNotFound : UInt8 := 0x0A

/-- `newErrorResponse`: server.go:622-629. -/
def errorRsp (op : UInt8) (h : Nat) (code : UInt8) : Bytes := 0x01 :: op :: put16 h ++ [code]

/-- `responseWriter.Write` repeated: handler.go:115-124. A chunk that does not fit is dropped. -/
def writeAll (cap : Nat) : Bytes → List Bytes → Bytes
  | acc, [] => acc
  | acc, c :: cs => if c.length > cap - acc.length then writeAll cap acc cs else writeAll cap (acc ++ c) cs

/-- Calling a read handler through a response writer with an empty buffer of capacity `cap`. -/
def serveRead {σ : Type} (f : ReadH σ) (s : Server σ) (offset cap : Nat) : Run (Server σ × UInt8 × Bytes) := do
  let (st, chunks, e) ← f s.st offset cap
  pure ({ s with st := st }, e, writeAll cap [] chunks)

/-- Queueing a prepared value: server.go:657-661. Only the first prepared attribute is remembered. -/
def enqueue {σ : Type} (s : Server σ) (a : Attr σ) (data : Bytes) : Server σ :=
  match s.prep with
  | none => { s with prep := some a, prepData := data }
  | some _ => { s with prepData := s.prepData ++ data }

/-- `handleATT`: server.go:631-686; `cap` is the capacity of the (empty) response buffer, 0 for `NewResponseWriter(nil)`.
`a = none` is a nil attribute pointer, whose use panics. Result: new state, status, bytes written to the response buffer. -/
def handleATT {σ : Type} (a : Option (Attr σ)) (s : Server σ) (req : Bytes) (cap : Nat) : Run (Server σ × UInt8 × Bytes) := do
  let op ← index req 0
  if op = 0x08 ∨ op = 0x0A then                         -- ReadByType, Read: 637-643
    match a with
    | none => .panic
    | some a =>
      match a.rh with
      | none => pure (s, errReadNotPerm, [])
      | some f => serveRead f s 0 cap
  else if op = 0x0C then                                -- ReadBlob: 644-649
    match a with
    | none => .panic
    | some a =>
      match a.rh with
      | none => pure (s, errReadNotPerm, [])
      | some f => do
        let off ← le16At req 3
        serveRead f s off cap
  else if op = 0x16 then                                -- PrepareWrite: 650-661
    match a with
    | none => .panic
    | some a =>
      match a.wh with
      | none => pure (s, errWriteNotPerm, [])
      | some _ => do
        let data ← sliceFrom req 5
        pure (enqueue s a data, 0, [])
  else if op = 0x18 then                                -- ExecuteWrite: 663-669
    match a with
    | none => .panic
    | some a =>
      match a.wh with
      | none => pure (s, errWriteNotPerm, [])
      | some f => do
        let (st, e) ← f s.st s.prepData
        pure ({ s with st := st, prep := none }, e, [])
  else if op = 0x12 ∨ op = 0x52 then                    -- Write request, write command: 670-677
    match a with
    | none => .panic
    | some a =>
      match a.wh with
      | none => pure (s, errWriteNotPerm, [])
      | some f => do
        let data ← sliceFrom req 3
        let (st, e) ← f s.st data
        pure ({ s with st := st }, e, [])
  else pure (s, errReqNotSupp, [])                      -- 681-682

/-- An error reply. Request handlers return the new state and the response (`none` is nil: nothing is sent). -/
def reject {σ : Type} (s : Server σ) (op : UInt8) (h : Nat) (code : UInt8) : Run (Server σ × Option Bytes) :=
  pure (s, some (errorRsp op h code))

/-- `handleExchangeMTURequest`: server.go:224-254. 515 is `ble.MaxMTU`. -/
def handleExchangeMTU {σ : Type} (s : Server σ) (r : Bytes) : Run (Server σ × Option Bytes) := do
  let op ← index r 0
  if r.length ≠ 3 then reject s op 0 errInvalidPDU
  else do
    let m ← le16At r 1
    if m < 23 then reject s op 0 errInvalidPDU
    else pure ({ s with mtu := m, rxMTU := 515 }, some (0x03 :: put16 515))

/-- The format after looking at a type of `n` bytes: server.go:274-279. -/
def infoFormat (fmt n : Nat) : Nat := if fmt = 0 then (if n = 16 then 2 else 1) else fmt

/-- Loop of `handleFindInformationRequest`: server.go:273-292. `fmt` is `rsp.Format()`, `buf` the bytes written so far. -/
def findInfoLoop {σ : Type} (cap : Nat) : List (Attr σ) → (fmt : Nat) → (buf : Bytes) → Nat × Bytes
  | [], fmt, buf => (fmt, buf)
  | a :: as, fmt, buf =>
    if infoFormat fmt a.typ.length = 1 ∧ a.typ.length ≠ 2 then (infoFormat fmt a.typ.length, buf)
    else if infoFormat fmt a.typ.length = 2 ∧ a.typ.length ≠ 16 then (infoFormat fmt a.typ.length, buf)
    else if buf.length + 2 + a.typ.length > cap then (infoFormat fmt a.typ.length, buf)
    else findInfoLoop cap as (infoFormat fmt a.typ.length) (buf ++ put16 a.h ++ a.typ)

/-- `handleFindInformationRequest`: server.go:257-299. -/
def handleFindInfo {σ : Type} (s : Server σ) (r : Bytes) : Run (Server σ × Option Bytes) := do
  let op ← index r 0
  if r.length ≠ 5 then reject s op 0 errInvalidPDU
  else do
    let lo ← le16At r 1
    let hi ← le16At r 3
    if lo = 0 ∨ lo > hi then reject s op lo errInvalidHandle
    else do
      let as ← s.db.subrange lo hi
      let (fmt, buf) := findInfoLoop (s.mtu - 2) as 0 []
      if fmt = 0 then reject s op lo errAttrNotFound
      else pure (s, some (0x05 :: UInt8.ofNat fmt :: buf))

/-- Loop of `handleFindByTypeValueRequest`: server.go:316-341. `none` in the result is the early error return (line 328). -/
def findByTypeValueLoop {σ : Type} (cap : Nat) (typ value : Bytes) (req : Bytes) :
    Server σ → List (Attr σ) → (buf : Bytes) → Run (Server σ × Option Bytes)
  | s, [], buf => pure (s, some buf)
  | s, a :: as, buf =>
    if a.typ ≠ typ then findByTypeValueLoop cap typ value req s as buf
    else match a.v with
      | none => do
        let (s', e, w) ← handleATT (some a) s req (s.mtu - 7 + 1)
        if e ≠ 0 ∨ w.length > s.mtu - 7 then pure (s', none)
        else if ([] : Bytes) ≠ value then findByTypeValueLoop cap typ value req s' as buf
        else if buf.length + 4 > cap then pure (s', some buf)
        else findByTypeValueLoop cap typ value req s' as (buf ++ put16 a.h ++ put16 a.h)
      | some v =>
        if v ≠ value then findByTypeValueLoop cap typ value req s as buf
        else if buf.length + 4 > cap then pure (s, some buf)
        else findByTypeValueLoop cap typ value req s as (buf ++ put16 a.h ++ put16 a.endh)

/-- `handleFindByTypeValueRequest`: server.go:302-347. `ble.UUID16(t)` is the two bytes of `t`. -/
def handleFindByTypeValue {σ : Type} (s : Server σ) (r : Bytes) : Run (Server σ × Option Bytes) := do
  let op ← index r 0
  if r.length < 7 then reject s op 0 errInvalidPDU
  else do
    let lo ← le16At r 1
    let hi ← le16At r 3
    if lo = 0 ∨ lo > hi then reject s op lo errInvalidHandle
    else do
      let t ← le16At r 5
      let value ← sliceFrom r 7
      let as ← s.db.subrange lo hi
      let (s', out) ← findByTypeValueLoop (s.mtu - 1) (put16 t) value r s as []
      match out with
      | none => reject s' op lo errInvalidHandle
      | some buf =>
        if buf.length = 0 then reject s' op lo errAttrNotFound
        else pure (s', some (0x07 :: buf))

/-- How a list loop ended: an early error reply, or the entry size (`0`: no entry) and the bytes written. -/
inductive ListEnd where
  | fail (code : UInt8)
  | done (dlen : Nat) (buf : Bytes)
deriving Repr, DecidableEq

/-- Size of the first entry: server.go:387-393 and 503-510. -/
def firstLen (hdr cap n : Nat) : Nat :=
  let d := hdr + n
  let d := if d > 255 then 255 else d
  if d > cap then cap else d

/-- `v[:dlen-hdr]`: server.go:402 and 517; panics when out of range. -/
def cut (v : Bytes) (hdr dlen : Nat) : Run Bytes := if hdr ≤ dlen then slice v 0 (dlen - hdr) else .panic

/-- Adding an entry of size `dlen` with the given handle bytes: server.go:398-402 and 513-517. `none`: leave the loop. -/
def addEntry (cap : Nat) (hdr v : Bytes) (dlen : Nat) (buf : Bytes) : Run (Nat × Option Bytes) :=
  if buf.length + dlen > cap then pure (dlen, none)
  else do
    let p ← cut v hdr.length dlen
    pure (dlen, some (buf ++ hdr ++ p))

/-- Rest of an iteration of the list loops once the value is known: server.go:385-402 (Read By Type, `hdr` the handle) and
502-517 (Read By Group Type, `hdr` the handle and the end handle). `none`: leave the loop with what was there; the first
component is the entry size. -/
def listStep (cap : Nat) (hdr v : Bytes) (dlen : Nat) (buf : Bytes) : Run (Nat × Option Bytes) :=
  if dlen = 0 then addEntry cap hdr v (firstLen hdr.length cap v.length) buf
  else if hdr.length + v.length ≠ dlen then pure (dlen, none)
  else addEntry cap hdr v dlen buf

/-- Loop of `handleReadByTypeRequest`: server.go:368-403. -/
def readByTypeLoop {σ : Type} (cap : Nat) (typ req : Bytes) :
    Server σ → List (Attr σ) → (dlen : Nat) → (buf : Bytes) → Run (Server σ × ListEnd)
  | s, [], dlen, buf => pure (s, .done dlen buf)
  | s, a :: as, dlen, buf =>
    if a.typ ≠ typ then readByTypeLoop cap typ req s as dlen buf
    else do
      let (s', r) ← (match a.v with
        | some v => pure (s, Sum.inr v)
        | none => do
          let (s', e, w) ← handleATT (some a) s req (s.mtu - 2)
          pure (s', if e ≠ 0 then Sum.inl e else Sum.inr w) : Run (Server σ × (UInt8 ⊕ Bytes)))
      match r with
      | .inl e => pure (s', if dlen = 0 then .fail e else .done dlen buf)
      | .inr v => do
        let (dlen', nb) ← listStep cap (put16 a.h) v dlen buf
        match nb with
        | none => pure (s', .done dlen' buf)
        | some buf' => readByTypeLoop cap typ req s' as dlen' buf'

/-- `handleReadByTypeRequest`: server.go:350-408. -/
def handleReadByType {σ : Type} (s : Server σ) (r : Bytes) : Run (Server σ × Option Bytes) := do
  let op ← index r 0
  if r.length ≠ 7 ∧ r.length ≠ 21 then reject s op 0 errInvalidPDU
  else do
    let lo ← le16At r 1
    let hi ← le16At r 3
    if lo = 0 ∨ lo > hi then reject s op lo errInvalidHandle
    else do
      let typ ← sliceFrom r 5
      let as ← s.db.subrange lo hi
      let (s', out) ← readByTypeLoop (s.mtu - 2) typ r s as 0 []
      match out with
      | .fail e => reject s' op lo e
      | .done dlen buf =>
        if dlen = 0 then reject s' op lo errAttrNotFound
        else pure (s', some (0x09 :: UInt8.ofNat dlen :: buf))

/-- `rsp[:1+buf.Len()]` after `binary.Write(buf, a.v)`: server.go:430-431 and 462-463. A value longer than the buffer makes
`bytes.Buffer` move to a new array and the slice expression panics. -/
def staticValue (code : UInt8) (mtu : Nat) (v : Bytes) : Run Bytes :=
  if 1 + v.length ≤ mtu then pure (code :: v) else .panic

/-- `handleReadRequest`: server.go:411-440. -/
def handleRead {σ : Type} (s : Server σ) (r : Bytes) : Run (Server σ × Option Bytes) := do
  let op ← index r 0
  if r.length ≠ 3 then reject s op 0 errInvalidPDU
  else do
    let h ← le16At r 1
    match s.db.at h with
    | none => reject s op h errInvalidHandle
    | some a =>
      match a.v with
      | some v => do
        let rsp ← staticValue 0x0B s.mtu v
        pure (s, some rsp)
      | none => do
        let (s', e, w) ← handleATT (some a) s r (s.mtu - 1)
        if e ≠ 0 then reject s' op h e else pure (s', some (0x0B :: w))

/-- `handleReadBlobRequest`: server.go:443-472. The offset is not used for static values. -/
def handleReadBlob {σ : Type} (s : Server σ) (r : Bytes) : Run (Server σ × Option Bytes) := do
  let op ← index r 0
  if r.length ≠ 5 then reject s op 0 errInvalidPDU
  else do
    let h ← le16At r 1
    match s.db.at h with
    | none => reject s op h errInvalidHandle
    | some a =>
      match a.v with
      | some v => do
        let rsp ← staticValue 0x0D s.mtu v
        pure (s, some rsp)
      | none => do
        let (s', e, w) ← handleATT (some a) s r (s.mtu - 1)
        if e ≠ 0 then reject s' op h e else pure (s', some (0x0D :: w))

/-- Loop of `handleReadByGroupRequest`: server.go:491-518. The group type is not looked at. `make([]byte, n)` with negative `n`
panics; the made buffer is full, so nothing more can be written to it. -/
def readByGroupLoop {σ : Type} (cap : Nat) (req : Bytes) :
    Server σ → List (Attr σ) → (dlen : Nat) → (buf : Bytes) → Run (Server σ × ListEnd)
  | s, [], dlen, buf => pure (s, .done dlen buf)
  | s, a :: as, dlen, buf => do
    let (s', r) ← (match a.v with
      | some v => pure (s, Sum.inr v)
      | none =>
        if buf.length + 4 > cap then .panic
        else do
          let (s', e, _) ← handleATT (some a) s req 0
          pure (s', if e ≠ 0 then Sum.inl e else Sum.inr (List.replicate (cap - buf.length - 4) 0)) :
      Run (Server σ × (UInt8 ⊕ Bytes)))
    match r with
    | .inl e => pure (s', .fail e)
    | .inr v => do
      let (dlen', nb) ← listStep cap (put16 a.h ++ put16 a.endh) v dlen buf
      match nb with
      | none => pure (s', .done dlen' buf)
      | some buf' => readByGroupLoop cap req s' as dlen' buf'

/-- `handleReadByGroupRequest`: server.go:475-523. -/
def handleReadByGroup {σ : Type} (s : Server σ) (r : Bytes) : Run (Server σ × Option Bytes) := do
  let op ← index r 0
  if r.length ≠ 7 ∧ r.length ≠ 21 then reject s op 0 errInvalidPDU
  else do
    let lo ← le16At r 1
    let hi ← le16At r 3
    if lo = 0 ∨ lo > hi then reject s op lo errInvalidHandle
    else do
      let as ← s.db.subrange lo hi
      let (s', out) ← readByGroupLoop (s.mtu - 2) r s as 0 []
      match out with
      | .fail e => reject s' op lo e
      | .done dlen buf =>
        if dlen = 0 then reject s' op lo errAttrNotFound
        else pure (s', some (0x11 :: UInt8.ofNat dlen :: buf))

/-- `handleWriteRequest`: server.go:526-546. -/
def handleWrite {σ : Type} (s : Server σ) (r : Bytes) : Run (Server σ × Option Bytes) := do
  let op ← index r 0
  if r.length < 3 then reject s op 0 errInvalidPDU
  else do
    let h ← le16At r 1
    match s.db.at h with
    | none => reject s op h errInvalidHandle
    | some a => do
      let (s', e, _) ← handleATT (some a) s r 0
      if e ≠ 0 then reject s' op h e else pure (s', some [0x13])

/-- `handlePrepareWriteRequest`: server.go:548-575. The argument of the first `Debugf` (line 549) reads the handle before the length
check. The response is the request with its opcode replaced. -/
def handlePrepareWrite {σ : Type} (s : Server σ) (r : Bytes) : Run (Server σ × Option Bytes) := do
  let h ← le16At r 1
  let op ← index r 0
  if r.length < 3 then reject s op 0 errInvalidPDU
  else
    match s.db.at h with
    | none => reject s op h errInvalidHandle
    | some a => do
      let (s', e, _) ← handleATT (some a) s r 0
      if e ≠ 0 then reject s' op h e else pure (s', some (0x17 :: r.drop 1))

/-- `handleExecuteWriteRequest`: server.go:577-597. -/
def handleExecuteWrite {σ : Type} (s : Server σ) (r : Bytes) : Run (Server σ × Option Bytes) := do
  let op ← index r 0
  if r.length < 2 then reject s op 0 errInvalidPDU
  else do
    let flags ← index r 1
    if flags = 0 then pure ({ s with prep := none }, some [0x19])
    else if flags = 1 then do
      let (s', e, _) ← handleATT s.prep s r 0
      if e ≠ 0 then reject s' op 0 e else pure (s', some [0x19])
    else pure (s, some [0x19])

/-- `handleWriteCommand`: server.go:600-620. It never answers. -/
def handleWriteCommand {σ : Type} (s : Server σ) (r : Bytes) : Run (Server σ × Option Bytes) :=
  if r.length ≤ 3 then pure (s, none)
  else do
    let h ← le16At r 1
    match s.db.at h with
    | none => pure (s, none)
    | some a => do
      let (s', _, _) ← handleATT (some a) s r 0
      pure (s', none)

/-- `handleRequest`: server.go:183-221. -/
def handleRequest {σ : Type} (s : Server σ) (b : Bytes) : Run (Server σ × Option Bytes) :=
  match b with
  | [] => pure (s, none)
  | op :: _ =>
    if op = 0x02 then handleExchangeMTU s b
    else if op = 0x04 then handleFindInfo s b
    else if op = 0x06 then handleFindByTypeValue s b
    else if op = 0x08 then handleReadByType s b
    else if op = 0x0A then handleRead s b
    else if op = 0x0C then handleReadBlob s b
    else if op = 0x10 then handleReadByGroup s b
    else if op = 0x12 then handleWrite s b
    else if op = 0x52 then handleWriteCommand s b
    else if op = 0x16 then handlePrepareWrite s b
    else if op = 0x18 then handleExecuteWrite s b
    else reject s op 0 errReqNotSupp

/-- What `Loop` (server.go:125-165) does with one received PDU: a confirmation (0x1E) is consumed, anything else goes to
`handleRequest`, and a non-empty result is sent. The result lists the PDUs sent. -/
def loopStep {σ : Type} (s : Server σ) (b : Bytes) : Run (Server σ × List Bytes) :=
  match b with
  | 0x1E :: _ => pure (s, [])
  | _ => do
    let (s', rsp) ← handleRequest s b
    match rsp with
    | some (x :: xs) => pure (s', [x :: xs])
    | _ => pure (s', [])

/-- `Loop` over a sequence of received PDUs: all PDUs sent, grouped by received PDU. -/
def loop {σ : Type} : Server σ → List Bytes → Run (Server σ × List (List Bytes))
  | s, [] => pure (s, [])
  | s, b :: bs => do
    let (s', o) ← loopStep s b
    let (s'', os) ← loop s' bs
    pure (s'', o :: os)

/-- server.go:170-172. -/
def cleanupInd {α : Type} (st : CState α) (h : Nat) : Run (CState α) :=
  if st.cccs h / 2 % 2 = 1 then closeAt st st.ind h else pure st

/-- server.go:173-175. -/
def cleanupNtf {α : Type} (st : CState α) (h : Nat) : Run (CState α) :=
  if st.cccs h % 2 = 1 then closeAt st st.nn h else pure st

/-- One iteration of the cleanup at the end of `Loop`: server.go:170-175. -/
def cleanupStep {α : Type} (st : CState α) (h : Nat) : Run (CState α) := do
  let st ← cleanupInd st h
  cleanupNtf st h

/-- The cleanup at the end of `Loop`, over the keys of the map `cccs` in some order: server.go:166-176. -/
def cleanup {α : Type} : CState α → List Nat → Run (CState α)
  | st, [] => pure st
  | st, h :: hs => do
    let st ← cleanupStep st h
    cleanup st hs

/-- `notify` (server.go:77-92) and `indicate` (95-122), up to the write to the connection: the PDU sent. The buffer has the size of the
MTU in force. -/
def valuePDU (code : UInt8) (mtu h : Nat) (data : Bytes) : Bytes :=
  let cap := mtu - 3
  code :: put16 h ++ (if data.length > cap then data.take cap else data)

def notifyPDU (mtu h : Nat) (data : Bytes) : Bytes := valuePDU 0x1B mtu h data
def indicatePDU (mtu h : Nat) (data : Bytes) : Bytes := valuePDU 0x1D mtu h data

end Ble.Att
