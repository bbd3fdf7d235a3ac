import Verif.Hci.AdvHist
set_option autoImplicit false

/-!
# Model of the dispatch of received HCI packets

linux/hci/hci.go:527-599, 739-961 and linux/hci/evt/evt_gen.go. A handler's error is returned or logged (hci.go:576-582, 468-470); both are `.err` here. What a handler sets off in other
components (the waiting command, the connection, the application) is an effect; those components are modelled elsewhere (`Cmd`, `Pool`, `L2cap`).
-/

namespace Ble.HciPkt

open Ble.Evt Ble.AdvHist

/-- What the handlers look at: the connection table (`true` for a connection created with the security manager enabled, so that `c.smp` is not nil), `smpEnabled` (for new connections), whether
an advertising handler is set, and the advertising history. -/
structure Env where
  conns : Nat → Option Bool
  handler : Bool
  scan : Scan

/-- Effects of a packet. -/
inductive Eff where
  /-- the packet is queued for the connection with this handle -/
  | acl (handle : Nat) (pkt : Bytes)
  /-- the command allowance becomes `num`; the return parameters go to the caller of the command, if there is one -/
  | complete (num opcode : Nat) (params : Bytes)
  | status (num opcode : Nat) (status : UInt8)
  /-- so many buffers of the connection are returned -/
  | completed (handle n : Nat)
  /-- the connection with this handle is closed -/
  | disconnect (handle : Nat)
  /-- the connection's encryption state is set; with a failure status its bond is deleted first -/
  | encryption (handle : Nat) (deleteBond enabled : Bool)
  /-- a new connection in the table -/
  | connected (handle : Nat) (role : UInt8) (addr : Bytes)
  /-- the waiting vendor command gets its answer, if there is one -/
  | vendor
  /-- an advertisement for the application -/
  | advertisement (a : Adv)

/-- `handleDisconnectionComplete`: hci.go:896-909 and evt_gen.go:8-14. Reason 0x16 is `ErrLocalHost`. -/
def disconnectionComplete (b : Bytes) : Go Unit (List Eff) := do
  let ch ← le16At b 1
  let reason ← index b 3
  if reason = 0x16 then pure [] else pure [.disconnect ch]

/-- `handleEncryptionChange`: hci.go:911-923, and `handleEncryptionChanged`: conn.go:458-468 (nil `c.smp` on a failure status panics). -/
def encryptionChange (env : Env) (b : Bytes) : Go Unit (List Eff) := do
  let ch ← le16At b 1
  match env.conns ch with
  | none => .err ()
  | some smp =>
    let status ← index b 0
    let enabled ← index b 3
    if status ≠ 0 then
      if smp then pure [.encryption ch true (enabled = 1)] else .panic
    else pure [.encryption ch false (enabled = 1)]

/-- `handleEncryptionKeyRefreshComplete`: hci.go:925-935, conn.go:483-506. It is registered for LE subevent 0x30 (hci.go:161), so `b[0]` is 0x30, taken for the status. -/
def encryptionKeyRefresh (env : Env) (b : Bytes) : Go Unit (List Eff) := do
  let ch ← le16At b 1
  match env.conns ch with
  | none => .err ()
  | some smp =>
    let status ← index b 0
    if status ≠ 0 then
      if smp then pure [.encryption ch true true] else .panic
    else pure [.encryption ch false true]

/-- The loop of `handleNumberOfCompletedPackets`: hci.go:942-952, the first `k` entries. -/
def completedLoop (env : Env) (b : Bytes) : Nat → Go Unit (List Eff)
  | 0 => pure []
  | k + 1 => do
    let l ← completedLoop env b k
    let h ← ncpHandle b k
    match env.conns h with
    | none => pure l
    | some _ =>
      let n ← ncpPackets b k
      pure (l ++ [.completed h n])

/-- `handleNumberOfCompletedPackets`: hci.go:937-954. -/
def completedPackets (env : Env) (b : Bytes) : Go Unit (List Eff) := do
  let n ← ncpCount b
  completedLoop env b n

/-- `handleCommandComplete`: hci.go:739-762. The NOP opcode only changes the allowance. -/
def commandComplete (b : Bytes) : Go Unit (List Eff) := do
  let n ← ccNum b
  let oc ← ccOpcode b
  let ps ← ccParams b
  pure [.complete n oc ps]

/-- `handleCommandStatus`: hci.go:764-788. -/
def commandStatus (b : Bytes) : Go Unit (List Eff) :=
  if b.length < 4 then .err ()
  else do
    let st ← index b 0
    let n ← index b 1
    let oc ← le16At b 2
    pure [.status n.toNat oc st]

/-- `handleLEConnectionComplete`: hci.go:790-839, as far as the connection table, and the reads of `newConn` (conn.go:89-141, 256-268: `PeerAddressType`, when the security manager is on;
it needs no more bytes than `PeerAddress`). `PeerAddress` pads a short event with zeros. -/
def connectionComplete (b : Bytes) : Go Unit (List Eff) := do
  let status ← index b 1
  if status ≠ 0 then pure []
  else
    let pa ← sliceFrom b 6
    let ch ← le16At b 2
    let role ← index b 4
    pure [.connected ch role ((pa ++ List.replicate 6 0).take 6)]

/-- `handleLEAdvertisingReport` with the test for a handler: hci.go:609-612. -/
def advertisingReport (env : Env) (b : Bytes) : Go Unit (List Eff × Scan) :=
  if env.handler then
    match AdvHist.handle env.scan b with
    | .ok o => .ok ((o.sent.map Eff.advertisement).toList, o.st)
    | .err _ => .err ()
    | .panic => .panic
  else .ok ([], env.scan)

/-- Effects and the new advertising history. -/
def keep (env : Env) (r : Go Unit (List Eff)) : Go Unit (List Eff × Scan) :=
  match r with
  | .ok es => .ok (es, env.scan)
  | .err x => .err x
  | .panic => .panic

/-- `handleLEMeta`: hci.go:593-599, with the table of hci.go:153-165. -/
def leMeta (env : Env) (b : Bytes) : Go Unit (List Eff × Scan) :=
  match b with
  | [] => .panic
  | sub :: _ =>
    if sub = 0x02 then advertisingReport env b
    else if sub = 0x01 then keep env (connectionComplete b)
    -- LE Connection Update Complete, LE Remote Connection Parameter Request: ignored (hci.go:841-849)
    else if sub = 0x03 ∨ sub = 0x06 then .ok ([], env.scan)
    else if sub = 0x30 then keep env (encryptionKeyRefresh env b)
    -- LE Long Term Key Request: not supported (hci.go:956-961); others: hci.go:598
    else .err ()

/-- `handleEvt`: hci.go:564-591, with the table of hci.go:146-151. -/
def handleEvt (env : Env) (b : Bytes) : Go Unit (List Eff × Scan) :=
  match b with
  | code :: plen :: p =>
    if plen.toNat ≠ p.length then .err ()
    else if code = 0x0e then keep env (commandComplete p)
    else if code = 0x0f then keep env (commandStatus p)
    else if code = 0x3e then leMeta env p
    else if code = 0x05 then keep env (disconnectionComplete p)
    else if code = 0x13 then keep env (completedPackets env p)
    else if code = 0x08 then keep env (encryptionChange env p)
    else if code = 0xff then .ok ([.vendor], env.scan)
    else .err ()
  | _ => .panic

/-- `handleACL`: hci.go:549-562 (and conn.go:579). -/
def handleACL (env : Env) (b : Bytes) : Go Unit (List Eff × Scan) :=
  match b with
  | x :: y :: _ =>
    let h := x.toNat + 256 * (y.toNat % 16)
    match env.conns h with
    | some _ => .ok ([.acl h b], env.scan)
    | none => .ok ([], env.scan)
  | _ => .panic

/-- `handlePkt`: hci.go:527-547. -/
def handlePkt (env : Env) (b : Bytes) : Go Unit (List Eff × Scan) :=
  match b with
  | [] => .panic
  | t :: p =>
    if t = 0x02 then handleACL env p
    else if t = 0x04 then handleEvt env p
    else .err ()

end Ble.HciPkt
