import Verif.Smp.Crypto
set_option autoImplicit false

/-!
# Model of the security manager

linux/hci/smp/handler.go, context.go, transport.go, manager.go and `Conn.encrypt` of linux/hci/conn.go. One value of `Mgr` is the security manager of one connection. The library is
always the initiator. Messages are handled one at a time by the connection's receiving goroutine; `Pair` is called from the user's goroutine and is taken to be atomic up to its wait.
Random numbers and key pairs come with each event and are always available.
-/

namespace Ble.Smp

/-- `hci.SmpConfig`: linux/hci/smp.go:48-50. -/
structure Config where
  ioCap : UInt8
  oobFlag : UInt8
  authReq : UInt8
  maxKeySize : UInt8
  initKeyDist : UInt8
  respKeyDist : UInt8
deriving DecidableEq, Repr

/-- `defaultSmpConfig`: linux/hci/smp.go:52-54; every connection uses it (conn.go:116). -/
def defaultConfig : Config := ⟨4, 0, 0x09, 16, 0x00, 0x01⟩

/-- The Go zero value. -/
def zeroConfig : Config := ⟨0, 0, 0, 0, 0, 0⟩

/-- The pairing methods: context.go:16-21. -/
inductive Method
  | justWorks | numericComp | passkey | oob
deriving DecidableEq, Repr

/-- `PairingState`: manager.go:13-24. -/
inductive PState
  | init | waitPairingResponse | waitPublicKey | waitConfirm | waitRandom | waitDhKeyCheck | finished | error
deriving DecidableEq, Repr

/-- `hci.bondInfo`: linux/hci/bond.go:3-8. The long term key is never nil where the code below creates a bond. -/
structure Bond where
  ltk : Bytes
  ediv : Nat
  rand : Nat
  legacy : Bool
deriving DecidableEq, Repr

/-- `ble.AuthData`: smp.go:3-6. -/
structure AuthData where
  passkey : Nat
  oobData : Bytes

variable (P : Prims)

/-- `ECDHKeys`: ecdh.go:12-15. -/
structure Keys where
  priv : P.Priv
  pub : P.Pub

/-- `pairingContext`: context.go:30-60. A nil slice that is only compared or measured is the empty list; `localRandom` is tested for nil. The unused fields `localConfirm`, and the logger,
are left out. -/
structure Ctx where
  request : Config
  response : Config := zeroConfig
  remoteAddr : Bytes
  remoteAddrType : UInt8
  remoteRandom : Bytes := []
  remoteConfirm : Bytes := []
  localAddr : Bytes
  localAddrType : UInt8
  localRandom : Option Bytes := none
  keys : Option (Keys P) := none
  macKey : Bytes := []
  remotePub : Option P.Pub := none
  dhKey : Bytes := []
  remoteCheck : Bytes := []
  legacy : Bool := false
  stk : Bytes := []
  iter : Nat := 0
  method : Method := .justWorks
  state : PState := .init
  auth : AuthData := ⟨0, []⟩
  bond : Option Bond := none

/-- What the environment supplies while one event is handled: fresh random bytes (`rand.Read`), a fresh key pair, the bond manager's answer to `Find`, and whether sending, saving and the
encryption command succeed. No handler uses any of them twice. -/
structure Env where
  rnd : Bytes
  fresh : Keys P
  found : Option Bond
  sendOk : Bool
  saveOk : Bool
  encOk : Bool

/-- Observable effects. -/
inductive Eff
  /-- An L2CAP frame was sent. -/
  | send (frame : Bytes)
  /-- `BondManager.Save` was called, with the address in the byte order of the air, least significant byte first. -/
  | save (addr : Bytes) (b : Bond)
  /-- An HCI LE Start Encryption command was sent with this key, diversifier and random number. -/
  | startEnc (ltk : Bytes) (ediv rand : Nat)
  /-- A waiting `Pair` returned; `true` for a nil error. -/
  | pairResult (ok : Bool)
deriving DecidableEq, Repr

/-- A handler: reads the environment, changes the context, has effects, and returns, fails or panics. Changes made before an error stay. -/
def M (α : Type) : Type := Env P → Ctx P → Ctx P × List Eff × Go Unit α

namespace M
variable {P} {α β : Type}

@[inline] def bind (x : M P α) (f : α → M P β) : M P β := fun e c =>
  match x e c with
  | (c1, w1, .ok a) => ((f a e c1).1, w1 ++ (f a e c1).2.1, (f a e c1).2.2)
  | (c1, w1, .err u) => (c1, w1, .err u)
  | (c1, w1, .panic) => (c1, w1, .panic)

instance : Monad (M P) where
  pure a := fun _ c => (c, [], .ok a)
  bind := bind

def get : M P (Ctx P) := fun _ c => (c, [], .ok c)
def env : M P (Env P) := fun e c => (c, [], .ok e)
def modify (f : Ctx P → Ctx P) : M P Unit := fun _ c => (f c, [], .ok ())
def emit (x : Eff) : M P Unit := fun _ c => (c, [x], .ok ())
def fail : M P α := fun _ c => (c, [], .err ())
def panic : M P α := fun _ c => (c, [], .panic)
def lift (g : Go Unit α) : M P α := fun _ c => (c, [], g)

end M

open M

variable {P}

/-- `buildPairingReq`: transport.go:16-18. -/
def buildReq (p : Config) : Bytes := [0x01, p.ioCap, p.oobFlag, p.authReq, p.maxKeySize, p.initKeyDist, p.respKeyDist]

/-- `buildPairingRsp`: transport.go:20-22. -/
def buildRsp (p : Config) : Bytes := [0x02, p.ioCap, p.oobFlag, p.authReq, p.maxKeySize, p.initKeyDist, p.respKeyDist]

/-- The frame `send` writes: length, channel 6, the message: transport.go:64-77. -/
def frame (pdu : Bytes) : Bytes := put16 pdu.length ++ [0x06, 0x00] ++ pdu

/-- `transport.send`: transport.go:64-77. -/
def send (pdu : Bytes) : M P Unit := do
  if (← env).sendOk then emit (.send (frame pdu)) else fail

/-- `authReqBondMask`: const.go:24-26. -/
def bonding (authReq : UInt8) : Bool := authReq &&& 0x03 == 0x01

/-- `saveBondInfo`: transport.go:56-62. A nil bond makes `Save` fail (bond/manager.go:100-102). -/
def saveBondInfo : M P Unit := do
  let c ← get
  if !bonding c.request.authReq then pure ()
  else match c.bond with
    | none => fail
    | some b => if (← env).saveOk then emit (.save c.remoteAddr b) else fail

/-- Copying a key into a `[16]byte` by index: conn.go:304-306, 317-319. -/
def key16 (k : Bytes) : Go Unit Bytes := if k.length ≤ 16 then .ok (k ++ List.replicate (16 - k.length) 0) else .panic

/-- `hci.Send` of the encryption command. -/
def sendEnc (k : Bytes) (ediv rand : Nat) : M P Unit := do
  let k ← lift (key16 k)
  if (← env).encOk then emit (.startEnc k ediv rand) else fail

/-- `manager.Encrypt` and `Conn.encrypt`: manager.go:177-179, conn.go:270-325. -/
def encrypt : M P Unit := do
  let c ← get
  if c.legacy && c.stk.length > 0 then sendEnc c.stk 0 0
  else match c.bond with
    | none => fail
    | some b =>
      if b.legacy && (b.ltk.length ≠ 16 || b.ediv = 0 || b.rand = 0) then fail
      else sendEnc b.ltk b.ediv b.rand

/-- `sendPairingRequest`: transport.go:79-94. The addresses computed there are not used. -/
def sendPairingRequest : M P Unit := do
  let c ← get
  send (buildReq c.request)

/-- `sendPublicKey`: transport.go:96-116. -/
def sendPublicKey : M P Unit := do
  let e ← env
  modify (fun c => match c.keys with | none => { c with keys := some e.fresh } | some _ => c)
  match (← get).keys with
  | none => panic
  | some k =>
    modify (fun c => { c with state := .waitPublicKey })
    send ([0x0c] ++ marshalXY P k.pub)

/-- `sendPairingRandom`: transport.go:118-136. -/
def sendPairingRandom : M P Unit := do
  let e ← env
  modify (fun c => match c.localRandom with | none => { c with localRandom := some e.rnd } | some _ => c)
  modify (fun c => { c with state := .waitRandom })
  let c ← get
  send ([0x04] ++ c.localRandom.getD [])

/-- An address with its type: context.go:147-150, 167-170, transport.go:146-147. -/
def typed (a : Bytes) (t : UInt8) : Bytes := a ++ [t]

/-- The three bytes of IO capabilities: context.go:174, transport.go:151. -/
def ioCapBytes (c : Config) : Bytes := swapBuf [c.authReq, c.oobFlag, c.ioCap]

/-- `ra` and `rb` of the DHKey check: context.go:176-191, transport.go:153-168. -/
def checkR (c : Ctx P) : Bytes :=
  match c.method with
  | .passkey => getLegacyTK c.auth.passkey
  | .oob => c.auth.oobData
  | _ => List.replicate 16 0

/-- `sendDHKeyCheck`: transport.go:138-177. -/
def sendDHKeyCheck : M P Unit := do
  let c ← get
  let ea ← lift (smpF6 P c.macKey (c.localRandom.getD []) c.remoteRandom (checkR c) (ioCapBytes c.request)
    (typed c.localAddr c.localAddrType) (typed c.remoteAddr c.remoteAddrType))
  modify (fun c => { c with state := .waitDhKeyCheck })
  send ([0x0d] ++ ea)

/-- The temporary key: transport.go:200-203, context.go:231-234. -/
def legacyTK (c : Ctx P) : Bytes := if c.method = .passkey then getLegacyTK c.auth.passkey else List.replicate 16 0

/-- `sendMConfirm`: transport.go:179-214. -/
def sendMConfirm : M P Unit := do
  let e ← env
  modify (fun c => { c with localRandom := some e.rnd })
  let c ← get
  let c1 ← lift (smpC1 P (legacyTK c) e.rnd (buildReq c.request) (buildRsp c.response) c.localAddrType c.remoteAddrType c.localAddr c.remoteAddr)
  modify (fun c => { c with state := .waitConfirm })
  send ([0x03] ++ c1)

/-- `MarshalPublicKeyX` of the two keys, with the panics on missing keys: context.go:69-70, 88-89, 119-120. -/
def bothX (c : Ctx P) : Go Unit (Bytes × Bytes) :=
  match c.remotePub, c.keys with
  | some b, some a => .ok (marshalX P b, marshalX P a.pub)
  | _, _ => .panic

/-- `checkConfirm`: context.go:62-84. -/
def checkConfirm (c : Ctx P) : Go Unit Unit := do
  let (kbx, kax) ← bothX c
  let conf ← smpF4 P kbx kax c.remoteRandom 0
  if conf = c.remoteConfirm then .ok () else .err ()

/-- `checkPasskeyConfirm`: context.go:86-115. -/
def checkPasskeyConfirm (c : Ctx P) : Go Unit Unit := do
  let (kbx, kax) ← bothX c
  let conf ← smpF4 P kbx kax c.remoteRandom (passkeyBit c.auth.passkey c.iter)
  if c.remoteConfirm = conf then .ok () else .err ()

/-- `generatePassKeyConfirm`: context.go:118-138. Its error is logged and the confirm value is then nil. -/
def generatePassKeyConfirm (c : Ctx P) (rnd : Bytes) : Go Unit Bytes := do
  let (kbx, kax) ← bothX c
  match smpF4 P kax kbx rnd (passkeyBit c.auth.passkey c.iter) with
  | .ok conf => .ok conf
  | _ => .ok []

/-- `continuePassKeyPairing`: handler.go:310-315. The result of `send` is not looked at. -/
def continuePassKeyPairing : M P Unit := do
  let e ← env
  let c ← get
  let conf ← lift (generatePassKeyConfirm c e.rnd)
  modify (fun c => { c with localRandom := some e.rnd })
  if e.sendOk then emit (.send (frame ([0x03] ++ conf))) else pure ()

/-- `startPassKeyPairing`: handler.go:303-308. -/
def startPassKeyPairing : M P Unit := do
  modify (fun c => { c with iter := 0 })
  continuePassKeyPairing

/-- `handlePassKeyRandom`: handler.go:287-301; `passkeyIterationCount` is 20 (const.go:19). -/
def handlePassKeyRandom : M P Bool := do
  let c ← get
  lift (checkPasskeyConfirm c)
  modify (fun c => { c with iter := c.iter + 1 })
  if (← get).iter < 20 then do
    continuePassKeyPairing
    pure true
  else pure false

/-- `generateDHKey`: context.go:205-222. -/
def generateDHKey : M P Unit := do
  let c ← get
  match c.keys, c.remotePub with
  | some k, some b => modify (fun c => { c with dhKey := generateSecret P k.priv b })
  | _, _ => fail

/-- `calcMacLtk`: context.go:140-163. -/
def calcMacLtk : M P Unit := do
  generateDHKey
  let c ← get
  let (mk, ltk) ← lift (smpF5 P c.dhKey (c.localRandom.getD []) c.remoteRandom (typed c.localAddr c.localAddrType) (typed c.remoteAddr c.remoteAddrType))
  modify (fun c => { c with bond := some ⟨ltk, 0, 0, false⟩, macKey := mk })

/-- `checkDHKeyCheck`: context.go:165-203. -/
def checkDHKeyCheck (c : Ctx P) : Go Unit Unit := do
  let chk ← smpF6 P c.macKey c.remoteRandom (c.localRandom.getD []) (checkR c) (ioCapBytes c.response)
    (typed c.remoteAddr c.remoteAddrType) (typed c.localAddr c.localAddrType)
  if c.remoteCheck = chk then .ok () else .err ()

/-- `checkLegacyConfirm`: context.go:224-253. -/
def checkLegacyConfirm (c : Ctx P) : Go Unit Unit := do
  let c1 ← smpC1 P (legacyTK c) c.remoteRandom (buildReq c.request) (buildRsp c.response) c.localAddrType c.remoteAddrType c.localAddr c.remoteAddr
  if c.remoteConfirm = c1 then .ok () else .err ()

/-- `isLegacy`: util.go:49-55. -/
def isLegacy (authReq : UInt8) : Bool := if authReq &&& 0x08 == 0x08 then false else true

/-- `ioCapsTableSC`: handler.go:319-325. -/
def tableSC : List (List Method) :=
  [[.justWorks, .justWorks, .passkey, .justWorks, .passkey],
   [.justWorks, .numericComp, .passkey, .justWorks, .numericComp],
   [.passkey, .passkey, .passkey, .justWorks, .passkey],
   [.justWorks, .justWorks, .justWorks, .justWorks, .justWorks],
   [.passkey, .numericComp, .passkey, .justWorks, .numericComp]]

/-- `ioCapsTableLegacy`: handler.go:327-333. -/
def tableLegacy : List (List Method) :=
  [[.justWorks, .justWorks, .passkey, .justWorks, .passkey],
   [.justWorks, .justWorks, .passkey, .justWorks, .passkey],
   [.passkey, .passkey, .passkey, .justWorks, .passkey],
   [.justWorks, .justWorks, .justWorks, .justWorks, .justWorks],
   [.passkey, .passkey, .passkey, .justWorks, .passkey]]

/-- `determinePairingType`: handler.go:335-367. The indices were checked to be in range. -/
def determineMethod (req rsp : Config) (legacy : Bool) : Method :=
  if req.oobFlag == 1 && rsp.oobFlag == 1 && legacy then .oob
  else if req.oobFlag == 1 || rsp.oobFlag == 1 then .oob
  else if req.authReq &&& 0x04 == 0 && rsp.authReq &&& 0x04 == 0 then .justWorks
  else if rsp.ioCap ≥ 5 || req.ioCap ≥ 5 then .justWorks
  else (((if legacy then tableLegacy else tableSC).getD rsp.ioCap.toNat []).getD req.ioCap.toNat .justWorks)

/-- `smpOnPairingResponse`: handler.go:28-65. -/
def onPairingResponse (b : Bytes) : M P Unit :=
  match b with
  | b0 :: b1 :: b2 :: b3 :: b4 :: b5 :: _ => do
    let rx : Config := ⟨b0, b1, b2, b3, b4, b5⟩
    modify (fun c => { c with response := rx, iter := 0, legacy := isLegacy rx.authReq, method := determineMethod c.request rx (isLegacy rx.authReq) })
    let c ← get
    if c.method = .oob && c.auth.oobData.length = 0 then do
      modify (fun c => { c with state := .error })
      fail
    else if c.legacy then sendMConfirm
    else sendPublicKey
  | _ => fail

/-- `smpOnPairingConfirm`: handler.go:67-84. -/
def onPairingConfirm (b : Bytes) : M P Unit :=
  if b.length ≠ 16 then fail
  else do
    modify (fun c => { c with remoteConfirm := b })
    sendPairingRandom

/-- `onSecureRandom`: handler.go:105-140. -/
def onSecureRandom : M P Unit := do
  let c ← get
  let more ← if c.method = .passkey then handlePassKeyRandom else do { lift (checkConfirm c); pure false }
  if more then pure ()
  else do
    calcMacLtk
    sendDHKeyCheck

/-- `onLegacyRandom`: handler.go:142-171. -/
def onLegacyRandom : M P Unit := do
  let c ← get
  lift (checkLegacyConfirm c)
  let stk ← lift (smpS1 P (if c.method = .passkey then getLegacyTK c.auth.passkey else getLegacyTK 0) c.remoteRandom (c.localRandom.getD []))
  modify (fun c => { c with stk := stk })
  modify (fun c => if c.request.authReq &&& 0x03 == 0 then { c with state := .finished } else c)
  encrypt

/-- `smpOnPairingRandom`: handler.go:86-103. -/
def onPairingRandom (b : Bytes) : M P Unit :=
  if b.length ≠ 16 then fail
  else do
    modify (fun c => { c with remoteRandom := b })
    if (← get).legacy then onLegacyRandom else onSecureRandom

/-- `smpOnPairingPublicKey`: handler.go:173-201. -/
def onPublicKey (b : Bytes) : M P Unit :=
  if b.length ≠ 64 then fail
  else do
    match (← get).keys with
    | none => panic
    | some k =>
      if marshalXY P k.pub = b then fail
      else match unmarshalPub P b with
        | none => fail
        | some pk => do
          modify (fun c => { c with remotePub := some pk })
          if (← get).method = .passkey then startPassKeyPairing else pure ()

/-- `smpOnDHKeyCheck`: handler.go:203-226. -/
def onDHKeyCheck (b : Bytes) : M P Unit := do
  modify (fun c => { c with remoteCheck := b })
  let c ← get
  lift (checkDHKeyCheck c)
  saveBondInfo
  modify (fun c => { c with state := .finished })
  encrypt

/-- `smpOnSecurityRequest`: handler.go:238-262. -/
def onSecurityRequest (b : Bytes) : M P Unit :=
  match b with
  | [] => fail
  | r :: _ => do
    let e ← env
    match (if bonding r then e.found else none) with
    | some bi => do
      modify (fun c => { c with bond := some bi })
      encrypt
    | none => do
      modify (fun c => { c with request := { c.request with authReq := r } })
      sendPairingRequest

/-- `smpOnEncryptionInformation`: handler.go:264-269. -/
def onEncryptionInformation (b : Bytes) : M P Unit := modify (fun c => { c with bond := some ⟨b, 0, 0, true⟩ })

/-- `binary.LittleEndian.Uint64` of the first eight bytes. -/
def le64 (b : Bytes) : Nat := (b.take 8).foldr (fun x acc => x.toNat + 256 * acc) 0

/-- `smpOnMasterIdentification`: handler.go:271-285. -/
def onMasterIdentification (b : Bytes) : M P Unit :=
  if b.length < 10 then panic
  else do
    match (← get).bond with
    | none => panic
    | some bi => do
      modify (fun c => { c with bond := some ⟨bi.ltk, le16 (b.getD 0 0) (b.getD 1 0), le64 (b.drop 2), true⟩ })
      saveBondInfo
      modify (fun c => { c with state := .finished })

/-- `dispatcher`: dispatch.go:3-18, and the unknown codes of `Handle`, manager.go:82-87 (`none`). `smpOnPairingFailed` (handler.go:228-236) always returns an error. -/
def handlerOf (code : UInt8) : Option (Bytes → M P Unit) :=
  if code = 0x02 then some onPairingResponse
  else if code = 0x03 then some onPairingConfirm
  else if code = 0x04 then some onPairingRandom
  else if code = 0x05 then some (fun _ => fail)
  else if code = 0x06 then some onEncryptionInformation
  else if code = 0x07 then some onMasterIdentification
  else if code = 0x0b then some onSecurityRequest
  else if code = 0x0c then some onPublicKey
  else if code = 0x0d then some onDHKeyCheck
  else none

/-- What has become of the goroutine that receives for the connection. -/
inductive Life
  | running
  /-- Waits for ever at `m.result <- err`: no one receives. -/
  | blocked
  | crashed
deriving DecidableEq, Repr

variable (P)

/-- `manager`: manager.go:25-34. `closed`: the channel `result` was closed. `waiting`: a `Pair` call is in `waitResult`. -/
structure Mgr where
  ctx : Ctx P
  closed : Bool := false
  waiting : Bool := false
  life : Life := .running

variable {P}

/-- `Handle`: manager.go:76-105. A send on a closed channel panics; a send on an open one with no receiver waits. `Pair` cannot be called successfully any more at that point, since the
state is not `Init` (see `blocked_for_ever`), so it waits for ever. -/
def handle (e : Env P) (pdu : Bytes) (m : Mgr P) : Mgr P × List Eff :=
  if m.life ≠ .running then (m, [])
  else match pdu.drop 4 with
    | [] => ({ m with life := .crashed }, [])
    | code :: data =>
      match handlerOf code with
      | none => (m, (send [0x05, 0x05] e m.ctx).2.1)
      | some h =>
        let r := h data e m.ctx
        match r.2.2 with
        | .panic => ({ m with ctx := r.1, life := .crashed }, r.2.1)
        | .err _ =>
          let c := { r.1 with state := .error }
          if m.closed then ({ m with ctx := c, life := .crashed }, r.2.1)
          else if m.waiting then ({ m with ctx := c, waiting := false }, r.2.1 ++ [.pairResult false])
          else ({ m with ctx := c, life := .blocked }, r.2.1)
        | .ok _ =>
          if r.1.state = .finished then
            if m.closed then ({ m with ctx := r.1 }, r.2.1)
            else if m.waiting then ({ m with ctx := r.1, closed := true, waiting := false }, r.2.1 ++ [.pairResult true])
            else ({ m with ctx := r.1, closed := true }, r.2.1)
          else ({ m with ctx := r.1 }, r.2.1)

/-- `Pair`: manager.go:107-131, transport.go:45-54, until the wait. -/
def pair (e : Env P) (a : AuthData) (m : Mgr P) : Mgr P × List Eff :=
  if m.ctx.state ≠ .init then (m, [.pairResult false])
  else
    let c := { m.ctx with auth := a }
    let c := if a.oobData.length > 0 then { c with request := { c.request with oobFlag := 1 } } else c
    let c := { c with state := .waitPairingResponse }
    let r := sendPairingRequest e c
    match r.2.2 with
    | .ok _ => if m.closed then ({ m with ctx := r.1 }, r.2.1 ++ [.pairResult true]) else ({ m with ctx := r.1, waiting := true }, r.2.1)
    | _ => ({ m with ctx := { r.1 with state := .error } }, r.2.1 ++ [.pairResult false])

/-- The timeout of `waitResult`: manager.go:133-140. -/
def pairTimeout (m : Mgr P) : Mgr P × List Eff :=
  if m.waiting then ({ m with waiting := false }, [.pairResult false]) else (m, [])

variable (P)

/-- What can happen to the security manager of a connection. -/
inductive Event
  /-- The peer's L2CAP frame on the security channel. -/
  | msg (e : Env P) (pdu : Bytes)
  | pair (e : Env P) (a : AuthData)
  | timeout

variable {P}

def step (m : Mgr P) : Event P → Mgr P × List Eff
  | .msg e pdu => handle e pdu m
  | .pair e a => pair e a m
  | .timeout => pairTimeout m

/-- A history, and everything it did. -/
def run (m : Mgr P) : List (Event P) → Mgr P × List Eff
  | [] => (m, [])
  | x :: xs => ((run (step m x).1 xs).1, (step m x).2 ++ (run (step m x).1 xs).2)

/-- A new connection: `NewSmpManager` and `InitContext`, manager.go:38-44, 62-74. The two addresses are given as they are written, most significant byte first. -/
def newMgr (cfg : Config) (localAddr remoteAddr : Bytes) (lt rt : UInt8) : Mgr P :=
  { ctx := { request := cfg, remoteAddr := swapBuf remoteAddr, remoteAddrType := rt, localAddr := swapBuf localAddr, localAddrType := lt } }

/-- The local address type that `initPairingContext` uses, conn.go:257-261: from the two top bits of the address, public or not. -/
def localType (la : Bytes) : UInt8 := if la.getD 0 0 &&& 0xc0 == 0xc0 then 0x01 else 0x00

end Ble.Smp
