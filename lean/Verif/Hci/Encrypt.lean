import Verif.Store.Bond
import Verif.Hci.CmdTable
import Verif.Smp.Machine
set_option autoImplicit false

/-!
# Encrypting a connection: `StartEncryption`, the Encryption Change event, and the bond store

linux/hci/conn.go:157-182, 270-325, 458-481, linux/hci/smp/manager.go:142-171. A connection is a value of `Conn`; the connections of the program share one bond file. The key refresh event is registered in the table
of LE subevents under a code that no LE subevent has (hci.go:161) and so never reaches a connection; it is left out. The bond manager's own locking is the subject of Store/BondConc.lean.
-/

namespace Ble.Encrypt

open Ble.Store

/-- `ble.EncryptionChangedInfo`: the error is nil exactly for status 0. -/
structure Info where
  status : UInt8
  enabled : Bool
deriving DecidableEq, Repr

/-- The parts of `Conn` (linux/hci/conn.go:20-83) that matter here. -/
structure Conn where
  /-- the security manager exists: conn.go:115-120 -/
  smp : Bool
  handle : UInt16
  /-- `pairing.remoteAddr`, least significant byte first: smp/manager.go:70 -/
  addr : Bytes
  /-- `pairing.legacy` and `pairing.shortTermKey` -/
  legacy : Bool
  stk : Bytes
  /-- `encryptionEnabled` -/
  enabled : Bool
  /-- `encInfo` -/
  info : Info
  /-- `encChanged`, a channel of the application; `none` is nil -/
  chan : Option Nat
deriving DecidableEq, Repr

/-- A new connection: linux/hci/conn.go:89-141. -/
def newConn (smp : Bool) (handle : UInt16) (addr : Bytes) : Conn := ⟨smp, handle, addr, false, [], false, ⟨0, false⟩, none⟩

/-- Errors of `StartEncryption`: `ble.ErrEncryptionAlreadyEnabled` or another. -/
inductive Err | already | other
deriving DecidableEq, Repr

inductive Eff
  /-- an LE Start Encryption command with these fields was sent to the controller -/
  | cmd (fields : List HciCmd.Val)
  /-- the application's channel received this -/
  | told (ch : Nat) (i : Info)
  /-- a goroutine offers this to the application's channel for one second -/
  | offer (ch : Nat) (i : Info)
deriving DecidableEq

/-- `cmd.LEStartEncryption`: cmd/cmd_gen.go:1288-1308. -/
def leStartEncryption : HciCmd.Command :=
  { name := "LEStartEncryption", opCode := 0x08 <<< 10 ||| 0x0019, len := 28, fields := [("ConnectionHandle", .u16), ("RandomNumber", .u64), ("EncryptedDiversifier", .u16), ("LongTermKey", .bytes 16)] }

/-- The fields of the command. -/
def fields (handle : UInt16) (key : Bytes) (ediv : UInt16) (rand : UInt64) : List HciCmd.Val := [.u16 handle, .u64 rand, .u16 ediv, .bytes key]

/-- `Conn.encrypt` and `stkEncrypt` up to the sending, for a bond that is not nil: conn.go:270-325, with `LegacyPairingInfo` (smp/manager.go:165-171). -/
def encryptFields (c : Conn) (b : Bond) : Go Err (List HciCmd.Val) :=
  if c.legacy && c.stk.length > 0 then
    match Smp.key16 c.stk with
    | .ok k => .ok (fields c.handle k 0 0)
    | _ => .panic
  else if b.legacy && (b.ltk.length ≠ 16 || b.ediv = 0 || b.rand = 0) then .err .other
  else
    match Smp.key16 b.ltk with
    | .ok k => .ok (fields c.handle k b.ediv b.rand)
    | _ => .panic

/-- `Conn.StartEncryption`: conn.go:157-182, manager.go:142-148. `accepted` says that the controller takes the command (`hci.Send` returns nil). The file system does not fail. -/
def start (J : Json BondData) (f : File) (c : Conn) (ch : Option Nat) (accepted : Bool) : File × Conn × List Eff × Go Err Unit :=
  if c.enabled then
    match ch with
    | some x => (f, c, [.offer x c.info], .ok ())
    | none => (f, c, [], .err .already)
  else if !c.smp then (f, { c with chan := ch }, [], .panic)
  else
    match findBond J Env.fine f (hexEncode c.addr) with
    | (f', .err _) => (f', { c with chan := none }, [], .err .other)
    | (f', .panic) => (f', { c with chan := ch }, [], .panic)
    | (f', .ok b) =>
      match encryptFields c b with
      | .err e => (f', { c with chan := none }, [], .err e)
      | .panic => (f', { c with chan := ch }, [], .panic)
      | .ok vs => if accepted then (f', { c with chan := ch }, [.cmd vs], .ok ()) else (f', { c with chan := none }, [.cmd vs], .err .other)

/-- `handleEncryptionChanged`: conn.go:458-481, `DeleteBondInfo` (manager.go:161-163). `ready`: the application's channel has room or a waiting receiver. `none`: it panics, on a nil security manager. -/
def changed (J : Json BondData) (f : File) (c : Conn) (status en : UInt8) (ready : Bool) : Option (File × Conn × List Eff) :=
  if status ≠ 0 && !c.smp then none
  else
    let f' := if status ≠ 0 then (deleteBond J Env.fine f (hexEncode c.addr)).1 else f
    let i : Info := ⟨status, en = 1⟩
    some (f', { c with enabled := en = 1, info := i }, match c.chan with
      | some x => if ready then [.told x i] else []
      | none => [])

/-! ## A program with several connections -/

/-- The bond file and the connections, by number; a new connection to the same peer is another number. -/
structure World where
  file : File
  conns : Nat → Conn

/-- What happens. -/
inductive Ev
  /-- a call of the bond store, by a pairing or by the application -/
  | store (o : Op)
  /-- the application calls `StartEncryption` -/
  | start (i : Nat) (ch : Option Nat) (accepted : Bool)
  /-- an Encryption Change event arrives -/
  | changed (i : Nat) (status en : UInt8) (ready : Bool)
  /-- a pairing on the connection sets these: smp/context.go and handler.go -/
  | paired (i : Nat) (legacy : Bool) (stk : Bytes)

def setConn (w : World) (f : File) (i : Nat) (c : Conn) : World := ⟨f, fun j => if j = i then c else w.conns j⟩

/-- One event; `none` if the program crashes. -/
def step (J : Json BondData) (w : World) : Ev → Option (World × List Eff)
  | .store o =>
    match (call J Env.fine w.file o).2 with
    | .bond .panic => none
    | _ => some (⟨(call J Env.fine w.file o).1, w.conns⟩, [])
  | .start i ch accepted =>
    match start J w.file (w.conns i) ch accepted with
    | (_, _, _, .panic) => none
    | (f, c, out, _) => some (setConn w f i c, out)
  | .changed i status en ready =>
    match changed J w.file (w.conns i) status en ready with
    | none => none
    | some (f, c, out) => some (setConn w f i c, out)
  | .paired i legacy stk => some (setConn w w.file i { w.conns i with legacy := legacy, stk := stk }, [])

def run (J : Json BondData) (w : World) : List Ev → Option (World × List Eff)
  | [] => some (w, [])
  | e :: es =>
    match step J w e with
    | none => none
    | some (w', out) =>
      match run J w' es with
      | none => none
      | some (w'', out') => some (w'', out ++ out')

/-- The start: no bond file, and connections with these handles and peer addresses. -/
def init (handle : Nat → UInt16) (peer : Nat → Bytes) : World := ⟨none, fun i => newConn true (handle i) (peer i)⟩

end Ble.Encrypt
