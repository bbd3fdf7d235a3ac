import Verif.Hci.Params
import Verif.Hci.Init
set_option autoImplicit false

/-!
# Model of the options of a device and of its creation

option.go (the interface `DeviceOption` and the options), linux/hci/option.go (the setters), linux/hci/transport.go:31-51, linux/hci/hci.go:38-69 (`NewHCI`), 145-193 (`Init`, in outline), 226-239 (`Close`), 246-252 (`Option`),
linux/device.go:19-53, linux/hci/conn.go:115-120, 153-155, linux/hci/smp/factory.go.

Simplifications: a duration is an `Int` (nanoseconds), a string a list of bytes, a bond manager, an error handler and a file name are opaque numbers or bytes. Opening a transport, and the commands of `Init`, are given by
the environment. `gatt.NewServerWithNameAndHandler` does not fail (Registry.lean).
-/

namespace Ble.Options

/-- `cmd.LESetAdvertisingParameters`: cmd_gen.go:711-720, and `ble.AdvertisingParameters` (adv.go:69-78): the same eight fields. -/
structure AdvParams where
  intervalMin : UInt16
  intervalMax : UInt16
  advType : UInt8
  ownAddrType : UInt8
  directAddrType : UInt8
  directAddr : Bytes
  channelMap : UInt8
  filterPolicy : UInt8
deriving DecidableEq

/-- `transport`: transport.go:25-29. -/
structure Transport where
  hci : Option Int := none
  h4uart : Option (Bytes × Int) := none
  h4socket : Option (Bytes × Int) := none
deriving DecidableEq, Repr

/-- params.go:57-66. -/
def defaultAdv : AdvParams := ⟨0x20, 0x20, 0, 0, 0, [0, 0, 0, 0, 0, 0], 0x7, 0⟩

/-- What options set in an `HCI`, and the bond manager in its SMP factory (which device.go:29 makes without one). -/
structure Settings where
  dialerTmo : Int := 0
  listenerTmo : Int := 0
  conn : Params.Conn := Params.defaultConn
  scan : Params.Scan := Params.defaultScan
  adv : AdvParams := defaultAdv
  advSync : Bool := false
  errHandler : Option Nat := none
  transport : Transport := {}
  /-- `h.cache`: the file's name -/
  cache : Option Bytes := none
  /-- `h.smpEnabled` -/
  smp : Bool := false
  /-- the bond manager of the factory -/
  bonds : Option Nat := none

/-- A call of a method of `DeviceOption`: option.go:10-26. -/
inductive Call where
  | dialerTimeout (d : Int)
  | listenerTimeout (d : Int)
  | connParams (p : Params.Conn)
  | scanParams (p : Params.Scan)
  | advParams (p : AdvParams)
  | peripheralRole
  | centralRole
  | advHandlerSync (b : Bool)
  | errorHandler (h : Option Nat)
  /-- the argument is an `interface{}`: a bond manager, or something else -/
  | enableSecurity (bm : Option Nat)
  | hciSocket (id : Int)
  | h4Socket (addr : Bytes) (timeout : Int)
  | h4Uart (path : Bytes) (baud : Int)
  | gattCacheFile (f : Bytes)

/-- Errors of setters. -/
inductive Err where
  /-- "Not supported" -/
  | notSupported
  /-- "unknown bond manager type" -/
  | bondManager
  /-- an error of an option the application wrote -/
  | custom (n : Nat)
deriving DecidableEq, Repr

/-- The setters: hci/option.go:14-105. -/
def call (s : Settings) : Call → Settings × Option Err
  | .dialerTimeout d => ({ s with dialerTmo := d }, none)
  | .listenerTimeout d => ({ s with listenerTmo := d }, none)
  | .connParams p => ({ s with conn := p }, none)
  | .scanParams p => ({ s with scan := p }, none)
  | .advParams p => ({ s with adv := p }, none)
  | .peripheralRole => (s, some .notSupported)
  | .centralRole => (s, some .notSupported)
  | .advHandlerSync b => ({ s with advSync := b }, none)
  | .errorHandler h => ({ s with errHandler := h }, none)
  | .enableSecurity none => (s, some .bondManager)
  | .enableSecurity (some bm) => ({ s with smp := true, bonds := some bm }, none)
  | .hciSocket id => ({ s with transport := { hci := some id } }, none)
  | .h4Socket a t => ({ s with transport := { h4socket := some (a, t) } }, none)
  | .h4Uart p b => ({ s with transport := { h4uart := some (p, b) } }, none)
  | .gattCacheFile f => ({ s with cache := some f }, none)

/-- An option is a function of the device: it calls setters and returns an error or nil. One of the package (`builtin`): option.go:32-145. One the application wrote (`custom`): a list of calls, the error depending on what they
returned. -/
inductive Opt where
  | builtin (c : Call)
  | custom (cs : List Call) (ret : List (Option Err) → Option Err)

/-- A list of calls, with their results. -/
def calls (s : Settings) : List Call → Settings × List (Option Err)
  | [] => (s, [])
  | c :: cs =>
    let r := call s c
    let r2 := calls r.1 cs
    (r2.1, r.2 :: r2.2)

/-- Calling an option. Those of the package drop the setter's error and return nil: option.go:37-145. -/
def apply (s : Settings) : Opt → Settings × Option Err
  | .builtin c => ((call s c).1, none)
  | .custom cs ret => let r := calls s cs; (r.1, ret r.2)

/-- `Option`: hci.go:246-252. All options are called; the error is that of the last one. -/
def applyAll (s : Settings) (e : Option Err) : List Opt → Settings × Option Err
  | [] => (s, e)
  | o :: os => let r := apply s o; applyAll r.1 r.2 os

/-- Which transport is opened: transport.go:31-51. -/
inductive Open where
  | hci (id : Int)
  | h4socket (addr : Bytes) (timeout : Int)
  /-- `uint(baud)`: 64 bits -/
  | h4uart (path : Bytes) (baud : Nat)
deriving DecidableEq, Repr

/-- `DefaultSerialOptions().BaudRate`: h4.go:36-47. -/
def defaultBaud : Nat := 1000000

/-- transport.go:32-49. -/
def getTransport (t : Transport) : Option Open :=
  match t.hci with
  | some id => some (.hci id)
  | none =>
    match t.h4socket with
    | some (a, d) => some (.h4socket a d)
    | none =>
      match t.h4uart with
      | some (p, b) => some (.h4uart p (if b ≠ -1 then (b % 2 ^ 64).toNat else defaultBaud))
      | none => none

/-- The environment: which transports can be opened, and how the commands of `Init` are answered. -/
structure World where
  opens : Open → Bool
  ctl : HciInit.Ctl

/-- Why `NewDevice` failed. -/
inductive NewErr where
  | option (e : Err)
  | noTransport
  | openFailed
  | badParams
  | init
deriving DecidableEq, Repr

/-- What `NewDevice` leaves. -/
structure Outcome where
  /-- the device's settings, or the error -/
  res : Except NewErr Settings
  /-- the transport that was opened -/
  opened : Option Open
  /-- the loops run (hci.go:178-179): with `done` closed they end and close the socket -/
  loops : Bool
  /-- `Close` was called: device.go:33-36 -/
  closed : Bool

/-- `NewDevice`: device.go:19-53 with `NewHCI` and `Init`. -/
def newDevice (w : World) (opts : List Opt) : Outcome :=
  match applyAll {} none opts with
  | (_, some e) => ⟨.error (.option e), none, false, false⟩
  | (s, none) =>
    match getTransport s.transport with
    | none => ⟨.error .noTransport, none, false, true⟩
    | some o =>
      if w.opens o = false then ⟨.error .openFailed, none, false, true⟩
      else if Params.validateConn s.conn = false ∨ Params.validateScan s.scan = false then ⟨.error .badParams, some o, false, true⟩
      else
        match HciInit.start w.ctl with
        | none => ⟨.error .init, some o, true, true⟩
        | some _ => ⟨.ok s, some o, true, false⟩

/-- A transport that is open for good although no device uses it: it was opened, the device was given up, and no loop is there to close it (hci.go:226-239 closes a channel only; the socket is closed by `cleanup`, which the
loop calls, 195-197 and 446). -/
def Outcome.leaked (o : Outcome) : Bool := o.opened.isSome && o.closed && !o.loops

/-- A connection's `Pair` (conn.go:115-120, 153-155): without an SMP manager this calls a method of a nil interface. `none` is the crash; otherwise the bond manager the pairing has. -/
def pair (s : Settings) : Option (Option Nat) := if s.smp then some s.bonds else none

end Ble.Options
