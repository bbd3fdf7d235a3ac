import Verif.Uuid.Model
import Verif.Hci.CmdTable
import Verif.Hci.Params
set_option autoImplicit false

/-!
# Model of `Dial`: the address and the command

linux/hci/gap.go:200-227, conn.go:535-538 `RemoteAddr`, adv_werr.go:76-92, Go's `net.ParseMAC` and `net.HardwareAddr.String`. What happens after the command is in `DialConn.lean`.
-/

namespace Ble.Dial

/-- `xtoi2` of Go's package net: two hexadecimal digits, followed by the separator or by nothing. In `ParseMAC` it is only called with at least two characters. -/
def xtoi2 (s : Text) (sep : Char) : Option UInt8 :=
  match s with
  | a :: b :: rest =>
    if rest.head? ≠ none ∧ rest.head? ≠ some sep then none
    else match fromHexChar a, fromHexChar b with
      | some x, some y => some (UInt8.ofNat (x * 16 + y))
      | _, _ => none
  | _ => none

/-- Loop of `ParseMAC` for the form with one separator per byte. -/
def macBytes (sep : Char) : Nat → Text → Option Bytes
  | 0, _ => some []
  | n + 1, s =>
    match xtoi2 s sep, macBytes sep n (s.drop 3) with
    | some b, some bs => some (b :: bs)
    | _, _ => none

/-- Loop of `ParseMAC` for the form with a dot after each two bytes; the argument is the number of pairs. -/
def macPairs : Nat → Text → Option Bytes
  | 0, _ => some []
  | n + 1, s =>
    match xtoi2 (s.take 2) '\x00', xtoi2 (s.drop 2) '.', macPairs n (s.drop 5) with
    | some b, some c, some bs => some (b :: c :: bs)
    | _, _, _ => none

/-- `net.ParseMAC` of the Go standard library. -/
def parseMAC (s : Text) : Option Bytes :=
  if s.length < 14 then none
  else if s[2]? = some ':' ∨ s[2]? = some '-' then
    if (s.length + 1) % 3 ≠ 0 then none
    else
      let n := (s.length + 1) / 3
      if n ≠ 6 ∧ n ≠ 8 ∧ n ≠ 20 then none else macBytes (s[2]?.getD ':') n s
  else if s[4]? = some '.' then
    if (s.length + 1) % 5 ≠ 0 then none
    else
      let n := 2 * (s.length + 1) / 5
      if n ≠ 6 ∧ n ≠ 8 ∧ n ≠ 20 then none else macPairs (n / 2) s
  else none

/-- `net.HardwareAddr.String` of the Go standard library: two lower-case digits per byte, colons between. -/
def hwString : Bytes → Text
  | [] => []
  | [b] => [hexDigit (b.toNat / 16), hexDigit (b.toNat % 16)]
  | b :: c :: bs => hexDigit (b.toNat / 16) :: hexDigit (b.toNat % 16) :: ':' :: hwString (c :: bs)

/-- A `ble.Addr` made by this package: its text (from `NewAddr`), and whether it is a `hci.RandomAddress` (adv.go:15-18). -/
structure Addr where
  text : Text
  random : Bool
deriving DecidableEq, Repr

/-- `Dial` up to the command: gap.go:201-219. The result is the `PeerAddressType` and `PeerAddress` put into the parameters; the error is `ErrInvalidAddr`. -/
def dialAddr (a : Addr) : Go Unit (UInt8 × Bytes) :=
  match parseMAC a.text with
  | none => .err ()
  | some _ =>
    let ab := addrBytes a.text
    if ab.length ≠ 6 then .err ()
    else .ok (if a.random then 1 else 0, swapBuf ab)

/-- The fields of `h.params.connParams` in the order of cmd.LECreateConnection (cmd_gen.go:937-950). -/
def createConnection (p : Params.Conn) (t : UInt8) (addr : Bytes) : List HciCmd.Val :=
  [.u16 p.scanInterval, .u16 p.scanWindow, .u8 p.filterPolicy, .u8 t, .bytes addr, .u8 p.ownAddrType, .u16 p.intervalMin, .u16 p.intervalMax, .u16 p.latency, .u16 p.timeout, .u16 p.ceMin, .u16 p.ceMax]

/-- cmd.LECreateConnection, as in the table. -/
def leCreateConnection : HciCmd.Command :=
  { name := "LECreateConnection", opCode := 0x08 <<< 10 ||| 0x000d, len := 25,
    fields := [("LEScanInterval", .u16), ("LEScanWindow", .u16), ("InitiatorFilterPolicy", .u8), ("PeerAddressType", .u8), ("PeerAddress", .bytes 6), ("OwnAddressType", .u8), ("ConnIntervalMin", .u16),
      ("ConnIntervalMax", .u16), ("ConnLatency", .u16), ("SupervisionTimeout", .u16), ("MinimumCELength", .u16), ("MaximumCELength", .u16)] }

/-- The packet `Dial` writes: gap.go:222 and hci.go:353-409. `p` are the parameters set by the user (`SetConnParams`) or the defaults. -/
def dialPacket (p : Params.Conn) (a : Addr) (buf : Bytes) : Go Unit Bytes :=
  match dialAddr a with
  | .ok (t, addr) => match leCreateConnection.packet (createConnection p t addr) buf with
    | .ok b => .ok b
    | _ => .panic
  | .err e => .err e
  | .panic => .panic

/-- `[]byte{a[5], a[4], a[3], a[2], a[1], a[0]}`, of an array of six: conn.go:537, adv_werr.go:83, hci.go:271. -/
def six (a : Bytes) : Bytes := [a.getD 5 0, a.getD 4 0, a.getD 3 0, a.getD 2 0, a.getD 1 0, a.getD 0 0]

/-- `Conn.RemoteAddr`: conn.go:535-538, of the connection-complete event's `PeerAddress`. The result is never a `RandomAddress`. -/
def remoteAddr (peer : Bytes) : Addr := ⟨newAddr (hwString (six peer)), false⟩

/-- `Advertisement.Addr`: adv_werr.go:76-92, of the report's address and address type. -/
def advAddr (addr : Bytes) (t : UInt8) : Addr := ⟨newAddr (hwString (six addr)), t == 1⟩

end Ble.Dial
