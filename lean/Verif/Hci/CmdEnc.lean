import Verif.Basic
set_option autoImplicit false

/-!
# Model of the serialisation of HCI commands

linux/hci/cmd/cmd.go, linux/hci/hci.go `send` (353-442: the part that builds the packet) and `Send` (312-325), linux/hci/vendor.go. The table of commands is in `CmdTable.lean`.
Flow control, opcode locks and replies over time are in `Cmd.lean`.
-/

namespace Ble.HciCmd

/-- The Go types of the fields in cmd_gen.go. -/
inductive Ty where
  | u8 | i8 | u16 | u64
  /-- `[n]byte` -/
  | bytes (n : Nat)
deriving DecidableEq, Repr

/-- A value of such a field. -/
inductive Val where
  | u8 (x : UInt8)
  | i8 (x : Int8)
  | u16 (x : UInt16)
  | u64 (x : UInt64)
  | bytes (b : Bytes)
deriving DecidableEq

/-- The type of a value. -/
def Val.ty : Val → Ty
  | .u8 _ => .u8
  | .i8 _ => .i8
  | .u16 _ => .u16
  | .u64 _ => .u64
  | .bytes b => .bytes b.length

/-- A command type of cmd_gen.go. `Len()` of every type that has `Marshal` is non-negative. -/
structure Command where
  name : String
  opCode : Nat
  len : Nat
  fields : List (String × Ty)
deriving DecidableEq, Repr

/-- A reply type of cmd_gen.go. -/
structure Reply where
  name : String
  fields : List (String × Ty)
deriving DecidableEq, Repr

/-- Bytes of a value of the type: encoding/binary `dataSize`. -/
def Ty.size : Ty → Nat
  | .u8 => 1
  | .i8 => 1
  | .u16 => 2
  | .u64 => 8
  | .bytes n => n

/-- `binary.LittleEndian` encoder for one value (`PutUint16`, `PutUint64`, …). -/
def Val.encode : Val → Bytes
  | .u8 x => [x]
  | .i8 x => [x.toUInt8]
  | .u16 x => [x.toUInt8, (x >>> 8).toUInt8]
  | .u64 x => [x.toUInt8, (x >>> 8).toUInt8, (x >>> 16).toUInt8, (x >>> 24).toUInt8, (x >>> 32).toUInt8, (x >>> 40).toUInt8, (x >>> 48).toUInt8, (x >>> 56).toUInt8]
  | .bytes b => b

/-- `binary.LittleEndian` decoder for one value from exactly `Ty.size` bytes (`Uint16`, `Uint64`, …). -/
def Ty.decode : Ty → Bytes → Val
  | .u8, b => .u8 (b.getD 0 0)
  | .i8, b => .i8 (b.getD 0 0).toInt8
  | .u16, b => .u16 ((b.getD 0 0).toUInt16 ||| (b.getD 1 0).toUInt16 <<< 8)
  | .u64, b => .u64 ((b.getD 0 0).toUInt64 ||| (b.getD 1 0).toUInt64 <<< 8 ||| (b.getD 2 0).toUInt64 <<< 16 ||| (b.getD 3 0).toUInt64 <<< 24 |||
      (b.getD 4 0).toUInt64 <<< 32 ||| (b.getD 5 0).toUInt64 <<< 40 ||| (b.getD 6 0).toUInt64 <<< 48 ||| (b.getD 7 0).toUInt64 <<< 56)
  | .bytes _, b => .bytes b

/-- Errors of the calls below. -/
inductive Err where
  /-- `io.ErrShortBuffer` -/
  | shortBuffer
  /-- `binary.Write`: the value has no fixed size -/
  | notFixedSize
  /-- `io.EOF` or `io.ErrUnexpectedEOF` -/
  | eof
  /-- `ErrCommand(status)` -/
  | command (status : UInt8)
  /-- vendor.go:44 -/
  | invalidLength
deriving DecidableEq, Repr

/-- `binary.Write` of a struct: the fields one after the other, handed to the writer in one `Write`. -/
def encodeAll (vs : List Val) : Bytes := vs.flatMap Val.encode

/-- What is in the slice `m` after `bytes.NewBuffer(m)`, `Reset` and one `Write(data)`: in place when it fits in the capacity of `m` (which is its length, as `m` comes
from `make`), otherwise the buffer moves to new memory and `m` is not touched. -/
def bufferWrite (m data : Bytes) : Bytes := if data.length ≤ m.length then data ++ m.drop data.length else m

/-- `marshal`: cmd.go:19-26, and `CustomCommand.Marshal`: vendor.go:24-33. `data` is what `binary.Write` produces, `none` if the value has no fixed size. Returns the new contents of `m`. -/
def marshal (len : Nat) (data : Option Bytes) (m : Bytes) : Go Err Bytes :=
  if m.length < len then .err .shortBuffer
  else match data with
    | none => .err .notFixedSize
    | some d => .ok (bufferWrite m d)

/-- Go `b[i] = x`. -/
def setAt (b : Bytes) (i : Nat) (x : UInt8) : Go Err Bytes := if i < b.length then .ok (b.set i x) else .panic

/-- The packet that `send` writes to the socket: hci.go:382-409. `buf` is the buffer taken from `chCmdBufs`. When marshalling fails, `h.muSent.Unlock()` (hci.go:385) of a mutex that
is not locked ends the program. -/
def packet (opCode len : Nat) (data : Option Bytes) (buf : Bytes) : Go Err Bytes :=
  match marshal len data (List.replicate len 0) with
  | .ok m => do
    let b ← setAt buf 0 1
    let b ← setAt b 1 (UInt8.ofNat opCode)
    let b ← setAt b 2 (UInt8.ofNat (opCode >>> 8))
    let b ← setAt b 3 (UInt8.ofNat len)
    let t ← sliceFrom b 4
    let b := b.take 4 ++ m.take t.length ++ t.drop m.length
    slice b 0 (4 + len)
  | _ => .panic

/-- The packet of a command of the package `cmd`. -/
def Command.packet (c : Command) (vs : List Val) (buf : Bytes) : Go Err Bytes :=
  HciCmd.packet c.opCode c.len (some (encodeAll vs)) buf

/-- `unmarshal`: cmd.go:28-31: `binary.Read` reads as many bytes as the struct has and decodes the fields in order; more bytes are ignored. -/
def decodeAll : List Ty → Bytes → List Val
  | [], _ => []
  | t :: ts, b => t.decode (b.take t.size) :: decodeAll ts (b.drop t.size)

def Reply.tys (r : Reply) : List Ty := r.fields.map (·.2)
def Command.tys (c : Command) : List Ty := c.fields.map (·.2)

/-- `Unmarshal` of a reply type: cmd.go:28-31. -/
def Reply.unmarshal (r : Reply) (b : Bytes) : Go Err (List Val) :=
  if b.length < (r.tys.map Ty.size).sum then .err .eof else .ok (decodeAll r.tys b)

/-- `Send` after `send` has returned the reply `b`: hci.go:318-324. `none` for a nil `r`. -/
def afterReply (b : Bytes) (r : Option Reply) : Go Err (Option (List Val)) :=
  if b.length > 0 ∧ b.getD 0 0 ≠ 0 then .err (.command (b.getD 0 0))
  else match r with
    | some r => r.unmarshal b >>= fun vs => .ok (some vs)
    | none => .ok none

/-- `SendVendorSpecificCommand` up to the write to the socket: vendor.go:42-59. `payload` is what `binary.Write` makes of the argument `v`, `none` if `v` has no fixed size. -/
def vendorPacket (op : UInt16) (length : UInt8) (payload : Option Bytes) (buf : Bytes) : Go Err Bytes :=
  if length > 252 then .err .invalidLength
  else packet ((0x3f : UInt16) <<< (10 : UInt16) ||| op).toNat length.toNat payload buf

end Ble.HciCmd
