import Verif.Basic
set_option autoImplicit false

/-!
# Model of the generated accessors of HCI events

linux/hci/evt/evt_gen.go: every event type is a byte slice with a getter per parameter. There are four kinds of bodies; the table of types and offsets is in `EvtTable.lean`.
The events with arrays (LE Advertising Report, Number Of Completed Packets) and Command Complete have hand-written accessors: `Evt.lean`.
-/

namespace Ble.EvtGen

/-- Kinds of getters, by their bodies. -/
inductive Ty where
  /-- `r[k]` -/
  | u8
  /-- `binary.LittleEndian.Uint16(r[k:])` -/
  | u16
  /-- `binary.LittleEndian.Uint64(r[k:])` -/
  | u64
  /-- a `[6]byte` filled by `copy(b[:], r[k:])` -/
  | addr
deriving DecidableEq, Repr

/-- The Go type of the value: `uint8`, `uint16`, `uint64`, `[6]byte`. -/
abbrev Ty.Val : Ty → Type
  | .u8 => UInt8
  | .u16 => UInt16
  | .u64 => UInt64
  | .addr => { b : Bytes // b.length = 6 }

structure Field where
  name : String
  ty : Ty
  off : Nat
deriving DecidableEq, Repr

structure Evt where
  name : String
  code : UInt8
  /-- the subevent code of LE events -/
  sub : Option UInt8
  /-- what `Valid` requires -/
  valid : Option Nat
  fields : List Field
deriving DecidableEq, Repr

/-- `binary.LittleEndian.Uint64`: shifts and ors of the eight octets. -/
def le64 : Bytes → Option UInt64
  | b0 :: b1 :: b2 :: b3 :: b4 :: b5 :: b6 :: b7 :: _ =>
    some (b0.toUInt64 ||| b1.toUInt64 <<< 8 ||| b2.toUInt64 <<< 16 ||| b3.toUInt64 <<< 24 ||| b4.toUInt64 <<< 32 ||| b5.toUInt64 <<< 40 ||| b6.toUInt64 <<< 48 ||| b7.toUInt64 <<< 56)
  | _ => none

/-- The bodies of the getters. -/
def getTy : (t : Ty) → Nat → Bytes → Go Empty t.Val
  | .u8, k, b => index b k
  | .u16, k, b => do
    let s ← sliceFrom b k
    let hi ← index s 1
    let lo ← index s 0
    pure (lo.toUInt16 ||| hi.toUInt16 <<< 8)
  | .u64, k, b => (sliceFrom b k).bind fun s => match le64 s with | some v => .ok v | none => .panic
  | .addr, k, b => (sliceFrom b k).bind fun s => .ok ⟨s.take 6 ++ List.replicate (6 - s.length) 0, by simp; omega⟩

/-- The getter of a parameter. -/
def Field.get (f : Field) (b : Bytes) : Go Empty f.ty.Val := getTy f.ty f.off b

/-- `Valid`: evt_gen.go:59. -/
def Evt.isValid (e : Evt) (b : Bytes) : Bool := match e.valid with | some n => n ≤ b.length | none => true

end Ble.EvtGen
