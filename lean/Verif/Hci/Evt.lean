import Verif.Basic
set_option autoImplicit false

/-!
# Model of the event accessors

linux/hci/evt/evt_werr.go and evt.go. Indices are Go `int`s and may be negative or out of range; that no index computation overflows is immediate, since `i` is the only unbounded
operand and Go's `int` has 64 bits (overflow for `i` near 2^63 is not modelled).
-/

namespace Ble.Evt

/-- `getBytes`: evt_werr.go:154-170. `count` is `none` for the negative count of `ReturnParametersWErr`. A nil slice has length 0, for which `start ≥ 0` gives an error too. -/
def getBytes (b : Bytes) (start : Int) (count : Option Nat) : Go Unit Bytes :=
  if (b.length : Int) ≤ start then .err ()
  else match count with
    | none => if start < 0 then .panic else .ok (b.drop start.toNat)
    | some n =>
      if start + n > b.length then .err ()
      else if start < 0 then .panic
      else .ok ((b.drop start.toNat).take n)

/-- `getByte`: evt_werr.go:137-143; the default value is returned only together with the error. -/
def getByte (b : Bytes) (i : Int) : Go Unit UInt8 := do
  let bb ← getBytes b i (some 1)
  index bb 0

/-- `getUint16LE`: evt_werr.go:146-152. -/
def getUint16 (b : Bytes) (i : Int) : Go Unit Nat := do
  let bb ← getBytes b i (some 2)
  le16At bb 0

/-- The methods without `WErr` (evt.go) drop the error and keep the default. -/
def orDefault {α : Type} (d : α) : Go Unit α → Go Unit α
  | .err _ => .ok d
  | r => r

/-! ## LE Advertising Report: evt_werr.go:43-134 -/

/-- `NumReportsWErr`: evt_werr.go:43-45. -/
def numReports (e : Bytes) : Go Unit Nat := do
  let n ← getByte e 1
  pure n.toNat

/-- `EventTypeWErr`: evt_werr.go:47-49. -/
def eventType (e : Bytes) (i : Int) : Go Unit UInt8 := getByte e (2 + i)

/-- `AddressTypeWErr`: evt_werr.go:50-58. -/
def addressType (e : Bytes) (i : Int) : Go Unit UInt8 := do
  let nr ← numReports e
  getByte e (2 + nr + i)

/-- `AddressWErr`: evt_werr.go:59-74. -/
def address (e : Bytes) (i : Int) : Go Unit Bytes := do
  let nr ← numReports e
  getBytes e (2 + nr * 2 + 6 * i) (some 6)

/-- `LengthDataWErr`: evt_werr.go:76-84. -/
def lengthData (e : Bytes) (i : Int) : Go Unit Nat := do
  let nr ← numReports e
  let n ← getByte e (2 + nr * 8 + i)
  pure n.toNat

/-- The loop adding the lengths of reports `0 … k-1`: evt_werr.go:92-101, 121-129. -/
def sumLengths (e : Bytes) : Nat → Go Unit Nat
  | 0 => pure 0
  | k + 1 => do
    let l ← sumLengths e k
    let ll ← lengthData e k
    pure (l + ll)

/-- `DataWErr`: evt_werr.go:86-113. For a negative index the loop body is not run. -/
def data (e : Bytes) (i : Int) : Go Unit Bytes := do
  let nr ← numReports e
  let l ← sumLengths e i.toNat
  let ll ← lengthData e i
  getBytes e (2 + nr * 9 + l) (some ll)

/-- `RSSIWErr`: evt_werr.go:115-134, the byte before the conversion to `int8`. -/
def rssi (e : Bytes) (i : Int) : Go Unit UInt8 := do
  let nr ← numReports e
  let l ← sumLengths e nr
  getByte e (2 + nr * 9 + l + i)

/-- `int8(x)`. -/
def int8 (x : UInt8) : Int := if x.toNat < 128 then (x.toNat : Int) else (x.toNat : Int) - 256

/-! ## Command Complete and Number Of Completed Packets: evt_werr.go:8-41, evt.go:3-40 -/

/-- `CommandComplete.NumHCICommandPackets`. -/
def ccNum (e : Bytes) : Go Unit Nat := do
  let n ← orDefault 0 (getByte e 0)
  pure n.toNat

/-- `CommandComplete.CommandOpcode`. -/
def ccOpcode (e : Bytes) : Go Unit Nat := orDefault 0xffff (getUint16 e 1)

/-- `CommandComplete.ReturnParameters` (nil when absent). -/
def ccParams (e : Bytes) : Go Unit Bytes := orDefault [] (getBytes e 3 none)

/-- `NumberOfCompletedPackets.NumberOfHandles`. -/
def ncpCount (e : Bytes) : Go Unit Nat := do
  let n ← orDefault 0 (getByte e 0)
  pure n.toNat

/-- `NumberOfCompletedPackets.ConnectionHandle`. -/
def ncpHandle (e : Bytes) (i : Int) : Go Unit Nat := orDefault 0xffff (getUint16 e (1 + i * 4))

/-- `NumberOfCompletedPackets.HCNumOfCompletedPackets`. -/
def ncpPackets (e : Bytes) (i : Int) : Go Unit Nat := orDefault 0 (getUint16 e (1 + i * 4 + 2))

end Ble.Evt
