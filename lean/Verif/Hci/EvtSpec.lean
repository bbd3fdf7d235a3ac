import Verif.Basic
set_option autoImplicit false

/-!
# Specification of the LE Advertising Report event and of its layouts

Independent of the accessors. [Vol 4, Part E, 7.7.65.2]: subevent code 2, number of reports, then for each report event type, address type, address, data length, data, RSSI.
Whether the arrays are stored one after the other (`encodeColumns`) or report by report (`encodeRows`, the general rule for arrayed parameters since version 5 of the Core
Specification and what controllers do) makes no difference for one report.
-/

namespace Ble.Evt

/-- One report of the event. -/
structure Report where
  evType : UInt8
  addrType : UInt8
  /-- as sent: least significant byte first -/
  addr : Bytes
  data : Bytes
  rssi : UInt8
deriving DecidableEq, Repr

/-- What the controller can put in a report. -/
def Report.Ok (r : Report) : Prop := r.addr.length = 6 ∧ r.data.length < 256

/-- The event's parameters with the arrays one after the other. -/
def encodeColumns (rs : List Report) : Bytes :=
  [0x02, UInt8.ofNat rs.length] ++ rs.map (·.evType) ++ rs.map (·.addrType) ++ (rs.map (·.addr)).flatten ++
    rs.map (fun r => UInt8.ofNat r.data.length) ++ (rs.map (·.data)).flatten ++ rs.map (·.rssi)

/-- The event's parameters report by report. -/
def encodeRows (rs : List Report) : Bytes :=
  [0x02, UInt8.ofNat rs.length] ++ rs.flatMap fun r => [r.evType, r.addrType] ++ r.addr ++ [UInt8.ofNat r.data.length] ++ r.data ++ [r.rssi]

theorem encode_single (r : Report) : encodeRows [r] = encodeColumns [r] := by
  simp [encodeRows, encodeColumns]

end Ble.Evt
