import Verif.Hci.HciPkt
set_option autoImplicit false

/-!
# Model of what the application's error handler is told about received packets

linux/hci/hci.go:564-788: the calls of `dispatchError` (hci.go:1009-1019) that the handling of a packet makes, in order, with the cause the error's text gives. They are made while the device is open
and a handler is set; otherwise they go to the log. Errors that handlers return are only logged (hci.go:468-470, 578-580). The errors of commands without an answer (hci.go:346, 378, 424), of
the recombination (conn.go:127) and of the end of the receive loop (hci.go:447) are in `Cmd`, `Reenter`, `L2cap` and `Shutdown`.
-/

namespace Ble.Errs

open Ble.Evt Ble.AdvHist Ble.HciPkt

/-- What the text of an error says went wrong. -/
inductive Told where
  /-- "advRep numReports": hci.go:621 -/
  | numReports
  /-- "invalid rep count": hci.go:627 -/
  | repCount
  /-- "advRep eventType": hci.go:636 -/
  | evType
  /-- "newAdv": hci.go:646, 660, 717: the data could not be read or parsed -/
  | newAdv
  /-- "adHist addr": hci.go:678 -/
  | histAddr
  /-- "srAddr": hci.go:684 -/
  | srAddr
  /-- "setScanResp": hci.go:694: the data of advertisement and scan response could not be parsed together -/
  | setScanResp
  /-- "<nil>, bytes …": hci.go:706: `errors.Wrap` of a nil error is nil, so that the text about the missing advertisement is lost. The `err` of hci.go:658 is nil there: the errors in the loop are
  assigned to variables of its body (hci.go:676, 682, 692). -/
  | noCause
  /-- "invalid eventType": hci.go:722 -/
  | badType
  /-- a nil error: hci.go:587; `handleVendorEvent` returns nil or "hci closed" (hci.go:987-1007), the latter only when the device is closed and nothing is told any more -/
  | nilError
  /-- "invalid command status": hci.go:768 -/
  | badStatus
deriving DecidableEq, Repr

/-- The loop of hci.go:665-702 with the errors it tells. -/
def search (ring : List (Option Adv)) (last : Nat) (sr : Bytes) : Nat → Int → Option (Found × List Told)
  | 0, _ => none
  | fuel + 1, idx =>
    if idx = last then some (.none, [])
    else
      let idx' : Int := if idx = -1 then (ring.length : Int) - 1 else idx
      if idx = -1 ∧ idx' = last then some (.none, [])
      else if idx' < 0 then some (.panic, [])
      else match ring[idx'.toNat]? with
        | none => some (.panic, [])
        | some none => some (.none, [])
        | some (some a) =>
          match addrOf a.e with
          | .panic => some (.panic, [])
          | .err _ => some (.none, [.histAddr])
          | .ok b =>
            match addrOf sr with
            | .panic => some (.panic, [])
            | .err _ => some (.none, [.srAddr])
            | .ok addr => if b = addr then some (.at idx'.toNat, []) else search ring last sr fuel (idx' - 1)

/-- The case of a scan response: hci.go:657-710. -/
def handleScanRsp (s : Scan) (e : Bytes) : Go Unit (Out × List Told) :=
  match newAdv e with
  | .panic => .panic
  | .err _ => .ok (⟨s, none, true⟩, [.newAdv])
  | .ok sr =>
    match search s.ring s.last sr.e (s.ring.length + 1) ((s.last : Int) - 1) with
    | some (.at idx, t) =>
      match s.ring[idx]? with
      | some (some a) =>
        match setScanResponse a sr with
        | .ok a' => .ok (⟨{ s with ring := s.ring.set idx (some a') }, some a', false⟩, t)
        | .err _ => .ok (⟨s, none, true⟩, t ++ [.setScanResp, .noCause])
        | .panic => .panic
      | _ => .panic
    | some (.none, t) => .ok (⟨s, none, true⟩, t ++ [.noCause])
    | _ => .panic

/-- `handleLEAdvertisingReport`: hci.go:609-737, with a handler set. -/
def handleAdv (s : Scan) (e : Bytes) : Go Unit (Out × List Told) :=
  match numReports e with
  | .panic => .panic
  | .err _ => .ok (⟨s, none, true⟩, [.numReports])
  | .ok nr =>
    if nr ≠ 1 then .ok (⟨s, none, true⟩, [.repCount])
    else match eventType e 0 with
      | .panic => .panic
      | .err _ => .ok (⟨s, none, true⟩, [.evType])
      | .ok et =>
        if et = 0x00 ∨ et = 0x02 then
          match newAdv e with
          | .panic => .panic
          | .err _ => .ok (⟨s, none, true⟩, [.newAdv])
          | .ok a =>
            match remember s a with
            | .ok s' => .ok (⟨s', some a, false⟩, [])
            | _ => .panic
        else if et = 0x04 then handleScanRsp s e
        else if et = 0x01 ∨ et = 0x03 then
          match newAdv e with
          | .panic => .panic
          | .err _ => .ok (⟨s, none, true⟩, [.newAdv])
          | .ok a => .ok (⟨s, some a, false⟩, [])
        else .ok (⟨s, none, true⟩, [.badType])

/-- What the error handler is told of an event: hci.go:564-591, 593-599. -/
def evtTold (env : Env) (b : Bytes) : List Told :=
  match b with
  | code :: plen :: p =>
    if plen.toNat ≠ p.length then []
    else if code = 0x0f then (if p.length < 4 then [.badStatus] else [])
    else if code = 0x3e then
      match p with
      | [] => []
      | sub :: _ =>
        if sub = 0x02 then
          (if env.handler then match handleAdv env.scan p with | .ok (_, t) => t | _ => [] else [])
        else []
    else if code = 0xff then [.nilError]
    else []
  | _ => []

/-- What it is told of a packet: hci.go:527-547. -/
def pktTold (env : Env) (b : Bytes) : List Told :=
  match b with
  | [] => []
  | t :: p => if t = 0x04 then evtTold env p else []

end Ble.Errs
