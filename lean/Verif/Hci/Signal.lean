import Verif.Hci.L2cap
set_option autoImplicit false

/-!
# Model of L2CAP signalling

linux/hci/signal.go and linux/hci/signal_gen.go.

Slices: a received PDU is modelled with capacity equal to its length. A PDU assembled from fragments that overshoot its length can have a larger capacity, in which case
`sigCmd.data` (signal.go:26) may read zero bytes instead of panicking; the panic then comes from signal.go:192 in the same iteration.
-/

namespace Ble.Signal

open Ble.L2cap

/-! ## Messages: signal_gen.go -/

/-- The signalling messages of signal_gen.go, with their fields in order (every numeric field is a `uint16`). -/
inductive Msg where
  /-- signal_gen.go:12-15 -/
  | commandReject (reason : Nat) (data : Bytes)
  /-- 36-39 -/
  | connectionRequest (psm scid : Nat)
  /-- 60-66 -/
  | connectionResponse (dcid scid mtu result status : Nat)
  /-- 87-90 -/
  | disconnectRequest (dcid scid : Nat)
  /-- 111-114 -/
  | disconnectResponse (dcid scid : Nat)
  /-- 135-140 -/
  | paramUpdateRequest (min max latency timeout : Nat)
  /-- 161-163 -/
  | paramUpdateResponse (result : Nat)
  /-- 184-190 -/
  | creditConnectionRequest (psm scid mtu mps credits : Nat)
  /-- 211-217 -/
  | creditConnectionResponse (dcid mtu mps credits result : Nat)
  /-- 238-241 -/
  | flowControlCredit (cid credits : Nat)
  /-- 262-268 -/
  | l2capCreditRequest (spsm mtu mps credits scid : Nat)
  /-- 289-295 -/
  | l2capCreditResponse (mtu mps credits result dcid : Nat)
deriving DecidableEq, Repr

/-- `Code` methods. -/
def Msg.code : Msg → Nat
  | .commandReject .. => 0x01
  | .connectionRequest .. => 0x02
  | .connectionResponse .. => 0x03
  | .disconnectRequest .. => 0x06
  | .disconnectResponse .. => 0x07
  | .paramUpdateRequest .. => 0x12
  | .paramUpdateResponse .. => 0x13
  | .creditConnectionRequest .. => 0x14
  | .creditConnectionResponse .. => 0x15
  | .flowControlCredit .. => 0x16
  | .l2capCreditRequest .. => 0x17
  | .l2capCreditResponse .. => 0x18

/-- `binary.Write` of a struct of `uint16` fields, little-endian. -/
def writeFields (fs : List Nat) : Bytes := fs.flatMap put16

/-- `binary.Read` into a struct of `n` `uint16` fields: an error (`none`) when there are too few bytes; surplus bytes are ignored. -/
def readFields : Nat → Bytes → Option (List Nat)
  | 0, _ => some []
  | n + 1, a :: b :: r => (readFields n r).map (le16 a b :: ·)
  | _ + 1, _ => none

/-- `Marshal` methods. `CommandReject` has a slice field, which `binary.Write` refuses: the error is dropped (signal_gen.go:23) and no byte is written. -/
def Msg.marshal : Msg → Bytes
  | .commandReject _ _ => []
  | .connectionRequest a b => writeFields [a, b]
  | .connectionResponse a b c d e => writeFields [a, b, c, d, e]
  | .disconnectRequest a b => writeFields [a, b]
  | .disconnectResponse a b => writeFields [a, b]
  | .paramUpdateRequest a b c d => writeFields [a, b, c, d]
  | .paramUpdateResponse a => writeFields [a]
  | .creditConnectionRequest a b c d e => writeFields [a, b, c, d, e]
  | .creditConnectionResponse a b c d e => writeFields [a, b, c, d, e]
  | .flowControlCredit a b => writeFields [a, b]
  | .l2capCreditRequest a b c d e => writeFields [a, b, c, d, e]
  | .l2capCreditResponse a b c d e => writeFields [a, b, c, d, e]

/-- `Unmarshal` methods of the type with the given code: `none` is an error. `binary.Read` refuses `CommandReject`. -/
def unmarshal (code : Nat) (b : Bytes) : Option Msg :=
  match code with
  | 0x01 => none
  | 0x02 => match readFields 2 b with | some [x, y] => some (.connectionRequest x y) | _ => none
  | 0x03 => match readFields 5 b with | some [x, y, z, u, v] => some (.connectionResponse x y z u v) | _ => none
  | 0x06 => match readFields 2 b with | some [x, y] => some (.disconnectRequest x y) | _ => none
  | 0x07 => match readFields 2 b with | some [x, y] => some (.disconnectResponse x y) | _ => none
  | 0x12 => match readFields 4 b with | some [x, y, z, u] => some (.paramUpdateRequest x y z u) | _ => none
  | 0x13 => match readFields 1 b with | some [x] => some (.paramUpdateResponse x) | _ => none
  | 0x14 => match readFields 5 b with | some [x, y, z, u, v] => some (.creditConnectionRequest x y z u v) | _ => none
  | 0x15 => match readFields 5 b with | some [x, y, z, u, v] => some (.creditConnectionResponse x y z u v) | _ => none
  | 0x16 => match readFields 2 b with | some [x, y] => some (.flowControlCredit x y) | _ => none
  | 0x17 => match readFields 5 b with | some [x, y, z, u, v] => some (.l2capCreditRequest x y z u v) | _ => none
  | 0x18 => match readFields 5 b with | some [x, y, z, u, v] => some (.l2capCreditResponse x y z u v) | _ => none
  | _ => none

/-! ## Sending -/

/-- The PDU built by `Signal` (signal.go:37-60) and `sendResponse` (signal.go:106-130): L2CAP length and CID, code, identifier, length, data. -/
def sigPdu (code id : Nat) (data : Bytes) : Bytes :=
  put16 (4 + data.length) ++ put16 cidSignal ++ [UInt8.ofNat code, UInt8.ofNat id] ++ put16 data.length ++ data

/-- `c.sigID++`, skipping 0 (signal.go:31-34). -/
def nextSigID (id : UInt8) : UInt8 := if id + 1 = 0 then 1 else id + 1

/-- What `Signal` returns once a response has come through its channel: signal.go:95-102. `sigID` is the connection's counter at that time, not the identifier the
request was sent with. -/
def signalResult (rspCode : Nat) (sigID : UInt8) (s : Bytes) : Go String Msg := do
  let code ← index s 0
  if code.toNat ≠ rspCode then .err "unexpected signaling response"
  else
    let id ← index s 1
    if id ≠ sigID then .err "unexpected signaling id"
    else
      let n ← le16At s 2
      let data ← slice s 4 (4 + n)
      match unmarshal rspCode data with
      | some m => .ok m
      | none => .err "unmarshal"

/-! ## Receiving -/

/-- Effects of handling a signalling PDU. -/
inductive Eff where
  /-- a response PDU is written -/
  | send (pdu : Bytes)
  /-- the LE Connection Update command with these parameters is sent to the controller -/
  | connUpdate (min max latency timeout : Nat)
  /-- credits are granted to a channel (`coc.IncrementCredits`) -/
  | credits (cid n : Nat)
  /-- the command (and what follows it in the PDU) is handed to the `Signal` call waiting for this identifier -/
  | deliver (id : UInt8) (s : Bytes)
deriving DecidableEq, Repr

/-- `handleDisconnectRequest`: signal.go:199-232. The second `PutUint16` overwrites the first. -/
def handleDisconnectRequest (id : UInt8) (data : Bytes) : List Eff :=
  match unmarshal 0x06 data with
  | some (.disconnectRequest dcid scid) =>
    if dcid ≠ cidAtt then [.send (sigPdu 0x01 id.toNat (Msg.marshal (.commandReject 2 (put16 dcid ++ [0, 0]))))]
    else if scid ≠ cidAtt then []
    else [.send (sigPdu 0x07 id.toNat (Msg.marshal (.disconnectResponse dcid scid)))]
  | _ => []

/-- `handleConnectionParameterUpdateRequest`: signal.go:234-279. The slave does not look at the data. -/
def handleParamUpdate (master : Bool) (id : UInt8) (data : Option Bytes) : Option (List Eff) :=
  if ¬ master then some [.send (sigPdu 0x01 id.toNat (Msg.marshal (.commandReject 0 [])))]
  else match data with
    | none => none
    | some d =>
      match unmarshal 0x12 d with
      | some (.paramUpdateRequest a b c t) => some [.connUpdate a b c t, .send (sigPdu 0x13 id.toNat (Msg.marshal (.paramUpdateResponse 0)))]
      | _ => some []

/-- `LEFlowControlCredit`: signal.go:288-300. -/
def handleCredit (data : Bytes) : List Eff :=
  match unmarshal 0x16 data with
  | some (.flowControlCredit cid n) => [.credits cid n]
  | _ => []

/-- One iteration of the loop of `handleSignal` (signal.go:159-194) before `s` is advanced, `pending` being the identifiers in `sigRspChannels`: the effects and the identifiers still
pending. `none` is a panic. -/
def handleOne (master : Bool) (pending : List UInt8) (s : Bytes) : Option (List Eff × List UInt8) :=
  match s with
  | code :: id :: l :: h :: rest =>
    let data := if le16 l h ≤ rest.length then some (rest.take (le16 l h)) else none
    if code = 0x06 then data.map fun d => (handleDisconnectRequest id d, pending)
    else if code = 0x12 then (handleParamUpdate master id data).map fun e => (e, pending)
    else if code = 0x14 then some ([], pending)
    else if code = 0x16 then data.map fun d => (handleCredit d, pending)
    else if id ∈ pending then some ([.deliver id s], pending.filter (· ≠ id))
    else some ([.send (sigPdu 0x01 id.toNat (Msg.marshal (.commandReject 0 [])))], pending)
  | code :: id :: _ =>
    -- fewer than four bytes: only branches that do not call `len` get through to signal.go:192, where `len` panics
    if code = 0x06 ∨ code = 0x16 then none
    else if code = 0x12 then (if master then none else some ([.send (sigPdu 0x01 id.toNat (Msg.marshal (.commandReject 0 [])))], pending))
    else if code = 0x14 then some ([], pending)
    else if id ∈ pending then some ([.deliver id s], pending.filter (· ≠ id))
    else some ([.send (sigPdu 0x01 id.toNat (Msg.marshal (.commandReject 0 [])))], pending)
  | [code] =>
    -- `s.id()` panics, except in the branch that ignores the command (and then `len` panics)
    if code = 0x14 then some ([], pending) else none
  | [] => none

/-- The loop of `handleSignal`: signal.go:159-194: effects, pending identifiers, and whether it panicked. -/
def handleCmds (master : Bool) (pending : List UInt8) (s : Bytes) : List Eff × List UInt8 × Bool :=
  if hs : s = [] then ([], pending, false)
  else
    match handleOne master pending s with
    | none => ([], pending, true)
    | some (es, pending') =>
      match s with
      | _ :: _ :: l :: h :: rest =>
        if le16 l h ≤ rest.length then
          let r := handleCmds master pending' (rest.drop (le16 l h))
          (es ++ r.1, r.2)
        else (es, pending', true)
      | _ => (es, pending', true)
termination_by s.length
decreasing_by simp; omega

/-- `c.sigRxMTU`: `ble.MaxMTU` (conn.go:100, const.go). -/
def sigRxMTU : Nat := 512 + 3

/-- `handleSignal`: signal.go:136-196, for a PDU with its four-byte L2CAP header. -/
def handleSignal (master : Bool) (pending : List UInt8) (p : Bytes) : List Eff × List UInt8 × Bool :=
  match p with
  | a :: b :: _ :: _ :: payload =>
    if le16 a b > sigRxMTU then
      match payload with
      | _ :: id :: _ => ([.send (sigPdu 0x01 id.toNat (Msg.marshal (.commandReject 1 (put16 sigRxMTU))))], pending, false)
      | _ => ([], pending, true)
    else
      match payload with
      | _ :: _ :: _ => handleCmds master pending payload
      -- signal.go:158 evaluates `s.code()` and `s.id()` for the log message
      | _ => ([], pending, true)
  | _ => ([], pending, true)

end Ble.Signal
