import Verif.Client.Model
import Verif.Hci.L2cap
set_option autoImplicit false

/-!
# A client and a server of this library on two ends of a radio link

The parts modelled elsewhere put together: the ATT client (`Client/Model.lean`), `Conn.Write` and `Conn.Read` with their fragmentation and recombination
(`Hci/L2cap.lean`), the ATT server (`Att/Model.lean`). Between the two hosts are two controllers and the air, which may cut the data up as they like.
-/

namespace Ble.Air

open Ble.Att Ble.Client Ble.L2cap

/-- The parameters of the two connections: the handles the two controllers gave them, the sizes of the ACL buffers of the two controllers (hci.go:186), a number of buffers that
is obtained from the pool sooner or later (conn.go:347-352), the client's MTUs (conn.go:556-566) and the largest ATT frame the server's connection takes (conn.go:411). -/
structure Link where
  cliHandle : Nat
  srvHandle : Nat
  cliBuf : Nat
  srvBuf : Nat
  bufs : Nat
  cliTx : Nat
  cliRx : Nat
  srvRx : Nat

/-- What the controllers and the air make of the packets one host hands to its controller: the packets the other host receives. It may be different for each
of the transfers, which are numbered. -/
abbrev Radio := Nat → List Bytes → List Bytes

/-- One PDU from one host to the other: `Conn.Write` (conn.go:217-254) on one side with transmit MTU `tx`; on the other side the receive goroutine (conn.go:122-139) and one
`Conn.Read` (conn.go:186-214) into the buffer `buf`, of which the caller looks at the first `n` bytes (server.go:139-152, client.go:579-603). -/
def transfer (radio : List Bytes → List Bytes) (handle bufSize bufs tx rxMPS : Nat) (buf pdu : Bytes) : Option Bytes :=
  match connWrite handle bufSize tx bufs pdu with
  | none => none
  | some (pkts, _) =>
    match recvLoop rxMPS (radio pkts) with
    | ([.att p], .waiting) =>
      match connRead p buf with
      | .ok (buf', n) => some (buf'.take n)
      | _ => none
    | _ => none

/-- The server at the other end of the link as the peer of the client: request over the air, `handleRequest` (server.go:168-221), response over the air, and the
client's check of the opcode (client.go:522-524). `scratch` is what the two read buffers of 515 bytes (server.go:132-134, client.go:43) contain from before. The peer's state is the server
and the number of transfers so far. The server's connection has the transmit MTU of the server (server.go:233-235). -/
def airPeer {σ : Type} (L : Link) (radio : Radio) (scratch : Nat → Bytes) : Exchange (Server σ × Nat) := fun t req =>
  match transfer (radio t.2) L.cliHandle L.cliBuf L.bufs L.cliTx L.srvRx (scratch t.2) req with
  | none => .err .transport
  | some req' =>
    match handleRequest t.1 req' with
    | .ok (s', some rsp) =>
      match transfer (radio (t.2 + 1)) L.srvHandle L.srvBuf L.bufs s'.mtu L.cliRx (scratch (t.2 + 1)) rsp with
      | none => .err .transport
      | some rsp' =>
        if rsp'.head? = some 0x01 ∨ rsp'.head? = some (rspOfReq (req.headD 0)) then .ok ((s', t.2 + 2), rsp') else .err .transport
    | _ => .err .transport

end Ble.Air
