import Verif.Client.Model
set_option autoImplicit false

/-!
# A dialled connection's transmit buffer and MTU

linux/att/client.go: the calls of Client/Model.lean one after the other, and linux/att/server.go:224-254: the connection's own server (att/client.go:60-68) handling an Exchange MTU Request of the peer between them.
The connection's MTU (hci/conn.go:563-566) is shared by the two, the client's transmit buffer is not.
-/

namespace Ble.MtuHist

open Ble.Client

/-- The calls that send one request or command: att/client.go:70-507, without `ReadByType`, `ReadByGroupType` (their crashes are those of C95) and `ExecuteWrite` (which always panics). -/
inductive Req where
  | mtu (m : Nat)
  | find (lo hi : Nat)
  | read (h : Nat)
  | blob (h off : Nat)
  | multiple (hs : List Nat)
  | write (h : Nat) (v : Bytes)
  | command (h : Nat) (v : Bytes)
  | signed (h : Nat) (v : Bytes) (sig : Fin 12 → UInt8)
  | prepare (h off : Nat) (v : Bytes)

/-- The call, up to its result. -/
def perform {σ : Type} (ex : Exchange σ) (c : Cli σ) : Req → Call (Cli σ)
  | .mtu m => do let r ← exchangeMTU ex c m; pure r.1
  | .find lo hi => do let r ← findInformation ex c lo hi; pure r.1
  | .read h => do let r ← Client.read ex c h; pure r.1
  | .blob h off => do let r ← readBlob ex c h off; pure r.1
  | .multiple hs => do let r ← readMultiple ex c hs; pure r.1
  | .write h v => Client.write ex c h v
  | .command h v => do let b ← writeCommandPDU c h v; pure { c with buf := b ++ c.buf.drop b.length }
  | .signed h v sig => do let b ← signedWritePDU c h v (List.ofFn sig); pure { c with buf := b ++ c.buf.drop b.length }
  | .prepare h off v => do let r ← prepareWrite ex c h off v; pure r.1

/-- The peer's answer to the request of one call: a PDU, or none (time-out, disconnection). -/
def answered (rsp : Option Bytes) : Exchange Unit := fun _ _ =>
  match rsp with
  | some b => .ok ((), b)
  | none => .err .transport

/-- What happens on the connection. -/
inductive Ev where
  /-- a call of the application, and what `sendReq` gets for it (client.go:514-542) -/
  | call (r : Req) (rsp : Option Bytes)
  /-- the own server accepts an Exchange MTU Request of the peer: server.go:226-234 -/
  | peer (m : Nat)

/-- One event; `none`: the program panics. After a call that fails the buffer's contents are taken to be what they were: no length depends on them. -/
def step (c : Cli Unit) : Ev → Option (Cli Unit)
  | .call r rsp =>
    match perform (answered rsp) c r with
    | .ok c' => some c'
    | .err _ => some c
    | .panic => none
  | .peer m => if m < 23 then some c else some { c with txMTU := m }

def run (c : Cli Unit) : List Ev → Option (Cli Unit)
  | [] => some c
  | e :: es => (step c e).bind fun c' => run c' es

/-- A new connection: hci/conn.go:95-96 (both MTUs 23) and att/client.go:36-57. -/
def start : Cli Unit := Cli.new () 23 23

end Ble.MtuHist
