import Verif.Basic
set_option autoImplicit false

/-!
# Packets from the controller, after the Bluetooth specification [Vol 2, Part E]

Independent of the model: the layout of the packets, and which connection handles a packet names.
-/

namespace Ble.HciSpec

/-- An HCI event packet: type, event code, length, parameters. -/
def evtPkt (code : UInt8) (p : Bytes) : Bytes := 0x04 :: code :: UInt8.ofNat p.length :: p

/-- An HCI ACL data packet for handle `h` with flags; `rest` is the length field and the data. -/
def aclPkt (h flags : Nat) (rest : Bytes) : Bytes := 0x02 :: UInt8.ofNat h :: UInt8.ofNat (h / 256 + 16 * flags) :: rest

/-- Disconnection Complete [7.7.5]. -/
def disconnection (status : UInt8) (h : Nat) (reason : UInt8) : Bytes := evtPkt 0x05 (status :: put16 h ++ [reason])

/-- Encryption Change [7.7.8]. -/
def encChange (status : UInt8) (h : Nat) (enabled : UInt8) : Bytes := evtPkt 0x08 (status :: put16 h ++ [enabled])

/-- Encryption Key Refresh Complete [7.7.39]. -/
def keyRefresh (status : UInt8) (h : Nat) : Bytes := evtPkt 0x30 (status :: put16 h)

/-- Number Of Completed Packets [7.7.19]: pairs of handle and count. -/
def completed (l : List (Nat × Nat)) : Bytes := evtPkt 0x13 (UInt8.ofNat l.length :: l.flatMap fun e => put16 e.1 ++ put16 e.2)

/-- LE Connection Complete [7.7.65.1]. -/
def leConnection (status : UInt8) (h : Nat) (role addrType : UInt8) (addr : Bytes) (rest : Bytes) : Bytes :=
  evtPkt 0x3e ([0x01, status] ++ put16 h ++ [role, addrType] ++ addr ++ rest)

/-- The two bytes at `i` as a little-endian number. -/
def Field16 (p : Bytes) (i n : Nat) : Prop := ∃ x y, p[i]? = some x ∧ p[i + 1]? = some y ∧ n = le16 x y

/-- The handles a packet names. For Number Of Completed Packets a missing entry counts as naming 0xffff, which is no valid handle. Subevent 0x30 of the LE Meta event does not exist in the
specification; it is listed here because the library has a handler for it. -/
inductive Names : Bytes → Nat → Prop
  | acl (x y : UInt8) (r : Bytes) : Names (0x02 :: x :: y :: r) (x.toNat + 256 * (y.toNat % 16))
  | disconnection (p : Bytes) (h : Nat) : Field16 p 1 h → Names (evtPkt 0x05 p) h
  | encryption (p : Bytes) (h : Nat) : Field16 p 1 h → Names (evtPkt 0x08 p) h
  | completed (p : Bytes) (i h : Nat) : (∀ n, p[0]? = some n → i < n.toNat) → Field16 p (1 + 4 * i) h → Names (evtPkt 0x13 p) h
  | completedMissing (p : Bytes) : Names (evtPkt 0x13 p) 0xffff
  | connection (r : Bytes) (h : Nat) : Field16 (0x01 :: r) 2 h → Names (evtPkt 0x3e (0x01 :: r)) h
  | subevent30 (r : Bytes) (h : Nat) : Field16 (0x30 :: r) 1 h → Names (evtPkt 0x3e (0x30 :: r)) h

/-- What a packet says about encryption: the handle, and whether encryption is on. An Encryption Change event says so in its last field (trailing bytes are tolerated); LE Meta subevent 0x30 does
not exist, but the library takes it for "on". -/
def encryptionNews : Bytes → Option (Nat × Bool)
  | 0x04 :: code :: n :: p =>
    if n.toNat ≠ p.length then none
    else match code, p with
      | 0x08, _ :: lo :: hi :: en :: _ => some (le16 lo hi, en = 1)
      | 0x3e, 0x30 :: lo :: hi :: _ => some (le16 lo hi, true)
      | _, _ => none
  | _ => none

/-- The encryption state of handle `h` after a list of packets: the last news decides. -/
def encryptionAfter (h : Nat) (e : Bool) : List Bytes → Bool
  | [] => e
  | b :: bs => encryptionAfter h (match encryptionNews b with | some (h', x) => if h' = h then x else e | none => e) bs

end Ble.HciSpec
