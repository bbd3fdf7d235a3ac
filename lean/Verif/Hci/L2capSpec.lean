import Verif.Basic
set_option autoImplicit false

/-!
# What the Bluetooth specification says about ACL packets and L2CAP frames

Independent of the model: only `le16`, `put16` and `Bytes` are used.
-/

namespace Ble.L2capSpec

/-- The fields of an HCI ACL data packet [Core, Vol 2, Part E, 5.4.2]. -/
structure Acl where
  handle : Nat
  /-- packet boundary flag: 0 start (host to controller), 1 continuation, 2 start (controller to host), 3 complete -/
  pb : Nat
  /-- broadcast flag -/
  bc : Nat
  data : Bytes
deriving Repr, DecidableEq

/-- Decoding of an ACL packet without the packet-type byte: 12-bit handle, 2-bit boundary flag, 2-bit broadcast flag, 16-bit length, data. -/
def parseAcl : Bytes → Option Acl
  | a :: b :: c :: d :: data =>
    if le16 c d = data.length then some ⟨le16 a b % 4096, le16 a b / 4096 % 4, le16 a b / 16384, data⟩ else none
  | _ => none

/-- Decoding of what the host writes to the controller: packet type 2 and an ACL packet. -/
def parseHci : Bytes → Option Acl
  | 0x02 :: rest => parseAcl rest
  | _ => none

/-- An L2CAP basic frame: length, channel, information [Core, Vol 3, Part A, 3.1]. -/
def IsFrame (cid : Nat) (info p : Bytes) : Prop :=
  cid < 65536 ∧ info.length < 65536 ∧ p = put16 info.length ++ put16 cid ++ info

/-- `frags` is a fragmentation of `p`: the data concatenated is `p`, the fragments after the first are marked continuation and carry data,
and the first carries at least the four bytes of the L2CAP header. -/
def IsFragmentation (p : Bytes) (frags : List Acl) : Prop :=
  ∃ f fs, frags = f :: fs ∧ p = f.data ++ fs.flatMap (·.data) ∧ 4 ≤ f.data.length ∧ ∀ g ∈ fs, g.pb = 1 ∧ g.data ≠ []

end Ble.L2capSpec
