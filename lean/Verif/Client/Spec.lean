import Verif.Client.Model
import Verif.Att.Spec
set_option autoImplicit false

/-!
# Independent specification of discovery

What a client that has discovered everything must know about a list of services placed in a table, as plain sums of sizes.
-/

namespace Ble.Spec

open Ble.Att Ble.Client

variable {α : Type}

/-- The services of a table whose first one has handle `h`: UUID, first handle, last handle (0xFFFF for the last service of the table). -/
def svcInfos : List (Svc α) → Nat → List SvcInfo
  | [], _ => []
  | s :: ss, h => ⟨s.uuid, h, if ss.isEmpty then 0xFFFF else h + svcSize s - 1⟩ :: svcInfos ss (h + svcSize s)

/-- The characteristics of a service that ends at `svcEnd`, the first one at `h`: UUID, properties, declaration handle, value handle, last
handle. -/
def charInfos (svcEnd : Nat) : List (Char α) → Nat → List CharInfo
  | [], _ => []
  | c :: cs, h => ⟨c.uuid, c.prop, h, h + 1, if cs.isEmpty then svcEnd else h + charSize c - 1⟩ :: charInfos svcEnd cs (h + charSize c)

/-- Type of a descriptor. -/
def descUUID : Desc α → Bytes
  | .app u _ _ _ => u
  | .cccd => put16 0x2902

/-- All descriptors of a characteristic in a table: the application's, and a CCCD if it can notify or indicate. -/
def allDescs (c : Char α) : List (Desc α) := c.descs ++ (if c.hasNotify || c.hasIndicate then [.cccd] else [])

/-- The descriptors, the first one at `h`. -/
def descInfos : List (Desc α) → Nat → List DescInfo
  | [], _ => []
  | d :: ds, h => ⟨descUUID d, h⟩ :: descInfos ds (h + 1)

/-- The profile of a table: services, their characteristics, their descriptors, each once and in order. `E` is the last handle of the service. -/
def charProfs (E : Nat) : List (Char α) → Nat → List CharProf
  | [], _ => []
  | c :: cs, h =>
    { info := ⟨c.uuid, c.prop, h, h + 1, if cs.isEmpty then E else h + charSize c - 1⟩
      descs := descInfos (allDescs c) (h + 2)
      cccd := ((descInfos (allDescs c) (h + 2)).filter fun x => x.uuid == put16 0x2902).getLast? } :: charProfs E cs (h + charSize c)

def svcProfs : List (Svc α) → Nat → List SvcProf
  | [], _ => []
  | s :: ss, h =>
    { info := ⟨s.uuid, h, if ss.isEmpty then 0xFFFF else h + svcSize s - 1⟩
      chars := charProfs (if ss.isEmpty then 0xFFFF else h + svcSize s - 1) s.chars (h + 1) } :: svcProfs ss (h + svcSize s)

/-- A UUID of one of the two sizes the protocol has. -/
def UuidOk (u : Bytes) : Prop := u.length = 2 ∨ u.length = 16

/-- Services with proper UUIDs throughout, in which nothing inside a service poses as a characteristic declaration (type 0x2803). -/
def Proper (ss : List (Svc α)) : Prop :=
  ∀ s ∈ ss, UuidOk s.uuid ∧ ∀ c ∈ s.chars, UuidOk c.uuid ∧ c.uuid ≠ put16 0x2803 ∧
    ∀ d ∈ c.descs, UuidOk (descUUID d) ∧ descUUID d ≠ put16 0x2803

end Ble.Spec
