import Verif.Att.Model
set_option autoImplicit false

/-!
# Independent specification of the attribute table

Sizes and positions of services, characteristics and descriptors as plain sums, and the meaning of "the attributes in a handle range".
-/

namespace Ble.Spec

open Ble.Att

variable {α σ : Type}

/-- Attributes of a characteristic: declaration, value, its descriptors, and a CCCD if it can notify or indicate. -/
def charSize (c : Char α) : Nat := 2 + c.descs.length + (if c.hasNotify || c.hasIndicate then 1 else 0)

/-- Attributes of a service: declaration and those of its characteristics. -/
def svcSize (s : Svc α) : Nat := 1 + (s.chars.map charSize).sum

/-- Attributes of a list of services. -/
def dbSize (ss : List (Svc α)) : Nat := (ss.map svcSize).sum

/-- Handle of the declaration of the service that follows the services `pre`. -/
def svcHandle (base : Nat) (pre : List (Svc α)) : Nat := base + dbSize pre

/-- Handle of the declaration of the characteristic that follows `cpre` in the service that follows `pre`. -/
def charHandle (base : Nat) (pre : List (Svc α)) (cpre : List (Char α)) : Nat :=
  svcHandle base pre + 1 + (cpre.map charSize).sum

/-- The handles of a table are consecutive from its base. -/
def Consecutive (db : DB σ) : Prop := ∀ i (h : i < db.attrs.length), db.attrs[i].h = db.base + i

/-- The attributes with a handle from `lo` to `hi`, in table order. -/
def inRange (db : DB σ) (lo hi : Nat) : List (Attr σ) := db.attrs.filter fun a => lo ≤ a.h && a.h ≤ hi

end Ble.Spec

namespace Ble.Spec

open Ble.Att

variable {σ : Type}

/-- The MTU in force after receiving the given PDUs, starting from `m`: a well-formed Exchange MTU Request with a value of at least 23
sets it, nothing else does. -/
def mtuAfter : Nat → List Bytes → Nat
  | m, [] => m
  | m, [0x02, lo, hi] :: bs => mtuAfter (if 23 ≤ le16 lo hi then le16 lo hi else m) bs
  | m, _ :: bs => mtuAfter m bs

/-- Opcode of the response to each request the server implements (Core Specification, Vol 3, Part F, 3.4.8). -/
def responseOpcode (op : UInt8) : Option UInt8 :=
  if op ∈ ([0x02, 0x04, 0x06, 0x08, 0x0A, 0x0C, 0x10, 0x12, 0x16, 0x18] : List UInt8) then some (op + 1) else none

/-- The requests that make the ATT server panic in state `s`. -/
inductive Crash (s : Server σ) : Bytes → Prop
  /-- Reading a static value that does not fit in one response. -/
  | read {lo hi a v} : s.db.at (le16 lo hi) = some a → a.v = some v → s.mtu ≤ v.length → Crash s [0x0A, lo, hi]
  /-- The same with Read Blob, whatever the offset. -/
  | blob {lo hi o1 o2 a v} : s.db.at (le16 lo hi) = some a → a.v = some v → s.mtu ≤ v.length → Crash s [0x0C, lo, hi, o1, o2]
  /-- Read By Group Type reaching an attribute without a static value when fewer than 4 bytes are left in the response. -/
  | group {l1 l2 h1 h2 t x v0 p a rest} : (t.length = 2 ∨ t.length = 16) → 0 < le16 l1 l2 → le16 l1 l2 ≤ le16 h1 h2 →
      inRange s.db (le16 l1 l2) (le16 h1 h2) = x :: p ++ a :: rest → x.v = some v0 → a.v = none →
      (∀ y ∈ p, ∃ v, y.v = some v ∧ 4 + v.length = min (min (4 + v0.length) 255) (s.mtu - 2)) →
      (p.length + 1) * min (min (4 + v0.length) 255) (s.mtu - 2) ≤ s.mtu - 2 →
      s.mtu - 2 < (p.length + 1) * min (min (4 + v0.length) 255) (s.mtu - 2) + 4 →
      Crash s (0x10 :: l1 :: l2 :: h1 :: h2 :: t)
  /-- A write request whose handler panics. -/
  | write {lo hi v a f} : s.db.at (le16 lo hi) = some a → a.wh = some f → f s.st v = .panic → Crash s (0x12 :: lo :: hi :: v)
  /-- A write command whose handler panics. -/
  | command {lo hi v a f} : v ≠ [] → s.db.at (le16 lo hi) = some a → a.wh = some f → f s.st v = .panic →
      Crash s (0x52 :: lo :: hi :: v)
  /-- A Prepare Write Request without a complete handle. -/
  | prepareShort {t} : t.length < 2 → Crash s (0x16 :: t)
  /-- A Prepare Write Request to a writable attribute without a complete offset. -/
  | prepareOffset {lo hi t a f} : t.length < 2 → s.db.at (le16 lo hi) = some a → a.wh = some f → Crash s (0x16 :: lo :: hi :: t)
  /-- Executing when nothing was prepared. -/
  | executeNothing {t} : s.prep = none → Crash s (0x18 :: 1 :: t)
  /-- Executing when the handler panics. -/
  | execute {t a f} : s.prep = some a → a.wh = some f → f s.st s.prepData = .panic → Crash s (0x18 :: 1 :: t)

end Ble.Spec
