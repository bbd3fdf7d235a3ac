import Verif.Basic
set_option autoImplicit false

/-!
# Model of the server's services as shared objects

linux/gatt/server.go:17-66 and linux/att/db.go:65-145, with the identity of characteristics: the application and the server share `*Characteristic` objects, `NewDB` writes the handles and an additional descriptor into them, a connection keeps the table
that was current when it was accepted (linux/device.go:76-78, att/server.go `NewServer`), and the closures behind a CCCD read the handles from the object at the time of use (db.go:168-210).

The contents of attributes are in Att/Model.lean; here an entry of the table only says what it belongs to.

Simplifications: handlers are set before a service is added, as the documentation demands; calls are made one at a time (they take the server's lock).
-/

namespace Ble.Registry

/-- The part of `Characteristic` (profile.go:117-134) that a table depends on. -/
structure Obj where
  /-- `NotifyHandler != nil || IndicateHandler != nil` -/
  notifies : Bool := false
  /-- `len(Descriptors)` -/
  descs : Nat := 0
  /-- `Handle`, `ValueHandle` -/
  handle : Nat := 0
  valueHandle : Nat := 0
  /-- the indication handler is the one given to `NewServerWithNameAndHandler` -/
  custom : Bool := false

/-- The objects, by identity. -/
abbrev Heap := Nat → Obj

def Heap.upd (H : Heap) (c : Nat) (o : Obj) : Heap := fun d => if d = c then o else H d

/-- An entry of the table. -/
inductive Entry where
  /-- declaration of a service with these characteristics -/
  | svc (cs : List Nat)
  /-- declaration of a characteristic, its value, its `i`-th descriptor -/
  | decl (c : Nat)
  | value (c : Nat)
  | desc (c i : Nat)
deriving DecidableEq, Repr

/-- `genCharAttr`: db.go:101-135. `h` counts without bound; handles are `uint16`. -/
def genChar (H : Heap) (c h : Nat) : Heap × Nat × List Entry :=
  let o := H c
  let n := o.descs + if o.notifies then 1 else 0
  (H.upd c { o with handle := h % 65536, valueHandle := (h + 1) % 65536, descs := n }, h + 2 + n, .decl c :: .value c :: (List.range n).map (.desc c))

/-- The loop of `genSvcAttr`: db.go:92-95. -/
def genChars (H : Heap) : List Nat → Nat → Heap × Nat × List Entry
  | [], h => (H, h, [])
  | c :: cs, h =>
    let r := genChar H c h
    let q := genChars r.1 cs r.2.1
    (q.1, q.2.1, r.2.2 ++ q.2.2)

/-- The loop of `NewDB`: db.go:69-75, with `genSvcAttr`: db.go:82-99. -/
def genSvcs (H : Heap) : List (List Nat) → Nat → Heap × Nat × List Entry
  | [], h => (H, h, [])
  | s :: ss, h =>
    let r := genChars H s (h + 1)
    let q := genSvcs r.1 ss r.2.1
    (q.1, q.2.1, .svc s :: r.2.2 ++ q.2.2)

/-- `Server` of package gatt: linux/gatt/server.go:32-39; and the objects that exist. -/
structure Srv where
  heap : Heap
  /-- identities from here on are unused -/
  next : Nat
  svcs : List (List Nat)
  /-- `db.attrs`; the handle of the first is 1 -/
  table : List Entry

/-- `NewDB` on the server's services: linux/gatt/server.go:46, 55, 64. -/
def Srv.build (s : Srv) : Srv :=
  let r := genSvcs s.heap s.svcs 1
  { s with heap := r.1, table := r.2.2 }

/-- `defaultServicesWithHandler`: linux/gatt/server.go:77-97. Seven new characteristics; the last, Service Changed, indicates. -/
def Srv.defaults (s : Srv) (custom : Bool) : Srv × List (List Nat) :=
  let n := s.next
  ({ s with heap := fun d => if d < n then s.heap d else if d < n + 6 then {} else if d = n + 6 then { notifies := true, custom := custom } else s.heap d, next := n + 7 }, [[n, n + 1, n + 2, n + 3, n + 4, n + 5], [n + 6]])

/-- `NewServerWithNameAndHandler`: linux/gatt/server.go:17-24. The table is built from default services of its own. -/
def Srv.new (custom : Bool) : Srv :=
  let s0 : Srv := { heap := fun _ => {}, next := 0, svcs := [], table := [] }
  let (s1, d1) := s0.defaults custom
  let (s2, d2) := s1.defaults false
  let s3 := Srv.build { s2 with svcs := d2 }
  { s3 with svcs := d1 }

inductive Op where
  /-- the application makes a characteristic, with or without a notification or indication handler, and with this many descriptors -/
  | create (notifies : Bool) (descs : Nat)
  /-- `AddService`, `SetServices` with services that consist of these characteristics, `RemoveAllServices` -/
  | add (svc : List Nat)
  | set (svcs : List (List Nat))
  | removeAll

def Srv.step (s : Srv) : Op → Srv
  | .create nt ds => { s with heap := s.heap.upd s.next { notifies := nt, descs := ds }, next := s.next + 1 }
  -- linux/gatt/server.go:42-48
  | .add svc => Srv.build { s with svcs := s.svcs ++ [svc] }
  -- linux/gatt/server.go:60-66
  | .set svcs => let (s1, d) := s.defaults false; Srv.build { s1 with svcs := d ++ svcs }
  -- linux/gatt/server.go:51-57
  | .removeAll => let (s1, d) := s.defaults false; Srv.build { s1 with svcs := d }

def Srv.run (s : Srv) : List Op → Srv
  | [] => s
  | o :: os => (s.step o).run os

/-- The handle that a notification or indication of `c` carries: db.go:189, 202. -/
def Srv.notifyHandle (s : Srv) (c : Nat) : Nat := (s.heap c).valueHandle

/-- The key under which a connection's subscription to `c` is looked up: db.go:170, 176, 209. -/
def Srv.subKey (s : Srv) (c : Nat) : Nat := (s.heap c).handle

end Ble.Registry
