import Verif.Props.Queue
set_option autoImplicit false

/-!
# Memory of the queue of prepared writes

linux/att/server.go:38-39, 577-597, 650-669: prepared values are collected in one `bytes.Buffer` of the server, and what the write handler gets on Execute Write is `Bytes()`, a part of the memory of that buffer.
`bytes.Buffer` (Go's standard library) as used here: nothing is ever read from it, so its data starts at the beginning of its memory; `Reset` keeps the memory, `Write` uses it if the data fit, and otherwise
copies everything to a new one, whose size is any that is large enough.
-/

namespace Ble.ExecBuf

open Ble.Queue (handle)

/-- The queue of prepared writes. Arrays are named by numbers. -/
structure Mem where
  /-- contents of all arrays; an array's length is its capacity -/
  arrs : Nat → Bytes := fun _ => []
  /-- number of arrays made so far -/
  next : Nat := 1
  /-- the array of `prepareWriteRequestData` -/
  arr : Nat := 0
  /-- and its length -/
  len : Nat := 0
  /-- `prepareWriteRequestAttr != nil` -/
  pending : Bool := false
  /-- slices the write handlers got on Execute Write: array and length -/
  given : List (Nat × Nat) := []

/-- The bytes an application sees in a slice it has kept. -/
def Mem.bytes (m : Mem) (x : Nat × Nat) : Bytes := (m.arrs x.1).take x.2

/-- `bytes.Buffer.Write`; `g`: how much more memory is taken than needed. -/
def write (g : Nat → Nat → Nat) (m : Mem) (p : Bytes) : Mem :=
  if p.length ≤ (m.arrs m.arr).length - m.len then
    { m with arrs := fun i => if i = m.arr then (m.arrs i).take m.len ++ p ++ (m.arrs i).drop (m.len + p.length) else m.arrs i, len := m.len + p.length }
  else
    { m with arrs := fun i => if i = m.next then (m.arrs m.arr).take m.len ++ p ++ List.replicate (g m.len p.length) 0 else m.arrs i, arr := m.next, next := m.next + 1, len := m.len + p.length }

/-- What a PDU does to the queue: server.go:577-597, 650-669. `w h`: the attribute `h` has a write handler. (An Execute Write with nothing prepared crashes the server, C73: here nothing happens.) -/
def step (g : Nat → Nat → Nat) (w : Nat → Bool) (m : Mem) : Bytes → Mem
  | 0x16 :: lo :: hi :: _ :: _ :: v =>
    if w (handle lo hi) then write g (if m.pending then m else { m with pending := true, len := 0 }) v else m
  | 0x18 :: 0x00 :: _ => { m with pending := false }
  | 0x18 :: 0x01 :: _ => if m.pending then { m with pending := false, given := m.given ++ [(m.arr, m.len)] } else m
  | _ => m

/-- A server from its start: the PDUs `bs` one after the other. -/
def run (g : Nat → Nat → Nat) (w : Nat → Bool) (m : Mem) (bs : List Bytes) : Mem := bs.foldl (step g w) m

end Ble.ExecBuf
