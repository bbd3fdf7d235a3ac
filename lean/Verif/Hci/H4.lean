import Verif.Basic
set_option autoImplicit false

/-!
# Model of the H4 (UART) packet assembler

linux/hci/h4/frame.go, and the path of a packet from there to `handlePkt` (h4.go:116-143, linux/hci/hci.go:474-547).
-/

namespace Ble.H4

/-- `frame` (frame.go:15-20): bytes of the packet being assembled and its type. The time-out is an input of `assemble`. -/
structure Frame where
  b : Bytes := []
  typ : UInt8 := 0
deriving Repr, DecidableEq

/-- A byte that starts a packet: `eventPacket` or `aclPacket` (const.go:3-6, frame.go:92-100). -/
def isStart (x : UInt8) : Bool := x == 0x04 || x == 0x02

/-- `waitStart`: frame.go:83-111: the bytes from the first start byte on; empty if there is none. -/
def waitStart (b : Bytes) : Bytes := b.dropWhile fun x => !isStart x

/-- `dataLength`, `eventLength`, `aclLength`: frame.go:113-139. `none` is an error. -/
def dataLength (typ : UInt8) (b : Bytes) : Option Nat :=
  if typ = 0x02 then
    match b[3]?, b[4]? with
    | some lo, some hi => some (le16 lo hi + 5)
    | _, _ => none
  else if typ = 0x04 then
    match b[2]? with
    | some n => some (n.toNat + 3)
    | _ => none
  else none

/-- `frame.frame`: frame.go:141-151. The length of the complete packet at the start of the buffer, if there is one. -/
def frameLen (f : Frame) : Option Nat :=
  match dataLength f.typ f.b with
  | some tl => if f.b.length < tl then none else some tl
  | none => none

theorem dataLength_pos {typ : UInt8} {b : Bytes} {n : Nat} (h : dataLength typ b = some n) : 3 ≤ n := by
  unfold dataLength at h
  split at h
  · split at h
    · injection h with h; omega
    · cases h
  · split at h
    · split at h
      · injection h with h; omega
      · cases h
    · cases h

theorem frameLen_bounds {f : Frame} {n : Nat} (h : frameLen f = some n) : 3 ≤ n ∧ n ≤ f.b.length := by
  unfold frameLen at h
  split at h
  · rename_i tl htl
    split at h
    · cases h
    · injection h with h; subst h; exact ⟨dataLength_pos htl, by omega⟩
  · cases h

theorem waitStart_length (b : Bytes) : (waitStart b).length ≤ b.length := (List.dropWhile_sublist _).length_le

/-- The buffer after the new bytes are added: frame.go:47-56. -/
def addBytes (f : Frame) (chunk : Bytes) : Frame :=
  if f.b = [] then
    match waitStart chunk with
    | [] => f
    | x :: xs => ⟨x :: xs, x⟩
  else { f with b := f.b ++ chunk }

theorem addBytes_length (f : Frame) (chunk : Bytes) : (addBytes f chunk).b.length ≤ f.b.length + chunk.length := by
  simp only [addBytes]
  split
  · have := waitStart_length chunk
    split
    · omega
    · rename_i h; rw [h] at this; simp only at *; omega
  · simp

/-- `Assemble`: frame.go:31-76, for bytes that arrive before the time-out. Result: new state and the packets put on the output channel. -/
def assemble (f : Frame) (chunk : Bytes) : Frame × List Bytes :=
  if chunk = [] then (f, [])
  else
    let g := addBytes f chunk
    if g.b = [] then (g, [])
    else
      match _h : frameLen g with
      | none => (g, [])
      | some tl =>
        if g.b.length > tl then
          let r := assemble { g with b := [] } (g.b.drop tl)
          (r.1, g.b.take tl :: r.2)
        else ({ g with b := [] }, [g.b.take tl])
termination_by f.b.length + chunk.length
decreasing_by
  have h1 := frameLen_bounds _h
  have hg := addBytes_length f chunk
  simp only [List.length_drop, List.length_nil, g] at *; omega

/-- `Assemble` with the time-out (500 ms after the first byte, frame.go:36-43): if it has passed, the buffer is discarded first. -/
def assembleAt (f : Frame) (late : Bool) (chunk : Bytes) : Frame × List Bytes :=
  if chunk = [] then (f, []) else assemble (if late then { f with b := [] } else f) chunk

/-- `rxLoop` (h4.go:187-220): the packets produced by successive reads. -/
def rxLoop (f : Frame) : List (Bool × Bytes) → Frame × List Bytes
  | [] => (f, [])
  | (late, c) :: cs =>
    let r := assembleAt f late c
    let r' := rxLoop r.1 cs
    (r'.1, r.2 ++ r'.2)

/-- `h4.Read` (h4.go:116-143) called by `sktReadLoop` (hci.go:474-547) with a buffer of 4096 bytes: the packets passed to `handlePkt`. A packet that
does not fit is an error, which ends `sktReadLoop` and with it the use of the controller. -/
def sktRead : List Bytes → List Bytes × Bool
  | [] => ([], true)
  | p :: ps => if 4096 < p.length then ([], false) else let r := sktRead ps; (p :: r.1, r.2)

end Ble.H4
