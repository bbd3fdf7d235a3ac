import Verif.Basic
set_option autoImplicit false

/-!
# Model of HCI command flow

linux/hci/hci.go: `send` (353-442), `getTxBuf` (336-351), `opCodeLocker` (1032-1071), `handleCommandComplete` (739-762), `handleCommandStatus` (764-788),
`handleVendorEvent` (987-1007), `setAllowedCommands` (963-985), as a transition system: any number of goroutines call `send`, one event loop handles events.

Simplifications: the device stays open (`h.done` is not closed, `h.err` is nil) and the socket accepts every write; marshalling succeeds (see C47);
event handlers other than the three above are not modelled here.
-/

namespace Ble.Cmd

/-- The key of `h.sent` and of the opcode locks: hci.go:360-367. `ogfBitShift` is 10, `ogfVendorSpecificDebug` is 0x3f. -/
def key (oc : Nat) : Nat := if oc >>> 10 = 0x3f then 0x3f else oc

/-- Events about commands. -/
inductive Evt where
  /-- Command Complete: Num_HCI_Command_Packets, opcode, return parameters -/
  | complete (n oc : Nat) (ps : Bytes)
  /-- Command Status: Num_HCI_Command_Packets, opcode, status -/
  | status (n oc : Nat) (st : UInt8)
  /-- a vendor specific event (code 0xff) -/
  | vendor
deriving DecidableEq, Repr

/-- Where a goroutine in `send` is. `Reply` is the slice received and the position of the event it came from (a ghost). -/
inductive Phase where
  /-- before `LockOpCode` returns -/
  | want
  /-- has the opcode lock, waits for a command buffer -/
  | locked
  /-- has a buffer, has not yet registered and written -/
  | ready
  /-- registered in `h.sent`, written, waits for the reply -/
  | waiting
  /-- its three-second time-out fired, `h.sent` not yet cleaned -/
  | timedOut
  /-- received a reply, `h.sent` not yet cleaned -/
  | got (ps : Bytes) (k : Nat)
  /-- returned: the reply, or an error -/
  | done (r : Option (Bytes × Nat))
deriving DecidableEq, Repr

/-- State of the host, the link and the controller. -/
structure St where
  /-- every call of `send` so far: opcode and progress -/
  callers : List (Nat × Phase)
  /-- number of buffers in `chCmdBufs` -/
  bufs : Nat
  /-- opcode locks: which caller holds the lock of a key -/
  lock : Nat → Option Nat
  /-- `h.sent` -/
  sent : Nat → Option Nat
  /-- the event loop is in `p.done <- …` for this caller with this reply -/
  handler : Option (Nat × Bytes × Nat)
  /-- events raised by the controller and not yet handled by the host -/
  evq : List Evt
  /-- opcodes of the commands the controller has received and not answered -/
  ctl : List Nat
  /-- ghost: the events handled so far -/
  handled : List Evt
  /-- ghost: number of events handled when the caller's command was written -/
  wrote : Nat → Nat

/-- After `setAllowedCommands(1)` (hci.go:176). -/
def init : St :=
  { callers := [], bufs := 1, lock := fun _ => none, sent := fun _ => none, handler := none, evq := [], ctl := [], handled := [], wrote := fun _ => 0 }

def upd {α : Type} (f : Nat → α) (i : Nat) (v : α) : Nat → α := fun j => if j = i then v else f j

/-- `setAllowedCommands`: hci.go:963-985: the channel is filled up to `min n 16`; it is never drained. -/
def setAllowed (bufs n : Nat) : Nat := max bufs (min n 16)

/-- The part of the handlers before the reply is handed over: hci.go:739-750, 764-777, 987-991: new number of buffers, key looked up, reply. -/
def evtEffect (bufs : Nat) : Evt → Nat × Option (Nat × Bytes)
  | .complete n oc ps => (setAllowed bufs n, if oc = 0 then none else some (oc, ps))
  | .status n oc st => (setAllowed bufs n, some (oc, [st]))
  | .vendor => (bufs, some (0x3f, [0x00]))

/-- The opcode an event reports as answered, if any. -/
def Evt.opcode : Evt → Option Nat
  | .complete _ oc _ => some oc
  | .status _ oc _ => some oc
  | .vendor => none

inductive Act where
  /-- a goroutine calls `send` with a command of this opcode -/
  | call (oc : Nat)
  | lock (i : Nat)
  | getBuf (i : Nat)
  /-- `getTxBuf` times out after five seconds -/
  | noBuf (i : Nat)
  | write (i : Nat)
  | timeout (i : Nat)
  | finish (i : Nat)
  /-- the controller raises an event -/
  | raise (e : Evt)
  /-- the event loop takes the next event -/
  | handle
  /-- the caller receives from `p.done` -/
  | deliver
deriving DecidableEq, Repr

/-- Move caller `i` to a phase. -/
def setPhase (s : St) (i : Nat) (p : Phase) : List (Nat × Phase) := s.callers.modify i fun c => (c.1, p)

def step (s : St) : Act → Option St
  | .call oc => some { s with callers := s.callers ++ [(oc, .want)] }
  | .lock i =>
    match s.callers[i]? with
    | some (oc, .want) =>
      if s.lock (key oc) = none then some { s with callers := setPhase s i .locked, lock := upd s.lock (key oc) (some i) } else none
    | _ => none
  | .getBuf i =>
    match s.callers[i]? with
    | some (_, .locked) => if 0 < s.bufs then some { s with callers := setPhase s i .ready, bufs := s.bufs - 1 } else none
    | _ => none
  | .noBuf i =>
    match s.callers[i]? with
    | some (oc, .locked) => some { s with callers := setPhase s i (.done none), lock := upd s.lock (key oc) none }
    | _ => none
  | .write i =>
    match s.callers[i]? with
    | some (oc, .ready) =>
      some { s with callers := setPhase s i .waiting, sent := upd s.sent (key oc) (some i), ctl := s.ctl ++ [oc], wrote := upd s.wrote i s.handled.length }
    | _ => none
  | .timeout i =>
    match s.callers[i]? with
    | some (_, .waiting) => some { s with callers := setPhase s i .timedOut }
    | _ => none
  | .finish i =>
    match s.callers[i]? with
    | some (oc, .timedOut) =>
      some { s with callers := setPhase s i (.done none), sent := upd s.sent (key oc) none, lock := upd s.lock (key oc) none }
    | some (oc, .got ps k) =>
      some { s with callers := setPhase s i (.done (some (ps, k))), sent := upd s.sent (key oc) none, lock := upd s.lock (key oc) none }
    | _ => none
  | .raise e => some { s with evq := s.evq ++ [e], ctl := match e.opcode with | some oc => s.ctl.erase oc | none => s.ctl }
  | .handle =>
    match s.handler, s.evq with
    | none, e :: es =>
      let r := evtEffect s.bufs e
      some { s with
        evq := es, bufs := r.1, handled := s.handled ++ [e]
        handler := match r.2 with
          | none => none
          | some (k, ps) => (s.sent k).map fun i => (i, ps, s.handled.length) }
    | _, _ => none
  | .deliver =>
    match s.handler with
    | some (i, ps, k) =>
      match s.callers[i]? with
      | some (_, .waiting) => some { s with callers := setPhase s i (.got ps k), handler := none }
      | _ => none
    | none => none

def run (s : St) : List Act → Option St
  | [] => some s
  | a :: as => (step s a).bind fun s' => run s' as

end Ble.Cmd
