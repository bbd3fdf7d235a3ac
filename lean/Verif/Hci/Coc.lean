import Verif.Hci.L2cap
set_option autoImplicit false

/-!
# Model of LE credit-based channels

linux/hci/coc.go. Credits are `uint16`: numbers in the model, with the bounds checks of the code; that they stay below 65536 is proved, not assumed.
-/

namespace Ble.Coc

/-- `cocInfo` (coc.go:21-26) without `rxTransaction`: `recieve` sets that field only in a copy made by `lookupLocalCID` (coc.go:140-148), so in the table it is always nil.
`sub` is `rxChan != nil`. -/
structure Chan where
  localCID : Nat
  remoteCID : Nat
  credits : Nat
  mtu : Nat
  mps : Nat
  sub : Bool
deriving DecidableEq, Repr

/-- `coc` (coc.go:34-40): the next identifier and the table `remoteCidLut`, keyed by `remoteCID`. -/
structure St where
  next : Nat
  chans : List Chan
deriving DecidableEq, Repr

/-- `NewCoc`: coc.go:42-49. -/
def init : St := { next := 0x40, chans := [] }

/-- `NextSourceCID`: coc.go:51-66: `none` is the error. `c.nextSrcCID > 0xffff` is impossible for a `uint16`; the increment wraps. -/
def nextSourceCID (s : St) : Option (Nat × St) :=
  if s.next < 0x40 then none else some (s.next, { s with next := (s.next + 1) % 65536 })

/-- `c.remoteCidLut[cid]`. -/
def find (s : St) (remote : Nat) : Option Chan := s.chans.find? fun c => c.remoteCID = remote

/-- The answer of the peer to the connection request, as `Open` sees it. -/
inductive Answer where
  /-- no (usable) response within the time-out -/
  | noAnswer
  /-- a response with a result other than 0 -/
  | refused
  /-- result 0: destination CID, initial credits, MTU, MPS -/
  | accepted (dcid credits mtu mps : Nat)
deriving DecidableEq, Repr

/-- The end of `Open` (coc.go:84-100) and `addChannel` (103-121), once the request with local identifier `l` has been answered: the new state and whether there is a new channel. -/
def addChannel (s : St) (l : Nat) (a : Answer) : St × Bool :=
  match a with
  | .accepted dcid credits mtu mps =>
    match find s dcid with
    | some _ => (s, false)
    | none => ({ s with chans := s.chans ++ [⟨l, dcid, credits, mtu, mps, false⟩] }, true)
  | _ => (s, false)

/-- `CloseChannel`: coc.go:123-138. Nothing is sent to the peer. -/
def closeChan (s : St) (remote : Nat) : St := { s with chans := s.chans.filter fun c => c.remoteCID ≠ remote }

/-- Replace the credits of a channel. -/
def setCredits (s : St) (remote n : Nat) : St := { s with chans := s.chans.map fun c => if c.remoteCID = remote then { c with credits := n } else c }

/-- `IncrementCredits`: coc.go:199-203, 212-233: `none` is an error (unknown channel, or overflow) and changes nothing. -/
def increment (s : St) (remote n : Nat) : Option St :=
  match find s remote with
  | none => none
  | some c => if c.credits + n > 0xffff then none else some (setCredits s remote (c.credits + n))

/-- `DecrementCredits`: coc.go:205-233. -/
def decrement (s : St) (remote n : Nat) : Option St :=
  match find s remote with
  | none => none
  | some c => if n > c.credits then none else some (setCredits s remote (c.credits - n))

/-- `lookupLocalCID`: coc.go:140-148. -/
def lookupLocal (s : St) (l : Nat) : Option Chan := s.chans.find? fun c => c.localCID = l

/-- `Subscribe` (coc.go:150-167) and `Unsubscribe` (169-185): the changed copy is put back in the table. `none` is an error. -/
def subscribe (s : St) (l : Nat) : Option St :=
  match lookupLocal s l with
  | none => none
  | some c => if c.sub then none else some { s with chans := s.chans.map fun d => if d.remoteCID = c.remoteCID then { c with sub := true } else d }

def unsubscribe (s : St) (l : Nat) : Option St :=
  match lookupLocal s l with
  | none => none
  | some c => some { s with chans := s.chans.map fun d => if d.remoteCID = c.remoteCID then { c with sub := false } else d }

/-! ## Sending -/

/-- `bytes.Reader.Read` into a slice of `size` bytes, repeated until nothing is left: the pieces read (coc.go:328-335). -/
def pieces (size : Nat) (data : Bytes) : List Bytes :=
  if h : data = [] ∨ size = 0 then []
  else data.take size :: pieces size (data.drop size)
termination_by data.length
decreasing_by
  have h1 : 0 < data.length := List.length_pos_iff.2 fun e => h (Or.inl e)
  have h2 : size ≠ 0 := fun e => h (Or.inr e)
  simp [List.length_drop]; omega

/-- The frame written for one piece: coc.go:354-374: `uint16(2+n)`, channel, `uint16(len(data))`, piece. -/
def kframe (cid total : Nat) (piece : Bytes) : Bytes := put16 (2 + piece.length) ++ put16 cid ++ put16 total ++ piece

/-- `send`: coc.go:308-386 when every frame gets its credit in time and every write succeeds: the frames written. `none` is an error. -/
def sendFrames (cid mps : Nat) (data : Bytes) : Option (List Bytes) :=
  if mps ≤ 2 then none else some ((pieces (mps - 2) data).map (kframe cid data.length))

/-! ## Receiving -/

/-- What `recieve` does with the payload of a frame. -/
inductive Rx where
  /-- the bytes are put in the subscriber's channel (or dropped after five seconds if it stays full) -/
  | deliver (b : Bytes)
  /-- a complete SDU and no subscriber -/
  | discard
  /-- more bytes than announced and no subscriber: the send on the nil channel times out after five seconds -/
  | timeout
  /-- kept in a copy of the channel data, that is, forgotten -/
  | incomplete
  /-- no such channel: an error is returned -/
  | unknown
  /-- `binary.LittleEndian.Uint16` on fewer than two bytes -/
  | panic
deriving DecidableEq, Repr

/-- `recieve`: coc.go:235-297. -/
def receive (s : St) (cid : Nat) (data : Bytes) : Rx :=
  match lookupLocal s cid with
  | none => .unknown
  | some c =>
    match data with
    | a :: b :: rest =>
      if rest.length < le16 a b then .incomplete
      else if c.sub then .deliver rest
      else if rest.length > le16 a b then .timeout
      else .discard
    | _ => .panic

/-- The credits returned to the peer for a frame: coc.go:246 (deferred, so also on a panic) and 299-306. -/
def creditReturned (s : St) (cid : Nat) : Nat := if (lookupLocal s cid).isSome then 1 else 0

/-! ## Histories -/

/-- State with ghosts: credits granted by the peer (initial and later, as far as accepted), credits taken by `Send` calls, frames written, per remote channel; local identifiers handed out. -/
structure Hist where
  st : St
  granted : Nat → Nat
  taken : Nat → Nat
  written : Nat → Nat
  /-- every local identifier handed out so far, in order -/
  ids : List Nat
  /-- those whose `Open` waits for the peer's answer -/
  opening : List Nat

def Hist.init : Hist := { st := Coc.init, granted := fun _ => 0, taken := fun _ => 0, written := fun _ => 0, ids := [], opening := [] }

def upd (f : Nat → Nat) (i v : Nat) : Nat → Nat := fun j => if j = i then v else f j

/-- Steps of the goroutines using a connection's channels. The table is only accessed under the mutex, so each access is one step; between taking a credit and writing the frame
(coc.go:340, 377) anything can happen. -/
inductive Act where
  /-- `Open` takes an identifier (and sends the request) -/
  | reserve
  /-- `Open` with this local identifier gets the peer's answer -/
  | answer (l : Nat) (a : Answer)
  | closeChan (remote : Nat)
  /-- the peer's LE Flow Control Credit arrives -/
  | grant (remote n : Nat)
  /-- a `Send` call takes a credit -/
  | take (remote : Nat)
  /-- a `Send` call that has taken a credit writes its frame -/
  | write (remote : Nat)
  | subscribe (l : Nat)
  | unsubscribe (l : Nat)
deriving DecidableEq, Repr

def step (h : Hist) : Act → Hist
  | .reserve =>
    match nextSourceCID h.st with
    | none => h
    | some (l, s) => { h with st := s, ids := h.ids ++ [l], opening := h.opening ++ [l] }
  | .answer l a =>
    if l ∈ h.opening then
      let r := addChannel h.st l a
      { h with
        st := r.1, opening := h.opening.erase l
        granted := match a with
          | .accepted dcid c _ _ => if r.2 then upd h.granted dcid (h.granted dcid + c) else h.granted
          | _ => h.granted }
    else h
  | .closeChan remote => { h with st := closeChan h.st remote }
  | .grant remote n =>
    match increment h.st remote n with
    | some s => { h with st := s, granted := upd h.granted remote (h.granted remote + n) }
    | none => h
  | .take remote =>
    match decrement h.st remote 1 with
    | some s => { h with st := s, taken := upd h.taken remote (h.taken remote + 1) }
    | none => h
  | .write remote => if h.written remote < h.taken remote then { h with written := upd h.written remote (h.written remote + 1) } else h
  | .subscribe l => match subscribe h.st l with | some s => { h with st := s } | none => h
  | .unsubscribe l => match unsubscribe h.st l with | some s => { h with st := s } | none => h

def run (h : Hist) (as : List Act) : Hist := as.foldl step h

end Ble.Coc
