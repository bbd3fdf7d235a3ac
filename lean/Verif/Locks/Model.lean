import Verif.Basic
set_option autoImplicit false

/-!
# Goroutines, mutexes and shared variables

What the functions of the library do with their mutexes and with the variables that several goroutines use, and how goroutines that run them interleave. Everything else a function does (computing, waiting for a
channel, a timer or the socket, calling a function of the application) is `other`: it may take any time, and any outcome is possible (`alt`). The functions themselves are in `Locks/Code.lean`.
-/

namespace Ble.Locks

/-- The mutexes of the library. All but those marked exist once; the marked ones exist once per connection, per client or per command opcode. -/
inductive Mutex where
  /-- of a `gatt.Client` (gatt/client.go:20-21), per client -/
  | client
  /-- of the `gatt.Server` (gatt/server.go:32-33) -/
  | server
  /-- of the profile cache (cache/cache.go:12-15) -/
  | cache
  /-- of the bond manager (bond/manager.go:16-20) -/
  | bond
  /-- of the credit-based channels of a connection (coc.go:34-39), per connection -/
  | coc
  /-- of an opcode (hci.go:1032-1035), per opcode -/
  | opcode
  /-- of the table of these mutexes (hci.go:1034) -/
  | opcodes
  /-- `muSent` (hci.go:86) -/
  | sent
  /-- `muClose` (hci.go:130) -/
  | closing
  /-- `muConns` (hci.go:118) -/
  | conns
  /-- of the parameters (params.go:36) -/
  | params
  /-- of the pool of data buffers (buffer.go:11) -/
  | pool
  /-- `cmu`, `rmu` and `wmu` of the transport (socket/socket.go:60-63, h4/h4.go:24-33) -/
  | sktClose
  | sktRead
  | sktWrite
  /-- `sigRspChannelsMu` (conn.go:79), per connection -/
  | sig
deriving DecidableEq, Repr

/-- Variables that more than one goroutine uses. -/
inductive Var where
  /-- the map of commands in progress (hci.go:87) -/
  | sent
  /-- the map of connections (hci.go:119) -/
  | conns
  /-- the map of opcode mutexes (hci.go:1033) -/
  | opcodes
  /-- the map of signalling requests in progress (conn.go:78), per connection -/
  | sigRsp
  /-- the map of credit-based channels and their contents (coc.go:36), per connection -/
  | channels
  /-- the next channel identifier (coc.go:35), per connection -/
  | nextCid
  /-- the map of subscriptions and their contents (gatt/client.go:25), per client -/
  | subs
  /-- the profile of a client (gatt/client.go:23), per client -/
  | profile
  /-- the services and the attribute database (gatt/server.go:36-37) -/
  | services
  /-- the file of the profile cache -/
  | cacheFile
  /-- the file of the bond manager -/
  | bondFile
  /-- parts of `params` (params.go:35-47) that are written after `NewDevice` -/
  | advEnable
  | advData
  | scanRsp
  | scanEnable
  | connParams
  /-- the remembered advertisements (hci.go:110-111) -/
  | adHist
  /-- the handler of advertisements (hci.go:109) -/
  | advHandler
  /-- `h.err` (hci.go:128) -/
  | err
  /-- `chMasterConn` (hci.go:120) -/
  | masterConn
  /-- the last signalling identifier (conn.go:64), per connection -/
  | sigId
deriving DecidableEq, Repr

/-- A step of a goroutine. `T` names mutexes, `V` variables. -/
inductive Act (T V : Type) where
  | lock (m : T)
  | unlock (m : T)
  | rlock (m : T)
  | runlock (m : T)
  | read (v : V)
  | write (v : V)
  | other
deriving DecidableEq, Repr

/-- What a function may do: its possible sequences of steps. -/
inductive Prog where
  | nil
  | act (a : Act Mutex Var)
  | seq (p q : Prog)
  | alt (p q : Prog)
  | star (p : Prog)
deriving Repr

/-- The sequences of steps of a function. -/
inductive Prog.Path : Prog → List (Act Mutex Var) → Prop where
  | nil : Path .nil []
  | act (a : Act Mutex Var) : Path (.act a) [a]
  | seq {p q : Prog} {as bs : List (Act Mutex Var)} : Path p as → Path q bs → Path (.seq p q) (as ++ bs)
  | left {p q : Prog} {as : List (Act Mutex Var)} : Path p as → Path (.alt p q) as
  | right {p q : Prog} {as : List (Act Mutex Var)} : Path q as → Path (.alt p q) as
  | none {p : Prog} : Path (.star p) []
  | more {p : Prog} {as bs : List (Act Mutex Var)} : Path p as → Path (.star p) bs → Path (.star p) (as ++ bs)

/-- What a call is about: a client, a connection, and the opcode of a command. -/
structure Subject where
  client : Nat := 0
  conn : Nat := 0
  opcode : Nat := 0

/-- Which mutex of a kind. -/
def Mutex.of (o : Subject) : Mutex → Nat
  | .client => o.client
  | .coc => o.conn
  | .sig => o.conn
  | .opcode => o.opcode
  | _ => 0

/-- Which variable of a kind. -/
def Var.of (o : Subject) : Var → Nat
  | .subs => o.client
  | .profile => o.client
  | .sigRsp => o.conn
  | .channels => o.conn
  | .nextCid => o.conn
  | .sigId => o.conn
  | _ => 0

/-- The steps on the mutexes and variables of a call's subject. -/
def Act.on (o : Subject) : Act Mutex Var → Act (Mutex × Nat) (Var × Nat)
  | .lock m => .lock (m, m.of o)
  | .unlock m => .unlock (m, m.of o)
  | .rlock m => .rlock (m, m.of o)
  | .runlock m => .runlock (m, m.of o)
  | .read v => .read (v, v.of o)
  | .write v => .write (v, v.of o)
  | .other => .other

abbrev Step := Act (Mutex × Nat) (Var × Nat)

/-- A goroutine: the mutexes it holds (`true`: exclusively) and what it will do. -/
structure Thread where
  held : List ((Mutex × Nat) × Bool) := []
  todo : List Step

/-- What is held after an unlock. -/
def drop {T : Type} [DecidableEq T] (h : List (T × Bool)) (x : T × Bool) : List (T × Bool) := h.erase x

/-- The goroutines. -/
abbrev St := List Thread

/-- A goroutine holds the mutex. -/
def Held (s : St) (m : Mutex × Nat) : Prop := ∃ (j : Nat) (t : Thread) (b : Bool), s[j]? = some t ∧ (m, b) ∈ t.held

/-- A goroutine holds the mutex exclusively. -/
def HeldExcl (s : St) (m : Mutex × Nat) : Prop := ∃ (j : Nat) (t : Thread), s[j]? = some t ∧ (m, true) ∈ t.held

/-- The next step of goroutine `i`: `sync.Mutex` and `sync.RWMutex`. A goroutine may lock a mutex that no goroutine holds, itself included, and lock it for reading if none holds it exclusively. (A `sync.RWMutex` also delays readers while another goroutine waits for it: this allows less, see `Waits` in Props/Guard.lean.) -/
inductive Next (s : St) (i : Nat) : St → Prop where
  | lock (t : Thread) (m : Mutex × Nat) (rest : List Step) (hi : s[i]? = some t) (ht : t.todo = .lock m :: rest) (hf : ¬ Held s m) :
      Next s i (s.set i { held := (m, true) :: t.held, todo := rest })
  | rlock (t : Thread) (m : Mutex × Nat) (rest : List Step) (hi : s[i]? = some t) (ht : t.todo = .rlock m :: rest) (hf : ¬ HeldExcl s m) :
      Next s i (s.set i { held := (m, false) :: t.held, todo := rest })
  | unlock (t : Thread) (m : Mutex × Nat) (rest : List Step) (hi : s[i]? = some t) (ht : t.todo = .unlock m :: rest) :
      Next s i (s.set i { held := drop t.held (m, true), todo := rest })
  | runlock (t : Thread) (m : Mutex × Nat) (rest : List Step) (hi : s[i]? = some t) (ht : t.todo = .runlock m :: rest) :
      Next s i (s.set i { held := drop t.held (m, false), todo := rest })
  | read (t : Thread) (v : Var × Nat) (rest : List Step) (hi : s[i]? = some t) (ht : t.todo = .read v :: rest) : Next s i (s.set i { t with todo := rest })
  | write (t : Thread) (v : Var × Nat) (rest : List Step) (hi : s[i]? = some t) (ht : t.todo = .write v :: rest) : Next s i (s.set i { t with todo := rest })
  | other (t : Thread) (rest : List Step) (hi : s[i]? = some t) (ht : t.todo = .other :: rest) : Next s i (s.set i { t with todo := rest })

/-- The states that any interleaving can reach. -/
inductive Reaches : St → St → Prop where
  | start (s : St) : Reaches s s
  | step {s t u : St} {i : Nat} : Reaches s t → Next t i u → Reaches s u

end Ble.Locks
