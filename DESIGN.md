# Formal model of rigado/ble in Lean 4 — design

## Approach

The Go sources in /repo are read as text and transcribed, function by function, into small total computable Lean functions
under `lean/Verif/`. For each area there is

* a **model** file (`Verif/<Area>/*.lean`): definitions, each citing the `/repo` file and lines it models and saying where it simplifies;
* where useful a **specification** (`*Spec.lean`, or the section "Specification" at the head of the property file): the small
  independent vocabulary in which the properties are stated;
* **lemma** files;
* a **property** file (`Verif/Props/<Area>.lean`): the theorems named in MANIFEST.json, each with an `example` or an
  `…_example` theorem that a concrete non-trivial case meets its hypotheses.

Conventions:

* A Go function that can return an error, panic (index or slice out of range, nil dereference, close of a closed channel,
  division by zero) or never return is modelled in the outcome type `Go ε α = ok a | err e | panic` (`Verif/Basic.lean`), so that
  run-time panics are *visible results* and not totalised away. Loops that may not end take fuel, and the theorems say which fuel is
  enough, or that none is.
* Bytes are `UInt8`. Handles, lengths and credits are `Nat` with an explicit `% 65536` where the Go type is `uint16` and
  wrap-around is possible, or `UInt16`/`UInt64` where the arithmetic matters. Text is a list of characters.
* Goroutines, locks and channels are transition systems: a step function `State → Event → Option State` (`none`: the step is not
  possible now) and runs `runT` (`Verif/Trans.lean`). A theorem about a run holds for every schedule. "Returns" is proved as:
  in every reachable state some step of the program itself is possible until it is finished, and a measure bounds the number of steps.
* Where the code violates a property the negation is proved, as generally as possible (an exact condition `…_iff`, or for all
  values of a parameter), and the part that holds is proved under a name ending in `_partial`. For a claim marked *partial* the note
  in MANIFEST.json says what is missing and whether the rest is false of the code. Claims C70–C96 restate the parts
  that hold as properties of their own, proved in full.

## Plan per property

| id | property | code | model (under Verif/) | theorems in Props/ | how | status |
|----|----|----|----|----|----|----|
| C01 | UUID text round trip | uuid.go | Uuid.Model | Uuid | structural induction on characters and bytes | proved |
| C02 | Byte-order reversal is an involution | sliceops/swap.go, uuid.go | Uuid.Model | Uuid | structural induction on characters and bytes | proved |
| C03 | Advertising packets never exceed the EIR limit and a field that does not fit leaves the packet untouched | linux/adv/const.go, linux/adv/packet.go | Uuid.Model, Adv.Model, Adv.Spec | Adv | functional model with panics; invariant of append; parser∘builder round trip by induction on records; independent TLV specification | partial |
| C04 | What is advertised is what a scanner decodes | linux/adv/packet.go, parser/parser.go | Uuid.Model, Adv.Model, Adv.Spec | Adv | functional model with panics; invariant of append; parser∘builder round trip by induction on records; independent TLV specification | proved |
| C05 | Decoding an advertisement never crashes the scanner | linux/adv/packet.go, parser/parser.go | Uuid.Model, Adv.Model, Adv.Spec | Adv | functional model with panics; invariant of append; parser∘builder round trip by induction on records; independent TLV specification | partial |
| C06 | Decoded advertisement content comes from well-framed records | parser/parser.go | Uuid.Model, Adv.Model, Adv.Spec | Adv | functional model with panics; invariant of append; parser∘builder round trip by induction on records; independent TLV specification | proved |
| C07 | iBeacon layout | linux/adv/packet.go | Uuid.Model, Adv.Model, Adv.Spec | Adv | functional model with panics; invariant of append; parser∘builder round trip by induction on records; independent TLV specification | proved |
| C08 | Attribute handles are consecutive, unique and grouped | linux/att/db.go | Att.Spec, Att.Model | AttDb | functional; induction over services; index arithmetic | proved |
| C09 | Handle lookup is exact | linux/att/db.go | Att.Spec, Att.Model | AttDb | functional; induction over services; index arithmetic | proved |
| C10 | A response never exceeds the negotiated MTU | handler.go, linux/att/server.go | Att.Spec, Att.Model | AttServer | case analysis of every opcode, loop invariants, exact panic conditions | partial |
| C11 | Every request gets exactly one answer of the right kind | linux/att/server.go | Att.Spec, Att.Model | AttServer | case analysis of every opcode, loop invariants, exact panic conditions | partial |
| C12 | No PDU from a peer crashes the server | linux/att/server.go | Att.Spec, Att.Model | AttServer | case analysis of every opcode, loop invariants, exact panic conditions | partial |
| C13 | Find Information reports only real attributes of the range, of one format, as many as fit | linux/att/server.go | Att.Spec, Att.Model | AttRead | loop invariants over the attribute table against list specifications | proved |
| C14 | Read By Type reports only attributes of the asked type | linux/att/server.go | Att.Spec, Att.Model | AttRead | loop invariants over the attribute table against list specifications | proved |
| C15 | Service discovery finds every service | linux/att/client.go, linux/att/server.go, linux/gatt/client.go | Client.Spec, Client.Model, Att.Spec, Att.Model | Discovery, DiscoveryChars | composition of the client loop with the server; induction on the remaining handle range; composition of the client loops with the server; induction on services, characteristics, descriptors | proved |
| C16 | Error responses identify their request | error.go, linux/att/client.go, linux/att/server.go | Att.Spec, Att.Model, Client.Spec, Client.Model | AttServer, ClientCalls | case analysis of every opcode, loop invariants, exact panic conditions; functional, over an arbitrary peer (exchange function); case analysis of the response | proved |
| C17 | MTU exchange | linux/att/client.go, linux/att/server.go, linux/gatt/client.go | Att.Spec, Att.Model, Client.Spec, Client.Model | AttServer, ClientCalls | case analysis of every opcode, loop invariants, exact panic conditions; functional, over an arbitrary peer (exchange function); case analysis of the response | partial |
| C18 | A write reaches exactly its attribute with exactly its bytes | handler.go, linux/att/server.go | Att.Spec, Att.Model | AttWrite | case analysis; induction over the prepare queue | partial |
| C19 | Queued writes are delivered whole or not at all | linux/att/server.go | Att.Spec, Att.Model | AttWrite | case analysis; induction over the prepare queue | partial |
| C20 | Client Characteristic Configuration is per connection and drives notifications | linux/att/db.go, linux/att/server.go | Att.CccdSpec, Att.Model, Att.Spec | Cccd | per-connection state machine; invariant over write histories | partial |
| C21 | Notifications and indications carry the value truncated to MTU-3 | linux/att/server.go | Att.Spec, Att.Model | AttWrite | case analysis; induction over the prepare queue | proved |
| C22 | A client call returns the response to its own request | linux/att/client.go | Client.Loop | ClientLoop | transition system with ghost request numbers; invariants by induction over runs | partial |
| C23 | The client never crashes on a server's PDU | linux/att/client.go, linux/gatt/client.go | Client.Spec, Client.Model, Att.Spec, Att.Model | ClientCalls | functional, over an arbitrary peer (exchange function); case analysis of the response | partial |
| C24 | A client request encodes its arguments | linux/att/att_gen.go, linux/att/client.go | Client.Spec, Client.Model, Att.Spec, Att.Model | ClientCalls | functional, over an arbitrary peer (exchange function); case analysis of the response | partial |
| C25 | ReadLong returns the whole value | linux/att/server.go, linux/gatt/client.go | Client.Spec, Client.Model, Att.Spec, Att.Model | ReadLong | loop induction against the server | partial |
| C26 | Subscription state matches the peer's CCCD | linux/gatt/client.go | Client.SubSpec, Client.Loop | Subscriptions | state machine over call histories; invariant | partial |
| C27 | Notification dispatch | linux/att/client.go, linux/gatt/client.go | Client.SubSpec, Client.Loop | Subscriptions, ClientLoop | state machine over call histories; invariant; transition system with ghost request numbers; invariants by induction over runs | partial |
| C28 | H4 reassembly does not depend on chunking | linux/hci/h4/frame.go | Hci.H4 | H4 | simulation with a whole-stream parser, for every chunking | proved |
| C29 | L2CAP fragmentation and recombination are inverse | linux/hci/buffer.go, linux/hci/conn.go | Hci.L2cap, Hci.L2capSpec | L2cap | induction on fragments, both directions, composition | partial |
| C30 | Controller buffers are never over-committed and never lost | linux/hci/buffer.go, linux/hci/conn.go, linux/hci/hci.go | Hci.Pool | Pool | transition system of writers, completions, clean-ups; conservation invariant | partial |
| C31 | HCI command/response matching | linux/hci/hci.go | Hci.Conns, Hci.Cmd | Conns, Cmd | state machine over HCI packets; invariant of the connection table; transition system (callers, opcode locks, credits, event loop, timeouts); invariants by induction over runs | partial |
| C32 | Malformed L2CAP or HCI data from the radio does not crash the host | linux/hci/coc.go, linux/hci/conn.go, linux/hci/signal.go | Hci.L2cap, Hci.L2capSpec, Hci.Signal, Hci.Coc, Hci.HciPkt, Hci.ConnsSpec, Hci.AdvHist | L2cap, Signal, Coc, HciPkt, AdvHist | induction on fragments, both directions, composition; codec round trips; induction over the commands of a frame; transition system of channels and credits; invariants; functional model of packet and event dispatch with panics; exact panic condition; state machine of the scan history; induction over event histories against a list specification | partial |
| C33 | Scan responses are paired with their advertisement | linux/hci/adv.go, linux/hci/hci.go | Hci.AdvHist | AdvHist | state machine of the scan history; induction over event histories against a list specification | partial |
| C34 | Advertising report fields are read in bounds | linux/hci/evt/evt_werr.go | Hci.Evt, Hci.EvtSpec | Evt | functional accessors with panics; arithmetic of offsets | partial |
| C35 | Connection and scan parameter validation is exact | linux/hci/params.go | Hci.Params | Params | decision procedure against the arithmetic of the specification | partial |
| C36 | Credit-based channels never send without credit | linux/hci/coc.go | Hci.Coc, Hci.L2capSpec | Coc | transition system of channels and credits; invariants | proved |
| C37 | Channel identifiers are unique | linux/hci/coc.go | Hci.Coc, Hci.L2capSpec | Coc | transition system of channels and credits; invariants | proved |
| C38 | SDUs survive segmentation | linux/hci/coc.go | Hci.Coc, Hci.L2capSpec | Coc | transition system of channels and credits; invariants | partial |
| C39 | Signalling messages round trip and are answered | linux/hci/signal.go, linux/hci/signal_gen.go | Hci.Signal, Hci.L2capSpec | Signal | codec round trips; induction over the commands of a frame | partial |
| C40 | Pairing method selection | linux/hci/smp/const.go, linux/hci/smp/context.go, linux/hci/smp/util.go | Smp.Spec, Smp.Machine | SmpMethod, SmpPair, SmpOrigin | finite table lifted to all bytes; trace invariant; induction over histories of messages: an invariant that gives the bond of the context an origin, and the four handlers that change it | partial |
| C41 | Two honest sides derive the same keys and accept each other's checks | linux/hci/smp/context.go, linux/hci/smp/crypto.go | Smp.Spec, Smp.Machine | SmpCrypto, SmpHonest, SmpLegacy, SmpReject, SmpExamples | functional equality with the specification functions for every MAC, cipher, curve; symbolic execution of the handlers against a specification responder; symbolic execution; instantiation with toy primitives | proved |
| C42 | A bond is stored only after a completed authenticated pairing | linux/hci/smp/handler.go, linux/hci/smp/manager.go | Smp.Spec, Smp.Machine | SmpBond, SmpExamples | Hoare logic over handlers, trace invariant; instantiation with toy primitives | partial |
| C43 | Bond store behaves as a map | linux/hci/bond/manager.go | Store.Bond, Uuid.Model | Bond | refinement of file + JSON laws to a partial map; failure and crash outcomes as environment | partial |
| C44 | Profile cache behaves as a map | cache/cache.go | Store.Cache | Cache | refinement of file + JSON laws to a partial map | proved |
| C45 | Advertise by name puts the name and as many services as fit on the air | linux/hci/gap.go | Hci.Advertise | Advertise | functional; longest fitting prefix by induction on the UUID list | proved |
| C46 | Characteristic and descriptor discovery | linux/gatt/client.go | Client.Spec, Client.Model, Att.Spec, Att.Model | DiscoveryChars | composition of the client loops with the server; induction on services, characteristics, descriptors | proved |
| C47 | HCI command encoding | linux/hci/cmd/cmd.go, linux/hci/cmd/cmd_gen.go, linux/hci/hci.go | Hci.CmdTable, Hci.CmdSpec, Hci.CmdEnc | CmdEnc | generated table of all commands; generic marshalling lemma; table against the Core specification | partial |
| C48 | Dial addresses the right peer | addr.go, linux/hci/gap.go, sliceops/swap.go | Hci.Dial, Uuid.Model, Hci.Evt | Dial, Uuid | functional; text and codec lemmas; structural induction on characters and bytes | partial |
| C49 | Each notifying characteristic has exactly one CCCD | linux/att/db.go, linux/gatt/server.go | Att.Spec, Att.Model | AttDb | functional; induction over services; index arithmetic | partial |
| C50 | DiscoverProfile is all or error | linux/gatt/client.go | Client.Spec, Client.Model, Att.Spec, Att.Model | DiscoveryChars | composition of the client loops with the server; induction on services, characteristics, descriptors | partial |
| C51 | HCI events and ACL data reach exactly the connection they name | linux/hci/conn.go, linux/hci/hci.go | Hci.Conns | Conns | state machine over HCI packets; invariant of the connection table | proved |
| C52 | Encryption state follows the controller's events | linux/hci/conn.go, linux/hci/hci.go | Hci.Conns | Conns | state machine over HCI packets; invariant of the connection table | partial |
| C53 | A connection is announced closed exactly once, and when it ends | linux/hci/conn.go, linux/hci/hci.go | Hci.Conns | Conns | state machine over HCI packets; invariant of the connection table | partial |
| C54 | Pairing messages from the peer cannot crash the program or stop a connection | linux/hci/smp/context.go, linux/hci/smp/handler.go, linux/hci/smp/manager.go | Smp.Spec, Smp.Machine | SmpLive | exact panic condition of every handler; trace invariant | partial |
| C55 | Pair returns nil only when pairing succeeded | linux/hci/smp/manager.go | Smp.Spec, Smp.Machine | SmpPair, SmpLive, SmpExamples | trace invariant; exact panic condition of every handler; trace invariant; instantiation with toy primitives | partial |
| C56 | Passkey entry reveals at most one guess | linux/hci/smp/handler.go | Smp.Spec, Smp.Machine | SmpReject, SmpPasskey, SmpExamples | symbolic execution; explicit attacker strategy, induction over the 20 rounds; instantiation with toy primitives | partial |
| C57 | Stored bonds and profiles survive failures and crashes | cache/cache.go, linux/hci/bond/manager.go | Store.Bond, Uuid.Model, Store.Cache | Bond, Cache | refinement of file + JSON laws to a partial map; failure and crash outcomes as environment; refinement of file + JSON laws to a partial map | partial |
| C58 | Concurrent calls of the bond manager are linearizable | linux/hci/bond/manager.go | Store.BondConc, Store.Witness | BondConc | interleavings of lock/read/write steps; linearisation points | partial |
| C59 | A successful Dial returns a client of the dialled peer | linux/hci/gap.go, linux/hci/hci.go | Hci.DialConn | DialConn | transition system of Dial, controller and event loop; invariants | partial |
| C60 | A successful indication was confirmed by the peer | linux/att/server.go | Att.Indicate | Indicate | transition system of indication, reader, confirmation, timeout; invariants | partial |
| C61 | A central answers the requests of the peripheral it dialled | linux/att/client.go, linux/device.go, linux/gatt/client.go | Client.Async | Async | transition system (reader, async queue, server goroutine, caller); invariants by induction over runs | partial |
| C62 | Init takes over the controller's address and buffers | linux/hci/buffer.go, linux/hci/cmd, linux/hci/hci.go | Hci.Init | Init | functional over controller answers | partial |
| C63 | Pairing covers the addresses of the connection | linux/hci/conn.go, linux/hci/hci.go, linux/hci/smp/manager.go | Hci.Init | PairAddr | composition of initPairingContext with the pairing theorems | partial |
| C64 | StartEncryption encrypts with the key of the pairing | linux/hci/bond/manager.go, linux/hci/conn.go, linux/hci/smp/manager.go, linux/hci/smp/transport.go | Hci.Encrypt | Encrypt | functional composition of store, command encoding and event history | partial |
| C65 | Concurrent writes on a connection arrive whole and in order | linux/hci/buffer.go, linux/hci/conn.go, linux/hci/hci.go | Hci.Tx | Tx | transition system of writers; interleaving invariant, composed with recombination | proved |
| C66 | What peers send is read in order, and the exact ways a peer can stall the adapter | linux/att/client.go, linux/hci/buffer.go, linux/hci/conn.go, linux/hci/hci.go | Hci.Flow | Flow | transition system (socket, event loop, queues, readers, callers); invariants and a decreasing measure | proved |
| C67 | Closing the device or losing the transport ends every call with an error and closes every connection | linux/device.go, linux/hci/gap.go, linux/hci/hci.go | Hci.Shutdown | Shutdown | transition system of Close, loops and callers; invariants and enabledness | partial |
| C68 | Connect and Find act on exactly the advertisers the filter accepts, and return when their context ends | gatt.go, linux/device.go, linux/hci/hci.go | Hci.Connect, Client.Spec, Client.Model, Att.Spec, Att.Model | Connect, FindType | transition system of Connect/Find goroutines; invariants by induction over runs; exact result of the search loop by induction; the declarations of a table are the list of its services | partial |
| C69 | Services can be changed at any time without harming connected clients | linux/att/db.go, linux/device.go, linux/gatt/server.go | Att.Registry | Registry | functional model of the registry; induction over calls | partial |
| C70 | An advertising packet never exceeds 31 bytes | linux/adv/const.go, linux/adv/packet.go | Uuid.Model, Adv.Model, Adv.Spec | Adv | functional model with panics; invariant of append; parser∘builder round trip by induction on records; independent TLV specification | proved |
| C71 | Exactly which received advertisements crash the decoder | linux/adv/packet.go, parser/parser.go | Uuid.Model, Adv.Model, Adv.Spec | Adv | functional model with panics; invariant of append; parser∘builder round trip by induction on records; independent TLV specification | proved |
| C72 | Size of every answer of the ATT server | handler.go, linux/att/server.go | Att.Spec, Att.Model | AttServer | case analysis of every opcode, loop invariants, exact panic conditions | proved |
| C73 | Exactly which requests crash the ATT server | linux/att/server.go | Att.Spec, Att.Model | AttServer | case analysis of every opcode, loop invariants, exact panic conditions | proved |
| C74 | A Write Request reaches exactly its attribute | handler.go, linux/att/server.go | Att.Spec, Att.Model | AttWrite | case analysis; induction over the prepare queue | proved |
| C75 | CCCD values are per connection and are the last accepted ones | linux/att/db.go, linux/att/server.go | Att.CccdSpec, Att.Model, Att.Spec | Cccd | per-connection state machine; invariant over write histories | proved |
| C76 | The server follows the peer's MTU requests | linux/att/client.go, linux/att/server.go, linux/gatt/client.go | Att.Spec, Att.Model | AttServer | case analysis of every opcode, loop invariants, exact panic conditions | proved |
| C77 | A client call never returns the answer to another call, as long as no call has timed out | linux/att/client.go | Client.Loop | ClientLoop | transition system with ghost request numbers; invariants by induction over runs | proved |
| C78 | Values go to their subscriber, in order, and each indication is confirmed once | linux/att/client.go, linux/gatt/client.go | Client.SubSpec, Client.Loop | Subscriptions, ClientLoop | state machine over call histories; invariant; transition system with ghost request numbers; invariants by induction over runs | proved |
| C79 | PDUs survive fragmentation | linux/hci/buffer.go, linux/hci/conn.go | Hci.L2cap, Hci.L2capSpec | L2cap | induction on fragments, both directions, composition | proved |
| C80 | No data buffer is lost or duplicated | linux/hci/buffer.go, linux/hci/conn.go, linux/hci/hci.go | Hci.Pool | Pool | transition system of writers, completions, clean-ups; conservation invariant | proved |
| C81 | Replies to commands are matched to their callers | linux/hci/hci.go | Hci.Cmd, Hci.Conns | Cmd, Conns | transition system (callers, opcode locks, credits, event loop, timeouts); invariants by induction over runs; state machine over HCI packets; invariant of the connection table | proved |
| C82 | Single-report advertising events reach the application, with the right scan response | linux/hci/adv.go, linux/hci/hci.go | Hci.AdvHist | AdvHist | state machine of the scan history; induction over event histories against a list specification | proved |
| C83 | Fields of advertising reports | linux/hci/evt/evt_werr.go | Hci.Evt, Hci.EvtSpec | Evt | functional accessors with panics; arithmetic of offsets | proved |
| C84 | A connection is announced closed at most once, only with a cause, and is frozen afterwards | linux/hci/conn.go, linux/hci/hci.go | Hci.Conns, Hci.Readers | Conns, Readers | state machine over HCI packets; invariant of the connection table; transition system over the connection table with one reader per connection; refinement to Conns, invariants about the position of each reader | proved |
| C85 | Exactly which parameters are accepted | linux/hci/params.go | Hci.Params | Params | decision procedure against the arithmetic of the specification | proved |
| C86 | Signalling messages round trip and are answered with their identifier | linux/hci/signal.go, linux/hci/signal_gen.go | Hci.Signal, Hci.L2capSpec | Signal | codec round trips; induction over the commands of a frame | proved |
| C87 | The bond store is a map (nonempty keys) | linux/hci/bond/manager.go | Store.Bond, Uuid.Model | Bond | refinement of file + JSON laws to a partial map; failure and crash outcomes as environment | proved |
| C88 | Exactly which security messages crash the process | linux/hci/smp/context.go, linux/hci/smp/handler.go, linux/hci/smp/manager.go | Smp.Spec, Smp.Machine | SmpLive | exact panic condition of every handler; trace invariant | proved |
| C89 | Dial puts the address it is given on the air | addr.go, linux/hci/gap.go, sliceops/swap.go | Hci.Dial, Uuid.Model, Hci.Evt | Dial, Uuid | functional; text and codec lemmas; structural induction on characters and bytes | proved |
| C90 | Commands are encoded with their length, opcode and fields | linux/hci/cmd/cmd.go, linux/hci/cmd/cmd_gen.go, linux/hci/hci.go | Hci.CmdTable, Hci.CmdSpec, Hci.CmdEnc | CmdEnc | generated table of all commands; generic marshalling lemma; table against the Core specification | proved |
| C91 | After Close every waiting call returns and new ones fail | linux/device.go, linux/hci/gap.go, linux/hci/hci.go | Hci.Shutdown | Shutdown | transition system of Close, loops and callers; invariants and enabledness | proved |
| C92 | Connect connects only to a reported advertiser that the filter accepts | gatt.go, linux/device.go, linux/hci/hci.go | Hci.Connect | Connect | transition system of Connect/Find goroutines; invariants by induction over runs | proved |
| C93 | A client that connects after the last change of services is served correctly | linux/att/db.go, linux/device.go, linux/gatt/server.go | Att.Registry | Registry | functional model of the registry; induction over calls | proved |
| C94 | Client requests decode to their arguments | linux/att/att_gen.go, linux/att/client.go | Client.Spec, Client.Model, Att.Spec, Att.Model | ClientCalls | functional, over an arbitrary peer (exchange function); case analysis of the response | proved |
| C95 | Client calls: exactly when a server's answer crashes them | linux/att/client.go, linux/gatt/client.go | Client.Spec, Client.Model, Att.Spec, Att.Model | ClientCalls | functional, over an arbitrary peer (exchange function); case analysis of the response | proved |
| C96 | Exactly which packets crash the host | linux/hci/coc.go, linux/hci/conn.go, linux/hci/signal.go | Hci.HciPkt, Hci.ConnsSpec, Hci.Signal, Hci.L2capSpec, Hci.Coc, Hci.AdvHist | HciPkt, Signal, Coc, AdvHist | functional model of packet and event dispatch with panics; exact panic condition; codec round trips; induction over the commands of a frame; transition system of channels and credits; invariants; state machine of the scan history; induction over event histories against a list specification | proved |
| C97 | A characteristic behaves as the application declared it | linux/att/db.go, linux/att/server.go, profile.go | Att.Build | Build | functional; the specification looks at the list of builder calls; induction | proved |
| C98 | Profile.Find returns nil exactly if there is nothing to find | profile.go | Att.Build | Build | functional; the specification looks at the list of builder calls; induction | partial |
| C99 | FindService, FindCharacteristic and FindDescriptor return the first match | profile.go | Att.Build | Build | functional; the specification looks at the list of builder calls; induction | proved |
| C100 | Advertising goes on while centrals come and go | linux/device.go, linux/hci/gap.go, linux/hci/hci.go | Hci.Peripheral | Peripheral | transition system of advertising, connections, accept loop; invariants | partial |
| C101 | StopAdvertising is final | linux/hci/gap.go, linux/hci/hci.go | Hci.Peripheral | Peripheral | transition system of advertising, connections, accept loop; invariants | proved |
| C102 | Every central that connects is served once, in order, and the table of connections is the controller's | linux/device.go, linux/hci/gap.go, linux/hci/hci.go | Hci.Peripheral | Peripheral | transition system of advertising, connections, accept loop; invariants | partial |
| C103 | Options: the last one about a setting wins, and NewDevice succeeds exactly when it should | linux/device.go, linux/hci/hci.go, linux/hci/option.go, linux/hci/transport.go, option.go | Hci.Options | Options | functional fold over options; last-writer specification | proved |
| C104 | An option that cannot be applied makes NewDevice fail | linux/hci/conn.go, linux/hci/hci.go, linux/hci/option.go, option.go | Hci.Options | Options | functional fold over options; last-writer specification | partial |
| C105 | A NewDevice that fails leaves no transport open | linux/device.go, linux/hci/hci.go | Hci.Options | Options | functional fold over options; last-writer specification | partial |
| C106 | An advertising call advertises until its context ends | linux/device.go, linux/hci/gap.go | Hci.Device | Device | controller specification as state machine composed with the advertising calls | partial |
| C107 | AdvertiseRaw broadcasts its packets unchanged, with its parameters, which stay | linux/device.go, linux/hci/gap.go, linux/hci/option.go | Hci.Device | Device | controller specification as state machine composed with the advertising calls | proved |
| C108 | Opening a given adapter waits until it is available | linux/hci/socket/socket.go | Hci.Sock | Sock | functional model of the system calls over a descriptor table | partial |
| C109 | Opening any adapter gives the first available one | linux/hci/socket/socket.go | Hci.Sock | Sock | functional model of the system calls over a descriptor table | partial |
| C110 | A socket is closed once and not used after it is closed | linux/hci/socket/socket.go | Hci.SockConc | SockConc | transition system of Read/Write/Close and foreign opens; invariants | partial |
| C111 | Calls on a socket end | linux/hci/socket/socket.go | Hci.SockConc | SockConc | transition system of Read/Write/Close and foreign opens; invariants | proved |
| C112 | Reads of an H4 transport return the packets in order | linux/hci/h4/frame.go, linux/hci/h4/h4.go | Hci.H4Conc | H4Conc | transition system; invariant packets made = taken ++ held ++ queued ++ pending | proved |
| C113 | Closing an H4 transport ends its receive loop | linux/hci/h4/frame.go, linux/hci/h4/h4.go | Hci.H4Conc | H4Conc | transition system; invariant packets made = taken ++ held ++ queued ++ pending | partial |
| C114 | Opening an H4 transport waits for silence | linux/hci/h4/h4.go | Hci.H4Conc | H4Conc | transition system; invariant packets made = taken ++ held ++ queued ++ pending | proved |
| C115 | Everything pairing sends is a well-formed SMP message | linux/hci/smp/dispatch.go, linux/hci/smp/handler.go, linux/hci/smp/manager.go, linux/hci/smp/transport.go | Smp.Spec, Smp.Machine | SmpFrame | Hoare logic over handlers | proved |
| C116 | ToMap says what the advertisement says | linux/adv/packet.go, linux/hci/adv.go, linux/hci/adv_werr.go | Hci.AdvView | AdvView | heap of shared objects refining the history model; induction over event histories | partial |
| C117 | An advertisement handed to the application does not change | linux/hci/adv.go, linux/hci/hci.go | Hci.AdvView | AdvView | heap of shared objects refining the history model; induction over event histories | partial |
| C118 | Scanning calls: every report is handed out once, in order, to the scan in progress | linux/device.go, linux/hci/gap.go, linux/hci/hci.go | Hci.Scanning | Scanning | transition system of scan calls, opcode lock, controller, event loop; invariants | proved |
| C119 | Overlapping scans do not disturb each other | linux/device.go, linux/hci/gap.go | Hci.Scanning | Scanning | transition system of scan calls, opcode lock, controller, event loop; invariants | partial |
| C120 | Every call of a GATT client returns | linux/att/client.go, linux/gatt/client.go | Client.Locking | Locking | transition system of the client lock; invariant and decreasing measure | partial |
| C121 | The fields of ATT PDUs are where the specification puts them | linux/att/att_gen.go | Att.PduTable, Att.PduSpec, Att.Pdu | AttPdu | generated table of all PDU types against a specification table; generic set/get lemmas | partial |
| C122 | Client calls have the same outcome over the air as on the server itself | linux/att/client.go, linux/att/server.go, linux/gatt/client.go, linux/hci/conn.go | Client.Air, Client.Sim | Air | composition of the client, L2CAP and server models; simulation over every client call | partial |
| C123 | The server's reading and handling goroutines together handle every request once, in order, unmixed | linux/att/server.go | Att.Pipe | Pipe | refinement of the sequential server by an invariant over the shared buffers; measure for progress | proved |
| C124 | An indication sent by a handler completes when the peer confirms it | linux/att/server.go | Att.Pipe | Pipe | refinement of the sequential server by an invariant over the shared buffers; measure for progress | partial |
| C125 | The parameters of HCI events are read where the specification puts them | linux/hci/evt/evt_gen.go | Hci.EvtTable, Hci.EvtGenSpec, Hci.EvtGet | EvtGen | generated table of all accessors compared with a table from the specification; induction over the parameters | partial |
| C126 | Overlapping calls of Dial each return a client of the peer they were called for | linux/hci/gap.go, linux/hci/hci.go | Hci.Dials | Dials | transition system with any number of calls; invariants (permutation of connections, provenance of targets) | partial |
| C127 | What one program writes on a connection is what the other program reads, through both hosts, the link and the serial line | linux/hci/conn.go, linux/hci/h4/frame.go, linux/hci/h4/h4.go, linux/hci/hci.go | Hci.H4, Hci.Conns, Hci.HciPkt, Hci.ConnsSpec, Hci.AdvHist, Hci.Evt, Hci.EvtSpec, Uuid.Model, Adv.Model, Adv.Spec, Hci.Tx, Hci.L2cap, Hci.L2capSpec | Serial | composition of the H4, packet dispatch, connection table, L2CAP and writer models | partial |
| C128 | An interrupt during a package-level call runs the application's function; otherwise it has its default effect | gatt.go | Client.Interrupt | Interrupt | transition system of calls, signals, contexts and goroutines; invariants | partial |
| C129 | A subscriber of a credit-based channel gets the SDUs in order and then sees the end | linux/hci/coc.go, linux/hci/conn.go | Hci.CocRx | CocRx | transition system of receiver, callers and readers; invariant over the table and the channels | partial |
| C130 | Signalling requests made at the same time get their own responses | linux/hci/coc.go, linux/hci/signal.go | Hci.SigConc | SigConc | transition system with one step per access to shared state; invariants, counterexample runs | partial |
| C131 | Functions of the application may use the device they are called by | linux/hci/gap.go, linux/hci/hci.go | Hci.Reenter | Reenter | transition system of calls, opcode locks, handlers and the event loop; lock invariant, stable deadlock states, constructed runs | partial |
| C132 | Overlapping calls of Dial all return | linux/hci/gap.go, linux/hci/hci.go | Hci.Dials | DialsLive | invariant (one command or answer per held lock), decreasing measure, enabled step | proved |
| C133 | Exactly which failed NewDevice leaves a transport open | linux/device.go, linux/hci/hci.go | Hci.Options, Hci.Peripheral, Hci.Device, Hci.Advertise, Uuid.Model, Adv.Model, Adv.Spec, Hci.Sock, Hci.SockConc, Hci.H4Conc, Hci.AdvView, Hci.AdvHist, Hci.Evt, Hci.EvtSpec, Hci.Dial, Hci.CmdTable, Hci.CmdSpec, Hci.CmdEnc, Client.Locking, Att.PduTable, Att.PduSpec, Att.Pdu, Hci.EvtTable, Hci.EvtGenSpec, Hci.EvtGet, Client.Air, Client.Sim, Hci.L2cap, Hci.L2capSpec, Att.Spec, Att.Model, Client.Spec, Client.Model, Hci.Dials, Client.Interrupt, Hci.CocRx, Hci.SigConc, Hci.Reenter, Att.Pipe, Hci.H4, Hci.Conns, Hci.HciPkt, Hci.ConnsSpec, Hci.Tx | Whole, Options | exact conditions and conditional statements derived from the partial claims; functional fold over options; last-writer specification | proved |
| C134 | Exactly which option errors NewDevice reports | linux/hci/hci.go, linux/hci/option.go, option.go | Hci.Options, Hci.Peripheral, Hci.Device, Hci.Advertise, Uuid.Model, Adv.Model, Adv.Spec, Hci.Sock, Hci.SockConc, Hci.H4Conc, Hci.AdvView, Hci.AdvHist, Hci.Evt, Hci.EvtSpec, Hci.Dial, Hci.CmdTable, Hci.CmdSpec, Hci.CmdEnc, Client.Locking, Att.PduTable, Att.PduSpec, Att.Pdu, Hci.EvtTable, Hci.EvtGenSpec, Hci.EvtGet, Client.Air, Client.Sim, Hci.L2cap, Hci.L2capSpec, Att.Spec, Att.Model, Client.Spec, Client.Model, Hci.Dials, Client.Interrupt, Hci.CocRx, Hci.SigConc, Hci.Reenter, Att.Pipe, Hci.H4, Hci.Conns, Hci.HciPkt, Hci.ConnsSpec, Hci.Tx | Whole | exact conditions and conditional statements derived from the partial claims | proved |
| C135 | A peripheral without listener timeout goes on | linux/device.go, linux/hci/hci.go | Hci.Options, Hci.Peripheral, Hci.Device, Hci.Advertise, Uuid.Model, Adv.Model, Adv.Spec, Hci.Sock, Hci.SockConc, Hci.H4Conc, Hci.AdvView, Hci.AdvHist, Hci.Evt, Hci.EvtSpec, Hci.Dial, Hci.CmdTable, Hci.CmdSpec, Hci.CmdEnc, Client.Locking, Att.PduTable, Att.PduSpec, Att.Pdu, Hci.EvtTable, Hci.EvtGenSpec, Hci.EvtGet, Client.Air, Client.Sim, Hci.L2cap, Hci.L2capSpec, Att.Spec, Att.Model, Client.Spec, Client.Model, Hci.Dials, Client.Interrupt, Hci.CocRx, Hci.SigConc, Hci.Reenter, Att.Pipe, Hci.H4, Hci.Conns, Hci.HciPkt, Hci.ConnsSpec, Hci.Tx | Whole, Peripheral | exact conditions and conditional statements derived from the partial claims; transition system of advertising, connections, accept loop; invariants | proved |
| C136 | Advertising calls on a conforming controller | linux/device.go, linux/hci/gap.go | Hci.Options, Hci.Peripheral, Hci.Device, Hci.Advertise, Uuid.Model, Adv.Model, Adv.Spec, Hci.Sock, Hci.SockConc, Hci.H4Conc, Hci.AdvView, Hci.AdvHist, Hci.Evt, Hci.EvtSpec, Hci.Dial, Hci.CmdTable, Hci.CmdSpec, Hci.CmdEnc, Client.Locking, Att.PduTable, Att.PduSpec, Att.Pdu, Hci.EvtTable, Hci.EvtGenSpec, Hci.EvtGet, Client.Air, Client.Sim, Hci.L2cap, Hci.L2capSpec, Att.Spec, Att.Model, Client.Spec, Client.Model, Hci.Dials, Client.Interrupt, Hci.CocRx, Hci.SigConc, Hci.Reenter, Att.Pipe, Hci.H4, Hci.Conns, Hci.HciPkt, Hci.ConnsSpec, Hci.Tx | Whole, Device | exact conditions and conditional statements derived from the partial claims; controller specification as state machine composed with the advertising calls | proved |
| C137 | Opening an adapter | linux/hci/socket/socket.go | Hci.Options, Hci.Peripheral, Hci.Device, Hci.Advertise, Uuid.Model, Adv.Model, Adv.Spec, Hci.Sock, Hci.SockConc, Hci.H4Conc, Hci.AdvView, Hci.AdvHist, Hci.Evt, Hci.EvtSpec, Hci.Dial, Hci.CmdTable, Hci.CmdSpec, Hci.CmdEnc, Client.Locking, Att.PduTable, Att.PduSpec, Att.Pdu, Hci.EvtTable, Hci.EvtGenSpec, Hci.EvtGet, Client.Air, Client.Sim, Hci.L2cap, Hci.L2capSpec, Att.Spec, Att.Model, Client.Spec, Client.Model, Hci.Dials, Client.Interrupt, Hci.CocRx, Hci.SigConc, Hci.Reenter, Att.Pipe, Hci.H4, Hci.Conns, Hci.HciPkt, Hci.ConnsSpec, Hci.Tx | Whole, Sock | exact conditions and conditional statements derived from the partial claims; functional model of the system calls over a descriptor table | proved |
| C138 | An HCI socket is closed once | linux/hci/socket/socket.go | Hci.Options, Hci.Peripheral, Hci.Device, Hci.Advertise, Uuid.Model, Adv.Model, Adv.Spec, Hci.Sock, Hci.SockConc, Hci.H4Conc, Hci.AdvView, Hci.AdvHist, Hci.Evt, Hci.EvtSpec, Hci.Dial, Hci.CmdTable, Hci.CmdSpec, Hci.CmdEnc, Client.Locking, Att.PduTable, Att.PduSpec, Att.Pdu, Hci.EvtTable, Hci.EvtGenSpec, Hci.EvtGet, Client.Air, Client.Sim, Hci.L2cap, Hci.L2capSpec, Att.Spec, Att.Model, Client.Spec, Client.Model, Hci.Dials, Client.Interrupt, Hci.CocRx, Hci.SigConc, Hci.Reenter, Att.Pipe, Hci.H4, Hci.Conns, Hci.HciPkt, Hci.ConnsSpec, Hci.Tx | Whole, SockConc | exact conditions and conditional statements derived from the partial claims; transition system of Read/Write/Close and foreign opens; invariants | proved |
| C139 | The receive loop of a closed H4 transport ends exactly if its packets fit | linux/hci/h4/frame.go, linux/hci/h4/h4.go | Hci.Options, Hci.Peripheral, Hci.Device, Hci.Advertise, Uuid.Model, Adv.Model, Adv.Spec, Hci.Sock, Hci.SockConc, Hci.H4Conc, Hci.AdvView, Hci.AdvHist, Hci.Evt, Hci.EvtSpec, Hci.Dial, Hci.CmdTable, Hci.CmdSpec, Hci.CmdEnc, Client.Locking, Att.PduTable, Att.PduSpec, Att.Pdu, Hci.EvtTable, Hci.EvtGenSpec, Hci.EvtGet, Client.Air, Client.Sim, Hci.L2cap, Hci.L2capSpec, Att.Spec, Att.Model, Client.Spec, Client.Model, Hci.Dials, Client.Interrupt, Hci.CocRx, Hci.SigConc, Hci.Reenter, Att.Pipe, Hci.H4, Hci.Conns, Hci.HciPkt, Hci.ConnsSpec, Hci.Tx | Whole, H4Conc | exact conditions and conditional statements derived from the partial claims; transition system; invariant packets made = taken ++ held ++ queued ++ pending | proved |
| C140 | Exactly how a handed-out advertisement can change | linux/hci/adv.go, linux/hci/hci.go | Hci.Options, Hci.Peripheral, Hci.Device, Hci.Advertise, Uuid.Model, Adv.Model, Adv.Spec, Hci.Sock, Hci.SockConc, Hci.H4Conc, Hci.AdvView, Hci.AdvHist, Hci.Evt, Hci.EvtSpec, Hci.Dial, Hci.CmdTable, Hci.CmdSpec, Hci.CmdEnc, Client.Locking, Att.PduTable, Att.PduSpec, Att.Pdu, Hci.EvtTable, Hci.EvtGenSpec, Hci.EvtGet, Client.Air, Client.Sim, Hci.L2cap, Hci.L2capSpec, Att.Spec, Att.Model, Client.Spec, Client.Model, Hci.Dials, Client.Interrupt, Hci.CocRx, Hci.SigConc, Hci.Reenter, Att.Pipe, Hci.H4, Hci.Conns, Hci.HciPkt, Hci.ConnsSpec, Hci.Tx | Whole, AdvView | exact conditions and conditional statements derived from the partial claims; heap of shared objects refining the history model; induction over event histories | proved |
| C141 | Calls of a GATT client return if no handler calls its own client | linux/att/client.go, linux/gatt/client.go | Hci.Options, Hci.Peripheral, Hci.Device, Hci.Advertise, Uuid.Model, Adv.Model, Adv.Spec, Hci.Sock, Hci.SockConc, Hci.H4Conc, Hci.AdvView, Hci.AdvHist, Hci.Evt, Hci.EvtSpec, Hci.Dial, Hci.CmdTable, Hci.CmdSpec, Hci.CmdEnc, Client.Locking, Att.PduTable, Att.PduSpec, Att.Pdu, Hci.EvtTable, Hci.EvtGenSpec, Hci.EvtGet, Client.Air, Client.Sim, Hci.L2cap, Hci.L2capSpec, Att.Spec, Att.Model, Client.Spec, Client.Model, Hci.Dials, Client.Interrupt, Hci.CocRx, Hci.SigConc, Hci.Reenter, Att.Pipe, Hci.H4, Hci.Conns, Hci.HciPkt, Hci.ConnsSpec, Hci.Tx | Whole, Locking | exact conditions and conditional statements derived from the partial claims; transition system of the client lock; invariant and decreasing measure | proved |
| C142 | ATT PDUs but Signed Write | linux/att/att_gen.go | Hci.Options, Hci.Peripheral, Hci.Device, Hci.Advertise, Uuid.Model, Adv.Model, Adv.Spec, Hci.Sock, Hci.SockConc, Hci.H4Conc, Hci.AdvView, Hci.AdvHist, Hci.Evt, Hci.EvtSpec, Hci.Dial, Hci.CmdTable, Hci.CmdSpec, Hci.CmdEnc, Client.Locking, Att.PduTable, Att.PduSpec, Att.Pdu, Hci.EvtTable, Hci.EvtGenSpec, Hci.EvtGet, Client.Air, Client.Sim, Hci.L2cap, Hci.L2capSpec, Att.Spec, Att.Model, Client.Spec, Client.Model, Hci.Dials, Client.Interrupt, Hci.CocRx, Hci.SigConc, Hci.Reenter, Att.Pipe, Hci.H4, Hci.Conns, Hci.HciPkt, Hci.ConnsSpec, Hci.Tx | Whole, AttPdu | exact conditions and conditional statements derived from the partial claims; generated table of all PDU types against a specification table; generic set/get lemmas | proved |
| C143 | Parameters of HCI events | linux/hci/evt/evt_gen.go | Hci.Options, Hci.Peripheral, Hci.Device, Hci.Advertise, Uuid.Model, Adv.Model, Adv.Spec, Hci.Sock, Hci.SockConc, Hci.H4Conc, Hci.AdvView, Hci.AdvHist, Hci.Evt, Hci.EvtSpec, Hci.Dial, Hci.CmdTable, Hci.CmdSpec, Hci.CmdEnc, Client.Locking, Att.PduTable, Att.PduSpec, Att.Pdu, Hci.EvtTable, Hci.EvtGenSpec, Hci.EvtGet, Client.Air, Client.Sim, Hci.L2cap, Hci.L2capSpec, Att.Spec, Att.Model, Client.Spec, Client.Model, Hci.Dials, Client.Interrupt, Hci.CocRx, Hci.SigConc, Hci.Reenter, Att.Pipe, Hci.H4, Hci.Conns, Hci.HciPkt, Hci.ConnsSpec, Hci.Tx | Whole, EvtGen | exact conditions and conditional statements derived from the partial claims; generated table of all accessors compared with a table from the specification; induction over the parameters | proved |
| C144 | Discovery, reading, writing and MTU exchange over the air | linux/att/client.go, linux/att/server.go, linux/gatt/client.go, linux/hci/conn.go | Client.Air, Client.Sim | Air | composition of the client, L2CAP and server models; simulation over every client call | proved |
| C145 | Overlapping Dials share no connection and lose none | linux/hci/gap.go, linux/hci/hci.go | Hci.Dials, Hci.Options, Hci.Peripheral, Hci.Device, Hci.Advertise, Uuid.Model, Adv.Model, Adv.Spec, Hci.Sock, Hci.SockConc, Hci.H4Conc, Hci.AdvView, Hci.AdvHist, Hci.Evt, Hci.EvtSpec, Hci.Dial, Hci.CmdTable, Hci.CmdSpec, Hci.CmdEnc, Client.Locking, Att.PduTable, Att.PduSpec, Att.Pdu, Hci.EvtTable, Hci.EvtGenSpec, Hci.EvtGet, Client.Air, Client.Sim, Hci.L2cap, Hci.L2capSpec, Att.Spec, Att.Model, Client.Spec, Client.Model, Client.Interrupt, Hci.CocRx, Hci.SigConc, Hci.Reenter, Att.Pipe, Hci.H4, Hci.Conns, Hci.HciPkt, Hci.ConnsSpec, Hci.Tx | Dials, Whole | transition system with any number of calls; invariants (permutation of connections, provenance of targets); exact conditions and conditional statements derived from the partial claims | proved |
| C146 | When an interrupt handler runs and when an interrupt kills | gatt.go | Client.Interrupt | Interrupt | transition system of calls, signals, contexts and goroutines; invariants | proved |
| C147 | Receiving on a credit-based channel | linux/hci/coc.go | Hci.CocRx, Hci.Options, Hci.Peripheral, Hci.Device, Hci.Advertise, Uuid.Model, Adv.Model, Adv.Spec, Hci.Sock, Hci.SockConc, Hci.H4Conc, Hci.AdvView, Hci.AdvHist, Hci.Evt, Hci.EvtSpec, Hci.Dial, Hci.CmdTable, Hci.CmdSpec, Hci.CmdEnc, Client.Locking, Att.PduTable, Att.PduSpec, Att.Pdu, Hci.EvtTable, Hci.EvtGenSpec, Hci.EvtGet, Client.Air, Client.Sim, Hci.L2cap, Hci.L2capSpec, Att.Spec, Att.Model, Client.Spec, Client.Model, Hci.Dials, Client.Interrupt, Hci.SigConc, Hci.Reenter, Att.Pipe, Hci.H4, Hci.Conns, Hci.HciPkt, Hci.ConnsSpec, Hci.Tx | CocRx, Whole | transition system of receiver, callers and readers; invariant over the table and the channels; exact conditions and conditional statements derived from the partial claims | proved |
| C148 | Signalling calls that do not overlap | linux/hci/signal.go | Hci.Options, Hci.Peripheral, Hci.Device, Hci.Advertise, Uuid.Model, Adv.Model, Adv.Spec, Hci.Sock, Hci.SockConc, Hci.H4Conc, Hci.AdvView, Hci.AdvHist, Hci.Evt, Hci.EvtSpec, Hci.Dial, Hci.CmdTable, Hci.CmdSpec, Hci.CmdEnc, Client.Locking, Att.PduTable, Att.PduSpec, Att.Pdu, Hci.EvtTable, Hci.EvtGenSpec, Hci.EvtGet, Client.Air, Client.Sim, Hci.L2cap, Hci.L2capSpec, Att.Spec, Att.Model, Client.Spec, Client.Model, Hci.Dials, Client.Interrupt, Hci.CocRx, Hci.SigConc, Hci.Reenter, Att.Pipe, Hci.H4, Hci.Conns, Hci.HciPkt, Hci.ConnsSpec, Hci.Tx | Whole, SigConc | exact conditions and conditional statements derived from the partial claims; transition system with one step per access to shared state; invariants, counterexample runs | proved |
| C149 | Calls can return if the error handler sends no commands | linux/hci/hci.go | Hci.Options, Hci.Peripheral, Hci.Device, Hci.Advertise, Uuid.Model, Adv.Model, Adv.Spec, Hci.Sock, Hci.SockConc, Hci.H4Conc, Hci.AdvView, Hci.AdvHist, Hci.Evt, Hci.EvtSpec, Hci.Dial, Hci.CmdTable, Hci.CmdSpec, Hci.CmdEnc, Client.Locking, Att.PduTable, Att.PduSpec, Att.Pdu, Hci.EvtTable, Hci.EvtGenSpec, Hci.EvtGet, Client.Air, Client.Sim, Hci.L2cap, Hci.L2capSpec, Att.Spec, Att.Model, Client.Spec, Client.Model, Hci.Dials, Client.Interrupt, Hci.CocRx, Hci.SigConc, Hci.Reenter, Att.Pipe, Hci.H4, Hci.Conns, Hci.HciPkt, Hci.ConnsSpec, Hci.Tx | Whole, Reenter | exact conditions and conditional statements derived from the partial claims; transition system of calls, opcode locks, handlers and the event loop; lock invariant, stable deadlock states, constructed runs | proved |
| C150 | What becomes of an indication sent by a handler | linux/att/server.go, linux/gatt/server.go | Hci.Options, Hci.Peripheral, Hci.Device, Hci.Advertise, Uuid.Model, Adv.Model, Adv.Spec, Hci.Sock, Hci.SockConc, Hci.H4Conc, Hci.AdvView, Hci.AdvHist, Hci.Evt, Hci.EvtSpec, Hci.Dial, Hci.CmdTable, Hci.CmdSpec, Hci.CmdEnc, Client.Locking, Att.PduTable, Att.PduSpec, Att.Pdu, Hci.EvtTable, Hci.EvtGenSpec, Hci.EvtGet, Client.Air, Client.Sim, Hci.L2cap, Hci.L2capSpec, Att.Spec, Att.Model, Client.Spec, Client.Model, Hci.Dials, Client.Interrupt, Hci.CocRx, Hci.SigConc, Hci.Reenter, Att.Pipe, Hci.H4, Hci.Conns, Hci.HciPkt, Hci.ConnsSpec, Hci.Tx | Whole, Pipe | exact conditions and conditional statements derived from the partial claims; refinement of the sequential server by an invariant over the shared buffers; measure for progress | proved |
| C151 | PDUs cross both hosts | linux/hci/conn.go, linux/hci/h4, linux/hci/hci.go | Hci.Options, Hci.Peripheral, Hci.Device, Hci.Advertise, Uuid.Model, Adv.Model, Adv.Spec, Hci.Sock, Hci.SockConc, Hci.H4Conc, Hci.AdvView, Hci.AdvHist, Hci.Evt, Hci.EvtSpec, Hci.Dial, Hci.CmdTable, Hci.CmdSpec, Hci.CmdEnc, Client.Locking, Att.PduTable, Att.PduSpec, Att.Pdu, Hci.EvtTable, Hci.EvtGenSpec, Hci.EvtGet, Client.Air, Client.Sim, Hci.L2cap, Hci.L2capSpec, Att.Spec, Att.Model, Client.Spec, Client.Model, Hci.Dials, Client.Interrupt, Hci.CocRx, Hci.SigConc, Hci.Reenter, Att.Pipe, Hci.H4, Hci.Conns, Hci.HciPkt, Hci.ConnsSpec, Hci.Tx | Whole, Serial | exact conditions and conditional statements derived from the partial claims; composition of the H4, packet dispatch, connection table, L2CAP and writer models | proved |
| C152 | Exactly what ToMap returns | linux/hci/adv.go | Hci.Options, Hci.Peripheral, Hci.Device, Hci.Advertise, Uuid.Model, Adv.Model, Adv.Spec, Hci.Sock, Hci.SockConc, Hci.H4Conc, Hci.AdvView, Hci.AdvHist, Hci.Evt, Hci.EvtSpec, Hci.Dial, Hci.CmdTable, Hci.CmdSpec, Hci.CmdEnc, Client.Locking, Att.PduTable, Att.PduSpec, Att.Pdu, Hci.EvtTable, Hci.EvtGenSpec, Hci.EvtGet, Client.Air, Client.Sim, Hci.L2cap, Hci.L2capSpec, Att.Spec, Att.Model, Client.Spec, Client.Model, Hci.Dials, Client.Interrupt, Hci.CocRx, Hci.SigConc, Hci.Reenter, Att.Pipe, Hci.H4, Hci.Conns, Hci.HciPkt, Hci.ConnsSpec, Hci.Tx | Whole, AdvView | exact conditions and conditional statements derived from the partial claims; heap of shared objects refining the history model; induction over event histories | proved |
| C153 | The error handler hears of each failed packet once | linux/hci/hci.go | Hci.Errs | Errs | calls of the error handler as an output of the handlers of packets; agreement with AdvHist; specification as an inductive relation Tells, shown functional | partial |
| C154 | Exactly what the error handler is told of each received packet | linux/hci/hci.go | Hci.Errs | Errs | calls of the error handler as an output of the handlers of packets; agreement with AdvHist; specification as an inductive relation Tells, shown functional | proved |
| C155 | Exactly which writes reach the application | linux/att/server.go | Att.CccdSpec, Att.Model, Att.Spec | Queue | Every request of the other kinds is shown to keep table, queue and log (induction over the loops of the server); the writing requests are computed; induction over the sequence. | proved |
| C156 | Exactly when the server answers | linux/att/server.go | Att.Spec, Att.Model, Client.Spec, Client.Model, Hci.Coc, Hci.L2capSpec, Smp.Spec, Smp.Machine, Store.Bond, Uuid.Model, Store.BondConc, Store.Witness | Whole2, AttServer | From the theorems of the partial properties they complete.; case analysis of every opcode, loop invariants, exact panic conditions | proved |
| C157 | Exactly what ReadLongCharacteristic returns | linux/att/server.go, linux/gatt/client.go | Att.Spec, Att.Model, Client.Spec, Client.Model, Hci.Coc, Hci.L2capSpec, Smp.Spec, Smp.Machine, Store.Bond, Uuid.Model, Store.BondConc, Store.Witness | Whole2, ReadLong | From the theorems of the partial properties they complete.; loop induction against the server | proved |
| C158 | Exactly which SDUs survive segmentation | linux/hci/coc.go | Att.Spec, Att.Model, Client.Spec, Client.Model, Hci.Coc, Hci.L2capSpec, Smp.Spec, Smp.Machine, Store.Bond, Uuid.Model, Store.BondConc, Store.Witness | Whole2, Coc | From the theorems of the partial properties they complete.; transition system of channels and credits; invariants | proved |
| C159 | Exactly which pairing method is used | linux/hci/smp/const.go, linux/hci/smp/context.go, linux/hci/smp/util.go | Att.Spec, Att.Model, Client.Spec, Client.Model, Hci.Coc, Hci.L2capSpec, Smp.Spec, Smp.Machine, Store.Bond, Uuid.Model, Store.BondConc, Store.Witness | Whole2, SmpMethod | From the theorems of the partial properties they complete.; finite table lifted to all bytes | proved |
| C160 | Exactly what Init sends | linux/hci/hci.go, linux/hci/params.go | Hci.InitSeq | InitSeq | The packets of the nine commands are computed; each call of send appends its packet or nothing; the masks are followed through the calls. | proved |
| C161 | The events the library reacts to are switched on | linux/hci/hci.go | Hci.InitSeq | InitSeq | The packets of the nine commands are computed; each call of send appends its packet or nothing; the masks are followed through the calls. | partial |
| C162 | Exactly what each received packet does | linux/hci/hci.go | Hci.HciPkt, Hci.ConnsSpec, Hci.AdvHist, Hci.Evt, Hci.EvtSpec, Uuid.Model, Adv.Model, Adv.Spec | PktEff | Case analysis over the dispatch, induction over the entries of Number Of Completed Packets. | proved |
| C163 | Indications end with their connection | linux/att/server.go | Att.IndClose | IndClose | Transition system on top of that of C60; invariant, and a measure that every step of the server itself decreases. | partial |
| C164 | DiscoverAndCacheProfile returns the peer's whole profile | cache/cache.go, linux/gatt/client.go | Client.CacheProf, Store.Witness | CacheProf | Composition of the discovery model with the cache model; induction over histories of calls with the invariant that every cached profile is the table of its peer; negative statements by composing the exact descriptions of single calls. | partial |
| C165 | Exactly what DiscoverAndCacheProfile does | linux/gatt/client.go | Client.CacheProf, Store.Witness | CacheProf | Composition of the discovery model with the cache model; induction over histories of calls with the invariant that every cached profile is the table of its peer; negative statements by composing the exact descriptions of single calls. | proved |
| C166 | Where stored bonds come from | linux/hci/smp/handler.go, linux/hci/smp/transport.go | Smp.Spec, Smp.Machine | SmpOrigin, SmpBond | induction over histories of messages: an invariant that gives the bond of the context an origin, and the four handlers that change it; Hoare logic over handlers, trace invariant | proved |
| C167 | The attribute table after any history of service calls | linux/att/db.go, linux/gatt/server.go | Att.Spec, Att.Model | GattHist | induction over histories of service calls: services with the number of CCCDs they have got, then the theorems about a table | proved |
| C168 | The bond store under failures and crashes, exactly | linux/hci/bond/manager.go | Store.Bond, Uuid.Model | BondFail, Bond | The file holds the bonds of the calls that took effect, for every history with failures; each call moves between four kinds of file states.; refinement of file + JSON laws to a partial map; failure and crash outcomes as environment | proved |
| C169 | What makes Pair return nil | linux/hci/smp/handlers.go, linux/hci/smp/manager.go | Smp.Spec, Smp.Machine, Hci.Conns, Hci.HciPkt, Hci.ConnsSpec, Hci.AdvHist, Hci.Evt, Hci.EvtSpec, Uuid.Model, Adv.Model, Adv.Spec, Store.Bond, Store.BondConc, Store.Witness, Hci.DialConn, Client.Async, Att.Indicate, Att.Spec, Att.Model, Client.SubSpec, Client.Loop | Exact, SmpPair, SmpLive | Unsuffixed companions of partial theorems: the part of the property that holds is a property of its own.; trace invariant; exact panic condition of every handler; trace invariant | proved |
| C170 | A connection's encryption is what the last Encryption Change event said | linux/hci/conn.go, linux/hci/hci.go | Smp.Spec, Smp.Machine, Hci.Conns, Hci.HciPkt, Hci.ConnsSpec, Hci.AdvHist, Hci.Evt, Hci.EvtSpec, Uuid.Model, Adv.Model, Adv.Spec, Store.Bond, Store.BondConc, Store.Witness, Hci.DialConn, Client.Async, Att.Indicate, Att.Spec, Att.Model, Client.SubSpec, Client.Loop | Exact, Conns | Unsuffixed companions of partial theorems: the part of the property that holds is a property of its own.; state machine over HCI packets; invariant of the connection table | proved |
| C171 | Concurrent bond calls that save no empty key are linearizable | linux/hci/bond/manager.go | Smp.Spec, Smp.Machine, Hci.Conns, Hci.HciPkt, Hci.ConnsSpec, Hci.AdvHist, Hci.Evt, Hci.EvtSpec, Uuid.Model, Adv.Model, Adv.Spec, Store.Bond, Store.BondConc, Store.Witness, Hci.DialConn, Client.Async, Att.Indicate, Att.Spec, Att.Model, Client.SubSpec, Client.Loop | Exact, BondConc | Unsuffixed companions of partial theorems: the part of the property that holds is a property of its own.; interleavings of lock/read/write steps; linearisation points | proved |
| C172 | With a prompt controller a successful Dial returns the dialled peer | linux/hci/gap.go, linux/hci/hci.go | Smp.Spec, Smp.Machine, Hci.Conns, Hci.HciPkt, Hci.ConnsSpec, Hci.AdvHist, Hci.Evt, Hci.EvtSpec, Uuid.Model, Adv.Model, Adv.Spec, Store.Bond, Store.BondConc, Store.Witness, Hci.DialConn, Client.Async, Att.Indicate, Att.Spec, Att.Model, Client.SubSpec, Client.Loop | Exact, DialConn | Unsuffixed companions of partial theorems: the part of the property that holds is a property of its own.; transition system of Dial, controller and event loop; invariants | proved |
| C173 | What a central answers | linux/att/client.go, linux/gatt/client.go | Smp.Spec, Smp.Machine, Hci.Conns, Hci.HciPkt, Hci.ConnsSpec, Hci.AdvHist, Hci.Evt, Hci.EvtSpec, Uuid.Model, Adv.Model, Adv.Spec, Store.Bond, Store.BondConc, Store.Witness, Hci.DialConn, Client.Async, Att.Indicate, Att.Spec, Att.Model, Client.SubSpec, Client.Loop | Exact, Async | Unsuffixed companions of partial theorems: the part of the property that holds is a property of its own.; transition system (reader, async queue, server goroutine, caller); invariants by induction over runs | proved |
| C174 | Indications succeed no more often than the peer confirms | linux/att/server.go | Smp.Spec, Smp.Machine, Hci.Conns, Hci.HciPkt, Hci.ConnsSpec, Hci.AdvHist, Hci.Evt, Hci.EvtSpec, Uuid.Model, Adv.Model, Adv.Spec, Store.Bond, Store.BondConc, Store.Witness, Hci.DialConn, Client.Async, Att.Indicate, Att.Spec, Att.Model, Client.SubSpec, Client.Loop | Exact, Indicate | Unsuffixed companions of partial theorems: the part of the property that holds is a property of its own.; transition system of indication, reader, confirmation, timeout; invariants | proved |
| C175 | After a successful write the CCCD is that of the active subscriptions | linux/gatt/client.go | Smp.Spec, Smp.Machine, Hci.Conns, Hci.HciPkt, Hci.ConnsSpec, Hci.AdvHist, Hci.Evt, Hci.EvtSpec, Uuid.Model, Adv.Model, Adv.Spec, Store.Bond, Store.BondConc, Store.Witness, Hci.DialConn, Client.Async, Att.Indicate, Att.Spec, Att.Model, Client.SubSpec, Client.Loop | Exact, Subscriptions | Unsuffixed companions of partial theorems: the part of the property that holds is a property of its own.; state machine over call histories; invariant | proved |
| C176 | The reply of a command is the controller's answer to this command | linux/hci/hci.go | Hci.CmdOwn | CmdOwn | the transition system of commands with a controller that answers each once; invariant with the calls whose answers are outstanding or on their way | partial |
| C177 | ReadRSSI returns the RSSI of its own connection | linux/att/client.go, linux/gatt/client.go, linux/hci/conn.go, linux/hci/hci.go | Hci.CmdOwn | CmdOwn | the transition system of commands with a controller that answers each once; invariant with the calls whose answers are outstanding or on their way | partial |
| C178 | Find By Type Value finds the services with a UUID | linux/att/db.go, linux/att/server.go | Client.Spec, Client.Model, Att.Spec, Att.Model | FindType | exact result of the search loop by induction; the declarations of a table are the list of its services | proved |
| C179 | Subscriptions between two devices of this library: values reach the subscribed handlers | handler.go, linux/att/db.go, linux/att/server.go, linux/gatt/client.go, linux/hci/conn.go | Client.AirSub | AirSub | composition of the subscription, CCCD, L2CAP and client models; simulation by a view with the active subscriptions, invariant over histories | proved |
| C180 | The host reveals its pairing nonce only after the peer has committed, and the nonce it committed to itself | linux/hci/smp/context.go, linux/hci/smp/handler.go, linux/hci/smp/transport.go | Smp.Spec, Smp.Machine | SmpNonce | relations over handlers: only a confirm value triggers a nonce, and the nonce in use opens the last confirm value sent; attacks as equations of histories | proved |
| C181 | Numeric comparison protects against a man in the middle | linux/hci/smp/context.go, linux/hci/smp/crypto.go, linux/hci/smp/handler.go, linux/hci/smp/transport.go | Smp.Spec, Smp.Machine | SmpNonce | relations over handlers: only a confirm value triggers a nonce, and the nonce in use opens the last confirm value sent; attacks as equations of histories | partial |
| C182 | Data given to a write handler stays the same | handler.go, linux/att/server.go | Att.Pipe, Att.ExecBuf | Kept, ExecBuf | the transition system of the two goroutines with shared buffers; invariant from the handling of a request to the next; invariant over all sequences of PDUs of the memory of the queue, tied to the specification of C155 | partial |
| C183 | Data given to a write handler is intact until the next request is handled | handler.go, linux/att/server.go | Att.Pipe | Kept | the transition system of the two goroutines with shared buffers; invariant from the handling of a request to the next | proved |
| C184 | What a Security Request of the peer does | linux/hci/conn.go, linux/hci/smp/handler.go, linux/hci/smp/manager.go | Smp.Spec, Smp.Machine | SmpSecReq | equations of the effects of one step from an arbitrary state | proved |
| C185 | Data of a queued write given to a handler is intact until the next Prepare Write | handler.go, linux/att/server.go | Att.ExecBuf, Att.CccdSpec, Att.Model, Att.Spec | ExecBuf, Queue | invariant over all sequences of PDUs of the memory of the queue, tied to the specification of C155; Every request of the other kinds is shown to keep table, queue and log (induction over the loops of the server); the writing requests are computed; induction over the sequence. | proved |
| C186 | The encryption key has the negotiated size | linux/hci/smp/handler.go, linux/hci/smp/manager.go | Smp.Spec, Smp.Machine | SmpKeySize | corollaries of the honest-exchange theorems with arbitrary size octets | partial |
| C187 | ServiceData lists all service data of an advertisement | linux/adv/packet.go, parser/parser.go, uuid.go | Uuid.Model, Adv.Model, Adv.Spec | Adv | functional model with panics; invariant of append; parser∘builder round trip by induction on records; independent TLV specification | partial |
| C188 | A connection is not closed because of an earlier connection | linux/hci/conn.go, linux/hci/hci.go | Hci.Readers | Readers | transition system over the connection table with one reader per connection; refinement to Conns, invariants about the position of each reader | partial |
| C189 | Data written on a connection reach only its peer | linux/hci/conn.go, linux/hci/hci.go | Hci.Links, Hci.Conns, Hci.HciPkt, Hci.ConnsSpec, Hci.AdvHist, Hci.Evt, Hci.EvtSpec, Uuid.Model, Adv.Model, Adv.Spec, Hci.Readers, Hci.L2cap, Hci.L2capSpec | Links, Links2 | transition system of host and controller; invariant relating connections, links and queued events; the same, with a second invariant for histories in which Close and reuse of handles do not overlap | partial |
| C190 | Writes go over the connection's link while it exists, and nowhere after Disconnected() | linux/hci/conn.go, linux/hci/hci.go | Hci.Links | Links | transition system of host and controller; invariant relating connections, links and queued events | proved |
| C191 | Data received on a connection come from its peer, whole and in order | linux/hci/conn.go, linux/hci/hci.go | Hci.Links | Links | transition system of host and controller; invariant relating connections, links and queued events | proved |
| C192 | Disconnected() tells the truth | linux/hci/conn.go, linux/hci/hci.go | Hci.Links, Hci.Conns, Hci.HciPkt, Hci.ConnsSpec, Hci.AdvHist, Hci.Evt, Hci.EvtSpec, Uuid.Model, Adv.Model, Adv.Spec, Hci.Readers, Hci.L2cap, Hci.L2capSpec | Links2, Links | the same, with a second invariant for histories in which Close and reuse of handles do not overlap; transition system of host and controller; invariant relating connections, links and queued events | partial |
| C193 | Close ends the connection's own link only | linux/hci/conn.go, linux/hci/hci.go | Hci.Links, Hci.Conns, Hci.HciPkt, Hci.ConnsSpec, Hci.AdvHist, Hci.Evt, Hci.EvtSpec, Uuid.Model, Adv.Model, Adv.Spec, Hci.Readers, Hci.L2cap, Hci.L2capSpec | Links2 | the same, with a second invariant for histories in which Close and reuse of handles do not overlap | partial |
| C194 | Concurrent use of a device's profile cache is linearizable, also across crashes | cache/cache.go, linux/gatt/client.go, linux/hci/option.go | Store.CacheConc | CacheConc | transition system of the lock, the file and crashes; linearization points in a history variable, invariant | proved |
| C195 | Devices that share a cache file do not lose profiles | cache/cache.go, linux/gatt/client.go, linux/hci/option.go | Store.CacheConc | CacheConc | transition system of the lock, the file and crashes; linearization points in a history variable, invariant | partial |
| C196 | Concurrent use of a bond manager is linearizable, also with failures and crashes | linux/hci/bond/manager.go | Store.BondCrash | BondCrash | transition system of the lock, the file, failures and crashes; linearization points in a history variable, invariant; corollaries from the sequential theorems | proved |
| C197 | Bond managers that share a file do not lose bonds | linux/hci/bond/manager.go | Store.BondCrash | BondCrash | transition system of the lock, the file, failures and crashes; linearization points in a history variable, invariant; corollaries from the sequential theorems | partial |
| C198 | ConnectionHandle tells connections apart | linux/gatt/client.go, linux/hci/conn.go, linux/hci/hci.go | Hci.ConnHandle | ConnHandle | from the invariant of the connection table | partial |
| C199 | The tables of the library are safe for concurrent use | cache/cache.go, linux/gatt/client.go, linux/gatt/server.go, linux/hci/bond/manager.go, linux/hci/coc.go, linux/hci/conn.go, linux/hci/gap.go, linux/hci/hci.go, linux/hci/signal.go, linux/hci/socket/socket.go | Locks.Check | Guard | programs of lock and variable steps for every function; a lock discipline checked for all paths of each function by evaluation, kept by all interleavings by an invariant; rank argument for deadlocks | proved |
| C200 | The library has no data races | cache/cache.go, linux/gatt/client.go, linux/gatt/server.go, linux/hci/bond/manager.go, linux/hci/coc.go, linux/hci/conn.go, linux/hci/gap.go, linux/hci/hci.go, linux/hci/signal.go, linux/hci/socket/socket.go | Locks.Check | Guard | programs of lock and variable steps for every function; a lock discipline checked for all paths of each function by evaluation, kept by all interleavings by an invariant; rank argument for deadlocks | partial |
| C201 | Goroutines never wait for each other's mutexes for ever | cache/cache.go, linux/gatt/client.go, linux/gatt/server.go, linux/hci/bond/manager.go, linux/hci/coc.go, linux/hci/conn.go, linux/hci/gap.go, linux/hci/hci.go, linux/hci/signal.go, linux/hci/socket/socket.go | Locks.Check | Guard | programs of lock and variable steps for every function; a lock discipline checked for all paths of each function by evaluation, kept by all interleavings by an invariant; rank argument for deadlocks | proved |
| C202 | A disconnection while data are written does not stop the adapter | linux/hci/buffer.go, linux/hci/conn.go, linux/hci/hci.go | Hci.Pool | PoolLive | the transition system of C30; steps of a waiting clean-up, decreasing measure, exact characterization of the hung states | partial |
| C203 | A credit-based channel object acts only on its own channel | linux/hci/coc.go | Hci.CocObj | CocObj | the table of C37 with the objects made so far; invariant, exact effect of every method on every object | partial |
| C204 | No MTU negotiation makes a client call crash | linux/att/client.go, linux/att/server.go, linux/hci/conn.go | Client.MtuHist | MtuHist | the client model run over histories of calls and of MTU requests of the peer; fold specification of the sizes, exact crash condition, induction on histories | partial |
| C205 | The goroutines of a dialled connection end with it | linux/att/client.go, linux/hci/conn.go, linux/hci/hci.go | Client.Ending | Ending | transition system of the five goroutines of a connection; invariant, decreasing measure, counting of unread packets, exact characterization of the leak | partial |
| C206 | The goroutines of an accepted connection end with it, after everything received is handled | linux/att/server.go, linux/device.go, linux/hci/conn.go, linux/hci/hci.go | Att.SrvEnd | SrvEnd | transition system of the three goroutines of an accepted connection; invariant on where every received PDU is, decreasing measure | partial |
| C207 | A failed DiscoverProfile leaves nothing false | linux/gatt/client.go | Client.Sim | FailedDisc | simulation with failures injected at any request; growth invariants of the loops | partial |
| C208 | What a client has discovered is true, whatever calls it made and whichever failed | linux/gatt/client.go | Client.History | DiscHist | invariant over histories of calls, each with failures injected at any request; simulation by the server without failures | partial |
| C209 | A connection's encryption state is that of its own link, also when handles are used again | linux/hci/conn.go, linux/hci/hci.go | Hci.LinkEnc | LinkEnc | transition system over that of the links; invariant on the place of each waiting report, refinement of the links model | proved |
| C210 | Commands made on a connection concern its own peer | linux/hci/conn.go, linux/hci/signal.go | Hci.LinkEnc | LinkEnc | transition system over that of the links; invariant on the place of each waiting report, refinement of the links model | partial |
| C211 | Requests in fragments are handled once complete, and the goroutines of the connection end | linux/att/server.go, linux/device.go, linux/hci/conn.go | Att.SrvFrag | SrvFrag | overlay of fragments on the transition system of the server; simulation by the model without fragments, decreasing measure | partial |
| C212 | The goroutines of a dialled connection end with it, with PDUs in any number of packets | linux/att/client.go, linux/hci/conn.go | Client.DialFrag | DialFrag | overlay of fragments on the transition system of the client; invariant and decreasing measure, count of complete PDUs | partial |
| C213 | What a central sends is handled octet for octet, whatever the packets, and then everything ends | linux/att/server.go, linux/hci/conn.go | Att.SrvBytes | SrvBytes | simulation by the transition system of the server; induction on frames over the L2CAP model | partial |
| C214 | The answers on a connection are those of the database to the requests in order, whatever the packets and the schedule | linux/att/server.go, linux/hci/conn.go | Att.SrvAnswers | SrvAnswers | composition of the goroutine model with the attribute server; invariant: state and answers are those of the sequential loop | partial |

## What is modelled

The code of the following files, up to the simplifications stated beside each definition. (A definition cites the lines it transcribes. One-line accessors of generated files, such as `SubeventCode()`, are read as byte offsets where they are used and have no definition of their own; generated accessors nobody in the library calls are left out.)

* `uuid.go`, `addr.go`, `sliceops/`, `linux/adv/*`, `parser/parser.go`, `profile.go`, `option.go` and the setters it uses;
* `linux/att/{db,attr,server,client}.go`, the codecs of `att_gen.go` that the server and client use;
* `linux/gatt/{client,server}.go`, `linux/device.go` (advertising, scanning, dialling, listening, services);
* `linux/hci/{hci,conn,gap,buffer,coc,signal,signal_gen,params,addr,adv,option…}.go`, `cmd/*_gen.go` (as a generated table), `evt/*` (the
  accessors the host uses), `h4/{frame,h4,connwithtimeout}.go`, `socket/socket.go`, `smp/*`;
* `bond/manager.go`, `cache/cache.go`; `gatt.go`'s `Connect`, `Find`, `Scan` goroutines.

Simplifications that run through the model:

* **Time.** There is no clock. A timer is an event that may come at any moment, so theorems hold for every timing. Where the code's
  behaviour depends on order relative to a deadline this is a hypothesis (H4's silence, C28, C114).
* **Scheduler and memory.** Steps are the statements between synchronisation points; a data race is visible only where the
  model splits the access (bond store C58, scan parameters C119, advertisement objects C117, descriptor numbers C110). The Go memory model is not modelled.
* **Logging** has no effect. Error texts are not modelled; the error's kind is.
* **Allocation** always succeeds; integers that the code keeps in `int` are unbounded where no overflow is possible.

## What is not modelled, and why

* `darwin/` (macOS XPC back end): at this commit it does not type-check against the package it implements (`darwin/device.go` calls a notification handler with one argument where `ble.NotificationHandler` takes two, and `Client.ReadRSSI` has another signature than the interface `ble.Client`), so there is no program to model. `examples/`, `log.go`: no semantic property of the library rests on them.
* `linux/tools/codegen`, templates: the generated files are modelled instead.
* The kernel's Bluetooth stack, the controller and the radio: environments that do whatever the steps allow; where a theorem needs
  a controller that keeps to the specification, the specification is a definition in the model (`Device.lean`, `Peripheral.lean`, `Scanning.lean`, `DialConn.lean`).
* Cryptographic strength: AES-CMAC, AES and P-256 are parameters (`Smp/Crypto.lean`, structure `Prims`); the theorems hold for every
  choice of them. C41 needs only that Diffie-Hellman commutes; C56's attack needs no break of any of them.
* The JSON library and the file system: `Store/File.lean` states the laws of encoding and decoding that are used; `Store/Witness.lean` shows that they can
  be met together (`json_exists`, `json_bonds`). File operations fail as the environment says, at any point.
* Wall-clock bounds ("within two seconds"): only that a timeout event ends the wait.
* `Locks/` has only the steps of each function on mutexes and shared variables, in any combination of its branches; functions of the application called by the library call none of it there (C131, C141, C149 are about those),
  `go f()` is a goroutine of its own, functions that send commands of two opcodes are given in parts, and variables that only one goroutine uses are left out.

## Trusted base

* Lean 4.33.0's kernel. The theorems depend at most on `propext`, `Quot.sound` and `Classical.choice`; no axiom is added, nothing is
  proved by compiled evaluation.
* The transcription from Go, which is by hand except for `Hci/CmdTable.lean`, written by `tools/gen_cmds.py` from `cmd_gen.go`. Every definition cites
  what it transcribes so that it can be compared.
* The tables of the Bluetooth Core specification in `Hci/CmdSpec.lean` (opcodes and parameter lengths), `Smp/Spec.lean` (pairing functions and method table) and
  `Hci/L2capSpec.lean`, `Adv/Spec.lean`, written from the specification, not from the code.

## How the theorems are tested

`seeded/` holds the wrong programs the theorems were tried on: `mutate.py` applies hand-written mutants, `auto.py` makes mutants of every definition (boundaries,
swapped operators, dropped updates, changed constants), `replay.py` runs survivors again after tightening. `LOG.jsonl` has one line per attempt. A survivor
is either a harmless edit (the reason is in the log) or led to a stronger theorem (named there).

## What was found

Properties a user would expect and that are *false* of the code, each with a theorem (see the notes in MANIFEST.json for the whole list): radio input that crashes
the process (C05, C12, C23, C32, C54), passkey pairing that any peer completes (C56), bonds forged by two unauthenticated messages (C42), bonds lost by an
interrupted write (C57), answers and confirmations credited to the wrong call after a timeout (C22, C60), a dial that returns another peer (C59), a single
connection that stalls the adapter (C66), advertising that stays off after one refusal (C100), socket retries that close foreign files (C108),
handlers that deadlock their client (C120), and others.
