## What is modelled

The code of the following files, up to the simplifications stated beside each definition. (A definition cites the lines it transcribes. One-line accessors of generated files, such as `SubeventCode()`, are read as byte offsets where they are used and have no definition of their own; generated accessors nobody in the library calls are left out.)

* `uuid.go`, `addr.go`, `sliceops/`, `linux/adv/*`, `parser/parser.go`, `profile.go`, `option.go` and the setters it uses;
* `linux/att/{db,attr,server,client}.go`, the codecs of `att_gen.go` that the server and client use;
* `linux/gatt/{client,server}.go`, `linux/device.go` (advertising, scanning, dialling, listening, services);
* `linux/hci/{hci,conn,gap,buffer,coc,signal,signal_gen,params,addr,adv,option…}.go`, `cmd/*_gen.go` (as a generated table), `evt/*` (the
  accessors the host uses), `h4/{frame,h4,connwithtimeout}.go`, `socket/socket.go`, `smp/*`;
* `bond/manager.go`, `cache/cache.go`; `gatt.go`'s `Connect`, `Find`, `Scan` goroutines.

Simplifications that run through the model:

* **Time.** There is no clock. A timer is an event that may come at any moment, so theorems hold for every timing. Where the code's
  behaviour depends on order relative to a deadline this is a hypothesis (H4's silence, C28, C114).
* **Scheduler and memory.** Steps are the statements between synchronisation points; a data race is visible only where the
  model splits the access (bond store C58, scan parameters C119, advertisement objects C117, descriptor numbers C110). The Go memory model is not modelled.
* **Logging** has no effect. Error texts are not modelled; the error's kind is.
* **Allocation** always succeeds; integers that the code keeps in `int` are unbounded where no overflow is possible.

## What is not modelled, and why

* `darwin/` (macOS XPC back end): at this commit it does not type-check against the package it implements (`darwin/device.go` calls a notification handler with one argument where `ble.NotificationHandler` takes two, and `Client.ReadRSSI` has another signature than the interface `ble.Client`), so there is no program to model. `examples/`, `log.go`: no semantic property of the library rests on them.
* `linux/tools/codegen`, templates: the generated files are modelled instead.
* The kernel's Bluetooth stack, the controller and the radio: environments that do whatever the steps allow; where a theorem needs
  a controller that keeps to the specification, the specification is a definition in the model (`Device.lean`, `Peripheral.lean`, `Scanning.lean`, `DialConn.lean`).
* Cryptographic strength: AES-CMAC, AES and P-256 are parameters (`Smp/Crypto.lean`, structure `Prims`); the theorems hold for every
  choice of them. C41 needs only that Diffie-Hellman commutes; C56's attack needs no break of any of them.
* The JSON library and the file system: `Store/File.lean` states the laws of encoding and decoding that are used; `Store/Witness.lean` shows that they can
  be met together (`json_exists`, `json_bonds`). File operations fail as the environment says, at any point.
* Wall-clock bounds ("within two seconds"): only that a timeout event ends the wait.
* `Locks/` has only the steps of each function on mutexes and shared variables, in any combination of its branches; functions of the application called by the library call none of it there (C131, C141, C149 are about those),
  `go f()` is a goroutine of its own, functions that send commands of two opcodes are given in parts, and variables that only one goroutine uses are left out.

## Trusted base

* Lean 4.33.0's kernel. The theorems depend at most on `propext`, `Quot.sound` and `Classical.choice`; no axiom is added, nothing is
  proved by compiled evaluation.
* The transcription from Go, which is by hand except for `Hci/CmdTable.lean`, written by `tools/gen_cmds.py` from `cmd_gen.go`. Every definition cites
  what it transcribes so that it can be compared.
* The tables of the Bluetooth Core specification in `Hci/CmdSpec.lean` (opcodes and parameter lengths), `Smp/Spec.lean` (pairing functions and method table) and
  `Hci/L2capSpec.lean`, `Adv/Spec.lean`, written from the specification, not from the code.

## How the theorems are tested

`seeded/` holds the wrong programs the theorems were tried on: `mutate.py` applies hand-written mutants, `auto.py` makes mutants of every definition (boundaries,
swapped operators, dropped updates, changed constants), `replay.py` runs survivors again after tightening. `LOG.jsonl` has one line per attempt. A survivor
is either a harmless edit (the reason is in the log) or led to a stronger theorem (named there).

## What was found

Properties a user would expect and that are *false* of the code, each with a theorem (see the notes in MANIFEST.json for the whole list): radio input that crashes
the process (C05, C12, C23, C32, C54), passkey pairing that any peer completes (C56), bonds forged by two unauthenticated messages (C42), bonds lost by an
interrupted write (C57), answers and confirmations credited to the wrong call after a timeout (C22, C60), a dial that returns another peer (C59), a single
connection that stalls the adapter (C66), advertising that stays off after one refusal (C100), socket retries that close foreign files (C108),
handlers that deadlock their client (C120), and others.
