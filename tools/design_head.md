# Formal model of rigado/ble in Lean 4 — design

## Approach

The Go sources in /repo are read as text and transcribed, function by function, into small total computable Lean functions
under `lean/Verif/`. For each area there is

* a **model** file (`Verif/<Area>/*.lean`): definitions, each citing the `/repo` file and lines it models and saying where it simplifies;
* where useful a **specification** (`*Spec.lean`, or the section "Specification" at the head of the property file): the small
  independent vocabulary in which the properties are stated;
* **lemma** files;
* a **property** file (`Verif/Props/<Area>.lean`): the theorems named in MANIFEST.json, each with an `example` or an
  `…_example` theorem that a concrete non-trivial case meets its hypotheses.

Conventions:

* A Go function that can return an error, panic (index or slice out of range, nil dereference, close of a closed channel,
  division by zero) or never return is modelled in the outcome type `Go ε α = ok a | err e | panic` (`Verif/Basic.lean`), so that
  run-time panics are *visible results* and not totalised away. Loops that may not end take fuel, and the theorems say which fuel is
  enough, or that none is.
* Bytes are `UInt8`. Handles, lengths and credits are `Nat` with an explicit `% 65536` where the Go type is `uint16` and
  wrap-around is possible, or `UInt16`/`UInt64` where the arithmetic matters. Text is a list of characters.
* Goroutines, locks and channels are transition systems: a step function `State → Event → Option State` (`none`: the step is not
  possible now) and runs `runT` (`Verif/Trans.lean`). A theorem about a run holds for every schedule. "Returns" is proved as:
  in every reachable state some step of the program itself is possible until it is finished, and a measure bounds the number of steps.
* Where the code violates a property the negation is proved, as generally as possible (an exact condition `…_iff`, or for all
  values of a parameter), and the part that holds is proved under a name ending in `_partial`. For a claim marked *partial* the note
  in MANIFEST.json says what is missing and whether the rest is false of the code. Claims C70–C96 restate the parts
  that hold as properties of their own, proved in full.

## Plan per property
