import Verif.Basic
import Verif.Uuid.Model
set_option autoImplicit false

/-!
# A file, as linux/hci/bond/manager.go and cache/cache.go use it

Both stores keep nothing in memory: each call reads the whole file and writes it back with `ioutil.WriteFile`, which truncates the file and then writes. What the file system does with a call is an input
(`Env`). A crash of the process or of the machine during a write is the case `torn` in which nobody sees the result; the file is then what it holds at the next call.
-/

namespace Ble.Store

/-- Contents of the file; `none`: it does not exist. -/
abbrev File := Option Bytes

/-- What becomes of `ioutil.WriteFile`. -/
inductive Write where
  /-- written -/
  | done
  /-- the file could not be opened and is unchanged -/
  | refused
  /-- stopped after the truncation and `n` bytes: disk full, or a crash -/
  | torn (n : Nat)
deriving Repr, DecidableEq

/-- What the file system does during one call. -/
structure Env where
  /-- `os.Create` succeeds: bond/manager.go:157 -/
  create : Bool
  /-- `ioutil.ReadFile` succeeds: bond/manager.go:164, cache/cache.go:84 -/
  read : Bool
  write : Write

/-- No failure. -/
def Env.fine : Env := ⟨true, true, .done⟩

/-- `ioutil.WriteFile(path, out, 0644)`: bond/manager.go:191, cache/cache.go:104. The Boolean says that it returned nil. -/
def writeFile (w : Write) (f : File) (out : Bytes) : File × Bool :=
  match w with
  | .done => (some out, true)
  | .refused => (f, false)
  | .torn n => (some (out.take n), false)

/-- `encoding/json` (bond) and `json-iterator` (cache) for a map from texts to `α`. The libraries' code is not modelled: these are the laws the stores rely on. A map is a list of pairs in which the first entry of
a key counts; the order in which the libraries write entries is left open. -/
structure Json (α : Type) where
  enc : List (Text × α) → Bytes
  /-- outer `none`: not the JSON text of such a map; inner `none`: the JSON text `null`, for which `Unmarshal` leaves a nil map -/
  dec : Bytes → Option (Option (List (Text × α)))
  /-- A map is read back as it was written. -/
  roundtrip : ∀ m, ∃ m', dec (enc m) = some (some m') ∧ ∀ k, m'.lookup k = m.lookup k
  /-- At least the two braces are written. -/
  braces : ∀ m, 2 ≤ (enc m).length
  /-- An object whose closing brace is missing is not a JSON text. -/
  cut : ∀ m n, n < (enc m).length → dec ((enc m).take n) = none

theorem Json.nonempty {α : Type} (J : Json α) (m : List (Text × α)) : J.enc m ≠ [] := by
  intro h; have := J.braces m; rw [h] at this; simp at this

/-- Maps. -/
def put {α : Type} (m : List (Text × α)) (k : Text) (v : α) : List (Text × α) := (k, v) :: m.filter (fun e => e.1 != k)
def del {α : Type} (m : List (Text × α)) (k : Text) : List (Text × α) := m.filter (fun e => e.1 != k)

theorem lookup_del {α : Type} (m : List (Text × α)) (k j : Text) : (del m k).lookup j = if j = k then none else m.lookup j := by
  unfold del
  induction m with
  | nil => simp
  | cons e m ih =>
    obtain ⟨a, v⟩ := e
    rw [List.lookup_cons]
    by_cases hak : a = k
    · subst hak
      rw [List.filter_cons_of_neg (by simp), ih]
      by_cases hj : j = a
      · rw [if_pos hj, if_pos hj]
      · rw [if_neg hj, if_neg hj, beq_eq_false_iff_ne.2 hj]
    · rw [List.filter_cons_of_pos (by simpa using hak), List.lookup_cons, ih]
      by_cases hj : j = a
      · rw [hj, beq_self_eq_true, if_neg hak]; rw [if_neg hak]
      · rw [beq_eq_false_iff_ne.2 hj]

theorem lookup_put {α : Type} (m : List (Text × α)) (k j : Text) (v : α) : (put m k v).lookup j = if j = k then some v else m.lookup j := by
  have := lookup_del m k j
  unfold put
  rw [List.lookup_cons]
  by_cases hj : j = k
  · subst hj; simp
  · have hb : (j == k) = false := by simpa using hj
    rw [hb, if_neg hj]
    unfold del at this
    rw [this, if_neg hj]

end Ble.Store
