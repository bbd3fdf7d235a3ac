import Verif.Smp.Handlers
set_option autoImplicit false

/-! # A small logic for handlers: relations between the state before and after, and the effects -/

namespace Ble.Smp

variable {P : Prims} {α β : Type}

/-- A relation between the context before, the context after, and the effects, that composes. -/
structure Rel (P : Prims) where
  rel : Ctx P → Ctx P → List Eff → Prop
  refl : ∀ c, rel c c []
  trans : ∀ {a b c v w}, rel a b v → rel b c w → rel a c (v ++ w)

/-- A handler satisfies a relation whatever it returns. -/
structure Holds (R : Rel P) (e : Env P) (x : M P α) : Prop where
  app : ∀ c, R.rel c (x e c).1 (x e c).2.1

namespace Holds

variable {R : Rel P} {e : Env P}

theorem bind {x : M P α} {f : α → M P β} (hx : Holds R e x) (hf : ∀ a, Holds R e (f a)) : Holds R e (x >>= f) := by
  constructor
  intro c
  have h1 := hx.app c
  rw [M.bind_app]
  rcases hr : x e c with ⟨c1, w1, o⟩
  rw [hr] at h1
  cases o with
  | ok a => exact R.trans h1 ((hf a).app c1)
  | err u => exact h1
  | panic => exact h1

theorem pure (a : α) : Holds R e (Pure.pure a : M P α) := ⟨fun c => R.refl c⟩
theorem get : Holds R e (M.get : M P (Ctx P)) := ⟨fun c => R.refl c⟩
theorem env : Holds R e (M.env : M P (Env P)) := ⟨fun c => R.refl c⟩
theorem fail : Holds R e (M.fail : M P α) := ⟨fun c => R.refl c⟩
theorem panic : Holds R e (M.panic : M P α) := ⟨fun c => R.refl c⟩
theorem lift (g : Go Unit α) : Holds R e (M.lift g : M P α) := ⟨fun c => R.refl c⟩
theorem ite {p : Prop} [Decidable p] {x y : M P α} (hx : Holds R e x) (hy : Holds R e y) : Holds R e (if p then x else y) := by
  split <;> assumption
theorem modify {f : Ctx P → Ctx P} (h : ∀ c, R.rel c (f c) []) : Holds R e (M.modify f) := ⟨h⟩
theorem emit {x : Eff} (h : ∀ c, R.rel c c [x]) : Holds R e (M.emit x : M P Unit) := ⟨h⟩

end Holds

/-- Goes through a handler; leaves the goals about `modify` and `emit`. -/
macro "holds" : tactic => `(tactic| with_reducible repeat' (first
  | exact Holds.pure _ | exact Holds.get | exact Holds.env | exact Holds.fail | exact Holds.panic | exact Holds.lift _ | (first | (apply_assumption; done))
  | apply Holds.modify | apply Holds.emit | apply Holds.bind | apply Holds.ite | (intro x; show Holds _ _ _) | split))

end Ble.Smp
