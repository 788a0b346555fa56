import Verif.Num

/-
Two computations that fail alike or succeed with related results.
-/

namespace Verif

/-- Both fail with the same error, or both succeed with related results. -/
def Alike {α : Type} (r : α → α → Prop) : R α → R α → Prop
  | .ok a, .ok b => r a b
  | .error e, .error e' => e = e'
  | _, _ => False

theorem Alike.bind {α β : Type} {r : β → β → Prop} {x : R α} {f g : α → R β}
    (h : ∀ v, x = .ok v → Alike r (f v) (g v)) : Alike r (x >>= f) (x >>= g) := by
  cases x with
  | error e => exact rfl
  | ok v => exact h v rfl

theorem Alike.bind2 {α β : Type} {q : α → α → Prop} {r : β → β → Prop} {x y : R α} {f g : α → R β}
    (hx : Alike q x y) (h : ∀ v w, q v w → Alike r (f v) (g w)) : Alike r (x >>= f) (y >>= g) := by
  cases x with
  | error e =>
    cases y with
    | error e' => exact hx
    | ok v => exact hx.elim
  | ok v =>
    cases y with
    | error e' => exact hx.elim
    | ok w => exact h v w hx

end Verif
