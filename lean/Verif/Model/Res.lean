/-! Outcomes of modelled C code. -/
namespace Pas

/-- Result of running a piece of C code: a normal result, undefined behaviour
(`ub`: out-of-bounds access, division by zero, bad shift count, signed overflow),
or a loop that never terminates (`hang`).  Not a part of /repo: the outcomes of a C function. -/
inductive Res (α : Type) where
  | ok (a : α)
  | ub
  | hang
deriving DecidableEq, Repr

namespace Res

/-- Sequencing. -/
protected def bind {α β : Type} : Res α → (α → Res β) → Res β
  | ok a, f => f a
  | ub, _ => ub
  | hang, _ => hang

instance : Monad Res where
  pure := ok
  bind := Res.bind

@[simp] theorem ok_bind {α β : Type} (a : α) (f : α → Res β) : (ok a >>= f) = f a := rfl
@[simp] theorem ub_bind {α β : Type} (f : α → Res β) : ((ub : Res α) >>= f) = ub := rfl
@[simp] theorem hang_bind {α β : Type} (f : α → Res β) : ((hang : Res α) >>= f) = hang := rfl
@[simp] theorem pure_eq {α : Type} (a : α) : (pure a : Res α) = ok a := rfl

theorem bind_eq_ok {α β : Type} {x : Res α} {f : α → Res β} {b : β} :
    (x >>= f) = ok b ↔ ∃ a, x = ok a ∧ f a = ok b := by
  cases x <;> simp

instance : LawfulMonad Res := LawfulMonad.mk' _
  (id_map := by intro α x; cases x <;> rfl)
  (pure_bind := by intros; rfl)
  (bind_assoc := by intro α β γ x f g; cases x <;> rfl)

end Res
end Pas
