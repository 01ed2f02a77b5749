/-!
# Results with an explicit panic value

`Res E α` models a Rust function returning `Result<α, E>` that may also panic (failed `assert!`, `unwrap` on `None`,
index out of bounds, unbounded loop, …).
-/

set_option autoImplicit false

namespace Verif

/-- `Ok` / `Err` / panic. -/
inductive Res (E α : Type) where
  | ok (a : α)
  | err (e : E)
  | panic
  deriving DecidableEq, Repr

namespace Res
variable {E α β : Type}

/-- Sequencing (the `?` operator, with panics propagating). -/
def bind (r : Res E α) (f : α → Res E β) : Res E β :=
  match r with
  | ok a => f a
  | err e => err e
  | panic => panic

instance : Monad (Res E) where
  pure := ok
  bind := bind

@[simp] theorem pure_eq (a : α) : (pure a : Res E α) = ok a := rfl
@[simp] theorem ok_bind (a : α) (f : α → Res E β) : ((ok a : Res E α) >>= f) = f a := rfl
@[simp] theorem err_bind (e : E) (f : α → Res E β) : ((err e : Res E α) >>= f) = err e := rfl
@[simp] theorem panic_bind (f : α → Res E β) : ((panic : Res E α) >>= f) = panic := rfl

/-- `assert!`. -/
def assert (b : Bool) : Res E Unit := if b then ok () else panic

@[simp] theorem assert_true : (assert true : Res E Unit) = ok () := rfl
@[simp] theorem assert_false : (assert false : Res E Unit) = panic := rfl

theorem bind_eq_ok {r : Res E α} {f : α → Res E β} {b : β} :
    (r >>= f) = ok b ↔ ∃ a, r = ok a ∧ f a = ok b := by
  cases r <;> simp

/-- `Option::unwrap` / `expect`. -/
def unwrap (o : Option α) : Res E α := match o with | some a => ok a | none => panic

@[simp] theorem unwrap_some (a : α) : (unwrap (some a) : Res E α) = ok a := rfl

end Res
end Verif
