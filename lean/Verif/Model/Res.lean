/-!
Outcome of running a piece of modelled Rust code.
-/
set_option autoImplicit false

namespace Oak

/-- Outcome of a modelled Rust computation.  `panic` is a Rust panic (failed `assert!`, `unwrap`/`expect` on
`None`, out-of-boundary slice); `stuck` is a program rustc would have rejected (unbound variable, wrong shape);
`timeout` means that the fuel given to the evaluator was not sufficient (it never stands for a result of the program). -/
inductive Res (α : Type) where
  | ok (a : α)
  | panic
  | stuck
  | timeout
deriving Repr, DecidableEq

namespace Res
variable {α β γ : Type}

/-- Sequencing of Rust computations. -/
def bind : Res α → (α → Res β) → Res β
  | .ok a, f => f a
  | .panic, _ => .panic
  | .stuck, _ => .stuck
  | .timeout, _ => .timeout

instance : Monad Res where
  pure := Res.ok
  bind := Res.bind

@[simp] theorem bind_ok (a : α) (f : α → Res β) : (Res.ok a >>= f) = f a := rfl
@[simp] theorem bind_panic (f : α → Res β) : ((Res.panic : Res α) >>= f) = .panic := rfl
@[simp] theorem bind_stuck (f : α → Res β) : ((Res.stuck : Res α) >>= f) = .stuck := rfl
@[simp] theorem bind_timeout (f : α → Res β) : ((Res.timeout : Res α) >>= f) = .timeout := rfl
@[simp] theorem pure_eq (a : α) : (pure a : Res α) = .ok a := rfl

@[simp] theorem bind_assoc (x : Res α) (f : α → Res β) (g : β → Res γ) :
    (x >>= f) >>= g = x >>= fun a => f a >>= g := by cases x <;> rfl

@[simp] theorem bind_ok_right (x : Res α) : (x >>= fun a => Res.ok a) = x := by cases x <;> rfl

theorem bind_eq_ok {x : Res α} {f : α → Res β} {b : β} (h : (x >>= f) = .ok b) :
    ∃ a, x = .ok a ∧ f a = .ok b := by
  cases x with
  | ok a => exact ⟨a, rfl, h⟩
  | panic => cases h
  | stuck => cases h
  | timeout => cases h

/-- Rust's `assert!`. -/
def assert (b : Bool) : Res Unit := if b then .ok () else .panic

@[simp] theorem assert_true : assert true = .ok () := rfl
@[simp] theorem assert_false : assert false = .panic := rfl

end Res
end Oak
