/-!
# Outcomes shared by all parts of the model

The C code can finish normally, fail an `assert` (or call `exit`), run into undefined behaviour, or
run for ever.  The model keeps these apart.
-/

namespace Tiny

/-- Outcome of a modelled C function.
* `ok a`    – the function returned `a`
* `abort`   – an `assert` failed, or the process called `exit`/`abort`
* `ub`      – undefined behaviour in C (out-of-bounds access, NULL dereference, ...)
* `limit`   – a fixed-size table of the machine is full: the operand stack (the C code then writes past
              the array, undefined behaviour) or the frame stack (the C code fails an `assert`);
              kept apart so that statements can say "unless the machine's limits are exceeded"
* `timeout` – the fuel given to a loop ran out (no C counterpart: stands for "still running"). -/
inductive Res (α : Type) where
  | ok (a : α)
  | abort
  | ub
  | limit
  | timeout
deriving DecidableEq, Repr

namespace Res

/-- Sequencing of C statements: stop at the first abnormal outcome. -/
@[inline] def bind {α β : Type} (x : Res α) (f : α → Res β) : Res β :=
  match x with
  | ok a => f a
  | abort => abort
  | ub => ub
  | limit => limit
  | timeout => timeout

instance : Monad Res where
  pure := ok
  bind := bind

@[simp] theorem bind_ok {α β : Type} (a : α) (f : α → Res β) : (Res.ok a >>= f) = f a := rfl
@[simp] theorem bind_abort {α β : Type} (f : α → Res β) : ((Res.abort : Res α) >>= f) = .abort := rfl
@[simp] theorem bind_ub {α β : Type} (f : α → Res β) : ((Res.ub : Res α) >>= f) = .ub := rfl
@[simp] theorem bind_limit {α β : Type} (f : α → Res β) :
    ((Res.limit : Res α) >>= f) = .limit := rfl
@[simp] theorem bind_timeout {α β : Type} (f : α → Res β) :
    ((Res.timeout : Res α) >>= f) = .timeout := rfl
@[simp] theorem pure_eq {α : Type} (a : α) : (pure a : Res α) = .ok a := rfl

theorem bind_eq_ok {α β : Type} {x : Res α} {f : α → Res β} {b : β} :
    (x >>= f) = .ok b ↔ ∃ a, x = .ok a ∧ f a = .ok b := by
  cases x <;> simp

/-- `assert(c)`. -/
def assert (c : Bool) : Res Unit := if c then .ok () else .abort

end Res

end Tiny
