/-!
# Outcomes of a Go computation

`Res α` is the outcome of a Go function that may panic or loop: it returns a value, panics, or has not
finished within the fuel given to its loops.
-/
namespace Verif

inductive Res (α : Type u) where
  /-- normal return -/
  | ok (a : α)
  /-- a run-time panic (index out of range, nil dereference, explicit `panic`) -/
  | panic
  /-- the loop fuel ran out: the Go code is still running -/
  | fuel
  deriving DecidableEq, Repr

namespace Res

def bind {α : Type u} {β : Type v} : Res α → (α → Res β) → Res β
  | ok a, f => f a
  | panic, _ => panic
  | fuel, _ => fuel

instance : Monad Res where
  pure := ok
  bind := bind

/-- A slice access `s[i]`: panics when out of range. -/
def ofOption {α : Type u} : Option α → Res α
  | some a => ok a
  | none => panic

def map' {α : Type u} {β : Type v} (f : α → β) : Res α → Res β
  | ok a => ok (f a)
  | panic => panic
  | fuel => fuel

@[simp] theorem bind_ok {α β : Type u} (a : α) (f : α → Res β) : (ok a >>= f) = f a := rfl
@[simp] theorem bind_panic {α β : Type u} (f : α → Res β) : (panic >>= f) = panic := rfl
@[simp] theorem bind_fuel {α β : Type u} (f : α → Res β) : (fuel >>= f) = fuel := rfl
@[simp] theorem pure_eq {α : Type u} (a : α) : (pure a : Res α) = ok a := rfl
@[simp] theorem ofOption_some {α : Type u} (a : α) : ofOption (some a) = ok a := rfl
@[simp] theorem ofOption_none {α : Type u} : ofOption (none : Option α) = panic := rfl

theorem bind_eq_ok {α β : Type u} {x : Res α} {f : α → Res β} {b : β} :
    (x >>= f) = ok b ↔ ∃ a, x = ok a ∧ f a = ok b := by
  cases x <;> simp

theorem ofOption_eq_ok {α : Type u} {x : Option α} {a : α} : ofOption x = ok a ↔ x = some a := by
  cases x <;> simp

end Res

/-- Go slice indexing with an `int` index: negative or too large indices panic. -/
def goGet {α : Type u} (s : List α) (i : Int) : Res α :=
  if i < 0 then .panic else Res.ofOption s[i.toNat]?

/-- Go slice update `s[i] = v`. -/
def goSet {α : Type u} (s : List α) (i : Int) (v : α) : Res (List α) :=
  if 0 ≤ i ∧ i.toNat < s.length then .ok (s.set i.toNat v) else .panic

end Verif
