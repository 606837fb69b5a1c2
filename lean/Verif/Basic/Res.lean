/-!
# Outcomes of C++ code

The model never assumes undefined behaviour away: every modelled function that can reach it
returns `Res α`, and reaching it is the distinct outcome `Res.ub`.
-/

namespace CT

/-- Why an execution leaves the defined part of C++. -/
inductive UB where
  /-- access outside of the object a pointer points into -/
  | outOfBounds
  /-- shift amount not in `[0, width)` -/
  | badShift
  /-- signed integer overflow -/
  | signedOverflow
  /-- a value computed from memory that was never written -/
  | uninitRead
  /-- a conversion from floating point to an integer type that cannot hold the value -/
  | badConversion
  /-- a loop that never ends -/
  | diverges
  /-- a division by zero inside of a library call, which terminates the process -/
  | divByZero
  /-- a library call outside of its documented precondition -/
  | contract
  /-- an access through a pointer whose address does not suit its type (`Verif.Model.Align` only) -/
  | misaligned
  deriving DecidableEq, Repr

/-- Result of running a piece of C++: a value, or undefined behaviour. -/
inductive Res (α : Type) where
  | ok (a : α)
  | ub (why : UB)
  deriving DecidableEq, Repr

namespace Res

variable {α β γ : Type}

/-- Sequencing: undefined behaviour of the first part is undefined behaviour of the whole. -/
def bind (x : Res α) (f : α → Res β) : Res β :=
  match x with
  | ok a => f a
  | ub w => ub w

instance : Monad Res where
  pure := Res.ok
  bind := Res.bind

@[simp] theorem ok_bind (a : α) (f : α → Res β) : (Res.ok a >>= f) = f a := rfl
@[simp] theorem ub_bind (w : UB) (f : α → Res β) : (Res.ub w >>= f) = Res.ub w := rfl
@[simp] theorem pure_eq (a : α) : (pure a : Res α) = Res.ok a := rfl

@[simp] theorem ok_inj {a b : α} : (Res.ok a = Res.ok b) ↔ a = b := by
  constructor
  · intro h; cases h; rfl
  · rintro rfl; rfl

theorem bind_assoc (x : Res α) (f : α → Res β) (g : β → Res γ) :
    ((x >>= f) >>= g) = (x >>= fun a => f a >>= g) := by
  cases x <;> rfl

instance : LawfulMonad Res where
  map_const := rfl
  id_map x := by cases x <;> rfl
  seqLeft_eq x y := by cases x <;> cases y <;> rfl
  seqRight_eq x y := by cases x <;> cases y <;> rfl
  pure_seq _ x := by cases x <;> rfl
  bind_pure_comp _ x := by cases x <;> rfl
  bind_map x y := by cases x <;> cases y <;> rfl
  pure_bind _ _ := rfl
  bind_assoc x f g := by cases x <;> rfl

theorem bind_eq_ok {x : Res α} {f : α → Res β} {b : β} (h : (x >>= f) = Res.ok b) :
    ∃ a, x = Res.ok a ∧ f a = Res.ok b := by
  cases x with
  | ok a => exact ⟨a, rfl, h⟩
  | ub w => cases h

/-- The execution reaches undefined behaviour. -/
def isUB : Res α → Bool
  | ok _ => false
  | ub _ => true

@[simp] theorem isUB_ok (a : α) : (Res.ok a).isUB = false := rfl
@[simp] theorem isUB_ub (w : UB) : (Res.ub w : Res α).isUB = true := rfl

end Res
end CT
