/-!
# Outcome of a C++ call

A call either returns a value, throws a C++ exception, or has undefined behaviour
(out of range access, dereferencing an end iterator, …).  Undefined behaviour is a
distinct outcome so that theorems have to exclude it explicitly.
-/

namespace Verif

/-- Result of a modelled C++ call. -/
inductive Outcome (α : Type _) where
  /-- normal return -/
  | ok (a : α)
  /-- a C++ exception (`SM_ASSERT_*` in release builds, `SM_THROW`) -/
  | throws
  /-- undefined behaviour -/
  | ub
  deriving Repr

namespace Outcome

instance {α : Type _} [DecidableEq α] : DecidableEq (Outcome α)
  | ok a, ok b => decidable_of_iff (a = b) ⟨fun h => h ▸ rfl, fun h => ok.inj h⟩
  | throws, throws => isTrue rfl
  | ub, ub => isTrue rfl
  | ok _, throws => isFalse (fun h => nomatch h)
  | ok _, ub => isFalse (fun h => nomatch h)
  | throws, ok _ => isFalse (fun h => nomatch h)
  | throws, ub => isFalse (fun h => nomatch h)
  | ub, ok _ => isFalse (fun h => nomatch h)
  | ub, throws => isFalse (fun h => nomatch h)

/-- Sequencing of calls: exceptions and undefined behaviour propagate. -/
def bind {α β : Type _} : Outcome α → (α → Outcome β) → Outcome β
  | ok a, f => f a
  | throws, _ => throws
  | ub, _ => ub

/-- Apply a pure function to the returned value. -/
def map {α β : Type _} (f : α → β) : Outcome α → Outcome β
  | ok a => ok (f a)
  | throws => throws
  | ub => ub

/-- The returned value, or `d` if the call did not return. -/
def getD {α : Type _} : Outcome α → α → α
  | ok a, _ => a
  | throws, d => d
  | ub, d => d

@[simp] theorem getD_ok {α : Type _} (a d : α) : (ok a).getD d = a := rfl
@[simp] theorem bind_ok {α β : Type _} (a : α) (f : α → Outcome β) : (ok a).bind f = f a := rfl
@[simp] theorem bind_throws {α β : Type _} (f : α → Outcome β) : (throws : Outcome α).bind f = throws := rfl
@[simp] theorem bind_ub {α β : Type _} (f : α → Outcome β) : (ub : Outcome α).bind f = ub := rfl
@[simp] theorem map_ok {α β : Type _} (a : α) (f : α → β) : (ok a).map f = ok (f a) := rfl
@[simp] theorem map_throws {α β : Type _} (f : α → β) : (throws : Outcome α).map f = throws := rfl
@[simp] theorem map_ub {α β : Type _} (f : α → β) : (ub : Outcome α).map f = ub := rfl

theorem bind_eq_ok {α β : Type _} {o : Outcome α} {f : α → Outcome β} {b : β} :
    o.bind f = ok b ↔ ∃ a, o = ok a ∧ f a = ok b := by
  cases o <;> simp

end Outcome
end Verif
