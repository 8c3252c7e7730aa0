import Verif.Model.Outcome
import Mathlib.Algebra.Order.Ring.Int

/-!
# Sizes and arrays that are fixed at compile time or at run time

Models bsplines/include/bsplines/DynamicOrTemplateInt.hpp: `DynamicOrTemplateInt` (7-54), the macro `multiplyEigenSize` and
`operator *` (56-61), and `DynOrStaticSizedArray` (63-99); and the use of the arrays by `CalculationCache`
(bsplines/include/bsplines/implementation/UnitQuaternionBSplineImpl.hpp 31-75).

Simplifications: `int` has 32 bits and an overflow is `ub`; memory is unbounded, so that `new` fails for a negative size only; the
assertions of the debug build are compiled out; template arguments for which the C++ compiler rejects the program are not excluded
here.
-/

namespace Verif
namespace Sized

/-- `Eigen::Dynamic`. -/
def Dynamic : ℤ := -1

/-! ## Integers -/

/-- An object of `DynamicOrTemplateInt<T>`, hpp 17 and 34-36; the member `_value` is used for `T = Dynamic` only. -/
structure DInt (T : ℤ) where
  stored : ℤ

/-- The constructors, hpp 20-22 and 38-41. -/
def DInt.construct (T value : ℤ) : Outcome (DInt T) :=
  if T = Dynamic then (if value = Dynamic then .throws else .ok ⟨value⟩)
  else if value = T then .ok ⟨0⟩ else .throws

/-- `getValue` and the conversion to `int`, hpp 24-30 and 43-53. -/
def DInt.getValue {T : ℤ} (x : DInt T) : ℤ := if T = Dynamic then x.stored else T

/-- Values of the type `int`. -/
def IsInt (x : ℤ) : Prop := -2147483648 ≤ x ∧ x ≤ 2147483647

instance (x : ℤ) : Decidable (IsInt x) := inferInstanceAs (Decidable (_ ∧ _))

/-- `multiplyEigenSize` on template arguments, hpp 56 and 59. -/
def sizeProduct (a b : ℤ) : ℤ := if a = Dynamic ∨ b = Dynamic then Dynamic else a * b

/-- `multiplyEigenSize` on values, hpp 56 and 60. -/
def multiplyEigenSize (a b : ℤ) : Outcome ℤ :=
  if a = Dynamic ∨ b = Dynamic then .ok Dynamic else if IsInt (a * b) then .ok (a * b) else .ub

/-- `operator *`, hpp 58-61. -/
def DInt.mul {A B : ℤ} (a : DInt A) (b : DInt B) : Outcome (DInt (sizeProduct A B)) :=
  (multiplyEigenSize a.getValue b.getValue).bind (DInt.construct (sizeProduct A B))

/-! ## Arrays -/

variable {α : Type*}

/-- An object of `DynOrStaticSizedArray<T, N>`: the elements in place (hpp 64) or a pointer to a block (hpp 81).  `none` is an
element that has not been initialised. -/
inductive Arr (α : Type*) where
  | inline (cells : List (Option α))
  | pointer (block : ℕ)

/-- The heap, whose blocks are `none` once they are deleted, and the arrays in the order of their creation, `none` once they are
destroyed. -/
structure Mem (α : Type*) where
  blocks : List (Option (List (Option α)))
  arrays : List (Option (Arr α))

/-- What a program does with arrays: `create N size` is the constructor of `DynOrStaticSizedArray<T, N>`, `copy i` the copy
constructor, `write i k v` the assignment `a[k] = v`, `read i k` the expression `a[k]`, `destroy i` the destructor. -/
inductive Op (α : Type*) where
  | create (N size : ℤ)
  | copy (i : ℕ)
  | write (i : ℕ) (k : ℤ) (v : α)
  | read (i : ℕ) (k : ℤ)
  | destroy (i : ℕ)

/-- What the program observes.  `threwPointer`: the exception is a pointer (`throw new std::runtime_error`), `threwLength`: it is a
`std::bad_array_new_length`. -/
inductive Reply (α : Type*) where
  | done
  | got (v : α)
  | threwPointer
  | threwLength
  deriving DecidableEq

/-- `p[k]` read, hpp 69-77 and 89-97: outside the array or before initialisation the behaviour is undefined. -/
def readCell (cells : List (Option α)) (k : ℤ) : Outcome α :=
  if k < 0 then .ub else
  match cells[k.toNat]? with
  | some (some v) => .ok v
  | _ => .ub

/-- `p[k]` written, hpp 69-72 and 89-92. -/
def writeCell (cells : List (Option α)) (k : ℤ) (v : α) : Outcome (List (Option α)) :=
  if 0 ≤ k ∧ k.toNat < cells.length then .ok (cells.set k.toNat (some v)) else .ub

/-- One operation.  The use of a destroyed array or a deleted block and the second deletion of a block are undefined. -/
def Mem.step (m : Mem α) : Op α → Outcome (Mem α × Reply α)
  | .create N size =>
    if N = Dynamic then
      -- hpp 82-84: `new T[size]` comes first, so that the check of line 83 is never true
      if size < 0 then .ok (m, .threwLength)
      else .ok ({ blocks := m.blocks ++ [some (List.replicate size.toNat none)],
                  arrays := m.arrays ++ [some (.pointer m.blocks.length)] }, .done)
    -- hpp 65-67
    else if size = N then .ok ({ m with arrays := m.arrays ++ [some (.inline (List.replicate size.toNat none))] }, .done)
    else .ok (m, .threwPointer)
  -- the implicit copy constructor copies the members
  | .copy i =>
    match m.arrays[i]? with
    | some (some a) => .ok ({ m with arrays := m.arrays ++ [some a] }, .done)
    | _ => .ub
  | .write i k v =>
    match m.arrays[i]? with
    | some (some (.inline cells)) =>
      (writeCell cells k v).map fun cells' => ({ m with arrays := m.arrays.set i (some (.inline cells')) }, .done)
    | some (some (.pointer b)) =>
      match m.blocks[b]? with
      | some (some cells) => (writeCell cells k v).map fun cells' => ({ m with blocks := m.blocks.set b (some cells') }, .done)
      | _ => .ub
    | _ => .ub
  | .read i k =>
    match m.arrays[i]? with
    | some (some (.inline cells)) => (readCell cells k).map fun v => (m, .got v)
    | some (some (.pointer b)) =>
      match m.blocks[b]? with
      | some (some cells) => (readCell cells k).map fun v => (m, .got v)
      | _ => .ub
    | _ => .ub
  -- hpp 85-87
  | .destroy i =>
    match m.arrays[i]? with
    | some (some (.inline _)) => .ok ({ m with arrays := m.arrays.set i none }, .done)
    | some (some (.pointer b)) =>
      match m.blocks[b]? with
      | some (some _) => .ok ({ blocks := m.blocks.set b none, arrays := m.arrays.set i none }, .done)
      | _ => .ub
    | _ => .ub

/-- A program: the final memory and the replies. -/
def Mem.run (m : Mem α) : List (Op α) → Outcome (Mem α × List (Reply α))
  | [] => .ok (m, [])
  | op :: ops => (m.step op).bind fun r => (r.1.run ops).map fun r' => (r'.1, r.2 :: r'.2)

/-! ## The arrays of the calculation cache -/

/-- The template argument `NumVectors`, Impl 35-37. -/
def numVectorsArg (N : ℤ) : ℤ := if N = Dynamic then Dynamic else N - 1

/-- The constructor of `CalculationCache` as seen by its arrays, Impl 41-43 and 58-72, for a spline of order `order` whose template
argument is `N`: 0 is `localPhiVectors`, 1 is `localRiPoints`, 2 is `localControlVertices`.  `phi k`, `ri k`, `vert k` are the
values that are stored; `localPhiVectors[k]` is read to compute `localRiPoints[k]`. -/
def cacheProgram (N : ℤ) (order : ℕ) (phi ri vert : ℕ → α) : List (Op α) :=
  [.create (numVectorsArg N) ((order : ℤ) - 1), .create (numVectorsArg N) ((order : ℤ) - 1), .create N order, .write 2 0 (vert 0)] ++
  (List.range (order - 1)).flatMap fun k =>
    [.write 0 k (phi k), .write 2 ((k : ℤ) + 1) (vert (k + 1)), .read 0 k, .write 1 k (ri k)]

/-- The destructor of the cache: the members in reverse order. -/
def cacheDestroy : List (Op α) := [.destroy 2, .destroy 1, .destroy 0]

end Sized
end Verif
