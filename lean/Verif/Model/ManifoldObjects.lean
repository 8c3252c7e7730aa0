import Verif.Model.ManifoldSpline
import Verif.Model.EuclideanSpline

/-!
# Model of spline objects sharing a heap, and of `setControlVertices`

Source: `/repo/bsplines/include/bsplines/DiffManifoldBSpline.hpp` (`.hpp`) and
`/repo/bsplines/include/bsplines/implementation/DiffManifoldBSplineImpl.hpp` (`Impl`).

`Verif.Model.ManifoldSpline` treats a spline as a value.  In the program an object holds a shared pointer to its segment map and
three iterators into a map.  Here objects hold the address of a map and iterators tagged with the address of the map they point
into.
-/

namespace Verif

variable {K : Type*} [Field K] [LinearOrder K] {P V : Type*}

/-- The members of a spline object (.hpp 421-427); `map` is the pointer `_segments`, null after moving from the object. -/
structure SObj (K : Type*) where
  order : ℕ
  state : SplineState
  map : Option ℕ
  iters : Option (ℕ × Iters K)

/-- Objects by name, segment maps by address, and the next unused address. -/
structure World (K P : Type*) where
  objs : ℕ → Option (SObj K)
  heap : ℕ → List (Seg K P)
  next : ℕ

namespace World

/-- No objects. -/
def empty : World K P := ⟨fun _ => none, fun _ => [], 0⟩

/-- The spline an object stands for; `none` if there is no such object or its map pointer is null.  Iterators into another map
than the own one do not count. -/
def view (w : World K P) (o : ℕ) : Option (MSpline K P) :=
  (w.objs o).bind fun ob => ob.map.map fun m =>
    ⟨ob.order, w.heap m, ob.state, (ob.iters.filter fun x => decide (x.1 = m)).map Prod.snd⟩

/-- Store an object. -/
def setObj (w : World K P) (o : ℕ) (ob : SObj K) : World K P :=
  { w with objs := Function.update w.objs o (some ob) }

/-- The constructor, .hpp 185. -/
def create (o order : ℕ) (w : World K P) : World K P :=
  ⟨Function.update w.objs o (some ⟨order, .constructing, some w.next, none⟩), Function.update w.heap w.next [], w.next + 1⟩

/-- The copy constructor, .hpp 187, and `operator=`, Impl 16-26: a new map, and new iterators if the spline is initialised.
`keep` are the iterators before the call (the constructor has none). -/
def copyInto (keep : Option (ℕ × Iters K)) (dst src : ℕ) (w : World K P) : World K P :=
  match w.objs src with
  | none => w
  | some ob =>
    match ob.map with
    | none => w
    | some m =>
      let segs := w.heap m
      let fresh : MSpline K P := ⟨ob.order, segs, ob.state, none⟩
      let iters := match ob.state, fresh.initIterators with
        | .evaluable, .ok its => some (w.next, its)
        | _, _ => keep
      ⟨Function.update w.objs dst (some ⟨ob.order, ob.state, some w.next, iters⟩), Function.update w.heap w.next segs, w.next + 1⟩

/-- The copy constructor, .hpp 187. -/
def copy (dst src : ℕ) (w : World K P) : World K P := copyInto none dst src w

/-- `operator=`, Impl 16-26. -/
def assign (dst src : ℕ) (w : World K P) : World K P :=
  match w.objs dst with
  | none => w
  | some ob => copyInto ob.iters dst src w

/-- The move constructor, .hpp 188 (`= default`): pointer and iterators are taken over, the source is left with a null pointer. -/
def move (dst src : ℕ) (w : World K P) : World K P :=
  match w.objs src with
  | none => w
  | some ob => (w.setObj src { ob with map := none }).setObj dst ob

/-- A call of a member function on an object: it works on the map of the object and on its members. -/
def call (f : MSpline K P → MSpline K P) (o : ℕ) (w : World K P) : World K P :=
  match w.objs o with
  | none => w
  | some ob =>
    match ob.map, w.view o with
    | some m, some s =>
      let s' := f s
      ⟨Function.update w.objs o (some ⟨s'.order, s'.state, some m, s'.iters.map fun i => (m, i)⟩),
        Function.update w.heap m s'.segs, w.next⟩
    | _, _ => w

end World

/-! ### `setControlVertices` -/

/-- How `setControlVertices` reads its matrix, Impl 181-200: number of vertices and the entry of the matrix used for component `r`
of vertex `i`. -/
inductive MatrixMode
  | columns | rows | stackedRow | stackedColumn
  deriving DecidableEq

/-- The decision on the shape of the matrix, Impl 180-200. -/
def decodeShape (D rows cols : ℕ) : Outcome (ℕ × MatrixMode) :=
  if D = 1 then .ok (rows * cols, if rows = 1 then .columns else .rows)
  else if rows = D then .ok (rows * cols / D, .columns)
  else if cols = D then .ok (rows * cols / D, .rows)
  else if rows = 1 then (if rows * cols % D ≠ 0 then .throws else .ok (rows * cols / D, .stackedRow))
  else if cols = 1 then (if rows * cols % D ≠ 0 then .throws else .ok (rows * cols / D, .stackedColumn))
  else .throws

/-- Component `r` of vertex `i`, Impl 204-217. -/
def decodeEntry (D : ℕ) (A : ℕ → ℕ → K) (m : MatrixMode) (i r : ℕ) : K :=
  match m with
  | .columns => A r i
  | .rows => A i r
  | .stackedRow => A 0 (i * D + r)
  | .stackedColumn => A (i * D + r) 0

/-- Does the access for vertex `i` stay inside the matrix and deliver `D` components?  (Otherwise an Eigen assertion fails or memory
outside the matrix is read.) -/
def decodeInside (D rows cols : ℕ) (m : MatrixMode) (i : ℕ) : Bool :=
  match m with
  | .columns => decide (i < cols ∧ rows = D)
  | .rows => decide (i < rows ∧ cols = D)
  | .stackedRow => decide (i * D + D ≤ cols ∧ 1 ≤ rows)
  | .stackedColumn => decide (i * D + D ≤ rows ∧ 1 ≤ cols)

/-- `setControlVertices` with a start time, Impl 178-218; `project` is `projectIntoManifold`.  Simplification: an access outside the
matrix is reported for all vertices announced by the shape, also if the update stops earlier at the end of the map. -/
def MSpline.setControlVertices (D : ℕ) (project : (Fin D → K) → Fin D → K) (rows cols : ℕ) (A : ℕ → ℕ → K) (t : K) (offset : ℤ)
    (s : MSpline K (Fin D → K)) : Outcome Unit × MSpline K (Fin D → K) :=
  match decodeShape D rows cols with
  | .ub => (.ub, s)
  | .throws => (.throws, s)
  | .ok (n, m) =>
    match s.manipulateControlVertices (fun i _ => project fun r => decodeEntry D A m i r) n t offset with
    | (.ok (), s') => if (List.range n).all (decodeInside D rows cols m) then (.ok (), s') else (.ub, s)
    | r => r

end Verif
