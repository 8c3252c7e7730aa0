import Verif.Props.ManifoldUpdate
import Verif.Model.OptSpline

/-!
# Model: pointers to design variables and their references to the manifold

Source: `/repo/aslam_splines/include/aslam/splines/OPTBSpline.hpp` (cited as `.hpp`),
`/repo/bsplines/include/bsplines/implementation/DiffManifoldBSplineImpl.hpp` (`Impl`) and
`/repo/bsplines/include/bsplines/DiffManifoldBSpline.hpp` (`Base`).

Every segment of an optimisable spline holds a reference `_manifold`, .hpp 65, to the member `_manifold` of the spline object that created
it (Impl 72-74).  Segments are copied with the map when spline objects are copied or assigned (Base 187, Impl 20), and their references
with them.  Here spline objects have serial numbers, and every segment the number of the object whose manifold it refers to.

Simplifications: addresses and serial numbers are not used again, so that what dangles once dangles for ever.  The map has no other owners
than the spline object (`_segments` is a shared pointer but is never handed out).
-/

namespace Verif

variable {K : Type*} [Field K] [LinearOrder K] {P V : Type*}

open MSpline

/-- Spline objects; `life` is the serial number of the object of a name, `born` the next one, `owner m k` the serial number of the object
whose manifold the segment with key `k` in the map at `m` refers to. -/
structure RefWorld (K P : Type*) where
  base : World K P
  life : ℕ → ℕ
  born : ℕ
  owner : ℕ → K → ℕ

namespace RefWorld

/-- No objects. -/
def empty : RefWorld K P := ⟨World.empty, fun _ => 0, 0, fun _ _ => 0⟩

/-- The segment map of an object. -/
def addr (w : RefWorld K P) (o : ℕ) : Option ℕ := (w.base.objs o).bind SObj.map

/-- The keys in a map. -/
def keysAt (w : RefWorld K P) (m : ℕ) : List K := (w.base.heap m).map Seg.knot

/-- The map at an address exists. -/
def Live (w : RefWorld K P) (m : ℕ) : Prop := ∃ o, w.addr o = some m

/-- The object of a serial number exists. -/
def Alive (w : RefWorld K P) (n : ℕ) : Prop := ∃ o, (w.base.objs o).isSome ∧ w.life o = n

/-- The constructor, .hpp 148, Base 185.  (An object of the same name is destroyed.) -/
def create (o order : ℕ) (w : RefWorld K P) : RefWorld K P :=
  ⟨World.create o order w.base, Function.update w.life o w.born, w.born + 1, w.owner⟩

/-- The copy constructor, .hpp 153-155, Base 187: a new object, but segments that refer to the manifold they referred to. -/
def copy (dst src : ℕ) (w : RefWorld K P) : RefWorld K P :=
  match w.addr src with
  | none => w
  | some m => ⟨World.copy dst src w.base, Function.update w.life dst w.born, w.born + 1, Function.update w.owner w.base.next (w.owner m)⟩

/-- `operator=`, Impl 16-26: the same object with a new map. -/
def assign (dst src : ℕ) (w : RefWorld K P) : RefWorld K P :=
  match w.base.objs dst, w.addr src with
  | some _, some m => ⟨World.assign dst src w.base, w.life, w.born, Function.update w.owner w.base.next (w.owner m)⟩
  | _, _ => w

/-- A call on an object: new segments refer to its manifold (`createSegmentData`, Impl 72-74). -/
def call (M : Mfd K P V) (o : ℕ) (c : Call K P) (w : RefWorld K P) : RefWorld K P :=
  match w.addr o with
  | none => w
  | some m => ⟨World.call (fun s => (c.run M s).2) o w.base, w.life, w.born,
      Function.update w.owner m fun k => if k ∈ w.keysAt m then w.owner m k else w.life o⟩

/-- The destructor. -/
def destroy (o : ℕ) (w : RefWorld K P) : RefWorld K P :=
  { w with base := { w.base with objs := Function.update w.base.objs o none } }

/-- Change the vertex of a segment. -/
def write (x : ℕ × K) (f : P → P) (w : RefWorld K P) : RefWorld K P :=
  { w with base := OptWorld.writeThrough f x w.base }

open Classical in
/-- `updateImplementation`, .hpp 77-84, through a pointer to a design variable: undefined if the segment is gone or if the object whose
manifold it refers to is. -/
noncomputable def update (G : LieGrp P V) (x : ℕ × K) (v : V) (w : RefWorld K P) : Outcome Unit × RefWorld K P :=
  if w.Live x.1 ∧ x.2 ∈ w.keysAt x.1 then
    if w.Alive (w.owner x.1 x.2) then (.ok (), w.write x fun p => G.update p v) else (.ub, w)
  else (.ub, w)

end RefWorld

/-- What a program can do.  (Moving copies, as the copy constructor is declared.) -/
inductive ROp (K P : Type*)
  | create (o order : ℕ)
  | copy (dst src : ℕ)
  | assign (dst src : ℕ)
  | call (o : ℕ) (c : Call K P)
  | write (x : ℕ × K) (f : P → P)
  | destroy (o : ℕ)

/-- Run an operation. -/
def ROp.run (M : Mfd K P V) : ROp K P → RefWorld K P → RefWorld K P
  | .create o k, w => w.create o k
  | .copy d s, w => w.copy d s
  | .assign d s, w => w.assign d s
  | .call o c, w => w.call M o c
  | .write x f, w => w.write x f
  | .destroy o, w => w.destroy o

end Verif
