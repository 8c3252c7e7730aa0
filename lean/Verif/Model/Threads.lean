import Verif.Model.Scripts

/-!
# Model: several threads that use expression nodes at once

Source: `/repo/aslam_splines/include/aslam/splines/OPTBSpline.hpp` 186-241 (cited as `.hpp`),
`/repo/aslam_splines/include/aslam/splines/implementation/OPTBSplineImpl.hpp` 60-180 (cited as `Impl`).

The methods of expression nodes are `const` and an optimiser evaluates error terms in several threads, but the data shared by the nodes of one
factory are not constant: evaluators have a `mutable` vector `_tmp` (DiffManifoldBSpline.hpp 387), and factories for a variable time a `mutable`
pointer `evalPtr` to an evaluator that is deleted and made anew (.hpp 235, Impl 71-87).  Here threads make their memory accesses one by one, in
any order.

Simplifications: a vector is one location, read and written at once; the members of an evaluator that its constructor writes and nothing changes
(its iterators and lengths, one location `obj`) are read once per call, when the call gets the evaluator.  Uninitialised memory has the same
arbitrary contents `junk` everywhere.  The spline and the time expressions are only read, and not changed meanwhile; so they are no locations.
Every thread takes new memory from places of its own.  No call locks anything: there is nothing like that in the code.
-/

namespace Verif
namespace Threads

/-! ### Programs and schedules -/

/-- A thread: it is done with a result, or it reads or writes a location and goes on. -/
inductive Prog (L W A : Type)
  | done (a : A)
  | read (l : L) (next : W → Prog L W A)
  | write (l : L) (w : W) (next : Prog L W A)

namespace Prog

variable {L W A B : Type}

/-- One after the other. -/
def bind : Prog L W A → (A → Prog L W B) → Prog L W B
  | .done a, f => f a
  | .read l next, f => .read l fun w => bind (next w) f
  | .write l w next, f => .write l w (bind next f)

/-- The next access of a program: the location, whether it is written, what is left to do, and the memory afterwards. -/
def step [DecidableEq L] (m : L → W) : Prog L W A → Option (L × Bool × Prog L W A × (L → W))
  | .done _ => none
  | .read l next => some (l, false, next (m l), m)
  | .write l w next => some (l, true, next, Function.update m l w)

end Prog

/-- An access to memory. -/
structure Access (L : Type) where
  thread : ℕ
  loc : L
  write : Bool
  deriving DecidableEq

/-- The threads `ps` run in the order given: each number lets the thread with this number make one access; finished threads do nothing.  The
result are the accesses, what is left of the threads, and the memory. -/
def run {L W A : Type} [DecidableEq L] : List ℕ → (ℕ → Prog L W A) → (L → W) → List (Access L) × (ℕ → Prog L W A) × (L → W)
  | [], ps, m => ([], ps, m)
  | i :: is, ps, m =>
    match (ps i).step m with
    | none => run is ps m
    | some (l, w, p, m') =>
      let r := run is (Function.update ps i p) m'
      (⟨i, l, w⟩ :: r.1, r.2)

/-! ### The memory of expression factories -/

/-- Where an evaluator is: inside of the data of the factory `f` for a constant time (.hpp 207), or the `n`-th that the thread `i` made by `new`
(Impl 83). -/
inductive Owner
  | factory (f : ℕ)
  | heap (i n : ℕ)
  deriving DecidableEq

/-- The locations: `evalPtr` of a factory, the constant members of an evaluator, and its vectors. -/
inductive Loc
  | ptr (f : ℕ)
  | obj (o : Owner)
  | vec (o : Owner) (r : MSpline.BufRef)
  deriving DecidableEq

/-- What is in a location; `nothing` if it was never allocated or is deleted. -/
inductive Val (K : Type)
  | nothing
  | ptr (p : Option Owner)
  | obj (e : MSpline.Evaluator K)
  | vec (v : ℕ → K)

open MSpline

variable {K : Type} [Field K] [LinearOrder K] {P V : Type} {α X R A B : Type}

/-- The accesses of a query on the evaluator at `o`: a request outside of the prepared derivatives fills `_tmp`, Impl 873-896. -/
def queryProg (c : Template) (s : MSpline K P) (junk : ℕ → K) (o : Owner) (e : Evaluator K) : Script K A → Prog Loc (Val K) (Outcome A)
  | .done x => .done x
  | .request cum der next =>
    if c.cumulative = cum ∧ der < c.numPrepared then
      if der < 0 then .done .ub else queryProg c s junk o e (next (.prepared der.toNat))
    else if (s.order : ℤ) ≤ der then .write (.vec o .tmp) (.vec fun _ => 0) (queryProg c s junk o e (next .tmp))
    else if der < 0 then .done .ub
    else .read (.vec o .tmp) fun
      | .vec v => match s.computeLocalBiIntoT cum e der.toNat junk v with
        | .ok v' => .write (.vec o .tmp) (.vec v') (queryProg c s junk o e (next .tmp))
        | .throws => .done .throws
        | .ub => .done .ub
      | _ => .done .ub
  | .read k r i next => .read (.vec o r) fun
    | .vec v => match vget k v i with
      | .ok x => queryProg c s junk o e (next x)
      | .throws => .done .throws
      | .ub => .done .ub
    | _ => .done .ub

/-- Write all vectors of an evaluator. -/
def writePrepared (o : Owner) : ℕ → List (Val K) → Prog Loc (Val K) A → Prog Loc (Val K) A
  | _, [], p => p
  | d, v :: vs, p => .write (.vec o (.prepared d)) v (writePrepared o (d + 1) vs p)

/-- `new eval_t(_spline, t)`, Impl 83, at `o`: the constructor, and then `next`. -/
def newEvaluator (c : Template) (s : MSpline K P) (junk : ℕ → K) (o : Owner) (t : K) (next : Prog Loc (Val K) (Outcome A)) :
    Prog Loc (Val K) (Outcome A) :=
  match s.construct c t fun _ => junk with
  | .ok (e, b) => .write (.obj o) (.obj e) (writePrepared o 0 (b.prepared.map .vec) (.write (.vec o .tmp) (.vec b.tmp) next))
  | .throws => .done .throws
  | .ub => .done .ub

/-- `delete evalPtr`, Impl 78, of the evaluator at `o`: deleting it again is undefined. -/
def deleteEvaluator (c : Template) (o : Owner) (next : Prog Loc (Val K) (Outcome A)) : Prog Loc (Val K) (Outcome A) :=
  .read (.obj o) fun
    | .obj _ => .write (.obj o) .nothing (writePrepared o 0 (List.replicate c.numPrepared.toNat .nothing) (.write (.vec o .tmp) .nothing next))
    | _ => .done .ub

/-- `getEvaluator()` of a factory for a variable time, Impl 75-86, when the time is `t`: every use of `evalPtr` reads it.  `o` is where the next
new object will be. -/
def timedEvaluator (c : Template) (s : MSpline K P) (junk : ℕ → K) (f : ℕ) (o : Owner) (t : K) (use : Owner → Prog Loc (Val K) (Outcome A)) :
    Prog Loc (Val K) (Outcome A) :=
  let last : Prog Loc (Val K) (Outcome A) := .read (.ptr f) fun
    | .ptr (some p) => use p
    | _ => .done .ub
  let second : Prog Loc (Val K) (Outcome A) := .read (.ptr f) fun
    | .ptr none => newEvaluator c s junk o t (.write (.ptr f) (.ptr (some o)) last)
    | .ptr (some _) => last
    | _ => .done .ub
  .read (.ptr f) fun
    | .ptr none => second
    | .ptr (some _) => .read (.ptr f) fun
      | .ptr (some p) => .read (.obj p) fun
        | .obj e =>
          if e.ti = some t then second
          else .read (.ptr f) fun
            | .ptr (some q) => deleteEvaluator c q (.write (.ptr f) (.ptr none) second)
            | .ptr none => .write (.ptr f) (.ptr none) second
            | _ => .done .ub
        | _ => .done .ub
      | _ => .done .ub
    | _ => .done .ub

/-- The code of the calls, with the evaluator at hand. -/
abbrev Code (K P α X R : Type) : Type :=
  Template → MSpline K P → TimeNode K → Option (K × K) → Evaluator K → α → Script K (NodeAnswer K X R)

/-- Run a call on the evaluator at `o`. -/
def useAt (c : Template) (s : MSpline K P) (junk : ℕ → K) (script : Evaluator K → Script K A) (o : Owner) : Prog Loc (Val K) (Outcome A) :=
  .read (.obj o) fun
    | .obj e => queryProg c s junk o e (script e)
    | _ => .done .ub

/-- A call on a node of a factory: `evaluateImplementation` or `evaluateJacobiansImplementation`, Impl 154-178. -/
structure NodeCall (K α : Type) where
  factory : ℕ
  query : α
  time : TimeNode K

/-- What is constant in a factory: it is for a constant time, or for a variable time between two bounds. -/
abbrev Bounds (K : Type) : Type := Option (K × K)

/-- One call by the thread `i`, which has made `n` objects or attempts before. -/
def callProg (c : Template) (code : Code K P α X R) (s : MSpline K P) (junk : ℕ → K) (bounds : ℕ → Bounds K) (i n : ℕ) (q : NodeCall K α) :
    Prog Loc (Val K) (Outcome (NodeAnswer K X R)) :=
  match bounds q.factory with
  | none => useAt c s junk (fun e => code c s q.time none e q.query) (.factory q.factory)
  | some lu =>
    if q.time.value < lu.1 then .done .throws
    else if lu.2 < q.time.value then .done .throws
    else timedEvaluator (timedTemplate c) s junk q.factory (.heap i n) q.time.value
      (useAt (timedTemplate c) s junk fun e => code (timedTemplate c) s q.time (some lu) e q.query)

/-- The thread `i`: it makes calls and keeps the answers. -/
def threadProg (c : Template) (code : Code K P α X R) (s : MSpline K P) (junk : ℕ → K) (bounds : ℕ → Bounds K) (i : ℕ) :
    ℕ → List (NodeCall K α) → Prog Loc (Val K) (List (Outcome (NodeAnswer K X R)))
  | _, [] => .done []
  | n, q :: qs => (callProg c code s junk bounds i n q).bind fun a =>
    (threadProg c code s junk bounds i (n + 1) qs).bind fun as => .done (a :: as)

/-- The memory when the factories were just made: a factory for a constant time has an evaluator, one for a variable time none. -/
def memory (d : ℕ → LiveData K) : Loc → Val K
  | .ptr f => match d f with
    | .timed _ _ _ => .ptr none
    | .constTime _ _ => .nothing
  | .obj (.factory f) => match d f with
    | .constTime e _ => .obj e
    | .timed _ _ _ => .nothing
  | .vec (.factory f) r => match d f with
    | .constTime _ b => match b.deref r with
      | .ok v => .vec v
      | _ => .nothing
    | .timed _ _ _ => .nothing
  | _ => .nothing

end Threads
end Verif
