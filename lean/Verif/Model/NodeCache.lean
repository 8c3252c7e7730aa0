import Verif.Model.Outcome
import Mathlib.Data.List.Basic
import Mathlib.Logic.Function.Basic

/-!
# Model of `nodecache::NodeDistributedCache`

Source: `/repo/bsplines/include/bsplines/NodeDistributedCache.hpp`.

Slots are known to the program by handles (the shared pointers), numbered in the order of registration; a handle is released when the
last shared pointer goes away.  Nodes are numbers.  The C++ value types are numbered; values of all types are elements of `α`.
Not modelled: the destructors of the nodes and of the cache.
-/

namespace Verif

/-- `PerNodeCacheValue`, 44-72; a value nobody has written is `none`. -/
structure CacheEntry (α : Type*) where
  ty : ℕ
  value : Option α
  valid : Bool
  deriving DecidableEq

/-- `slotUsage`, 134; the slots by handle: index and value type, `none` once released; the vectors `entries`, 88, of the nodes. -/
structure CacheState (α : Type*) where
  usage : List Bool
  slots : List (Option (ℕ × ℕ))
  nodes : ℕ → List (Option (CacheEntry α))

/-- `getNextFreeIndex`, 135-146: the index and the new `slotUsage`. -/
def nextFreeIndex : List Bool → ℕ × List Bool
  | [] => (0, [true])
  | false :: r => (0, true :: r)
  | true :: r => ((nextFreeIndex r).1 + 1, true :: (nextFreeIndex r).2)

/-- `getEntry`, 94-99: the vector after resizing. -/
def resizeTo {β : Type*} (index : ℕ) (l : List (Option β)) : List (Option β) :=
  if l.length ≤ index then l ++ List.replicate (index + 1 - l.length) none else l

/-- What the program does with the cache; `get` is called with an updater that writes `u`. -/
inductive CacheOp (α : Type*)
  | register (ty : ℕ)
  | release (h : ℕ)
  | write (h n : ℕ) (v : α)
  | read (h n : ℕ)
  | get (h n : ℕ) (u : α)
  | setValid (h n : ℕ) (b : Bool)
  | isValid (h n : ℕ)

/-- What the program sees. -/
inductive CacheObs (α : Type*)
  | handle (h : ℕ)
  | value (v : Option α)
  | flag (b : Bool)
  | nothing
  deriving DecidableEq

namespace CacheState

variable {α : Type*}

/-- A cache without slots, nodes without entries. -/
def empty : CacheState α := ⟨[], [], fun _ => []⟩

/-- A live slot; using a released one is undefined. -/
def slot (s : CacheState α) (h : ℕ) : Outcome (ℕ × ℕ) :=
  match s.slots[h]? with
  | some (some x) => .ok x
  | _ => .ub

/-- The entry of node `n` at an index. -/
def entry (s : CacheState α) (n i : ℕ) : Option (CacheEntry α) := ((s.nodes n)[i]?).join

/-- Store the entry of node `n` at an index. -/
def setEntry (s : CacheState α) (n i : ℕ) (e : CacheEntry α) : CacheState α :=
  ⟨s.usage, s.slots, Function.update s.nodes n ((resizeTo i (s.nodes n)).set i (some e))⟩

/-- `accessNodeCache`, 120-126: the entry, made if there is none.  An entry of another type is cast nevertheless; using it is
undefined. -/
def access (s : CacheState α) (h n : ℕ) : Outcome (ℕ × CacheEntry α) :=
  (s.slot h).bind fun x =>
    match s.entry n x.1 with
    | none => .ok (x.1, ⟨x.2, none, false⟩)
    | some e => if e.ty = x.2 then .ok (x.1, e) else .ub

/-- The operations: `registerCacheableValue` 130-132, `~NodeCacheSlot` 112-114 with `freeIndex` 148-151, `accessValue` 116-118 and
53-55, `get` 57-64, `setValid` and `isValid` 70-71. -/
def step (s : CacheState α) : CacheOp α → Outcome (CacheObs α × CacheState α)
  | .register ty =>
    let r := nextFreeIndex s.usage
    .ok (.handle s.slots.length, ⟨r.2, s.slots ++ [some (r.1, ty)], s.nodes⟩)
  | .release h => (s.slot h).bind fun x => .ok (.nothing, ⟨s.usage.set x.1 false, s.slots.set h none, s.nodes⟩)
  | .write h n v => (s.access h n).bind fun x => .ok (.nothing, s.setEntry n x.1 ⟨x.2.ty, some v, x.2.valid⟩)
  | .read h n => (s.access h n).bind fun x => .ok (.value x.2.value, s.setEntry n x.1 x.2)
  | .get h n u => (s.access h n).bind fun x =>
      if x.2.valid then .ok (.value x.2.value, s.setEntry n x.1 x.2)
      else .ok (.value (some u), s.setEntry n x.1 ⟨x.2.ty, some u, true⟩)
  | .setValid h n b => (s.access h n).bind fun x => .ok (.nothing, s.setEntry n x.1 ⟨x.2.ty, x.2.value, b⟩)
  | .isValid h n => (s.access h n).bind fun x => .ok (.flag x.2.valid, s.setEntry n x.1 x.2)

/-- A program: what it sees, and the final state. -/
def run : List (CacheOp α) → CacheState α → Outcome (List (CacheObs α) × CacheState α)
  | [], s => .ok ([], s)
  | op :: ops, s => (s.step op).bind fun r => (run ops r.2).bind fun q => .ok (r.1 :: q.1, q.2)

end CacheState

end Verif
