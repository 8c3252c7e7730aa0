import Verif.Model.ManifoldJacobian

/-!
# The evaluator's buffers

The other models of the manifold spline treat the weights of an evaluator as values.  The code keeps them in memory: the weights of the
first derivatives are computed by the constructor, the others share one mutable vector `_tmp`, and both are handed out by reference
(DiffManifoldBSplineImpl.hpp, cited as Impl; UnitQuaternionBSplineImpl.hpp, cited as Quat; EuclideanBSplineImpl.hpp, cited as Eucl).
Here vectors are memory that is written entry by entry, access outside is undefined behaviour, and the contents of memory that is not
initialised are arbitrary.
-/

namespace Verif.MSpline

open Finset Quaternion

variable {K : Type} [Field K] [LinearOrder K] {P V : Type}

/-! ### Vectors -/

/-- Reading entry `i` of a vector with `k` entries. -/
def vget (k : ℕ) (b : ℕ → K) (i : ℕ) : Outcome K := if i < k then .ok (b i) else .ub

/-- Writing entry `i` of a vector with `k` entries. -/
def vset (k : ℕ) (b : ℕ → K) (i : ℕ) (x : K) : Outcome (ℕ → K) := if i < k then .ok (Function.update b i x) else .ub

/-- The first loop of `computeUInto`, Impl 832-834: `n` steps are left. -/
def uZero (k : ℕ) : ℕ → ℕ → (ℕ → K) → Outcome (ℕ → K)
  | 0, _, u => .ok u
  | n + 1, i, u => (vset k u i 0).bind fun u' => uZero k n (i + 1) u'

/-- The second loop of `computeUInto`, Impl 835-839: `n` steps are left. -/
def uPowers (k der : ℕ) (multiplier rel : K) : ℕ → ℕ → K → (ℕ → K) → Outcome (ℕ → K)
  | 0, _, _, u => .ok u
  | n + 1, i, uu, u => (vset k u i (multiplier * uu * (dmul i der : K))).bind fun u' => uPowers k der multiplier rel n (i + 1) (uu * rel) u'

/-- `computeUInto`, Impl 824-845, into a vector with the contents `u`. -/
def computeUInto (k : ℕ) (len rel : K) (der : ℕ) (u : ℕ → K) : Outcome (ℕ → K) :=
  if 0 < len then (uZero k der 0 u).bind fun u' => uPowers k der (1 / len ^ der) rel (k - der) der 1 u'
  else .ok fun _ => 0

/-- `fastMultiplyAtransposedTimesBInto`, Impl 498-505: entries `n - 1` to 0 are left. -/
def multiplyInto (k : ℕ) (A : Mat K) (b : ℕ → K) : ℕ → (ℕ → K) → Outcome (ℕ → K)
  | 0, r => .ok r
  | j + 1, r => (vset k r j (∑ i ∈ range k, b i * A i j)).bind fun r' => multiplyInto k A b j r'

/-- `computeLocalBiInto`, Impl 774-780; `u` are the contents of the new vector `u`, `ret` those of the result. -/
def computeLocalBiInto (s : MSpline K P) (e : Evaluator K) (der : ℕ) (u ret : ℕ → K) : Outcome (ℕ → K) :=
  (computeUInto s.order e.len e.rel der u).bind fun u' => (s.segAt e.ti).bind fun g =>
    match g.basis with
    | none => .ub
    | some B => multiplyInto s.order B u' s.order ret

/-- The inner loop of `computeLocalCumulativeBiInto`, Impl 803-804: `n` steps are left. -/
def sumLoop (k : ℕ) (bi : ℕ → K) : ℕ → ℕ → K → Outcome K
  | 0, _, sum => .ok sum
  | n + 1, j, sum => (vget k bi j).bind fun x => sumLoop k bi n (j - 1) (sum + x)

/-- The outer loop of `computeLocalCumulativeBiInto`, Impl 801-809: `n` steps are left.  `bi` is the argument `localBi` if it is not the
same vector as `ret` (`argumentsAreTheSame`). -/
def cumulativeLoop (k : ℕ) (bi : Option (ℕ → K)) : ℕ → ℕ → (ℕ → K) → Outcome (ℕ → K)
  | 0, _, ret => .ok ret
  | n + 1, i, ret =>
    (sumLoop k (bi.getD ret) (k - 1 - i) (k - 1) 0).bind fun sum =>
    (vget k (bi.getD ret) i).bind fun x => (vset k ret i (x + sum)).bind fun ret' => cumulativeLoop k bi n (i + 1) ret'

/-- `computeLocalCumulativeBiInto(localBi, ret, …)`, Impl 794-811. -/
def cumulativeInto (k : ℕ) (bi : Option (ℕ → K)) (der : ℕ) (ret : ℕ → K) : Outcome (ℕ → K) :=
  (vset k ret 0 (if der = 0 then 1 else 0)).bind fun ret' => cumulativeLoop k bi (k - 1) 1 ret'

/-- `computeLocalBiIntoT<BCumulative>`, Impl 863-871, with `computeLocalCumulativeBiInto(ret, derivativeOrder)`, 785-791. -/
def computeLocalBiIntoT (cum : Bool) (s : MSpline K P) (e : Evaluator K) (der : ℕ) (u ret : ℕ → K) : Outcome (ℕ → K) :=
  (s.computeLocalBiInto e der u ret).bind fun r => if cum then cumulativeInto s.order none der r else .ok r

/-! ### Buffers and references -/

/-- What the evaluator keeps: `_localBi` and `_tmp`.  `fresh` are the contents of the memory that will be allocated next. -/
structure Buffers (K : Type) where
  prepared : List (ℕ → K)
  tmp : ℕ → K
  fresh : ℕ → ℕ → K

/-- A reference to one of the vectors. -/
inductive BufRef where
  | prepared (d : ℕ)
  | tmp
  deriving DecidableEq

/-- The template arguments: `IMaximalDerivativeOrder` and `ISplineOrder` (−1 is `Eigen::Dynamic`), and the trait
`NeedsCumulativeBasisMatrices`, DiffManifoldBSpline.hpp 57-59, UnitQuaternionBSpline.hpp 29-31. -/
structure Template where
  maxDer : ℤ
  order : ℤ
  cumulative : Bool

/-- `NumberOfPreparedDerivatives`, DiffManifoldBSpline.hpp 384. -/
def Template.numPrepared (c : Template) : ℤ := (if c.maxDer ≤ c.order then c.maxDer else c.order) + 1

/-- The loop of the constructor, Impl 747-752. -/
def prepare (cum : Bool) (s : MSpline K P) (e : Evaluator K) (fresh : ℕ → ℕ → K) : ℕ → Outcome (List (ℕ → K))
  | 0 => .ok []
  | d + 1 => (prepare cum s e fresh d).bind fun l =>
    (s.computeLocalBiIntoT cum e d (fresh (2 * d)) (fresh (2 * d + 1))).map fun v => l ++ [v]

/-- The evaluator's constructor, Impl 731-753. -/
def construct (c : Template) (s : MSpline K P) (t : K) (fresh : ℕ → ℕ → K) : Outcome (Evaluator K × Buffers K) :=
  (s.evaluatorAt t).bind fun e => (s.prepare c.cumulative e fresh c.numPrepared.toNat).map fun l =>
    (e, ⟨l, fresh (2 * c.numPrepared.toNat), fun n => fresh (2 * c.numPrepared.toNat + 1 + n)⟩)

/-- The vector behind a reference. -/
def Buffers.deref (b : Buffers K) : BufRef → Outcome (ℕ → K)
  | .prepared d => match b.prepared[d]? with
    | none => .ub
    | some v => .ok v
  | .tmp => .ok b.tmp

/-- Calls on an evaluator: they change its buffers, also if they throw. -/
def BufM (K : Type) (α : Type) : Type := Buffers K → Outcome α × Buffers K

namespace BufM

variable {α β : Type}

/-- A call that does not touch the buffers. -/
def lift (o : Outcome α) : BufM K α := fun b => (o, b)

/-- One call after the other. -/
def bind (m : BufM K α) (f : α → BufM K β) : BufM K β := fun b =>
  match m b with
  | (.ok a, b') => f a b'
  | (.throws, b') => (.throws, b')
  | (.ub, b') => (.ub, b')

/-- Apply a function to the result. -/
def map (f : α → β) (m : BufM K α) : BufM K β := m.bind fun a => lift (.ok (f a))

end BufM

open BufM

/-- `getLocalBiT<BCumulative>`, Impl 873-896.  With a negative derivative order `dmul` does not terminate (debug assertion only). -/
def request (c : Template) (s : MSpline K P) (e : Evaluator K) (cum : Bool) (der : ℤ) : BufM K BufRef := fun b =>
  if c.cumulative = cum ∧ der < c.numPrepared then
    if der < 0 then (.ub, b) else (.ok (.prepared der.toNat), b)
  else if (s.order : ℤ) ≤ der then (.ok .tmp, { b with tmp := fun _ => 0 })
  else if der < 0 then (.ub, b)
  else match s.computeLocalBiIntoT cum e der.toNat (b.fresh 0) b.tmp with
    | .ok v => (.ok .tmp, { b with tmp := v, fresh := fun n => b.fresh (n + 1) })
    | .throws => (.throws, b)
    | .ub => (.ub, b)

/-- Entry `i` of the vector behind a reference. -/
def readEntry (k : ℕ) (r : BufRef) (i : ℕ) : BufM K K := fun b => ((b.deref r).bind fun v => vget k v i, b)

/-- `getLocalBi(der)[i]` or `getLocalCumulativeBi(der)[i]`. -/
def coeff (c : Template) (s : MSpline K P) (e : Evaluator K) (cum : Bool) (der : ℤ) (i : ℕ) : BufM K K :=
  (s.request c e cum der).bind fun r => readEntry s.order r i

/-! ### Euclidean splines -/

/-- The check of the template argument, Eucl 106-109 and 121-124. -/
def Template.maxDer? (c : Template) : Option ℕ := if c.maxDer = -1 then none else some c.maxDer.toNat

/-- `Evaluator::evalD`, Eucl 103-116: the coefficients are read through the reference. -/
def euclideanEvalDB [AddCommGroup P] [Module K P] (c : Template) (s : MSpline K P) (e : Evaluator K) (der : ℤ) : BufM K P :=
  if der < 0 then lift .throws
  else if c.maxDer?.any (fun m => decide ((m : ℤ) < der)) then lift .throws
  else if der < s.order then (s.request c e false der).bind fun r => (lift (s.readVerticesBack s.order e.ti)).bind fun vs =>
    (List.range s.order).foldl (fun acc j => acc.bind fun p =>
      (readEntry s.order r (s.order - 1 - j)).bind fun x => lift (.ok (p + x • vs.getD j 0))) (lift (.ok 0))
  else lift (.ok 0)

/-- `Evaluator::evalJacobian`, Eucl 118-134. -/
def euclideanEvalJacobianB (c : Template) (s : MSpline K P) (e : Evaluator K) (der : ℤ) : BufM K (List K) :=
  if der < 0 then lift .throws
  else if c.maxDer?.any (fun m => decide ((m : ℤ) < der)) then lift .throws
  else (s.request c e false der).bind fun r =>
    (List.range s.order).foldl (fun acc i => acc.bind fun l => (readEntry s.order r i).map fun x => l ++ [x]) (lift (.ok []))

/-! ### Generic evaluation -/

/-- The loop of `evalGeneric`, Impl 954-964. -/
def genericLoopB (M : Mfd K P V) (k : ℕ) (r : BufRef) : ℕ → P → P → List P → BufM K P
  | _, _, p, [] => lift (.ok p)
  | i, last, p, c :: cs => (readEntry k r i).bind fun d =>
    genericLoopB M k r (i + 1) c (if d = 0 then p else M.exp p (M.scale (M.log last c) d)) cs

/-- `evalGeneric`, Impl 945-966. -/
def evalGenericB (c : Template) (M : Mfd K P V) (s : MSpline K P) (e : Evaluator K) : BufM K P :=
  (s.request c e true 0).bind fun r => (lift (s.readVertices s.order e.firstIt)).bind fun vs =>
    match vs with
    | [] => lift .ub
    | v :: cs => genericLoopB M s.order r 1 v v cs

/-! ### Quaternion splines -/

/-- The loop of the constructor of `CalculationCache`, Quat 64-71. -/
noncomputable def qcacheLoopB (c : Template) (lg : ℍ[ℝ] → V3) (s : MSpline ℝ ℍ[ℝ]) (e : Evaluator ℝ) :
    ℕ → ℍ[ℝ] → List ℍ[ℝ] → BufM ℝ (List (V3 × ℍ[ℝ]))
  | _, _, [] => lift (.ok [])
  | k, last, v :: vs =>
    let phi := (quatGroup lg).log last v
    (s.coeff c e true 0 (k + 1)).bind fun x =>
      (qcacheLoopB c lg s e (k + 1) v vs).map fun l => (phi, (quatGroup lg).expAtId (x • phi)) :: l

/-- The constructor of `CalculationCache`, Quat 58-72. -/
noncomputable def qcacheB (c : Template) (lg : ℍ[ℝ] → V3) (s : MSpline ℝ ℍ[ℝ]) (e : Evaluator ℝ) : BufM ℝ QCache :=
  (lift (s.readVertices s.order e.firstIt)).bind fun vs =>
    match vs with
    | [] => lift .ub
    | v :: cs => (s.qcacheLoopB c lg e 0 v cs).map fun l => ⟨l.map Prod.fst, l.map Prod.snd, vs⟩

/-- `evalRiD`, Quat 81-119. -/
noncomputable def evalRiDB (t : Template) (s : MSpline ℝ ℍ[ℝ]) (e : Evaluator ℝ) (c : QCache) (der i : ℕ) : BufM ℝ ℍ[ℝ] :=
  match der with
  | 0 => match c.ri[i - 1]? with
    | none => lift .ub
    | some r => lift (.ok r)
  | 1 => match c.phi[i - 1]?, c.ri[i - 1]? with
    | some phi, some r => (s.coeff t e true 1 i).bind fun w1 => lift (.ok (qplus (quatV (w1 • phi)) r))
    | _, _ => lift .ub
  | 2 => match c.phi[i - 1]?, c.ri[i - 1]? with
    | some phi, some r => (s.coeff t e true 1 i).bind fun w1 => (s.coeff t e true 2 i).bind fun w2 =>
      let phiQuad := quatV phi
      let tmp2 := (w1 * w1) • phiQuad + (w2 : ℍ[ℝ])
      lift (.ok (qplus phiQuad (qplus r tmp2)))
    | _, _ => lift .ub
  | 3 => match c.phi[i - 1]?, c.ri[i - 1]? with
    | some phi, some r => (s.coeff t e true 1 i).bind fun w1 => (s.coeff t e true 2 i).bind fun w2 =>
      (s.coeff t e true 3 i).bind fun w3 =>
      let phiQuad := quatV phi
      let tmp2 := (w1 * w1) • phiQuad + (w2 : ℍ[ℝ])
      let tmp3 := (2 * w1 * w2) • phiQuad + (w3 : ℍ[ℝ])
      lift (.ok (qplus phiQuad (qplus r (qplus (w1 • phiQuad) tmp2 + tmp3))))
    | _, _ => lift .ub
  | _ => lift .throws

/-- `evalDRecursiveProductRest`, Quat 179-192, with `rem = getNumVectors() − i`. -/
noncomputable def productRestB (t : Template) (s : MSpline ℝ ℍ[ℝ]) (e : Evaluator ℝ) (c : QCache) : ℕ → ℕ → ℕ → BufM ℝ ℍ[ℝ]
  | 0, der, factor => (s.evalRiDB t e c der (s.order - 1)).map fun q => ((factor / der.factorial : ℕ) : ℝ) • q
  | (rem + 1), der, factor =>
    (s.evalRiDB t e c 0 (s.order - 1 - (rem + 1))).bind fun r =>
    (s.productRestB t e c rem der factor).bind fun p =>
    (List.range der).foldl (fun acc d => acc.bind fun a =>
      (s.evalRiDB t e c (d + 1) (s.order - 1 - (rem + 1))).bind fun r' =>
      (s.productRestB t e c rem (der - (d + 1)) (factor / (d + 1).factorial)).bind fun p' => lift (.ok (a + qplus r' p')))
      (lift (.ok (qplus r p)))

/-- `evalDRecursive`, Quat 324-331. -/
noncomputable def evalDRecursiveB (t : Template) (lg : ℍ[ℝ] → V3) (s : MSpline ℝ ℍ[ℝ]) (e : Evaluator ℝ) (der : ℤ) : BufM ℝ ℍ[ℝ] :=
  (s.qcacheB t lg e).bind fun c =>
    if s.order - 1 = 0 then lift .ub
    else if der < 0 then lift .throws
    else (s.productRestB t e c (s.order - 1 - 1) der.toNat der.toNat.factorial).bind fun p =>
      match c.verts with
      | [] => lift .ub
      | v :: _ => lift (.ok (qplus v p))

/-- The loop of `evalD1Special`, Quat 171-175. -/
noncomputable def d1LoopB (t : Template) (s : MSpline ℝ ℍ[ℝ]) (e : Evaluator ℝ) (c : QCache) :
    ℕ → ℕ → ℍ[ℝ] → ℍ[ℝ] → BufM ℝ (ℍ[ℝ] × ℍ[ℝ])
  | 0, _, A, sum => lift (.ok (A, sum))
  | (n + 1), i, A, sum =>
    (s.evalRiDB t e c 1 i).bind fun r1 => (s.evalRiDB t e c 0 i).bind fun r0 =>
      s.d1LoopB t e c n (i + 1) (qplus A r0) (sum + qplus (qplus A r1) (quatInv (qplus A r0)))

/-- `evalD1Special`, Quat 145-177. -/
noncomputable def evalD1SpecialB (t : Template) (lg : ℍ[ℝ] → V3) (s : MSpline ℝ ℍ[ℝ]) (e : Evaluator ℝ) : BufM ℝ ℍ[ℝ] :=
  (s.qcacheB t lg e).bind fun c => (s.d1LoopB t e c (s.order - 1) 1 1 0).bind fun r =>
    match c.verts with
    | [] => lift .ub
    | v :: _ => lift (.ok (qplus v (qplus r.2 r.1)))

/-- `evalD`, Quat 127-143. -/
noncomputable def quatEvalDB (t : Template) (lg : ℍ[ℝ] → V3) (s : MSpline ℝ ℍ[ℝ]) (e : Evaluator ℝ) (der : ℤ) : BufM ℝ ℍ[ℝ] :=
  if der = 0 then s.evalGenericB t (quatGroup lg).toMfd e
  else if der = 1 then s.evalD1SpecialB t lg e else s.evalDRecursiveB t lg e der

/-- `evalAngularDerivative<IDerivativeOrder>`, Quat 299-322. -/
noncomputable def evalAngularDerivativeB (t : Template) (lg : ℍ[ℝ] → V3) (s : MSpline ℝ ℍ[ℝ]) (e : Evaluator ℝ) (der : ℕ) : BufM ℝ V3 :=
  (s.quatEvalDB t lg e der).bind fun d => (s.quatEvalDB t lg e 0).bind fun v =>
    if der = 3 then (s.quatEvalDB t lg e 1).bind fun d1 => (s.quatEvalDB t lg e 2).bind fun d2 =>
      lift (.ok fun i => 2 * (angularTmp v d i + qeta d1 * qeps d2 i - qeta d2 * qeps d1 i - cross3 (qeps d1) (qeps d2) i))
    else lift (.ok fun i => 2 * angularTmp v d i)

/-- `getRiDJacobian(cache, derivativeOrder, i)`, Quat 236-276.  The value of `getRiDJacobian(cache, 0, i)` is needed in all cases. -/
noncomputable def riDJacobianB (t : Template) (S L : V3 → M33) (s : MSpline ℝ ℍ[ℝ]) (e : Evaluator ℝ) (c : QCache) (der i : ℕ) :
    BufM ℝ DMat :=
  (lift (c.getRi i)).bind fun r => (lift (c.getPhi i)).bind fun phi => (lift (phiVectorJacobian L c i)).bind fun pj =>
  (s.coeff t e true 0 i).bind fun w => (s.coeff t e true 0 i).bind fun w' =>
  let j0 : DMat := mapCols (quatOPlus r) (vMat (S (w • phi) * (w' • pj)))
  let vPhiJac := vMat pj
  let phiQuad := quatV phi
  let phiRiJac : DMat := mapCols (quatOPlus r) vPhiJac + mapCols (quatPlus phiQuad) j0
  match der with
  | 0 => lift (.ok j0)
  | 1 => (s.coeff t e true 1 i).bind fun w1 => lift (.ok (w1 • phiRiJac))
  | 2 => (s.coeff t e true 1 i).bind fun w1 => (s.coeff t e true 2 i).bind fun w2 =>
    let tmp := (w1 * w1) • phiQuad + (w2 : ℍ[ℝ])
    lift (.ok (mapCols (quatPlus tmp) phiRiJac + mapCols (quatOPlus (qplus phiQuad r)) ((w1 * w1) • vPhiJac)))
  | _ => lift .throws

/-- `getRiDJacobian(cache, derivativeOrder, i, j)`, Quat 228-234. -/
noncomputable def riDJacobianOfB (t : Template) (S L : V3 → M33) (s : MSpline ℝ ℍ[ℝ]) (e : Evaluator ℝ) (c : QCache) (der i j : ℕ) :
    BufM ℝ DMat :=
  if isJacobianZero i j then lift (.ok 0)
  else (s.riDJacobianB t S L e c der i).map fun M => jacobianSignum i j • M

/-- `evalJacobianDRecursiveProductRest`, Quat 278-297. -/
noncomputable def jacobianRestB (t : Template) (S L : V3 → M33) (s : MSpline ℝ ℍ[ℝ]) (e : Evaluator ℝ) (c : QCache) (j : ℕ) :
    ℕ → ℕ → ℕ → BufM ℝ DMat
  | 0, der, factor =>
    if ¬ isJacobianZero (s.order - 1) j then
      (s.riDJacobianOfB t S L e c der (s.order - 1) j).map fun M => ((factor / der.factorial : ℕ) : ℝ) • M
    else lift (.ok 0)
  | (rem + 1), der, factor =>
    let i := s.order - 1 - (rem + 1)
    (s.evalRiDB t e c 0 i).bind fun r0 =>
    (s.jacobianRestB t S L e c j rem der factor).bind fun p0 =>
    (if ¬ isJacobianZero i j then
      (s.productRestB t e c rem der factor).bind fun q => (s.riDJacobianOfB t S L e c 0 i j).bind fun M =>
        lift (.ok (mapCols (quatPlus r0) p0 + mapCols (quatOPlus q) M))
    else lift (.ok (mapCols (quatPlus r0) p0))).bind fun start =>
    (List.range der).foldl (fun acc d => acc.bind fun a =>
      (if ¬ isJacobianZero i j then
        (s.productRestB t e c rem (der - (d + 1)) (factor / (d + 1).factorial)).bind fun q =>
        (s.riDJacobianOfB t S L e c (d + 1) i j).bind fun M => lift (.ok (a + mapCols (quatOPlus q) M))
      else lift (.ok a)).bind fun a' =>
      (s.evalRiDB t e c (d + 1) i).bind fun r =>
      (s.jacobianRestB t S L e c j rem (der - (d + 1)) (factor / (d + 1).factorial)).bind fun p =>
        lift (.ok (a' + mapCols (quatPlus r) p))) (lift (.ok start))

/-- The loop of `evalJacobianDRecursive`, Quat 375-383. -/
noncomputable def jacobianDLoopB (t : Template) (S L : V3 → M33) (s : MSpline ℝ ℍ[ℝ]) (e : Evaluator ℝ) (c : QCache) (der : ℕ) :
    ℕ → ℕ → BufM ℝ (List DMat)
  | 0, _ => lift (.ok [])
  | n + 1, j =>
    (lift (c.getVertex 0)).bind fun v =>
    (if j = 0 then (s.productRestB t e c (s.order - 1 - 1) der der.factorial).map fun q => mapCols (quatOPlus (qplus v q)) (vMat 1)
      else lift (.ok 0)).bind fun b =>
    (s.jacobianRestB t S L e c j (s.order - 1 - 1) der der.factorial).bind fun M =>
    (s.jacobianDLoopB t S L e c der n (j + 1)).map fun bs => (b + mapCols (quatPlus v) M) :: bs

/-- `evalJacobianDRecursive`, Quat 361-384. -/
noncomputable def evalJacobianDRecursiveB (t : Template) (lg : ℍ[ℝ] → V3) (S L : V3 → M33) (s : MSpline ℝ ℍ[ℝ]) (e : Evaluator ℝ)
    (der : ℤ) : BufM ℝ (List DMat) :=
  if der < 0 then lift .throws
  else (s.qcacheB t lg e).bind fun c =>
    if s.order - 1 = 0 then lift .ub else s.jacobianDLoopB t S L e c der.toNat s.order 0

/-- The loop of `evalJacobian`, Quat 399-422. -/
noncomputable def jacobianLoopB (t : Template) (S L : V3 → M33) (s : MSpline ℝ ℍ[ℝ]) (e : Evaluator ℝ) (c : QCache) :
    ℕ → ℕ → (ℍ[ℝ] → ℍ[ℝ]) × DMat → BufM ℝ (List DMat)
  | 0, _, _ => lift (.ok [])
  | n + 1, j, prev =>
    (lift (c.getVertex 0)).bind fun v =>
    (lift (if j = 0 then (riProduct c 1 s.order).map fun q => mapCols (quatOPlus (qplus v q)) (vMat 1) else .ok 0)).bind fun b =>
    let b' := if j ≠ 0 then b + mapCols prev.1 prev.2 else b
    if j ≠ s.order - 1 then
      (s.riDJacobianB t S L e c 0 (j + 1)).bind fun M =>
      (lift (if j = 0 then .ok v else (riProduct c 1 (j + 1)).map fun q => qplus v q)).bind fun a =>
      (lift (if j + 2 ≠ s.order then (riProduct c (j + 2) s.order).map fun q => fun p => quatPlus a (quatOPlus q p)
        else .ok (quatPlus a))).bind fun A =>
      (s.jacobianLoopB t S L e c n (j + 1) (A, M)).map fun bs => (b' - mapCols A M) :: bs
    else (s.jacobianLoopB t S L e c n (j + 1) prev).map fun bs => b' :: bs

/-- `evalJacobian(derivativeOrder, jacobian)`, Quat 345-359, with `evalJacobian(jacobian)`, 386-423. -/
noncomputable def quatEvalJacobianB (t : Template) (lg : ℍ[ℝ] → V3) (S L : V3 → M33) (s : MSpline ℝ ℍ[ℝ]) (e : Evaluator ℝ) (der : ℤ) :
    BufM ℝ (List DMat) :=
  if der = 0 then (s.qcacheB t lg e).bind fun c => s.jacobianLoopB t S L e c s.order 0 (id, 0)
  else s.evalJacobianDRecursiveB t lg S L e der

/-- `evalAngularDerivativeJacobian<IDerivativeOrder>`, Quat 425-453. -/
noncomputable def evalAngularJacobianB (t : Template) (lg : ℍ[ℝ] → V3) (S L : V3 → M33) (s : MSpline ℝ ℍ[ℝ]) (e : Evaluator ℝ)
    (der : ℕ) : BufM ℝ (List M33) :=
  (s.quatEvalDB t lg e der).bind fun d => (s.quatEvalDB t lg e 0).bind fun v =>
  (s.quatEvalJacobianB t lg S L e der).bind fun dq => (s.quatEvalJacobianB t lg S L e 0).bind fun q =>
    lift (.ok (List.zipWith (angularBlock v d) q dq))

end Verif.MSpline
