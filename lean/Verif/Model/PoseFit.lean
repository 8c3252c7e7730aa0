import Verif.Model.Pose

/-!
# Model of `bsplines::BSplinePose`: the remaining initialisations

Source: `/repo/bsplines/src/BSplinePose.cpp` 376-381 and 423-441.  The poses are given as curve values (position and rotation parameters),
one column for each time; the simplifications are those of `Model/BSplineFit` and `Model/Pose`.
-/

namespace Verif
namespace Pose

variable {K : Type*} [Field K] [LinearOrder K]

/-- `addPoseSegment2`, BSplinePose.cpp 376-381 (`junk`: see `addCurveSegment`). -/
def addPoseSegment2 (solve : Solver K) (s : Pose K) (t : K) (T : Matrix (Fin 4) (Fin 4) K) (lambda : K) (junk : Fin 6 → K) :
    Outcome (Pose K) :=
  (s.spline.addCurveSegment2 solve t (transformationToCurveValue s.rotation T) lambda junk).map fun b => { s with spline := b }

/-- `initPoseSpline2`, BSplinePose.cpp 423-426. -/
def initPoseSpline2 (solve : Solver K) (s : Pose K) (poses : List (K × (Fin 6 → K))) (numSegments : ℤ) (lambda : K) : Outcome (Pose K) :=
  (s.spline.initSpline2 solve poses numSegments lambda).map fun b => { s with spline := b }

/-- `initPoseSpline3`, BSplinePose.cpp 428-431. -/
def initPoseSpline3 (solve : Solver K) (s : Pose K) (poses : List (K × (Fin 6 → K))) (numSegments : ℤ) (lambda : K) : Outcome (Pose K) :=
  (s.spline.initSpline3 solve poses numSegments lambda).map fun b => { s with spline := b }

/-- `initPoseSplineSparse`, BSplinePose.cpp 433-436. -/
def initPoseSplineSparse (solve : Solver K) (s : Pose K) (poses : List (K × (Fin 6 → K))) (numSegments : ℤ) (lambda : K) :
    Outcome (Pose K) :=
  (s.spline.initSplineSparse solve poses numSegments lambda).map fun b => { s with spline := b }

/-- `initPoseSplineSparseKnots`, BSplinePose.cpp 438-441; the Python function of this name is `initSplineSparseKnots` itself
(BSplinePosePython.cpp). -/
def initPoseSplineSparseKnots (solve : Solver K) (s : Pose K) (poses : List (K × (Fin 6 → K))) (knots : List K) (lambda : K) :
    Outcome (Pose K) :=
  (s.spline.initSplineSparseKnots solve poses knots lambda).map fun b => { s with spline := b }

end Pose
end Verif
