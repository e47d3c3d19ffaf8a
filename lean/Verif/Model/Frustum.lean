import Mathlib.Data.Real.Basic
/-
Frustum culling: /repo/accelerate/src/frustcullaccel.pyx.

Simplification: `float` arithmetic is exact (real numbers).  The two shape checks (lines 22-25) are the types:
a plane has four components, a point at least three (the fourth is never looked at).
-/
namespace Verif.Frustum

/-- A plane equation `a x + b y + c z + d`. -/
structure Plane where
  (a b c d : ℝ)

/-- A point; a fourth component is ignored (frustcullaccel.pyx:31). -/
structure Point where
  (x y z : ℝ)

/-- frustcullaccel.pyx:32 -/
def distance (p : Plane) (q : Point) : ℝ := p.a * q.x + p.b * q.y + p.c * q.z + p.d

open Classical in
/-- frustcullaccel.pyx:28-34, the inner loop: `foundInFront` after looking at all points. -/
noncomputable def foundInFront (limit : ℝ) (p : Plane) : Bool → List Point → Bool
  | found, [] => found
  | found, q :: l => foundInFront limit p (if distance p q ≥ limit then true else found) l

/-- frustcullaccel.pyx:27-38, the outer loop: the first plane with nothing in front of it; `none` = (False, None). -/
noncomputable def cullLoop (limit : ℝ) (points : List Point) : List Plane → Option Plane
  | [] => none
  | p :: l => if foundInFront limit p false points then cullLoop limit points l else some p

/-- frustcullaccel.pyx:7-38 `planeCull(planes, points, minDistance)`; `some p` = (True, p), `none` = (False, None). -/
noncomputable def planeCull (planes : List Plane) (points : List Point) (minDistance : ℝ) : Option Plane :=
  cullLoop (-minDistance) points planes

end Verif.Frustum
