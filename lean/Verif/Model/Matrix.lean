import Mathlib.LinearAlgebra.Matrix.Notation
import Mathlib.Analysis.SpecialFunctions.Trigonometric.Basic
/-
Model of the transformation matrices: vrml/vrml97/_transformmatrix.py (pure Python),
vrml/vrml97/_transformmatrix_accel.py + accelerate/src/tmatrixaccel.pyx (accelerated),
vrml/vrml97/transformmatrix.py (composition) and accelerate/src/frustcullaccel.pyx planeCull.

Floats are real numbers (no rounding; the 'f' dtype conversions are dropped).  Python's None is `none`.
A division by zero (Python raises, numpy gives inf) is Lean's `x / 0 = 0`; every theorem that meets a
division has a hypothesis excluding it.
-/
noncomputable section
namespace Verif.Mx
open Real Matrix

abbrev M4 := Matrix (Fin 4) (Fin 4) ℝ

/-- A VRML rotation (axis, angle). -/
structure Rot where
  x : ℝ
  y : ℝ
  z : ℝ
  a : ℝ

/-- A 3-component vector. -/
structure V3 where
  x : ℝ
  y : ℝ
  z : ℝ

/-- Python's float `%` for a positive modulus. -/
def pmod (a m : ℝ) : ℝ := a - m * ⌊a / m⌋

/-- The array literal of _transformmatrix.py:37-42 with cosine `c`, sine `s`, `t`. -/
def rotArray (x y z c s t : ℝ) : M4 :=
  !![t*x*x+c, t*x*y+s*z, t*x*z-s*y, 0;
     t*x*y-s*z, t*y*y+c, t*y*z+s*x, 0;
     t*x*z+s*y, t*y*z-s*x, t*z*z+c, 0;
     0, 0, 0, 1]

open Classical in
/-- _transformmatrix.py:9-51 rotMatrix. -/
def rotMatrix : Option Rot → Option M4 × Option M4
  | none => (none, none)
  | some r =>
    if pmod r.a (2 * π) ≠ 0 then
      let squared := r.x*r.x + r.y*r.y + r.z*r.z
      let l := if squared ≠ 1 then √squared else 1
      let x := r.x / l
      let y := r.y / l
      let z := r.z / l
      let c := cos r.a
      let c1 := cos (-r.a)
      let s := sin r.a
      let s1 := sin (-r.a)
      let t := 1 - c
      (some (rotArray x y z c s t), some (rotArray x y z c1 s1 t))
    else (none, none)

/-- `x or VERY_SMALL` (VERY_SMALL is any positive constant here: 1e-300, or 1e-6 in the Cython source). -/
def orSmall (eps x : ℝ) : ℝ := open Classical in if x = 0 then eps else x

/-- The constant of _transformmatrix.py:7. -/
def verySmall : ℝ := 1 / 10 ^ 300

/-- A diagonal scale array. -/
def scaleArray (x y z : ℝ) : M4 := !![x, 0, 0, 0; 0, y, 0, 0; 0, 0, z, 0; 0, 0, 0, 1]

open Classical in
/-- _transformmatrix.py:53-76 scaleMatrix. -/
def scaleMatrix : Option V3 → Option M4 × Option M4
  | none => (none, none)
  | some v =>
    if v.x = v.y ∧ v.y = v.z ∧ v.z = 1 then (none, none)
    else (some (scaleArray v.x v.y v.z),
          some (scaleArray (1 / orSmall verySmall v.x) (1 / orSmall verySmall v.y) (1 / orSmall verySmall v.z)))

/-- A translation array (row-vector convention: the offsets are in the last row). -/
def transArray (x y z : ℝ) : M4 := !![1, 0, 0, 0; 0, 1, 0, 0; 0, 0, 1, 0; x, y, z, 1]

open Classical in
/-- _transformmatrix.py:78-96 transMatrix. -/
def transMatrix : Option V3 → Option M4 × Option M4
  | none => (none, none)
  | some v =>
    if v.x = v.y ∧ v.y = v.z ∧ v.z = 0 then (none, none)
    else (some (transArray v.x v.y v.z), some (transArray (-v.x) (-v.y) (-v.z)))

/-- _transformmatrix.py:98-119 perspectiveMatrix. -/
def perspectiveMatrix (fovy aspect zNear zFar : ℝ) (inverse : Bool) : M4 :=
  let f := 1 / tan (fovy / 2)
  let zDelta := zNear - zFar
  if inverse then
    !![aspect/f, 0, 0, 0;
       0, 1 / orSmall verySmall f, 0, 0;
       0, 0, 0, zDelta / (2*zFar*zNear);
       0, 0, -1, (zFar+zNear) / (2*zFar*zNear)]
  else
    !![f/aspect, 0, 0, 0;
       0, f, 0, 0;
       0, 0, (zFar+zNear)/zDelta, -1;
       0, 0, (2*zFar*zNear)/zDelta, 0]

/-- _transformmatrix.py:120-133 orthoMatrix. -/
def orthoMatrix (left right bottom top zNear zFar : ℝ) : M4 :=
  let tx := -(right + left) / (right - left)
  let ty := -(top + bottom) / (top - bottom)
  let tz := -(zFar + zNear) / (zFar - zNear)
  !![2/(right-left), 0, 0, tx;
     0, 2/(top-bottom), 0, ty;
     0, 0, -2/(zFar-zNear), tz;
     0, 0, 0, 1]

/-! ### Accelerated versions -/

open Classical in
/-- tmatrixaccel.pyx:27-56 rotMatrix. -/
def accelRot (r : Rot) : Option M4 :=
  let c := cos r.a
  let s := sin r.a
  let t := 1 - c
  let y0 := if r.x = r.y ∧ r.y = r.z ∧ r.z = 0 then 1 else r.y
  let h2 := r.x*r.x + y0*y0 + r.z*r.z
  let h := if h2 ≠ 1 then √h2 else 1
  let x := r.x / h
  let y := y0 / h
  let z := r.z / h
  let x2 := x*x
  let y2 := y*y
  let z2 := z*z
  if pmod r.a (2 * π) ≠ 0 then
    some !![(x2*t)+c, y*x*t+z*s, x*z*t-y*s, 0;
            x*y*t-z*s, y2*t+c, y*z*t+x*s, 0;
            x*z*t+y*s, y*z*t-x*s, z2*t+c, 0;
            0, 0, 0, 1]
  else none

open Classical in
/-- _transformmatrix_accel.py:8-25 rotMatrix. -/
def rotMatrixAccel : Option Rot → Option M4 × Option M4
  | none => (none, none)
  | some r => if pmod r.a (2 * π) ≠ 0 then (accelRot r, accelRot { r with a := -r.a }) else (none, none)

open Classical in
/-- _transformmatrix_accel.py:26-44 with tmatrixaccel.pyx:18-25. -/
def scaleMatrixAccel : Option V3 → Option M4 × Option M4
  | none => (none, none)
  | some v =>
    if v.x = v.y ∧ v.y = v.z ∧ v.z = 1 then (none, none)
    else (some !![v.x, 0, 0, 0; 0, v.y, 0, 0; 0, 0, v.z, 0; 0, 0, 0, 1],
          some !![1 / orSmall verySmall v.x, 0, 0, 0; 0, 1 / orSmall verySmall v.y, 0, 0; 0, 0, 1 / orSmall verySmall v.z, 0; 0, 0, 0, 1])

open Classical in
/-- _transformmatrix_accel.py:45-61 with tmatrixaccel.pyx:9-16. -/
def transMatrixAccel : Option V3 → Option M4 × Option M4
  | none => (none, none)
  | some v =>
    if v.x = v.y ∧ v.y = v.z ∧ v.z = 0 then (none, none)
    else (some !![1, 0, 0, 0; 0, 1, 0, 0; 0, 0, 1, 0; v.x, v.y, v.z, 1],
          some !![1, 0, 0, 0; 0, 1, 0, 0; 0, 0, 1, 0; -v.x, -v.y, -v.z, 1])

/-- tmatrixaccel.pyx:58-80 perspectiveMatrix (`eps` is its VERY_SMALL, 1e-6 there). -/
def perspectiveMatrixAccel (eps fovy aspect zNear zFar : ℝ) (inverse : Bool) : M4 :=
  let f := 1 / tan (fovy / 2)
  let zDelta := zNear - zFar
  if inverse then
    !![aspect/f, 0, 0, 0;
       0, 1 / orSmall eps f, 0, 0;
       0, 0, 0, zDelta / (2*zFar*zNear);
       0, 0, -1, (zFar+zNear) / (2*zFar*zNear)]
  else
    !![f/aspect, 0, 0, 0;
       0, f, 0, 0;
       0, 0, (zFar+zNear)/zDelta, -1;
       0, 0, (2*zFar*zNear)/zDelta, 0]

/-- tmatrixaccel.pyx:82-91 orthoMatrix. -/
def orthoMatrixAccel (eps left right bottom top zNear zFar : ℝ) : M4 :=
  let tx := -(right + left) / orSmall eps (right - left)
  let ty := -(top + bottom) / orSmall eps (top - bottom)
  let tz := -(zFar + zNear) / orSmall eps (zFar - zNear)
  !![2 / orSmall eps (right-left), 0, 0, tx;
     0, 2 / orSmall eps (top-bottom), 0, ty;
     0, 0, -2 / orSmall eps (zFar-zNear), tz;
     0, 0, 0, 1]

/-! ### Composition -/

/-- transformmatrix.py:154-173 compressMatrices: `first = dot(item, first)`. -/
def compressMatrices : List (Option M4) → Option M4
  | [] => none
  | first :: rest => rest.foldl (fun first item =>
      match item with
      | none => first
      | some m => match first with
        | none => some m
        | some f => some (m * f)) first

/-- The five fields that make up a local transform, each possibly absent (None). -/
structure Fields where
  translation : Option V3
  center : Option V3
  rotation : Option Rot
  scale : Option V3
  scaleOrientation : Option Rot

/-- transformmatrix.py:135-152 localMatrices. -/
def localMatrices (f : Fields) : Option M4 × Option M4 :=
  let T := transMatrix f.translation
  let C := transMatrix f.center
  let R := rotMatrix f.rotation
  let SO := rotMatrix f.scaleOrientation
  let S := scaleMatrix f.scale
  (compressMatrices [T.1, C.1, R.1, SO.1, S.1, SO.2, C.2],
   compressMatrices [C.1, SO.1, S.2, SO.2, R.2, C.2, T.2])

/-- transformmatrix.py:116-133 transformMatrices, also 53-80 (first component) and 82-114 (second component). -/
def transformMatrices (f : Fields) (parentMatrix : Option M4) : Option M4 × Option M4 :=
  let T := transMatrix f.translation
  let C := transMatrix f.center
  let R := rotMatrix f.rotation
  let SO := rotMatrix f.scaleOrientation
  let S := scaleMatrix f.scale
  (compressMatrices [parentMatrix, T.1, C.1, R.1, SO.1, S.1, SO.2, C.2],
   compressMatrices [parentMatrix, C.1, SO.1, S.2, SO.2, R.2, C.2, T.2])

/-- vrml97/nodepath.py:80-86 over the transforms of a path (root first): forward from the first components, inverse
from the second components in reverse order; None becomes the identity. -/
def pathMatrix (path : List Fields) (inverse : Bool) : M4 :=
  if inverse then (compressMatrices (path.reverse.map (fun f => (localMatrices f).2))).getD 1
  else (compressMatrices (path.map (fun f => (localMatrices f).1))).getD 1

/-! ### Culling -/

/-- A plane equation. -/
structure Plane where
  a : ℝ
  b : ℝ
  c : ℝ
  d : ℝ

/-- frustcullaccel.pyx:32. -/
def Plane.distance (p : Plane) (v : V3) : ℝ := p.a * v.x + p.b * v.y + p.c * v.z + p.d

open Classical in
/-- frustcullaccel.pyx:7-38 planeCull: (culled, index of the culling plane). -/
def planeCull (planes : List Plane) (points : List V3) (minDistance : ℝ) : Bool × Option Nat :=
  let m := -minDistance
  let rec go : List Plane → Nat → Bool × Option Nat
    | [], _ => (false, none)
    | p :: ps, i =>
      let foundInFront := points.foldl (fun found v => if p.distance v ≥ m then true else found) false
      if !foundInFront then (true, some i) else go ps (i + 1)
  go planes 0

end Verif.Mx
end
