import Verif.Model.Matrix
/-
The functions of /repo/vrml/vrml97/transformmatrix.py that return one matrix or one point.
-/
namespace Verif.Mx

/-- transformmatrix.py:53-80 transformMatrix. -/
noncomputable def transformMatrix (f : Fields) (parentMatrix : Option M4) : Option M4 :=
  let T := transMatrix f.translation
  let C := transMatrix f.center
  let R := rotMatrix f.rotation
  let SO := rotMatrix f.scaleOrientation
  let S := scaleMatrix f.scale
  compressMatrices [parentMatrix, T.1, C.1, R.1, SO.1, S.1, SO.2, C.2]

/-- transformmatrix.py:82-114 itransformMatrix. -/
noncomputable def itransformMatrix (f : Fields) (parentMatrix : Option M4) : Option M4 :=
  let T := transMatrix f.translation
  let C := transMatrix f.center
  let R := rotMatrix f.rotation
  let SO := rotMatrix f.scaleOrientation
  let S := scaleMatrix f.scale
  compressMatrices [parentMatrix, C.1, SO.1, S.2, SO.2, R.2, C.2, T.2]

/-- ORIGINPOINT, transformmatrix.py:50. -/
noncomputable def originPoint : Fin 4 → ℝ := ![0, 0, 0, 1]

/-- `if x: parentMatrix = dot(x, parentMatrix)`, transformmatrix.py:190-192, for one `x`: None is false, and the truth value
of an array with more than one element raises ValueError (`none`). -/
def centerStep (parentMatrix : M4) : Option M4 → Option M4
  | none => some parentMatrix
  | some _ => none

/-- transformmatrix.py:176-193 center: `none` is ValueError. -/
noncomputable def center (translation center : Option V3) (parentMatrix : Option M4) : Option (Fin 4 → ℝ) :=
  let P := parentMatrix.getD 1
  let T := transMatrix translation
  let C := transMatrix center
  ([T.1, C.1].foldlM centerStep P).map (fun P => Matrix.vecMul originPoint P)

end Verif.Mx
