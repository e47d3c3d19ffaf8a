import Verif.Model.OneMatrix
import Verif.Props.Matrix
/-
C83: the functions that return only the forward matrix, only the inverse matrix, or the centre of rotation.
-/
noncomputable section
namespace Verif.Mx
open Real Matrix

/-- **C83** The two functions return the two matrices that `transformMatrices` returns as a pair, with and without parent. -/
theorem C83_pair (f : Fields) (P : Option M4) : (transformMatrix f P, itransformMatrix f P) = transformMatrices f P := rfl

/-- **C83** A local point goes through the transform as VRML97 says, and then through the parent matrix. -/
theorem C83_moves_points (f : Fields) (P : Option M4) (p : V3) :
    p.row ᵥ* mat (transformMatrix f P) = (vrmlTransform f p).row ᵥ* mat P := by
  have h : mat (transformMatrix f P) = mat (localMatrices f).1 * mat P := by
    simp [transformMatrix, localMatrices, C38_compress_identity, mul_assoc]
  rw [h, ← Matrix.vecMul_vecMul, C60_moves_points]

/-- **C83** The inverse function takes a point of the parent's space to local coordinates *before* it goes through the matrix
given as parent. -/
theorem C83_inverse_moves_points (f : Fields) (hf : f.ok) (P : Option M4) (p : V3) :
    (vrmlTransform f p).row ᵥ* mat (itransformMatrix f P) = p.row ᵥ* mat P := by
  have h : mat (itransformMatrix f P) = mat (localMatrices f).2 * mat P := by
    simp [itransformMatrix, localMatrices, C38_compress_identity, mul_assoc]
  rw [h, ← Matrix.vecMul_vecMul, C60_inverse_moves_back f hf]

/-- **C83** Given a parent matrix and its inverse, the two functions return mutually inverse matrices exactly when the local
matrix commutes with the parent's. -/
theorem C83_inverse_iff (f : Fields) (hf : f.ok) (P P' : M4) (hP : P * P' = 1) :
    mat (transformMatrix f (some P)) * mat (itransformMatrix f (some P')) = 1 ↔
      mat (localMatrices f).1 * P = P * mat (localMatrices f).1 := by
  obtain ⟨hc, hc'⟩ := C36_cancel f hf
  have hP' : P' * P = 1 := mul_eq_one_comm.mp hP
  have h1 : mat (transformMatrix f (some P)) = mat (localMatrices f).1 * P := (C61_parent_factor f P).1
  have h2 : mat (itransformMatrix f (some P')) = mat (localMatrices f).2 * P' := (C61_parent_factor f P').2
  rw [h1, h2]
  generalize mat (localMatrices f).1 = L at *
  generalize mat (localMatrices f).2 = L' at *
  constructor
  · intro h
    calc L * P = (L * P * (L' * P')) * (P * L) := by
          have : L * P * (L' * P') * (P * L) = L * P * (L' * (P' * P) * L) := by simp only [mul_assoc]
          rw [this, hP', mul_one, hc', mul_one]
      _ = P * L := by rw [h, one_mul]
  · intro h
    calc L * P * (L' * P') = P * (L * L') * P' := by rw [h]; simp only [mul_assoc]
      _ = 1 := by rw [hc, mul_one, hP]

/-- **C83** So for a translation inside a scaled parent they are not inverse. -/
theorem C83_refuted_inverse : ∃ (f : Fields) (P P' : M4), f.ok ∧ P * P' = 1 ∧
    mat (transformMatrix f (some P)) * mat (itransformMatrix f (some P')) ≠ 1 := by
  have hok : Fields.ok ⟨some ⟨1, 0, 0⟩, none, none, none, none⟩ := by
    constructor <;> (intro r h; cases h)
  have hP : (scaleArray 2 1 1) * (scaleArray (1/2) 1 1) = 1 := by
    ext i j; fin_cases i <;> fin_cases j <;> simp [scaleArray, Matrix.mul_apply, Fin.sum_univ_four]
  refine ⟨_, _, _, hok, hP, fun h => ?_⟩
  have h := (C83_inverse_iff _ hok _ _ hP).mp h
  have := congrFun (congrFun h 3) 0
  simp only [localMatrices, C38_compress_identity] at this
  simp [transMatrix, rotMatrix, scaleMatrix, transArray, scaleArray, Matrix.mul_apply, Fin.sum_univ_four] at this

/-- A field that moves nothing: absent or zero. -/
def Zero (o : Option V3) : Prop := ∀ v, o = some v → v.x = 0 ∧ v.y = 0 ∧ v.z = 0

theorem trans_none_iff (o : Option V3) : (transMatrix o).1 = none ↔ Zero o := by
  cases o with
  | none => simp [transMatrix, Zero]
  | some v =>
    simp only [transMatrix, Zero]
    split
    · rename_i h
      obtain ⟨h1, h2, h3⟩ := h
      simp only [true_iff]
      intro w hw
      cases hw
      exact ⟨by rw [h1, h2, h3], by rw [h2, h3], h3⟩
    · rename_i h
      simp only [reduceCtorEq, false_iff]
      intro hz
      obtain ⟨h1, h2, h3⟩ := hz v rfl
      exact h ⟨by rw [h1, h2], by rw [h2, h3], h3⟩

/-- **C83** `center` gives a result exactly for transforms without translation and center: the parent's origin.  For every other
transform it raises ValueError, instead of giving the parent-space position of the centre of rotation. -/
theorem C83_center (t c : Option V3) (P : Option M4) (r : Fin 4 → ℝ) :
    center t c P = some r ↔ Zero t ∧ Zero c ∧ r = (⟨0, 0, 0⟩ : V3).row ᵥ* mat P := by
  have e : (originPoint : Fin 4 → ℝ) = (⟨0, 0, 0⟩ : V3).row := rfl
  rw [← trans_none_iff, ← trans_none_iff, ← e]
  unfold center
  cases ht : (transMatrix t).1 <;> cases hc : (transMatrix c).1 <;>
    simp [ht, hc, List.foldlM, centerStep, eq_comm]

/-- **C83** The position it should give, the image of the centre, is refused for every transform with a non-zero center. -/
theorem C83_refuted_center (f : Fields) (P : Option M4) (v : V3) (hv : f.center = some v) (h0 : ¬ (v.x = 0 ∧ v.y = 0 ∧ v.z = 0)) :
    center f.translation f.center P = none := by
  cases h : center f.translation f.center P with
  | none => rfl
  | some r => exact absurd (((C83_center _ _ _ _).mp h).2.1 v hv) h0

/-- A scaled parent and a transform that scales: they commute, and the two functions agree. -/
example : mat (transformMatrix ⟨none, none, none, some ⟨2, 3, 4⟩, none⟩ (some (scaleArray 2 1 1))) *
    mat (itransformMatrix ⟨none, none, none, some ⟨2, 3, 4⟩, none⟩ (some (scaleArray (1/2) 1 1))) = 1 := by
  have hok : Fields.ok ⟨none, none, none, some ⟨2, 3, 4⟩, none⟩ := by
    constructor
    · intro r h; cases h
    · intro r h; cases h
    · intro r h; cases h; norm_num
  have hP : (scaleArray 2 1 1) * (scaleArray (1/2) 1 1) = 1 := by
    ext i j; fin_cases i <;> fin_cases j <;> simp [scaleArray, Matrix.mul_apply, Fin.sum_univ_four]
  refine (C83_inverse_iff _ hok _ _ hP).mpr ?_
  simp only [localMatrices, C38_compress_identity]
  ext i j
  fin_cases i <;> fin_cases j <;> simp [transMatrix, rotMatrix, scaleMatrix, scaleArray, Matrix.mul_apply, Fin.sum_univ_four] <;> norm_num

/-- Without translation and center the centre of rotation is the parent's origin. -/
example : center none (some ⟨0, 0, 0⟩) (some (transArray 1 2 3)) = some ((⟨0, 0, 0⟩ : V3).row ᵥ* transArray 1 2 3) :=
  (C83_center _ _ _ _).mpr ⟨fun _ h => (by cases h), fun v h => (by cases h; simp), rfl⟩

end Verif.Mx
