import Verif.Model.Matrix
import Verif.Props.TransformCache
import Mathlib.LinearAlgebra.Matrix.Determinant.Basic
import Mathlib.LinearAlgebra.Matrix.NonsingularInverse
import Mathlib.Tactic.FieldSimp
import Mathlib.Tactic.LinearCombination
import Mathlib.Tactic.NormNum
/-
Properties C36–C42 of the transformation matrices, and C60 (a transform moves points as VRML97 says).
-/
noncomputable section
namespace Verif.Mx
open Real Matrix

/-! ### Specification vocabulary (independent of the model's helpers) -/

/-- An absent matrix means the identity. -/
abbrev mat (m : Option M4) : M4 := m.getD 1

/-- The homogeneous row vector of a point. -/
def V3.row (v : V3) : Fin 4 → ℝ := ![v.x, v.y, v.z, 1]

def V3.add (v w : V3) : V3 := ⟨v.x + w.x, v.y + w.y, v.z + w.z⟩
def V3.sub (v w : V3) : V3 := ⟨v.x - w.x, v.y - w.y, v.z - w.z⟩
def V3.mulc (v w : V3) : V3 := ⟨v.x * w.x, v.y * w.y, v.z * w.z⟩
def V3.smul (k : ℝ) (v : V3) : V3 := ⟨k * v.x, k * v.y, k * v.z⟩
def V3.cross (v w : V3) : V3 := ⟨v.y * w.z - v.z * w.y, v.z * w.x - v.x * w.z, v.x * w.y - v.y * w.x⟩
def V3.dot (v w : V3) : ℝ := v.x * w.x + v.y * w.y + v.z * w.z
def Rot.axis (r : Rot) : V3 := ⟨r.x, r.y, r.z⟩

/-- Rotating a vector about an axis by an angle (right-handed, Rodrigues' formula), VRML97 semantics. -/
def rotateV (axis : V3) (a : ℝ) (v : V3) : V3 :=
  let u := V3.smul (1 / √(axis.dot axis)) axis
  ((V3.smul (cos a) v).add (V3.smul (sin a) (u.cross v))).add (V3.smul ((1 - cos a) * u.dot v) u)

/-- A rotation whose axis is a direction. -/
def Rot.ok (r : Rot) : Prop := r.axis.dot r.axis ≠ 0

theorem V3.ext' {v w : V3} (hx : v.x = w.x) (hy : v.y = w.y) (hz : v.z = w.z) : v = w := by
  cases v; cases w; simp_all

/-! ### Helper lemmas -/

theorem pmod_zero {a : ℝ} (h : pmod a (2 * π) = 0) : cos a = 1 ∧ sin a = 0 := by
  have : a = ⌊a / (2 * π)⌋ * (2 * π) := by unfold pmod at h; linarith
  rw [this]
  exact ⟨Real.cos_int_mul_two_pi _, by
    have := Real.sin_add_int_mul_two_pi 0 ⌊a / (2 * π)⌋
    simpa using this⟩

/-- The normalised axis. -/
def Rot.unit (r : Rot) : V3 := V3.smul (1 / √(r.axis.dot r.axis)) r.axis

theorem rotArray_id (x y z : ℝ) : rotArray x y z 1 0 0 = 1 := by
  ext i j; fin_cases i <;> fin_cases j <;> simp [rotArray]

theorem Rot.unit_dot {r : Rot} (h : r.ok) : r.unit.x * r.unit.x + r.unit.y * r.unit.y + r.unit.z * r.unit.z = 1 := by
  have hp : 0 ≤ r.axis.dot r.axis := by
    simp only [V3.dot]; nlinarith [mul_self_nonneg r.axis.x, mul_self_nonneg r.axis.y, mul_self_nonneg r.axis.z]
  have hs : √(r.axis.dot r.axis) * √(r.axis.dot r.axis) = r.axis.dot r.axis := Real.mul_self_sqrt hp
  have hne : √(r.axis.dot r.axis) ≠ 0 := by
    intro h0; rw [h0] at hs; simp at hs; exact h hs.symm
  have : r.unit.x * r.unit.x + r.unit.y * r.unit.y + r.unit.z * r.unit.z
      = (r.axis.dot r.axis) / (√(r.axis.dot r.axis) * √(r.axis.dot r.axis)) := by
    simp only [Rot.unit, V3.smul]
    rw [show r.axis.dot r.axis = r.axis.x * r.axis.x + r.axis.y * r.axis.y + r.axis.z * r.axis.z from rfl]
    field_simp
  rw [this, hs, div_self h]

/-- What the two components of `rotMatrix` are, in all cases. -/
theorem rotMatrix_eq (r : Rot) :
    mat (rotMatrix (some r)).1 = rotArray r.unit.x r.unit.y r.unit.z (cos r.a) (sin r.a) (1 - cos r.a) ∧
    mat (rotMatrix (some r)).2 = rotArray r.unit.x r.unit.y r.unit.z (cos r.a) (-sin r.a) (1 - cos r.a) := by
  by_cases hp : pmod r.a (2 * π) = 0
  · have ⟨hc, hs⟩ := pmod_zero hp
    simp [rotMatrix, hp, hc, hs, rotArray_id]
  · have hl : (if r.x*r.x + r.y*r.y + r.z*r.z ≠ 1 then √(r.x*r.x + r.y*r.y + r.z*r.z) else 1) = √(r.axis.dot r.axis) := by
      have : r.axis.dot r.axis = r.x*r.x + r.y*r.y + r.z*r.z := rfl
      rw [this]
      split
      · rfl
      · rename_i h; simp at h; rw [h]; simp
    simp only [rotMatrix, ne_eq, hp, not_false_iff, if_true, Option.getD_some, Real.cos_neg, Real.sin_neg]
    simp only [ne_eq] at hl
    rw [hl]
    simp only [Rot.unit, V3.smul, Rot.axis, mul_one, div_eq_inv_mul]
    exact ⟨trivial, trivial⟩

theorem rotArray_mul {x y z : ℝ} (h : x*x + y*y + z*z = 1) (a b : ℝ) :
    rotArray x y z (cos a) (sin a) (1 - cos a) * rotArray x y z (cos b) (sin b) (1 - cos b)
      = rotArray x y z (cos (a + b)) (sin (a + b)) (1 - cos (a + b)) := by
  rw [Real.cos_add, Real.sin_add]
  generalize cos a = c; generalize cos b = c'; generalize sin a = s; generalize sin b = s'
  ext i j
  fin_cases i <;> fin_cases j <;> simp [rotArray, Matrix.mul_apply, Fin.sum_univ_four]
  · linear_combination ((1-c)*(1-c')*x*x - s*s') * h
  · linear_combination ((1-c)*(1-c')*x*y) * h
  · linear_combination ((1-c)*(1-c')*x*z) * h
  · linear_combination ((1-c)*(1-c')*x*y) * h
  · linear_combination ((1-c)*(1-c')*y*y - s*s') * h
  · linear_combination ((1-c)*(1-c')*y*z) * h
  · linear_combination ((1-c)*(1-c')*x*z) * h
  · linear_combination ((1-c)*(1-c')*y*z) * h
  · linear_combination ((1-c)*(1-c')*z*z - s*s') * h


theorem rotInv_eq (r : Rot) :
    mat (rotMatrix (some r)).2 = rotArray r.unit.x r.unit.y r.unit.z (cos (-r.a)) (sin (-r.a)) (1 - cos (-r.a)) := by
  rw [(rotMatrix_eq r).2, Real.cos_neg, Real.sin_neg]

theorem rotArray_transpose (x y z c s t : ℝ) : (rotArray x y z c s t)ᵀ = rotArray x y z c (-s) t := by
  ext i j; fin_cases i <;> fin_cases j <;> simp [rotArray] <;> ring

/-! ### C37 -/

/-- **C37.** The inverse returned with a rotation matrix is its transpose (for any axis and angle). -/
theorem C37_inverse_is_transpose (r : Rot) : mat (rotMatrix (some r)).2 = (mat (rotMatrix (some r)).1)ᵀ := by
  rw [(rotMatrix_eq r).1, (rotMatrix_eq r).2, rotArray_transpose]

/-- **C37.** Orthogonal: the matrix times its transpose is the identity, in both orders. -/
theorem C37_orthogonal (r : Rot) (h : r.ok) :
    mat (rotMatrix (some r)).1 * (mat (rotMatrix (some r)).1)ᵀ = 1 ∧
    (mat (rotMatrix (some r)).1)ᵀ * mat (rotMatrix (some r)).1 = 1 := by
  rw [← C37_inverse_is_transpose, rotInv_eq, (rotMatrix_eq r).1]
  rw [rotArray_mul (Rot.unit_dot h), rotArray_mul (Rot.unit_dot h)]
  simp [rotArray_id]

/-- **C37.** The axis is left fixed (row-vector convention of the module). -/
theorem C37_axis_fixed (r : Rot) (h : r.ok) : r.axis.row ᵥ* mat (rotMatrix (some r)).1 = r.axis.row := by
  have hu := Rot.unit_dot h
  have hk : ∃ k : ℝ, r.axis = V3.smul k r.unit := by
    refine ⟨√(r.axis.dot r.axis), ?_⟩
    have hp : 0 ≤ r.axis.dot r.axis := by
      simp only [V3.dot]; nlinarith [mul_self_nonneg r.axis.x, mul_self_nonneg r.axis.y, mul_self_nonneg r.axis.z]
    have hne : √(r.axis.dot r.axis) ≠ 0 := fun h0 => h ((Real.sqrt_eq_zero hp).1 h0)
    apply V3.ext' <;> simp only [Rot.unit, V3.smul] <;> field_simp
  obtain ⟨k, hk⟩ := hk
  rw [(rotMatrix_eq r).1, hk]
  generalize r.unit = u at *
  generalize cos r.a = c at *; generalize sin r.a = s at *
  ext j
  fin_cases j <;> simp [rotArray, V3.row, V3.smul, Matrix.vecMul, dotProduct, Fin.sum_univ_four]
  · linear_combination (k * u.x * (1 - c)) * hu
  · linear_combination (k * u.y * (1 - c)) * hu
  · linear_combination (k * u.z * (1 - c)) * hu

/-- **C37.** Rotations about the same axis compose by adding the angles. -/
theorem C37_angles_add (r : Rot) (h : r.ok) (b : ℝ) :
    mat (rotMatrix (some r)).1 * mat (rotMatrix (some { r with a := b })).1
      = mat (rotMatrix (some { r with a := r.a + b })).1 := by
  rw [(rotMatrix_eq r).1, (rotMatrix_eq _).1, (rotMatrix_eq _).1]
  exact rotArray_mul (Rot.unit_dot h) r.a b

/-- **C37.** Determinant 1. -/
theorem C37_det_one (r : Rot) (h : r.ok) : (mat (rotMatrix (some r)).1).det = 1 := by
  have hh := C37_angles_add { r with a := r.a / 2 } h (r.a / 2)
  simp only [add_halves] at hh
  have ho := (C37_orthogonal { r with a := r.a / 2 } h).1
  have h1 := congrArg Matrix.det ho
  have h2 := congrArg Matrix.det hh
  rw [Matrix.det_mul, Matrix.det_transpose, Matrix.det_one] at h1
  rw [Matrix.det_mul, h1] at h2
  exact h2.symm

/-- **C37.** Only the direction of the axis matters. -/
theorem C37_direction_only (r : Rot) (k : ℝ) (hk : 0 < k) :
    mat (rotMatrix (some ⟨k * r.x, k * r.y, k * r.z, r.a⟩)).1 = mat (rotMatrix (some r)).1 ∧
    mat (rotMatrix (some ⟨k * r.x, k * r.y, k * r.z, r.a⟩)).2 = mat (rotMatrix (some r)).2 := by
  have hu : (⟨k * r.x, k * r.y, k * r.z, r.a⟩ : Rot).unit = r.unit := by
    have hd : (⟨k * r.x, k * r.y, k * r.z, r.a⟩ : Rot).axis.dot (⟨k * r.x, k * r.y, k * r.z, r.a⟩ : Rot).axis
        = k ^ 2 * r.axis.dot r.axis := by simp only [Rot.axis, V3.dot]; ring
    have hs : √(k ^ 2 * r.axis.dot r.axis) = k * √(r.axis.dot r.axis) := by
      rw [Real.sqrt_mul (by positivity), Real.sqrt_sq hk.le]
    simp only [Rot.unit]
    rw [hd, hs]
    apply V3.ext' <;> simp only [V3.smul, Rot.axis] <;> field_simp
  constructor
  · rw [(rotMatrix_eq _).1, (rotMatrix_eq r).1, hu]
  · rw [(rotMatrix_eq _).2, (rotMatrix_eq r).2, hu]

/-- **C37.** No matrix is returned exactly for whole turns. -/
theorem C37_none_iff_whole_turn (r : Rot) :
    ((rotMatrix (some r)).1 = none ↔ ∃ n : ℤ, r.a = n * (2 * π)) ∧ ((rotMatrix (some r)).2 = none ↔ (rotMatrix (some r)).1 = none) := by
  by_cases hp : pmod r.a (2 * π) = 0
  · simp [rotMatrix, hp]
    exact ⟨⌊r.a / (2 * π)⌋, by unfold pmod at hp; linarith⟩
  · simp [rotMatrix, hp]
    intro n hn
    apply hp
    have : (2 * π) ≠ 0 := by positivity
    rw [hn, pmod, mul_div_assoc, div_self this, mul_one, Int.floor_intCast]; ring

/-- **C37, C60.** The matrix turns vectors about the axis by the angle, right-handedly (Rodrigues' formula). -/
theorem C37_rotates (r : Rot) (v : V3) : v.row ᵥ* mat (rotMatrix (some r)).1 = (rotateV r.axis r.a v).row := by
  rw [(rotMatrix_eq r).1]
  simp only [rotateV]
  change _ = (((V3.smul (cos r.a) v).add (V3.smul (sin r.a) (r.unit.cross v))).add (V3.smul ((1 - cos r.a) * r.unit.dot v) r.unit)).row
  generalize r.unit = u
  generalize cos r.a = c; generalize sin r.a = s
  ext j
  fin_cases j <;> simp [rotArray, V3.row, V3.smul, V3.add, V3.cross, V3.dot, Matrix.vecMul, dotProduct, Fin.sum_univ_four] <;> ring

-- non-vacuity: a quarter turn about a non-normalised x axis has a usable axis and a matrix
example : (⟨2, 0, 0, π / 2⟩ : Rot).ok ∧ ∃ m, (rotMatrix (some ⟨2, 0, 0, π / 2⟩)).1 = some m := by
  refine ⟨by simp [Rot.ok, Rot.axis, V3.dot], ?_⟩
  have h : (rotMatrix (some ⟨2, 0, 0, π / 2⟩)).1 ≠ none := by
    rw [ne_eq, (C37_none_iff_whole_turn _).1]
    rintro ⟨n, hn⟩
    have hn : π / 2 = n * (2 * π) := hn
    have hpi := Real.pi_pos
    have : (4 * n : ℝ) = 1 := by
      have := mul_right_cancel₀ (ne_of_gt hpi) (show (4 * n : ℝ) * π = 1 * π by linarith)
      exact this
    have h4 : (4 * n : ℤ) = 1 := by exact_mod_cast this
    omega
  exact Option.ne_none_iff_exists'.1 h

/-! ### C38 -/

theorem compress_go (l : List (Option M4)) (first : Option M4) :
    l.foldl (fun first item => match item with
      | none => first
      | some m => match first with
        | none => some m
        | some f => some (m * f)) first
    = if first = none ∧ l.all (·.isNone) then none else some ((l.filterMap id).reverse.prod * mat first) := by
  induction l generalizing first with
  | nil => cases first <;> simp
  | cons x l ih =>
    simp only [List.foldl_cons]
    rw [ih]
    cases x with
    | none => simp
    | some m =>
      cases first with
      | none => simp
      | some f => simp [mul_assoc]

/-- **C38.** Compressing a list of optional matrices gives nothing exactly when all are absent, and otherwise the
product of the present ones, the last one on the left. -/
theorem C38_compress (l : List (Option M4)) :
    compressMatrices l = if l.all (·.isNone) then none else some ((l.filterMap id).reverse.prod) := by
  cases l with
  | nil => simp [compressMatrices]
  | cons x l =>
    refine (compress_go l x).trans ?_
    cases x <;> simp

/-- **C38.** With None read as the identity, compression is the plain product. -/
theorem C38_compress_identity (l : List (Option M4)) :
    mat (compressMatrices l) = ((l.map mat).reverse).prod := by
  rw [C38_compress]
  have key : (l.filterMap id).reverse.prod = ((l.map mat).reverse).prod := by
    induction l with
    | nil => rfl
    | cons x l ih =>
      cases x with
      | none => simpa using ih
      | some m =>
        have : (List.filterMap id (some m :: l)) = m :: List.filterMap id l := rfl
        rw [this]; simp only [List.reverse_cons, List.prod_append, List.map_cons, ih]; rfl
  split
  · rename_i h
    rw [← key]
    have : l.filterMap id = [] := by
      rw [List.filterMap_eq_nil_iff]; intro a ha
      simpa using List.all_eq_true.1 h a ha
    rw [this]; rfl
  · exact key

/-- **C38.** None exactly when all are None. -/
theorem C38_none_iff (l : List (Option M4)) : compressMatrices l = none ↔ ∀ m ∈ l, m = none := by
  rw [C38_compress]; simp

example : compressMatrices [none, some (transArray 1 2 3), none, some (scaleArray 2 2 2)]
    = some (scaleArray 2 2 2 * transArray 1 2 3) := by
  rw [C38_compress]; simp

/-! ### C36 -/

/-- Every present rotation has an axis, every present scale has no zero component. -/
structure Fields.ok (f : Fields) : Prop where
  rot : ∀ r, f.rotation = some r → r.ok
  so : ∀ r, f.scaleOrientation = some r → r.ok
  sc : ∀ v, f.scale = some v → v.x ≠ 0 ∧ v.y ≠ 0 ∧ v.z ≠ 0

theorem rot_pair (o : Option Rot) (h : ∀ r, o = some r → r.ok) :
    mat (rotMatrix o).1 * mat (rotMatrix o).2 = 1 ∧ mat (rotMatrix o).2 * mat (rotMatrix o).1 = 1 := by
  cases o with
  | none => simp [rotMatrix]
  | some r => rw [C37_inverse_is_transpose]; exact C37_orthogonal r (h r rfl)

theorem trans_eq (v : V3) : mat (transMatrix (some v)).1 = transArray v.x v.y v.z ∧
    mat (transMatrix (some v)).2 = transArray (-v.x) (-v.y) (-v.z) := by
  by_cases h : v.x = v.y ∧ v.y = v.z ∧ v.z = 0
  · have h3 := h.2.2; have h2 := h.2.1.trans h3; have h1 := h.1.trans h2
    have h0 : transArray 0 0 0 = 1 := by ext i j; fin_cases i <;> fin_cases j <;> simp [transArray]
    simp [transMatrix, h1, h2, h3, h0]
  · simp [transMatrix, h]

theorem scale_eq (v : V3) : mat (scaleMatrix (some v)).1 = scaleArray v.x v.y v.z ∧
    mat (scaleMatrix (some v)).2 = scaleArray (1 / orSmall verySmall v.x) (1 / orSmall verySmall v.y) (1 / orSmall verySmall v.z) := by
  by_cases h : v.x = v.y ∧ v.y = v.z ∧ v.z = 1
  · have h3 := h.2.2; have h2 := h.2.1.trans h3; have h1 := h.1.trans h2
    have h0 : scaleArray 1 1 1 = 1 := by ext i j; fin_cases i <;> fin_cases j <;> simp [scaleArray]
    simp [scaleMatrix, h1, h2, h3, orSmall, h0]
  · simp [scaleMatrix, h]

theorem trans_pair (o : Option V3) :
    mat (transMatrix o).1 * mat (transMatrix o).2 = 1 ∧ mat (transMatrix o).2 * mat (transMatrix o).1 = 1 := by
  cases o with
  | none => simp [transMatrix]
  | some v =>
    rw [(trans_eq v).1, (trans_eq v).2]
    constructor <;> ext i j <;> fin_cases i <;> fin_cases j <;> simp [transArray, Matrix.mul_apply, Fin.sum_univ_four]

theorem scale_pair (o : Option V3) (h : ∀ v, o = some v → v.x ≠ 0 ∧ v.y ≠ 0 ∧ v.z ≠ 0) :
    mat (scaleMatrix o).1 * mat (scaleMatrix o).2 = 1 ∧ mat (scaleMatrix o).2 * mat (scaleMatrix o).1 = 1 := by
  cases o with
  | none => simp [scaleMatrix]
  | some v =>
    obtain ⟨hx, hy, hz⟩ := h v rfl
    rw [(scale_eq v).1, (scale_eq v).2]
    simp only [orSmall, hx, hy, hz, if_false]
    constructor <;> ext i j <;> fin_cases i <;> fin_cases j <;>
      simp [scaleArray, Matrix.mul_apply, Fin.sum_univ_four, hx, hy, hz]

theorem local_fwd (f : Fields) : mat (localMatrices f).1
    = mat (transMatrix f.center).2 * mat (rotMatrix f.scaleOrientation).2 * mat (scaleMatrix f.scale).1 *
      mat (rotMatrix f.scaleOrientation).1 * mat (rotMatrix f.rotation).1 * mat (transMatrix f.center).1 *
      mat (transMatrix f.translation).1 := by
  simp only [localMatrices]
  rw [C38_compress_identity]
  simp [mul_assoc]

theorem local_inv (f : Fields) : mat (localMatrices f).2
    = mat (transMatrix f.translation).2 * mat (transMatrix f.center).2 * mat (rotMatrix f.rotation).2 *
      mat (rotMatrix f.scaleOrientation).2 * mat (scaleMatrix f.scale).2 * mat (rotMatrix f.scaleOrientation).1 *
      mat (transMatrix f.center).1 := by
  simp only [localMatrices]
  rw [C38_compress_identity]
  simp [mul_assoc]

/-- **C36.** The forward and inverse local matrices cancel, in both orders. -/
theorem C36_cancel (f : Fields) (h : f.ok) :
    mat (localMatrices f).1 * mat (localMatrices f).2 = 1 ∧ mat (localMatrices f).2 * mat (localMatrices f).1 = 1 := by
  have hT := trans_pair f.translation
  have hC := trans_pair f.center
  have hR := rot_pair f.rotation h.rot
  have hO := rot_pair f.scaleOrientation h.so
  have hS := scale_pair f.scale h.sc
  have key : mat (localMatrices f).1 * mat (localMatrices f).2 = 1 := by
    rw [local_fwd, local_inv]
    generalize mat (transMatrix f.translation).1 = T at *; generalize mat (transMatrix f.translation).2 = T' at *
    generalize mat (transMatrix f.center).1 = C at *; generalize mat (transMatrix f.center).2 = C' at *
    generalize mat (rotMatrix f.rotation).1 = R at *; generalize mat (rotMatrix f.rotation).2 = R' at *
    generalize mat (rotMatrix f.scaleOrientation).1 = O at *; generalize mat (rotMatrix f.scaleOrientation).2 = O' at *
    generalize mat (scaleMatrix f.scale).1 = S at *; generalize mat (scaleMatrix f.scale).2 = S' at *
    calc C' * O' * S * O * R * C * T * (T' * C' * R' * O' * S' * O * C)
        = C' * O' * S * O * R * C * (T * T') * C' * R' * O' * S' * O * C := by simp only [mul_assoc]
      _ = C' * O' * S * O * R * (C * C') * R' * O' * S' * O * C := by rw [hT.1]; simp only [mul_assoc, one_mul]
      _ = C' * O' * S * O * (R * R') * O' * S' * O * C := by rw [hC.1]; simp only [mul_assoc, one_mul]
      _ = C' * O' * S * (O * O') * S' * O * C := by rw [hR.1]; simp only [mul_assoc, one_mul]
      _ = C' * O' * (S * S') * O * C := by rw [hO.1]; simp only [mul_assoc, one_mul]
      _ = C' * (O' * O) * C := by rw [hS.1]; simp only [mul_assoc, one_mul]
      _ = 1 := by rw [hO.2]; simp only [mul_one]; exact hC.2
  exact ⟨key, mul_eq_one_comm.1 key⟩

/-- **C36 (limits).** With a zero scale component the two matrices do not cancel, whatever the other fields. -/
theorem C36_zero_scale (f : Fields) (v : V3) (hs : f.scale = some v) (h0 : v.x = 0 ∨ v.y = 0 ∨ v.z = 0) :
    mat (localMatrices f).1 * mat (localMatrices f).2 ≠ 1 := by
  intro h
  have hd : (mat (scaleMatrix f.scale).1).det = 0 := by
    rw [hs, (scale_eq v).1]
    rw [Matrix.det_succ_row_zero]
    rcases h0 with h0 | h0 | h0 <;>
      simp [h0, Fin.sum_univ_four, Matrix.det_fin_three, scaleArray, Matrix.submatrix, Fin.succAbove]
  have : (mat (localMatrices f).1).det = 0 := by
    rw [local_fwd]; simp only [Matrix.det_mul, hd]; ring
  have h1 := congrArg Matrix.det h
  rw [Matrix.det_mul, this] at h1
  simp at h1

/-- **C36** The inverse returned for a scale: the reciprocals; for zero, the reciprocal of the smallest number used in its place.  So the returned inverse of a transform can always be inverted. -/
theorem C36_scale_inverse (v : V3) : mat (scaleMatrix (some v)).2 = open Classical in
    !![if v.x = 0 then 10 ^ 300 else 1 / v.x, 0, 0, 0; 0, if v.y = 0 then 10 ^ 300 else 1 / v.y, 0, 0; 0, 0, if v.z = 0 then 10 ^ 300 else 1 / v.z, 0; 0, 0, 0, 1] := by
  have h : ∀ x, 1 / orSmall verySmall x = open Classical in if x = 0 then 10 ^ 300 else 1 / x := by
    intro x
    unfold orSmall verySmall
    split
    · rw [one_div_one_div]
    · rfl
  rw [(scale_eq v).2, h, h, h]
  rfl

/-- `transformMatrices` without a parent matrix gives the same pair. -/
theorem C36_transformMatrices (f : Fields) : transformMatrices f none = localMatrices f := by
  simp [transformMatrices, localMatrices, C38_compress]

/-- **C61 refuted.** With a parent matrix the "inverse" returned by transformMatrices/itransformMatrix is not the
inverse of the forward matrix: it is multiplied by the parent's forward matrix. -/
theorem C61_refuted_parent : ∃ P : M4, ∃ P' : M4, P * P' = 1 ∧
    mat (transformMatrices ⟨none, none, none, none, none⟩ (some P)).1 *
      mat (transformMatrices ⟨none, none, none, none, none⟩ (some P)).2 ≠ 1 := by
  refine ⟨transArray 1 0 0, transArray (-1) 0 0, ?_, ?_⟩
  · ext i j; fin_cases i <;> fin_cases j <;> simp [transArray, Matrix.mul_apply, Fin.sum_univ_four]
  · simp only [transformMatrices, C38_compress_identity]
    simp only [transMatrix, rotMatrix, scaleMatrix]
    intro h
    have := congrFun (congrFun h 3) 0
    simp [transArray, Matrix.mul_apply, Fin.sum_univ_four] at this

/-- **C61.** What the two matrices with a parent are: the local matrix and the local inverse, both followed by the
parent's forward matrix. -/
theorem C61_parent_factor (f : Fields) (P : M4) :
    mat (transformMatrices f (some P)).1 = mat (localMatrices f).1 * P ∧
    mat (transformMatrices f (some P)).2 = mat (localMatrices f).2 * P := by
  constructor <;> simp [transformMatrices, localMatrices, C38_compress_identity, mul_assoc]

/-- **C61.** The two are mutually inverse exactly when carrying the parent matrix over to local coordinates gives its
inverse: for an invertible parent, when `L * P * L⁻¹ = P⁻¹` with `L` the local matrix. -/
theorem C61_inverse_iff (f : Fields) (P P' : M4) (hP : P * P' = 1) :
    (mat (transformMatrices f (some P)).1 * mat (transformMatrices f (some P)).2 = 1 ∧
      mat (transformMatrices f (some P)).2 * mat (transformMatrices f (some P)).1 = 1) ↔
    mat (localMatrices f).1 * P * mat (localMatrices f).2 = P' := by
  obtain ⟨h1, h2⟩ := C61_parent_factor f P
  have hP' : P' * P = 1 := mul_eq_one_comm.mp hP
  rw [h1, h2]
  constructor
  · rintro ⟨h, -⟩
    calc mat (localMatrices f).1 * P * mat (localMatrices f).2
        = (mat (localMatrices f).1 * P * (mat (localMatrices f).2 * P)) * P' := by
          rw [mul_assoc, mul_assoc, mul_assoc, mul_assoc, hP, mul_one]
      _ = P' := by rw [h, one_mul]
  · intro h
    have : mat (localMatrices f).1 * P * (mat (localMatrices f).2 * P) = 1 := by rw [← mul_assoc, h, hP']
    exact ⟨this, mul_eq_one_comm.mp this⟩

/-- Without a transform of its own, a parent that mirrors x and y is its own inverse, so there the pair is inverse. -/
example : let P : M4 := Matrix.diagonal ![-1, -1, 1, 1]
    P * P = 1 ∧ mat (localMatrices ⟨none, none, none, none, none⟩).1 * P * mat (localMatrices ⟨none, none, none, none, none⟩).2 = P := by
  intro P
  have h1 : P * P = 1 := by
    rw [Matrix.diagonal_mul_diagonal, ← Matrix.diagonal_one]; congr 1; ext i; fin_cases i <;> simp
  refine ⟨h1, ?_⟩
  simp only [localMatrices, C38_compress_identity]; simp [transMatrix, rotMatrix, scaleMatrix]

theorem ok_example : Fields.ok ⟨some ⟨1, 2, 3⟩, some ⟨0, 1, 0⟩, some ⟨0, 0, 2, 1⟩, some ⟨2, 3, -4⟩, some ⟨1, 1, 1, 5⟩⟩ := by
  constructor
  · intro r h; cases h; simp [Rot.ok, Rot.axis, V3.dot]
  · intro r h; cases h; simp [Rot.ok, Rot.axis, V3.dot]; norm_num
  · intro v h; cases h; norm_num

/-! ### C60: a transform moves points as VRML97 says -/

/-- VRML97 §6.52: P' = T · C · R · SR · S · -SR · -C · P, as operations on points; absent fields do nothing. -/
def vrmlTransform (f : Fields) (p : V3) : V3 :=
  let c := f.center.getD ⟨0, 0, 0⟩
  let p1 := p.sub c
  let p2 := match f.scaleOrientation with | none => p1 | some o => rotateV o.axis (-o.a) p1
  let p3 := match f.scale with | none => p2 | some s => s.mulc p2
  let p4 := match f.scaleOrientation with | none => p3 | some o => rotateV o.axis o.a p3
  let p5 := match f.rotation with | none => p4 | some r => rotateV r.axis r.a p4
  let p6 := p5.add c
  p6.add (f.translation.getD ⟨0, 0, 0⟩)

theorem trans_row (o : Option V3) (p : V3) : p.row ᵥ* mat (transMatrix o).1 = (p.add (o.getD ⟨0, 0, 0⟩)).row ∧
    p.row ᵥ* mat (transMatrix o).2 = (p.sub (o.getD ⟨0, 0, 0⟩)).row := by
  cases o with
  | none => simp [transMatrix, V3.add, V3.sub]
  | some v =>
    rw [(trans_eq v).1, (trans_eq v).2]
    constructor <;> ext j <;> fin_cases j <;>
      simp [transArray, V3.row, V3.add, V3.sub, Matrix.vecMul, dotProduct, Fin.sum_univ_four, sub_eq_add_neg]

theorem rotInv_row (r : Rot) (v : V3) : v.row ᵥ* mat (rotMatrix (some r)).2 = (rotateV r.axis (-r.a) v).row := by
  have h := C37_rotates ⟨r.x, r.y, r.z, -r.a⟩ v
  rw [(rotMatrix_eq _).1] at h
  rw [rotInv_eq]
  exact h

/-- **C60.** Applying the forward matrix to a local point (homogeneous row vector, as the module documents) gives the
point VRML97 prescribes. -/
theorem C60_moves_points (f : Fields) (p : V3) : p.row ᵥ* mat (localMatrices f).1 = (vrmlTransform f p).row := by
  rw [local_fwd]
  simp only [← Matrix.vecMul_vecMul]
  rw [(trans_row f.center p).2]
  have h2 : ∀ q : V3, q.row ᵥ* mat (rotMatrix f.scaleOrientation).2
      = (match f.scaleOrientation with | none => q | some o => rotateV o.axis (-o.a) q).row := by
    intro q; cases f.scaleOrientation with
    | none => simp [rotMatrix]
    | some o => exact rotInv_row o q
  have h4 : ∀ (o : Option Rot) (q : V3), q.row ᵥ* mat (rotMatrix o).1
      = (match o with | none => q | some o => rotateV o.axis o.a q).row := by
    intro o q; cases o with
    | none => simp [rotMatrix]
    | some o => exact C37_rotates o q
  have h3 : ∀ q : V3, q.row ᵥ* mat (scaleMatrix f.scale).1 = (match f.scale with | none => q | some s => s.mulc q).row := by
    intro q; cases f.scale with
    | none => simp [scaleMatrix]
    | some s =>
      rw [(scale_eq s).1]
      ext j; fin_cases j <;> simp [scaleArray, V3.row, V3.mulc, Matrix.vecMul, dotProduct, Fin.sum_univ_four, mul_comm]
  rw [h2, h3, h4, h4, (trans_row f.center _).1, (trans_row f.translation _).1]
  rfl

/-- **C60.** The inverse matrix brings the moved point back. -/
theorem C60_inverse_moves_back (f : Fields) (h : f.ok) (p : V3) :
    (vrmlTransform f p).row ᵥ* mat (localMatrices f).2 = p.row := by
  rw [← C60_moves_points, Matrix.vecMul_vecMul, (C36_cancel f h).1, Matrix.vecMul_one]

-- a quarter turn about z takes x to y
example : (rotateV ⟨0, 0, 3⟩ (π / 2) ⟨1, 0, 0⟩) = ⟨0, 1, 0⟩ := by
  have : √(9:ℝ) = 3 := by rw [show (9:ℝ) = 3 ^ 2 by norm_num]; exact Real.sqrt_sq (by norm_num)
  apply V3.ext' <;> simp [rotateV, V3.add, V3.smul, V3.cross, V3.dot]

/-! ### C39 -/

theorem path_fwd (p : List Fields) : pathMatrix p false = ((p.map (fun f => mat (localMatrices f).1)).reverse).prod := by
  simp only [pathMatrix, Bool.false_eq_true, if_false]
  have := C38_compress_identity (p.map (fun f => (localMatrices f).1))
  rw [mat] at this; rw [this, List.map_map]; rfl

theorem path_inv (p : List Fields) : pathMatrix p true = (p.map (fun f => mat (localMatrices f).2)).prod := by
  simp only [pathMatrix, if_true]
  have := C38_compress_identity (p.reverse.map (fun f => (localMatrices f).2))
  rw [mat] at this; rw [this, List.map_map, ← List.map_reverse, List.reverse_reverse]; rfl

/-- **C39.** The matrix of a concatenated path is the product of the matrices of its parts (in row-vector order: the
deeper part first), for the forward matrix, and in the opposite order for the inverse matrix. -/
theorem C39_concat (p q : List Fields) :
    pathMatrix (p ++ q) false = pathMatrix q false * pathMatrix p false ∧
    pathMatrix (p ++ q) true = pathMatrix p true * pathMatrix q true := by
  simp [path_fwd, path_inv]

/-- **C39.** A path without transforms has the identity; a path of one transform has that transform's matrices. -/
theorem C39_unit (f : Fields) : pathMatrix [] false = 1 ∧ pathMatrix [] true = 1 ∧
    pathMatrix [f] false = mat (localMatrices f).1 ∧ pathMatrix [f] true = mat (localMatrices f).2 := by
  simp [path_fwd, path_inv]

/-- **C39.** The inverse matrix of a path is the inverse of its matrix. -/
theorem C39_inverse (p : List Fields) (h : ∀ f ∈ p, f.ok) :
    pathMatrix p false * pathMatrix p true = 1 ∧ pathMatrix p true * pathMatrix p false = 1 := by
  have key : pathMatrix p false * pathMatrix p true = 1 := by
    rw [path_fwd, path_inv]
    induction p with
    | nil => simp
    | cons f p ih =>
      have ih := ih (fun g hg => h g (List.mem_cons_of_mem _ hg))
      have hf := (C36_cancel f (h f List.mem_cons_self)).1
      simp only [List.map_cons, List.reverse_cons, List.prod_append, List.prod_cons, List.prod_nil, mul_one]
      rw [mul_assoc, ← mul_assoc (mat (localMatrices f).1), hf, one_mul, ih]
  exact ⟨key, mul_eq_one_comm.1 key⟩

/-- **C39, C60.** A path's matrix carries a point of the deepest coordinate system to the root's by applying the
transforms from the deepest up to the root. -/
theorem C39_moves_points (path : List Fields) (v : V3) :
    v.row ᵥ* pathMatrix path false = (path.foldr vrmlTransform v).row := by
  rw [path_fwd]
  induction path with
  | nil => simp
  | cons f path ih =>
    simp only [List.map_cons, List.reverse_cons, List.prod_append, List.prod_cons, List.prod_nil, mul_one, List.foldr_cons]
    rw [← Matrix.vecMul_vecMul, ih, C60_moves_points]

example : (pathMatrix [⟨some ⟨1, 2, 3⟩, none, none, none, none⟩, ⟨none, none, none, some ⟨2, 2, 2⟩, none⟩] false)
    = scaleArray 2 2 2 * transArray 1 2 3 := by
  rw [path_fwd]
  simp [local_fwd, (trans_eq _).1, (scale_eq _).1]
  simp [transMatrix, rotMatrix, scaleMatrix]

/-! ### C40 -/

/-- **C40.** The perspective matrix and its returned inverse cancel, in both orders, for valid parameters. -/
theorem C40_perspective_inverse (fovy aspect near far : ℝ) (hf : 0 < fovy) (hf' : fovy < π) (ha : 0 < aspect) (hn : 0 < near) (hnf : near < far) :
    perspectiveMatrix fovy aspect near far false * perspectiveMatrix fovy aspect near far true = 1 ∧
    perspectiveMatrix fovy aspect near far true * perspectiveMatrix fovy aspect near far false = 1 := by
  have htan : 0 < tan (fovy / 2) := Real.tan_pos_of_pos_of_lt_pi_div_two (by linarith) (by linarith)
  have hd : near - far ≠ 0 := by linarith
  have hfar : far ≠ 0 := by linarith
  have key : perspectiveMatrix fovy aspect near far false * perspectiveMatrix fovy aspect near far true = 1 := by
    have ht := ne_of_gt htan
    have hn' := ne_of_gt hn
    have ha' := ne_of_gt ha
    simp only [perspectiveMatrix]
    generalize tan (fovy / 2) = T at *
    ext i j
    fin_cases i <;> fin_cases j <;>
      simp [orSmall, Matrix.mul_apply, Fin.sum_univ_four, ht]
    all_goals field_simp
    all_goals ring
  exact ⟨key, mul_eq_one_comm.1 key⟩

/-- **C40.** A point inside the view frustum, and only such a point, is mapped into the cube after the
perspective division (row-vector convention). -/
theorem C40_perspective_frustum (fovy aspect near far : ℝ) (hf : 0 < fovy) (hf' : fovy < π) (ha : 0 < aspect) (hn : 0 < near) (hnf : near < far)
    (p : V3) :
    let q := p.row ᵥ* perspectiveMatrix fovy aspect near far false
    (|q 0| ≤ q 3 ∧ |q 1| ≤ q 3 ∧ |q 2| ≤ q 3) ↔
      (|p.x| ≤ aspect * tan (fovy / 2) * (-p.z) ∧ |p.y| ≤ tan (fovy / 2) * (-p.z) ∧ near ≤ -p.z ∧ -p.z ≤ far) := by
  have htan : 0 < tan (fovy / 2) := Real.tan_pos_of_pos_of_lt_pi_div_two (by linarith) (by linarith)
  generalize hT : tan (fovy / 2) = T at *
  intro q
  have e0 : q 0 = p.x / (aspect * T) := by
    simp [q, perspectiveMatrix, hT, V3.row]; field_simp
  have e1 : q 1 = p.y / T := by
    simp [q, perspectiveMatrix, hT, V3.row]; field_simp
  have e2 : q 2 = (p.z * (far + near) + 2 * far * near) / (near - far) := by
    simp [q, perspectiveMatrix, hT, V3.row]
    rw [add_div]; ring
  have e3 : q 3 = -p.z := by
    simp [q, perspectiveMatrix, hT, V3.row]
  rw [e0, e1, e2, e3]
  have k0 : |p.x / (aspect * T)| ≤ -p.z ↔ |p.x| ≤ aspect * T * (-p.z) := by
    have hT0 : 0 < aspect * T := mul_pos ha htan
    rw [abs_div, abs_of_pos hT0, div_le_iff₀ hT0, mul_comm]
  have k1 : |p.y / T| ≤ -p.z ↔ |p.y| ≤ T * (-p.z) := by
    rw [abs_div, abs_of_pos htan, div_le_iff₀ htan, mul_comm]
  have k2 : |(p.z * (far + near) + 2 * far * near) / (near - far)| ≤ -p.z ↔ near ≤ -p.z ∧ -p.z ≤ far := by
    rw [abs_div, abs_of_neg (show near - far < 0 by linarith), div_le_iff₀ (by linarith), abs_le]
    constructor
    · rintro ⟨h1, h2⟩
      constructor
      · nlinarith
      · nlinarith
    · rintro ⟨h1, h2⟩
      constructor
      · nlinarith
      · nlinarith
  rw [k0, k1, k2]

/-- **C40.** The orthographic matrix, applied to column vectors, maps a point into the cube exactly when the point is in
the box [left,right] × [bottom,top] × [-far,-near]. -/
theorem C40_ortho_box (l r b t n f : ℝ) (hlr : l < r) (hbt : b < t) (hnf : n < f) (p : V3) :
    let q := orthoMatrix l r b t n f *ᵥ p.row
    q 3 = 1 ∧ ((|q 0| ≤ 1 ∧ |q 1| ≤ 1 ∧ |q 2| ≤ 1) ↔
      (l ≤ p.x ∧ p.x ≤ r) ∧ (b ≤ p.y ∧ p.y ≤ t) ∧ (n ≤ -p.z ∧ -p.z ≤ f)) := by
  intro q
  have e3 : q 3 = 1 := by simp [q, orthoMatrix, V3.row]
  have h1 : 0 < r - l := by linarith
  have h2 : 0 < t - b := by linarith
  have h3 : 0 < f - n := by linarith
  have e0 : q 0 = (2 * p.x - r - l) / (r - l) := by
    simp [q, orthoMatrix, V3.row]; field_simp; ring
  have e1 : q 1 = (2 * p.y - t - b) / (t - b) := by
    simp [q, orthoMatrix, V3.row]; field_simp; ring
  have e2 : q 2 = (- 2 * p.z - f - n) / (f - n) := by
    simp [q, orthoMatrix, V3.row]; field_simp; ring
  have g : ∀ lo hi x : ℝ, lo < hi → (|(2 * x - hi - lo) / (hi - lo)| ≤ 1 ↔ lo ≤ x ∧ x ≤ hi) := by
    intro lo hi x h
    rw [abs_div, abs_of_pos (show 0 < hi - lo by linarith), div_le_one (by linarith), abs_le]
    constructor <;> rintro ⟨a, b⟩ <;> constructor <;> linarith
  refine ⟨e3, ?_⟩
  rw [e0, e1, e2, g _ _ _ hlr, g _ _ _ hbt, show -2 * p.z - f - n = 2 * (-p.z) - f - n by ring, g _ _ _ hnf]

/-- **C40.** Corners go to corners: the near lower left corner to (-1,-1,-1), the far upper right one to (1,1,1). -/
theorem C40_ortho_corners (l r b t n f : ℝ) (hlr : l < r) (hbt : b < t) (hnf : n < f) :
    orthoMatrix l r b t n f *ᵥ (⟨l, b, -n⟩ : V3).row = (⟨-1, -1, -1⟩ : V3).row ∧
    orthoMatrix l r b t n f *ᵥ (⟨r, t, -f⟩ : V3).row = (⟨1, 1, 1⟩ : V3).row := by
  have h1 : r - l ≠ 0 := by linarith
  have h2 : t - b ≠ 0 := by linarith
  have h3 : f - n ≠ 0 := by linarith
  constructor <;> ext j <;> fin_cases j <;>
    simp [orthoMatrix, V3.row, Matrix.mulVec, dotProduct, Fin.sum_univ_four] <;> field_simp <;> ring

/-- **C40 refuted (convention).** In the row-vector convention that the module documents and every other matrix of the
module uses, the orthographic matrix does not map the box into the cube (it is transposed). -/
theorem C40_refuted_ortho_row : ∃ l r b t n f : ℝ, ∃ p : V3, l < r ∧ b < t ∧ n < f ∧
    (l ≤ p.x ∧ p.x ≤ r) ∧ (b ≤ p.y ∧ p.y ≤ t) ∧ (n ≤ -p.z ∧ -p.z ≤ f) ∧
    ¬ (|(p.row ᵥ* orthoMatrix l r b t n f) 0| ≤ 1) := by
  refine ⟨10, 12, 0, 1, 0, 1, ⟨12, 0, 0⟩, by norm_num, by norm_num, by norm_num, by norm_num, by norm_num, by norm_num, ?_⟩
  simp [orthoMatrix, V3.row, Matrix.vecMul, dotProduct, Fin.sum_univ_four]
  norm_num

example : 0 < (1:ℝ) ∧ (1:ℝ) < π ∧ (0:ℝ) < 0.5 ∧ (0.5:ℝ) < 100 := ⟨by norm_num, by linarith [Real.two_le_pi], by norm_num, by norm_num⟩

/-! ### C41 -/

/-- **C41.** Rotation matrices agree (non-zero axis, any angle; or no rotation). -/
theorem C41_rotation (o : Option Rot) (h : ∀ r, o = some r → r.ok) : rotMatrixAccel o = rotMatrix o := by
  cases o with
  | none => rfl
  | some r =>
    have hr := h r rfl
    have hy : ¬ (r.x = r.y ∧ r.y = r.z ∧ r.z = 0) := by
      rintro ⟨h1, h2, h3⟩
      apply hr; simp [Rot.axis, V3.dot, h1, h2, h3]
    by_cases hp : pmod r.a (2 * π) = 0
    · simp [rotMatrixAccel, rotMatrix, hp]
    · have hp' : pmod (-r.a) (2 * π) ≠ 0 := by
        intro h0
        apply hp
        have e : -r.a = ⌊-r.a / (2 * π)⌋ * (2 * π) := by unfold pmod at h0; linarith
        have e2 : r.a = ((-⌊-r.a / (2 * π)⌋ : ℤ) : ℝ) * (2 * π) := by push_cast; linarith
        have : (2 * π) ≠ 0 := by positivity
        rw [e2, pmod, mul_div_assoc, div_self this, mul_one, Int.floor_intCast]; ring
      simp only [rotMatrixAccel, rotMatrix, accelRot, hy, hp, hp', if_true, if_false, ne_eq, not_false_iff]
      simp only [Real.cos_neg, Real.sin_neg]
      apply Prod.ext <;> simp only [Option.some.injEq] <;>
        (ext i j; fin_cases i <;> fin_cases j <;> simp [rotArray] <;> ring)

/-- **C41.** Scale matrices agree. -/
theorem C41_scale (o : Option V3) : scaleMatrixAccel o = scaleMatrix o := by
  cases o <;> rfl

/-- **C41.** Translation matrices agree. -/
theorem C41_translation (o : Option V3) : transMatrixAccel o = transMatrix o := by
  cases o <;> rfl

/-- **C41.** Perspective matrices agree (whatever the small constant), unless the field of view is degenerate. -/
theorem C41_perspective (eps fovy aspect near far : ℝ) (inv : Bool) (h : tan (fovy / 2) ≠ 0) :
    perspectiveMatrixAccel eps fovy aspect near far inv = perspectiveMatrix fovy aspect near far inv := by
  simp only [perspectiveMatrixAccel, perspectiveMatrix]
  generalize tan (fovy / 2) = T at *
  cases inv <;> simp [orSmall, h]

/-- **C41.** Orthographic matrices agree for a proper box. -/
theorem C41_ortho (eps l r b t n f : ℝ) (h1 : l ≠ r) (h2 : b ≠ t) (h3 : n ≠ f) :
    orthoMatrixAccel eps l r b t n f = orthoMatrix l r b t n f := by
  have h1 := sub_ne_zero.2 (Ne.symm h1); have h2 := sub_ne_zero.2 (Ne.symm h2); have h3 := sub_ne_zero.2 (Ne.symm h3)
  simp [orthoMatrixAccel, orthoMatrix, orSmall, h1, h2, h3]

example : ∀ r : Rot, some (⟨0, 3, 0, 1⟩ : Rot) = some r → r.ok := by
  intro r h; cases h; simp [Rot.ok, Rot.axis, V3.dot]

/-! ### C42 -/

/-- All points lie further than the tolerance on the negative side of the plane. -/
def Plane.excludes (p : Plane) (pts : List V3) (tol : ℝ) : Prop :=
  ∀ v ∈ pts, p.a * v.x + p.b * v.y + p.c * v.z + p.d < -tol

theorem inFront_eq (p : Plane) (pts : List V3) (m : ℝ) (b : Bool) :
    (pts.foldl (fun found v => open Classical in if p.distance v ≥ m then true else found) b) = true ↔
      b = true ∨ ∃ v ∈ pts, p.distance v ≥ m := by
  induction pts generalizing b with
  | nil => simp
  | cons v pts ih =>
    simp only [List.foldl_cons]
    rw [ih]
    by_cases h : p.distance v ≥ m <;> simp [h]

theorem notInFront (p : Plane) (pts : List V3) (tol : ℝ) :
    (pts.foldl (fun found v => open Classical in if p.distance v ≥ -tol then true else found) false) = false ↔ p.excludes pts tol := by
  rw [← Bool.not_eq_true, inFront_eq]
  simp [Plane.excludes, Plane.distance]

theorem cull_go (pts : List V3) (tol : ℝ) (ps : List Plane) (i : Nat) :
    (∀ k, planeCull.go pts (-tol) ps i = (true, some k) ↔
      ∃ j, k = i + j ∧ (∃ p, ps[j]? = some p ∧ p.excludes pts tol) ∧ ∀ j' < j, ∀ p, ps[j']? = some p → ¬ p.excludes pts tol) ∧
    (planeCull.go pts (-tol) ps i = (false, none) ↔ ∀ p ∈ ps, ¬ p.excludes pts tol) ∧
    (planeCull.go pts (-tol) ps i = (false, none) ∨ ∃ k, planeCull.go pts (-tol) ps i = (true, some k)) := by
  induction ps generalizing i with
  | nil => simp [planeCull.go]
  | cons p ps ih =>
    simp only [planeCull.go]
    by_cases h : p.excludes pts tol
    · have hb := (notInFront p pts tol).2 h
      simp only [hb, Bool.not_false, if_true]
      refine ⟨?_, ?_, Or.inr ⟨i, rfl⟩⟩
      · intro k
        constructor
        · intro hk
          injection hk with _ hk; injection hk with hk
          exact ⟨0, by omega, ⟨p, rfl, h⟩, by intro j' hj'; omega⟩
        · rintro ⟨j, hk, _, hmin⟩
          have : j = 0 := by
            rcases Nat.eq_zero_or_pos j with h0 | h0
            · exact h0
            · exact absurd h (hmin 0 h0 p rfl)
          subst this; simp [hk]
      · simp [h]
    · have hb : (pts.foldl (fun found v => open Classical in if p.distance v ≥ -tol then true else found) false) = true := by
        rw [← Bool.not_eq_false, notInFront]; exact h
      simp only [hb, Bool.not_true, Bool.false_eq_true, if_false]
      obtain ⟨h1, h2, h3⟩ := ih (i + 1)
      refine ⟨?_, ?_, h3⟩
      · intro k
        rw [h1]
        constructor
        · rintro ⟨j, hk, ⟨q, hq, hqe⟩, hmin⟩
          refine ⟨j + 1, by omega, ⟨q, by simpa using hq, hqe⟩, ?_⟩
          intro j' hj' q' hq'
          cases j' with
          | zero => simp at hq'; subst hq'; exact h
          | succ j' => exact hmin j' (by omega) q' (by simpa using hq')
        · rintro ⟨j, hk, ⟨q, hq, hqe⟩, hmin⟩
          cases j with
          | zero => simp at hq; subst hq; exact absurd hqe h
          | succ j =>
            refine ⟨j, by omega, ⟨q, by simpa using hq, hqe⟩, ?_⟩
            intro j' hj' q' hq'
            exact hmin (j' + 1) (by omega) q' (by simpa using hq')
      · rw [h2]; simp [h]

/-- **C42.** Culled exactly when some plane excludes all points. -/
theorem C42_culled_iff (planes : List Plane) (pts : List V3) (tol : ℝ) :
    (planeCull planes pts tol).1 = true ↔ ∃ p ∈ planes, p.excludes pts tol := by
  obtain ⟨h1, h2, h3⟩ := cull_go pts tol planes 0
  simp only [planeCull]
  rcases h3 with h | ⟨k, h⟩
  · have := h2.1 h; rw [h]; simpa using this
  · rw [h]; simp
    obtain ⟨j, _, ⟨p, hp, he⟩, _⟩ := (h1 k).1 h
    exact ⟨p, List.mem_of_getElem? hp, he⟩

/-- **C42.** The reported plane is the first one that excludes all points. -/
theorem C42_first_plane (planes : List Plane) (pts : List V3) (tol : ℝ) (k : Nat) :
    (planeCull planes pts tol).2 = some k ↔
      (∃ p, planes[k]? = some p ∧ p.excludes pts tol) ∧ ∀ j < k, ∀ p, planes[j]? = some p → ¬ p.excludes pts tol := by
  obtain ⟨h1, h2, h3⟩ := cull_go pts tol planes 0
  have : (planeCull planes pts tol).2 = some k ↔ planeCull.go pts (-tol) planes 0 = (true, some k) := by
    simp only [planeCull]
    rcases h3 with h | ⟨k', h⟩ <;> rw [h] <;> simp
  rw [this, h1]
  simp

/-- **C42.** Not culled: no plane is reported. -/
theorem C42_not_culled (planes : List Plane) (pts : List V3) (tol : ℝ) :
    (planeCull planes pts tol).1 = false ↔ (planeCull planes pts tol).2 = none := by
  obtain ⟨_, _, h3⟩ := cull_go pts tol planes 0
  simp only [planeCull]
  rcases h3 with h | ⟨k', h⟩ <;> rw [h] <;> simp

/-- **C42.** A point set with a point inside all planes is never culled (non-negative tolerance). -/
theorem C42_visible_kept (planes : List Plane) (pts : List V3) (tol : ℝ) (ht : 0 ≤ tol) (v : V3) (hv : v ∈ pts)
    (hin : ∀ p ∈ planes, 0 ≤ p.a * v.x + p.b * v.y + p.c * v.z + p.d) : (planeCull planes pts tol).1 = false := by
  rw [← Bool.not_eq_true, C42_culled_iff]
  rintro ⟨p, hp, he⟩
  have := he v hv; have := hin p hp; linarith

example : (planeCull [⟨1, 0, 0, 0⟩, ⟨0, 1, 0, 0⟩] [⟨1, -2, 0⟩, ⟨2, -3, 5⟩] 1).2 = some 1 := by
  rw [C42_first_plane]
  refine ⟨⟨_, rfl, ?_⟩, ?_⟩
  · intro v hv; simp at hv; rcases hv with rfl | rfl <;> norm_num
  · intro j hj p hp
    have : j = 0 := by omega
    subst this; simp at hp; subst hp
    intro h; have := h ⟨1, -2, 0⟩ (by simp); norm_num at this

/-! ### The cached queries (C34, C35) with the real computation -/

/-- A field value: the first three components of a vector, or a rotation. -/
def toV3 (v : Rot) : V3 := ⟨v.x, v.y, v.z⟩

/-- The computations used by basenodes.py:575-614 and nodepath.py:80-86, over the numbered fields of
Verif/Model/TransformCache.lean, with the field defaults of basenodes.py Transform. -/
def realParams : Verif.TCache.Params Rot (Option M4) where
  loc := fun v => localMatrices ⟨(v 0).map toV3, (v 1).map toV3, v 4, (v 2).map toV3, v 3⟩
  compress := fun l => some (mat (compressMatrices l))
  dflt := fun f => if f = 2 then ⟨1, 1, 1, 0⟩ else if f = 3 ∨ f = 4 then ⟨0, 0, 1, 0⟩ else ⟨0, 0, 0, 0⟩

theorem trans_default : transMatrix (some ⟨0, 0, 0⟩) = transMatrix none := by simp [transMatrix]
theorem scale_default : scaleMatrix (some ⟨1, 1, 1⟩) = scaleMatrix none := by simp [scaleMatrix]
theorem rot_default : rotMatrix (some ⟨0, 0, 1, 0⟩) = rotMatrix none := by simp [rotMatrix, pmod]

theorem real_defaults_neutral : Verif.TCache.DefaultsNeutral realParams := by
  intro v f hv
  simp only [realParams, localMatrices]
  by_cases h0 : f = 0
  · subst h0; simp [hv, toV3, trans_default]
  by_cases h1 : f = 1
  · subst h1; simp [hv, toV3, trans_default]
  by_cases h2 : f = 2
  · subst h2; simp [hv, toV3, scale_default]
  by_cases h3 : f = 3
  · subst h3; simp [hv, rot_default]
  by_cases h4 : f = 4
  · subst h4; simp [hv, rot_default]
  simp [Ne.symm h0, Ne.symm h1, Ne.symm h2, Ne.symm h3, Ne.symm h4]

/-- **C34 for the real matrices.** -/
theorem C34_real_matrices_current (evs : List (Verif.TCache.Ev Rot (Option M4))) (n : Verif.Cache.Oid) (fl : Verif.TCache.Flags)
    (hn : (Verif.TCache.sysRun realParams evs).cache.alive n = true) :
    let d := (Verif.TCache.sysRun realParams evs).vals n
    let get := fun (on : Bool) (f : Nat) => if on then d f else none
    (Verif.TCache.sysRun realParams (evs ++ [.askLocal n fl])).cache.getData n (.loc fl)
      = some (.pair (localMatrices ⟨(get fl.translate 0).map toV3, (get (fl.scale || fl.rotate) 1).map toV3,
          get fl.rotate 4, (get fl.scale 2).map toV3, get fl.scale 3⟩)) := by
  have h := Verif.TCache.C34_local_matrices_current realParams real_defaults_neutral evs n fl hn
  rw [h, ← Verif.TCache.localNow_eq]
  rcases fl with ⟨t, s, r⟩
  cases t <;> cases s <;> cases r <;>
    simp [Verif.TCache.Sys.localNow, realParams, Verif.TCache.mask, Verif.TCache.localFields]

/-- **C35 for the real matrices**: all flags on. -/
theorem C35_real_matrix_current (evs : List (Verif.TCache.Ev Rot (Option M4))) (p : Verif.Cache.Oid) (inverse : Bool)
    (hp : (Verif.TCache.sysRun realParams evs).cache.alive p = true) :
    let S := Verif.TCache.sysRun realParams evs
    let fields := fun n => (⟨(S.vals n 0).map toV3, (S.vals n 1).map toV3, S.vals n 4, (S.vals n 2).map toV3, S.vals n 3⟩ : Fields)
    (Verif.TCache.sysRun realParams (evs ++ [.askPath p inverse ⟨true, true, true⟩])).cache.getData p (.path inverse ⟨true, true, true⟩)
      = some (.mat (some (pathMatrix (((S.items p).filter S.isT).map fields) inverse))) := by
  intro S fields
  have h := Verif.TCache.C35_path_matrix_current realParams real_defaults_neutral evs p inverse ⟨true, true, true⟩ (by simp) hp
  rw [h, Verif.TCache.pathNow_eq]
  have hl : ∀ n, S.localNow realParams n ⟨true, true, true⟩ = localMatrices (fields n) := by
    intro n
    simp [Verif.TCache.Sys.localNow, realParams, Verif.TCache.mask, Verif.TCache.localFields, fields]
  change some (Verif.TCache.Dat.mat (some (mat (compressMatrices (List.map (fun n => if inverse = true then
    (S.localNow realParams n _).2 else (S.localNow realParams n _).1) (S.children p inverse)))))) = _
  simp only [hl]
  cases inverse with
  | false =>
    simp [pathMatrix, Verif.TCache.Sys.children, List.map_map, Function.comp_def]
  | true =>
    simp only [pathMatrix, if_true, Verif.TCache.Sys.children]
    rw [List.filter_reverse, ← List.map_reverse, List.map_map]
    rfl

end Verif.Mx
end
