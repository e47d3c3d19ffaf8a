import Verif.Model.Frustum
import Mathlib.Analysis.Convex.Hull
import Mathlib.Tactic.Linarith
import Mathlib.Tactic.NormNum
/-!
C64: frustum culling never removes anything that reaches in front of the culling plane, and removes whatever lies
entirely behind some plane.
-/
namespace Verif.Frustum

/-! ### Specification -/

/-- Signed height of a position in space over the plane. -/
def height (p : Plane) (v : ℝ × ℝ × ℝ) : ℝ := p.a * v.1 + p.b * v.2.1 + p.c * v.2.2 + p.d

def Point.pos (q : Point) : ℝ × ℝ × ℝ := (q.x, q.y, q.z)

/-- The solid spanned by the points: their convex hull (a bounding box, if they are its corners). -/
def solid (points : List Point) : Set (ℝ × ℝ × ℝ) := convexHull ℝ {v | ∃ q ∈ points, q.pos = v}

/-- The corners of the axis-parallel box between `lo` and `hi`. -/
def corners (lo hi : Point) : List Point :=
  [⟨lo.x, lo.y, lo.z⟩, ⟨hi.x, lo.y, lo.z⟩, ⟨lo.x, hi.y, lo.z⟩, ⟨hi.x, hi.y, lo.z⟩,
   ⟨lo.x, lo.y, hi.z⟩, ⟨hi.x, lo.y, hi.z⟩, ⟨lo.x, hi.y, hi.z⟩, ⟨hi.x, hi.y, hi.z⟩]

/-! ### Proofs -/

theorem found_iff (limit : ℝ) (p : Plane) (l : List Point) (b : Bool) :
    foundInFront limit p b l = true ↔ b = true ∨ ∃ q ∈ l, limit ≤ distance p q := by
  induction l generalizing b with
  | nil => simp [foundInFront]
  | cons q l ih =>
    simp only [foundInFront, ih, List.mem_cons, exists_eq_or_imp, ge_iff_le]
    by_cases h : limit ≤ distance p q <;> simp [h]

/-- The first plane that has nothing in front of it, exactly: `planeCull` returns it together with True, and returns
False when every plane has a point in front. -/
theorem C64_first_plane (planes : List Plane) (points : List Point) (m : ℝ) (p : Plane) :
    planeCull planes points m = some p ↔
      ∃ before after, planes = before ++ p :: after ∧ (∀ q ∈ points, height p q.pos < -m) ∧
        ∀ p' ∈ before, ∃ q ∈ points, -m ≤ height p' q.pos := by
  unfold planeCull
  induction planes with
  | nil => simp [cullLoop]
  | cons p0 l ih =>
    rw [cullLoop]
    by_cases h : foundInFront (-m) p0 false points = true
    · rw [if_pos h, ih]
      have hq := (found_iff _ _ _ _).mp h
      simp only [Bool.false_eq_true, false_or] at hq
      constructor
      · rintro ⟨b, a, rfl, h1, h2⟩
        refine ⟨p0 :: b, a, rfl, h1, ?_⟩
        intro p' hp'
        rcases List.mem_cons.mp hp' with rfl | hp'
        · exact hq
        · exact h2 p' hp'
      · rintro ⟨b, a, hb, h1, h2⟩
        cases b with
        | nil =>
          simp only [List.nil_append, List.cons.injEq] at hb
          obtain ⟨rfl, rfl⟩ := hb
          obtain ⟨q, hq1, hq2⟩ := hq
          exact absurd (h1 q hq1) (not_lt.mpr hq2)
        | cons b0 b =>
          simp only [List.cons_append, List.cons.injEq] at hb
          obtain ⟨rfl, rfl⟩ := hb
          exact ⟨b, a, rfl, h1, fun p' hp' => h2 p' (List.mem_cons_of_mem _ hp')⟩
    · rw [if_neg h]
      have hq : ∀ q ∈ points, height p0 q.pos < -m := by
        intro q hq
        by_contra hc
        exact h ((found_iff _ _ _ _).mpr (Or.inr ⟨q, hq, not_lt.mp hc⟩))
      constructor
      · intro he
        obtain rfl := Option.some.inj he
        exact ⟨[], l, rfl, hq, by simp⟩
      · rintro ⟨b, a, hb, h1, h2⟩
        cases b with
        | nil => simp only [List.nil_append, List.cons.injEq] at hb; rw [hb.1]
        | cons b0 b =>
          simp only [List.cons_append, List.cons.injEq] at hb
          obtain ⟨rfl, rfl⟩ := hb
          obtain ⟨q, hq1, hq2⟩ := h2 p0 (by simp)
          exact absurd (hq q hq1) (not_lt.mpr hq2)

/-- Not culled, exactly: every plane has a point in front of it (or on it, at the allowed distance). -/
theorem C64_kept_iff (planes : List Plane) (points : List Point) (m : ℝ) :
    planeCull planes points m = none ↔ ∀ p ∈ planes, ∃ q ∈ points, -m ≤ height p q.pos := by
  unfold planeCull
  induction planes with
  | nil => simp [cullLoop]
  | cons p0 l ih =>
    rw [cullLoop]
    by_cases h : foundInFront (-m) p0 false points = true
    · rw [if_pos h, ih]
      have hq := (found_iff _ _ _ _).mp h
      simp only [Bool.false_eq_true, false_or] at hq
      constructor
      · intro h1 p hp
        rcases List.mem_cons.mp hp with rfl | hp
        · exact hq
        · exact h1 p hp
      · exact fun h1 p hp => h1 p (List.mem_cons_of_mem _ hp)
    · rw [if_neg h]
      constructor
      · simp
      · intro h1
        obtain ⟨q, hq, hd⟩ := h1 p0 (by simp)
        exact absurd ((found_iff _ _ _ _).mpr (Or.inr ⟨q, hq, hd⟩)) h

theorem convex_behind (p : Plane) (c : ℝ) : Convex ℝ {v | height p v < c} := by
  intro u hu v hv a b ha hb hab
  simp only [Set.mem_ofPred_eq, height] at *
  have e : p.a * (a • u + b • v).1 + p.b * (a • u + b • v).2.1 + p.c * (a • u + b • v).2.2 + p.d =
      a * (p.a * u.1 + p.b * u.2.1 + p.c * u.2.2 + p.d) + b * (p.a * v.1 + p.b * v.2.1 + p.c * v.2.2 + p.d) := by
    simp only [Prod.fst_add, Prod.snd_add, Prod.smul_fst, Prod.smul_snd, smul_eq_mul]
    have : b = 1 - a := by linarith
    rw [this]; ring
  rw [e]
  rcases eq_or_lt_of_le ha with h0 | h0
  · subst h0
    have : b = 1 := by linarith
    subst this; simpa using hv
  · have h1 := mul_lt_mul_of_pos_left hu h0
    have h2 := mul_le_mul_of_nonneg_left (le_of_lt hv) hb
    calc _ < a * c + b * c := by linarith
      _ = c := by rw [← add_mul, hab, one_mul]

/-- Culling is safe for the whole solid, not only for the points tested: no position of the convex hull of the points
reaches the culling plane. -/
theorem C64_culled_is_behind (planes : List Plane) (points : List Point) (m : ℝ) (p : Plane)
    (h : planeCull planes points m = some p) : p ∈ planes ∧ ∀ v ∈ solid points, height p v < -m := by
  obtain ⟨b, a, rfl, h1, _⟩ := (C64_first_plane _ _ _ _).mp h
  refine ⟨by simp, ?_⟩
  have : solid points ⊆ {v | height p v < -m} := by
    apply convexHull_min _ (convex_behind p (-m))
    rintro v ⟨q, hq, rfl⟩
    exact h1 q hq
  exact fun v hv => this hv

theorem box_in_solid (lo hi : Point) (v : ℝ × ℝ × ℝ) (hx : lo.x ≤ v.1 ∧ v.1 ≤ hi.x) (hy : lo.y ≤ v.2.1 ∧ v.2.1 ≤ hi.y)
    (hz : lo.z ≤ v.2.2 ∧ v.2.2 ≤ hi.z) (p : Plane) (c : ℝ) (h : ∀ q ∈ corners lo hi, height p q.pos < c) :
    height p v < c := by
  -- on an axis the height is largest at one end
  have ends : ∀ (a lo hi x : ℝ), lo ≤ x → x ≤ hi → a * x ≤ a * lo ∨ a * x ≤ a * hi := by
    intro a lo hi x h1 h2
    rcases le_total 0 a with ha | ha
    · exact Or.inr (mul_le_mul_of_nonneg_left h2 ha)
    · exact Or.inl (mul_le_mul_of_nonpos_left h1 ha)
  simp only [corners, List.mem_cons, List.not_mem_nil, or_false, forall_eq_or_imp, forall_eq, Point.pos, height] at *
  obtain ⟨h0, h1, h2, h3, h4, h5, h6, h7⟩ := h
  rcases ends p.a _ _ _ hx.1 hx.2 with ex | ex <;> rcases ends p.b _ _ _ hy.1 hy.2 with ey | ey <;>
    rcases ends p.c _ _ _ hz.1 hz.2 with ez | ez <;> linarith

/-- A bounding box is culled safely: no position in the box reaches the culling plane. -/
theorem C64_box_is_behind (planes : List Plane) (lo hi : Point) (m : ℝ) (p : Plane)
    (h : planeCull planes (corners lo hi) m = some p) (v : ℝ × ℝ × ℝ) (hx : lo.x ≤ v.1 ∧ v.1 ≤ hi.x)
    (hy : lo.y ≤ v.2.1 ∧ v.2.1 ≤ hi.y) (hz : lo.z ≤ v.2.2 ∧ v.2.2 ≤ hi.z) : height p v < -m := by
  obtain ⟨b, a, rfl, h1, _⟩ := (C64_first_plane _ _ _ _).mp h
  exact box_in_solid lo hi v hx hy hz p _ h1

/-- Something visible (not behind any plane) is never culled with a non-negative distance. -/
theorem C64_visible_kept (planes : List Plane) (points : List Point) (m : ℝ) (hm : 0 ≤ m) (v : ℝ × ℝ × ℝ)
    (hv : v ∈ solid points) (vis : ∀ p ∈ planes, 0 ≤ height p v) : planeCull planes points m = none := by
  cases h : planeCull planes points m with
  | none => rfl
  | some p =>
    obtain ⟨hp, hb⟩ := C64_culled_is_behind _ _ _ _ h
    have := hb v hv
    have := vis p hp
    linarith

/-- A larger minimum distance culls less. -/
theorem C64_monotone (planes : List Plane) (points : List Point) (m m' : ℝ) (h : m ≤ m')
    (hk : planeCull planes points m = none) : planeCull planes points m' = none := by
  rw [C64_kept_iff] at *
  intro p hp
  obtain ⟨q, hq, hd⟩ := hk p hp
  exact ⟨q, hq, by linarith⟩

/-- A solid with no points is culled by the first plane, if there is one. -/
theorem C64_no_points (p : Plane) (l : List Plane) (m : ℝ) : planeCull (p :: l) [] m = some p := by
  rw [C64_first_plane]
  exact ⟨[], l, rfl, by simp, by simp⟩

/-- Not a converse: a solid outside the frustum may be kept when no single plane separates it. -/
theorem C64_outside_may_be_kept : ∃ planes points, planeCull planes points 0 = none ∧
    ∀ v ∈ solid points, ∃ p ∈ planes, height p v < 0 := by
  -- x > 0 and y > 0; the segment from (-2,1,0) to (1,-2,0) passes the corner outside
  refine ⟨[⟨1, 0, 0, 0⟩, ⟨0, 1, 0, 0⟩], [⟨-2, 1, 0⟩, ⟨1, -2, 0⟩], ?_, ?_⟩
  · rw [C64_kept_iff]
    simp [height, Point.pos]
  · intro v hv
    have hc : solid [⟨-2, 1, 0⟩, ⟨1, -2, 0⟩] ⊆ {v | height ⟨1, 1, 0, 0⟩ v < -1/2} := by
      apply convexHull_min _ (convex_behind _ _)
      rintro w ⟨q, hq, rfl⟩
      simp only [List.mem_cons, List.not_mem_nil, or_false] at hq
      rcases hq with rfl | rfl <;> norm_num [height, Point.pos]
    have := hc hv
    simp only [Set.mem_ofPred_eq, height] at this
    by_contra hcon
    simp only [List.mem_cons, List.not_mem_nil, or_false, exists_eq_or_imp, exists_eq_left, height, not_or, not_lt] at hcon
    obtain ⟨h1, h2⟩ := hcon
    linarith

/-- A case of each: a unit box behind the plane `x - 5` is culled by it (the plane before it has the box in front);
with minimum distance 4 it is not behind by that much at `x = 1` and is still culled; with 5 it is kept. -/
example : planeCull [⟨0, 0, 1, 2⟩, ⟨1, 0, 0, -5⟩] (corners ⟨-1, -1, -1⟩ ⟨0, 1, 1⟩) 4 = some ⟨1, 0, 0, -5⟩ := by
  rw [C64_first_plane]
  refine ⟨[⟨0, 0, 1, 2⟩], [], rfl, ?_, ?_⟩ <;> simp [corners, height, Point.pos] <;> norm_num
example : planeCull [⟨0, 0, 1, 2⟩, ⟨1, 0, 0, -5⟩] (corners ⟨-1, -1, -1⟩ ⟨0, 1, 1⟩) 5 = none := by
  rw [C64_kept_iff]
  simp [corners, height, Point.pos]; norm_num
example : ((-1 / 2, 0, 1 / 2) : ℝ × ℝ × ℝ) ∈ solid (corners ⟨-1, 0, 0⟩ ⟨0, 0, 1⟩) := by
  apply (convex_convexHull ℝ _).segment_subset (x := (-1, 0, 0)) (y := (0, 0, 1)) <;>
    try (apply subset_convexHull; simp [corners, Point.pos])
  exact ⟨1/2, 1/2, by norm_num, by norm_num, by norm_num, by norm_num⟩

end Verif.Frustum
