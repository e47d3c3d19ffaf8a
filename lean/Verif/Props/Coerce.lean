import Verif.Model.Coerce
import Mathlib.Tactic.Linarith
import Mathlib.Tactic.NormNum
import Mathlib.Tactic.FieldSimp
/-
Properties C18–C23: coercions of vrml/fieldtypes.py and colours of vrml/csscolors.py.
-/
namespace Verif.Coerce
variable {P : Prims}

/-! ### Specification vocabulary -/

/-- numpy delivers the element type it was asked for. -/
def Lawful (P : Prims) : Prop := ∀ t v a, P.asarray t v = .ok a → a.dtype = t

/-- A number of an integer array: an integer in the element type's range. -/
def IntElem (t : DType) (x : Flt) : Prop := ∃ n : Int, x = .num n ∧ inRange t n = true

/-- An array as numpy makes them. -/
def Arr.WF (a : Arr) : Prop := a.data.length = a.shape.prod ∧ (a.dtype = .i ∨ a.dtype = .u → ∀ x ∈ a.data, IntElem a.dtype x)

/-- The leaves of a nested list, left to right. -/
def leaves : Py → List Py
  | .list l => leavesL l
  | x => [x]
where
  leavesL : List Py → List Py
    | [] => []
    | x :: l => leaves x ++ leavesL l

def isList : Py → Bool
  | .list _ => true
  | _ => false

/-- The shape a value of a field type must have. -/
def Shaped : FT → Py → Prop
  | .bool, v => v = .int 0 ∨ v = .int 1
  | .int32, v => ∃ n, v = .int n
  | .float, v => ∃ x, v = .float x
  | .string, v => ∃ s, v = .str s
  | .mstring, v => ∃ l, v = .list l ∧ ∀ x ∈ l, ∃ s, x = .str s
  | .mint t, v => ∃ a, v = .arr a ∧ a.dtype = t ∧ a.shape = [a.data.length] ∧ (t = .i ∨ t = .u → ∀ x ∈ a.data, IntElem t x)
  | .mfloat t, v => ∃ a, v = .arr a ∧ a.dtype = t ∧ a.shape = [a.data.length]
  | .vec t dim, v => ∃ a, v = .arr a ∧ a.dtype = t ∧ a.shape = dim ∧ a.data.length = dim.prod
  | .array t, v => ∃ a, v = .arr a ∧ a.dtype = t
  | .mvec t dim, v => ∃ a n, v = .arr a ∧ a.dtype = t ∧ a.shape = n :: dim ∧ a.data.length = n * dim.prod
  | .color, v => ∃ a, v = .arr a ∧ a.dtype = .f ∧ a.shape = [3] ∧ a.data.length = 3
  | .mcolor, v => ∃ a n, v = .arr a ∧ a.dtype = .f ∧ a.shape = [n, 3] ∧ a.data.length = n * 3

/-! ### C21: flattening -/

theorem leavesL_append (l m : List Py) : leaves.leavesL (l ++ m) = leaves.leavesL l ++ leaves.leavesL m := by
  induction l with
  | nil => rfl
  | cons x l ih => simp [leaves.leavesL, ih]

/-- **C21.** Flattening yields exactly the leaves, left to right. -/
theorem C21_leaves (l : List Py) : collapse l = leaves (.list l) := by
  simp only [leaves]
  fun_induction collapse l with
  | case1 => rfl
  | case2 l rest ih => rw [ih, leavesL_append]; simp [leaves.leavesL, leaves]
  | case3 x rest hx ih =>
    have : leaves x = [x] := by
      cases x <;> first | rfl | exact absurd rfl (hx _)
    simp [leaves.leavesL, this, ih]

/-- **C21.** The result contains no list. -/
theorem C21_flat (l : List Py) : ∀ x ∈ collapse l, isList x = false := by
  fun_induction collapse l with
  | case1 => simp
  | case2 l rest ih => exact ih
  | case3 x rest hx ih =>
    intro y hy
    rcases List.mem_cons.1 hy with rfl | hy
    · cases y <;> first | rfl | exact absurd rfl (hx _)
    · exact ih y hy

/-- **C21.** A flat list is unchanged. -/
theorem C21_flat_unchanged (l : List Py) (h : ∀ x ∈ l, isList x = false) : collapse l = l := by
  rw [C21_leaves]
  simp only [leaves]
  induction l with
  | nil => rfl
  | cons x l ih =>
    have hx : leaves x = [x] := by
      have := h x List.mem_cons_self
      cases x <;> first | rfl | simp [isList] at this
    simp only [leaves.leavesL, hx, List.singleton_append]
    rw [ih (fun y hy => h y (List.mem_cons_of_mem _ hy))]

example : collapse [.list [.int 1, .list [.list [], .int 2]], .tuple [.int 3], .list [.list [.int 4]]]
    = [.int 1, .int 2, .tuple [.int 3], .int 4] := by
  rw [C21_leaves]; rfl

/-! ### helper lemmas -/

theorem mapE_ok_iff {f : α → Except Err β} {l : List α} {r : List β} :
    mapE f l = .ok r ↔ List.Forall₂ (fun x y => f x = .ok y) l r := by
  induction l generalizing r with
  | nil => simp [mapE, eq_comm]
  | cons x l ih =>
    simp only [mapE]
    cases hx : f x with
    | error e =>
      simp only [reduceCtorEq, false_iff]
      intro h; cases h with | cons h1 h2 => rw [hx] at h1; cases h1
    | ok y =>
      cases hl : mapE f l with
      | error e =>
        simp only [reduceCtorEq, false_iff]
        intro h
        cases h with
        | cons h1 h2 => have := ih.2 h2; rw [hl] at this; cases this
      | ok ys =>
        simp only [Except.ok.injEq]
        constructor
        · rintro rfl; exact .cons hx (ih.1 hl)
        · intro h
          cases h with
          | cons h1 h2 =>
            rw [hx] at h1; cases h1
            have := ih.2 h2; rw [hl] at this; cases this; rfl

theorem mapE_map {f : α → Except Err β} {g : α → β} {l : List α} (h : ∀ x ∈ l, f x = .ok (g x)) : mapE f l = .ok (l.map g) := by
  rw [mapE_ok_iff]
  induction l with
  | nil => simp
  | cons x l ih => exact .cons (h x (by simp)) (ih (fun y hy => h y (by simp [hy])))

theorem forall2_mem {R : α → β → Prop} {l : List α} {r : List β} (h : List.Forall₂ R l r) {y : β} (hy : y ∈ r) : ∃ x ∈ l, R x y := by
  induction h with
  | nil => cases hy
  | cons h1 _ ih =>
    rcases List.mem_cons.1 hy with rfl | hy
    · exact ⟨_, List.mem_cons_self, h1⟩
    · obtain ⟨x, hx, hr⟩ := ih hy; exact ⟨x, List.mem_cons_of_mem _ hx, hr⟩

theorem sfString_str (s : List Char) : sfString P (.str s) = .ok (.str s) := rfl

theorem sfString_shape {v r : Py} (h : sfString P v = .ok r) : ∃ s, r = .str s := by
  have key : ∀ {v r : Py}, (match v with
    | .str s => (.ok (.str s) : Except Err Py)
    | v => .ok (.str (P.strOf v))) = .ok r → ∃ s, r = .str s := by
    intro v r h
    split at h <;> (cases h; exact ⟨_, rfl⟩)
  simp only [sfString] at h
  repeat' split at h
  all_goals first
    | (cases h; exact ⟨_, rfl⟩)
    | exact key h
    | skip
  all_goals cases h

/-! ### C19 -/

theorem mfString_shape {v r : Py} (h : mfString P v = .ok r) : Shaped .mstring r := by
  simp only [mfString] at h
  split at h
  · cases h
  · split at h
    · rename_i l' hl
      cases h
      refine ⟨_, rfl, ?_⟩
      rw [mapE_ok_iff] at hl
      intro x hx
      obtain ⟨y, _, hy⟩ := forall2_mem hl hx
      exact sfString_shape hy
    · cases h

theorem sfBool_shape {v r : Py} (h : sfBool P v = .ok r) : Shaped .bool r := by
  simp only [sfBool] at h
  split at h
  · cases h; exact .inr rfl
  · cases h; exact .inl rfl
  · cases h

theorem intArray_shape {t : DType} {l : List Int} {r : Py} (h : intArray t l = .ok r) : Shaped (.mint t) r := by
  simp only [intArray] at h
  split at h
  · rename_i hl
    cases h
    refine ⟨_, rfl, rfl, by simp, ?_⟩
    intro _ x hx
    simp only [List.mem_map] at hx
    obtain ⟨n, hn, rfl⟩ := hx
    exact ⟨n, rfl, List.all_eq_true.1 hl n hn⟩
  · cases h

theorem wrap_inRange (t : DType) (n : Int) : inRange t (wrap t n) = true := by
  cases t with
  | i =>
    show decide _ = true
    rw [decide_eq_true_eq]; simp only [wrap]; omega
  | u =>
    show decide _ = true
    rw [decide_eq_true_eq]; simp only [wrap]; omega
  | f => rfl
  | d => rfl
  | other => rfl

theorem ensure_same {t : DType} {a : Arr} (h : a.dtype = t) : a.ensure P t = a := by simp [Arr.ensure, h]

theorem mfIntBody_shape {t : DType} {v r : Py} (hv : ∀ a, v = .arr a → a.WF) (h : mfIntBody P t v = .ok r) : Shaped (.mint t) r := by
  unfold mfIntBody at h
  repeat' split at h
  all_goals first
    | exact intArray_shape h
    | (cases h; exact ⟨_, rfl, rfl, rfl, by simp⟩)
    | skip
  all_goals first
    | cases h; done
    | skip
  rename_i a
  simp only [Except.ok.injEq] at h
  subst h
  by_cases hd : a.dtype = t
  · rw [ensure_same hd]
    refine ⟨_, rfl, hd, rfl, ?_⟩
    intro ht x hx
    have := (hv a rfl).2 (by rwa [hd]) x hx
    rwa [hd] at this
  · simp only [Arr.ensure, ne_eq, hd, not_false_eq_true, if_true]
    refine ⟨_, rfl, ?_, rfl, ?_⟩
    · cases t <;> rfl
    · rintro (rfl | rfl) x hx
      · simp only [Arr.astype, List.mem_map] at hx
        obtain ⟨y, _, rfl⟩ := hx
        exact ⟨_, rfl, wrap_inRange _ _⟩
      · simp only [Arr.astype, List.mem_map] at hx
        obtain ⟨y, _, rfl⟩ := hx
        exact ⟨_, rfl, wrap_inRange _ _⟩

theorem mfInt_shape {t : DType} {v r : Py} (hv : ∀ a, v = .arr a → a.WF) (h : mfInt P t v = .ok r) : Shaped (.mint t) r := by
  unfold mfInt at h
  split at h
  · split at h
    · exact mfIntBody_shape (by intro a ha; cases ha) h
    · cases h
  · exact mfIntBody_shape hv h

theorem astype_dtype (t : DType) (a : Arr) : (a.ensure P t).dtype = t := by
  unfold Arr.ensure
  by_cases hd : a.dtype = t
  · simp [hd]
  · simp only [ne_eq, hd, not_false_eq_true, if_true]; cases t <;> rfl

theorem mfFloat_shape {t : DType} {v r : Py} (h : mfFloat P t v = .ok r) : Shaped (.mfloat t) r := by
  simp only [mfFloat] at h
  have fl : ∀ l, Shaped (.mfloat t) (.arr (fltArray P t l)) := by
    intro l; exact ⟨_, rfl, rfl, by simp [fltArray]⟩
  split at h
  · cases h
  · rename_i v' hv'
    repeat' split at h
    all_goals first
      | (cases h; exact fl _)
      | (cases h; exact ⟨_, rfl, rfl, rfl⟩)
      | (cases h; exact ⟨_, rfl, astype_dtype t _, rfl⟩)
      | cases h

theorem checkShape_vec {t : DType} {dim : List Nat} {a : Arr} {r : Py} (hd : a.dtype = t) (hl : a.data.length = dim.prod)
    (h : checkShape dim a = .ok r) : Shaped (.vec t dim) r := by
  simp only [checkShape] at h
  split at h
  · cases h
  · rename_i hs; cases h; exact ⟨_, rfl, hd, by simpa using hs, hl⟩

theorem reshape_ok {dim : List Nat} {a b : Arr} (h : a.reshape dim = .ok b) :
    a.data.length = dim.prod ∧ b = ⟨a.dtype, dim, a.data⟩ := by
  simp only [Arr.reshape] at h
  split at h
  · rename_i hl; cases h; exact ⟨hl, rfl⟩
  · cases h

theorem sfVec_shape (hP : Lawful P) {t : DType} {dim : List Nat} {v r : Py} (h : sfVec P t dim v = .ok r) : Shaped (.vec t dim) r := by
  simp only [sfVec] at h
  split at h
  · cases h
  · repeat' split at h
    all_goals first
      | (rename_i hr; obtain ⟨h1, h2⟩ := reshape_ok hr; subst h2; refine checkShape_vec ?_ ?_ h; exact astype_dtype t _; exact h1)
      | (rename_i hr; obtain ⟨h1, h2⟩ := reshape_ok hr; exact checkShape_vec rfl h1 h)
      | (rename_i hr; obtain ⟨h1, h2⟩ := reshape_ok hr; refine checkShape_vec ?_ h1 h; exact hP _ _ _ (by assumption))
      | cases h

theorem reshapeRows_shape {t : DType} {dim : List Nat} {a b : Arr} (hd : a.dtype = t) (h : a.reshapeRows dim = .ok b) :
    Shaped (.mvec t dim) (.arr b) := by
  simp only [Arr.reshapeRows] at h
  split at h
  · rename_i hl
    cases h
    refine ⟨_, _, rfl, hd, rfl, ?_⟩
    exact (Nat.div_mul_cancel (Nat.dvd_of_mod_eq_zero hl.2)).symm
  · cases h

/-- What the array-building part of `_SFArray.coerce` yields has the right element type. -/
theorem sfArrayWith_ok (hP : Lawful P) {rs : Arr → Except Err Arr} {t : DType} {v r : Py} (h : sfArrayWith P rs t v = .ok r) :
    ∃ a b, a.dtype = t ∧ rs a = .ok b ∧ r = .arr b := by
  simp only [sfArrayWith] at h
  split at h
  · cases h
  · rename_i a ha
    split at h
    · rename_i b hb
      cases h
      refine ⟨a, b, ?_, hb, rfl⟩
      repeat' split at ha
      all_goals first
        | (cases ha; exact astype_dtype t _)
        | (cases ha; rfl)
        | (rename_i hx; cases ha; exact hP _ _ _ hx)
        | cases ha
    · cases h

theorem clipArr_ok {x : Except Err Py} {r : Py} (h : clipArr x = .ok r) :
    (∃ a : Arr, x = .ok (.arr a) ∧ r = .arr { a with data := a.data.map Flt.clip }) ∨ x = .ok r := by
  unfold clipArr at h
  split at h
  · cases h; exact .inl ⟨_, rfl, rfl⟩
  · exact .inr h

theorem sfColor_vec (hP : Lawful P) {v r : Py} (h : sfColor P v = .ok r) :
    ∃ a : Arr, a.dtype = .f ∧ a.shape = [3] ∧ a.data.length = 3 ∧ r = .arr { a with data := a.data.map Flt.clip } := by
  have key : ∀ w, clipArr (sfVec P .f [3] w) = .ok r →
      ∃ a : Arr, a.dtype = .f ∧ a.shape = [3] ∧ a.data.length = 3 ∧ r = .arr { a with data := a.data.map Flt.clip } := by
    intro w h
    rcases clipArr_ok h with ⟨a, ha, rfl⟩ | h'
    · obtain ⟨b, hb, h1, h2, h3⟩ := sfVec_shape hP ha
      cases hb; exact ⟨a, h1, h2, h3, rfl⟩
    · obtain ⟨b, rfl, h1, h2, h3⟩ := sfVec_shape hP h'
      rw [h'] at h
      simp only [clipArr, Except.ok.injEq] at h
      exact ⟨b, h1, h2, h3, h.symm⟩
  simp only [sfColor] at h
  split at h
  · split at h
    · exact key _ h
    · cases h
  · exact key _ h

theorem mfColor_vec (hP : Lawful P) {v r : Py} (h : mfColor P v = .ok r) :
    ∃ (a : Arr) (n : Nat), a.dtype = .f ∧ a.shape = [n, 3] ∧ a.data.length = n * 3 ∧ r = .arr { a with data := a.data.map Flt.clip } := by
  have key : ∀ w r, clipArr (mfVec P .f [3] w) = .ok r →
      ∃ (a : Arr) (n : Nat), a.dtype = .f ∧ a.shape = [n, 3] ∧ a.data.length = n * 3 ∧ r = .arr { a with data := a.data.map Flt.clip } := by
    intro w r h
    have main : ∀ r', mfVec P .f [3] w = .ok r' → ∃ (a : Arr) (n : Nat), r' = .arr a ∧ a.dtype = .f ∧ a.shape = [n, 3] ∧ a.data.length = n * 3 := by
      intro r' hr'
      obtain ⟨a, b, hd, hb, rfl⟩ := sfArrayWith_ok hP hr'
      obtain ⟨c, n, hc, h1, h2, h3⟩ := reshapeRows_shape hd hb
      cases hc
      exact ⟨b, n, rfl, h1, h2, by simpa using h3⟩
    rcases clipArr_ok h with ⟨a, ha, rfl⟩ | h'
    · obtain ⟨b, n, hb, h1, h2, h3⟩ := main _ ha
      cases hb; exact ⟨a, n, h1, h2, h3, rfl⟩
    · obtain ⟨b, n, rfl, h1, h2, h3⟩ := main _ h'
      rw [h'] at h
      simp only [clipArr, Except.ok.injEq] at h
      exact ⟨b, n, h1, h2, h3, h.symm⟩
  simp only [mfColor] at h
  split at h
  · rename_i r' hr'; cases h; exact key _ _ hr'
  · cases h
  · split at h
    · cases h
    · split at h
      · exact key _ _ h
      · cases h

/-- **C19.** Every value a field type accepts has that type's shape. -/
theorem C19_shape (hP : Lawful P) (ft : FT) (v r : Py) (hv : ∀ a, v = .arr a → a.WF) (h : ft.coerce P v = .ok r) : Shaped ft r := by
  cases ft with
  | bool => exact sfBool_shape h
  | int32 => simp only [FT.coerce, sfInt32] at h; split at h <;> cases h; exact ⟨_, rfl⟩
  | float => simp only [FT.coerce, sfFloat] at h; split at h <;> cases h; exact ⟨_, rfl⟩
  | string => exact sfString_shape h
  | mstring => exact mfString_shape h
  | mint t => exact mfInt_shape hv h
  | mfloat t => exact mfFloat_shape h
  | vec t dim => exact sfVec_shape hP h
  | array t => obtain ⟨a, b, hd, hb, rfl⟩ := sfArrayWith_ok (rs := .ok) (t := t) (v := v) hP h; cases hb; exact ⟨_, rfl, hd⟩
  | mvec t dim => obtain ⟨a, b, hd, hb, rfl⟩ := sfArrayWith_ok hP h; exact reshapeRows_shape hd hb
  | color =>
    obtain ⟨a, h1, h2, h3, rfl⟩ := sfColor_vec hP h
    exact ⟨_, rfl, h1, h2, by simpa using h3⟩
  | mcolor =>
    obtain ⟨a, n, h1, h2, h3, rfl⟩ := mfColor_vec hP h
    exact ⟨_, n, rfl, h1, h2, by simpa using h3⟩

/-! ### C18 -/

theorem clip_clip (x : Flt) : x.clip.clip = x.clip := by
  cases x with
  | num q =>
    simp only [Flt.clip]
    by_cases h0 : q < 0
    · simp [h0]
    · by_cases h1 : 1 < q
      · simp [h0, h1]
      · simp [h0, h1]
  | pinf => simp [Flt.clip]
  | ninf => simp [Flt.clip]
  | nan => rfl

theorem pyInt_int (n : Int) : pyInt P (.int n) = .ok n := rfl

theorem sfVec_fix {t : DType} {dim : List Nat} {a : Arr} (hd : a.dtype = t) (hs : a.shape = dim) (hl : a.data.length = dim.prod) :
    sfVec P t dim (.arr a) = .ok (.arr a) := by
  simp only [sfVec, ensure_same hd, Arr.reshape, hl, hd, if_true, checkShape]
  cases a; simp_all

theorem mfVec_fix {t : DType} {dim : List Nat} {a : Arr} {n : Nat} (hd : a.dtype = t) (hs : a.shape = n :: dim)
    (hl : a.data.length = n * dim.prod) (hz : dim.prod ≠ 0) : mfVec P t dim (.arr a) = .ok (.arr a) := by
  have hz' : 0 < dim.prod := Nat.pos_of_ne_zero hz
  simp only [mfVec, sfArrayWith, ensure_same hd, ne_eq, Arr.reshapeRows, hl, Nat.mul_mod_left, hz,
    not_false_eq_true, and_self, if_true, Nat.mul_div_cancel _ hz']
  cases a; simp_all

/-- **C18.** Coercing an already coerced value gives it back unchanged, for every field type and every accepted value. -/
theorem C18_idempotent (hP : Lawful P) (ft : FT) (v r : Py) (hv : ∀ a, v = .arr a → a.WF) (h : ft.coerce P v = .ok r) :
    ft.coerce P r = .ok r := by
  have hsh := C19_shape hP ft v r hv h
  cases ft with
  | bool => rcases hsh with rfl | rfl <;> rfl
  | int32 => obtain ⟨n, rfl⟩ := hsh; rfl
  | float => obtain ⟨x, rfl⟩ := hsh; rfl
  | string => obtain ⟨s, rfl⟩ := hsh; rfl
  | mstring =>
    obtain ⟨l, rfl, hl⟩ := hsh
    simp only [FT.coerce, mfString, iter]
    rw [mapE_map (g := id)]
    · simp
    · intro x hx; obtain ⟨s, rfl⟩ := hl x hx; rfl
  | mint t =>
    obtain ⟨a, rfl, hd, hs, _⟩ := hsh
    simp only [FT.coerce, mfInt, mfIntBody, ensure_same hd]
    cases a; simp_all
  | mfloat t =>
    obtain ⟨a, rfl, hd, hs⟩ := hsh
    simp only [FT.coerce, mfFloat, ensure_same hd]
    cases a; simp_all
  | vec t dim => obtain ⟨a, rfl, hd, hs, hl⟩ := hsh; exact sfVec_fix hd hs hl
  | array t =>
    obtain ⟨a, rfl, hd⟩ := hsh
    simp [FT.coerce, sfArray, sfArrayWith, ensure_same hd]
  | mvec t dim =>
    obtain ⟨a, n, rfl, hd, hs, hl⟩ := hsh
    have hz : dim.prod ≠ 0 := by
      obtain ⟨_, _, _, hb, _⟩ := sfArrayWith_ok hP h
      simp only [Arr.reshapeRows] at hb
      split at hb
      · rename_i hh; exact hh.1
      · cases hb
    exact mfVec_fix hd hs hl hz
  | color =>
    obtain ⟨a, h1, h2, h3, rfl⟩ := sfColor_vec hP h
    simp only [FT.coerce, sfColor]
    rw [sfVec_fix (a := { a with data := a.data.map Flt.clip }) h1 h2 (by simpa using h3)]
    simp [clipArr, clip_clip, Function.comp_def]
  | mcolor =>
    obtain ⟨a, n, h1, h2, h3, rfl⟩ := mfColor_vec hP h
    simp only [FT.coerce, mfColor]
    rw [mfVec_fix (a := { a with data := a.data.map Flt.clip }) h1 h2 (by simpa using h3) (by simp)]
    simp [clipArr, clip_clip, Function.comp_def]

/-! ### C20 -/

/-- A colour component that is a number between 0 and 1. -/
def InRange (x : Flt) : Prop := ∃ q : Rat, x = .num q ∧ 0 ≤ q ∧ q ≤ 1

theorem clip_range (x : Flt) : InRange x.clip ∨ x = .nan := by
  cases x with
  | num q =>
    left
    simp only [Flt.clip]
    split
    · exact ⟨0, rfl, by norm_num, by norm_num⟩
    · split
      · exact ⟨1, rfl, by norm_num, by norm_num⟩
      · exact ⟨q, rfl, by linarith, by linarith⟩
  | pinf => exact .inl ⟨1, rfl, by norm_num, by norm_num⟩
  | ninf => exact .inl ⟨0, rfl, by norm_num, by norm_num⟩
  | nan => exact .inr rfl

/-- **C20.** Every accepted SFColor has three components and every accepted MFColor rows of three, each component
in [0,1] or NaN.  Excluded: NaN components are not rejected (false, see `C20_refuted_nan`). -/
theorem C20_in_range (hP : Lawful P) (v r : Py) :
    (sfColor P v = .ok r → ∃ a : Arr, r = .arr a ∧ a.shape = [3] ∧ a.data.length = 3 ∧ ∀ x ∈ a.data, InRange x ∨ x = .nan) ∧
    (mfColor P v = .ok r → ∃ (a : Arr) (n : Nat), r = .arr a ∧ a.shape = [n, 3] ∧ a.data.length = n * 3 ∧ ∀ x ∈ a.data, InRange x ∨ x = .nan) := by
  have key : ∀ l : List Flt, ∀ x ∈ l.map Flt.clip, InRange x ∨ x = .nan := by
    intro l x hx
    obtain ⟨y, _, rfl⟩ := List.mem_map.1 hx
    rcases clip_range y with h | rfl
    · exact .inl h
    · exact .inr rfl
  constructor
  · intro h
    obtain ⟨a, h1, h2, h3, rfl⟩ := sfColor_vec hP h
    exact ⟨_, rfl, h2, by simpa using h3, key _⟩
  · intro h
    obtain ⟨a, n, h1, h2, h3, rfl⟩ := mfColor_vec hP h
    exact ⟨_, n, rfl, h2, by simpa using h3, key _⟩

/-- **C20.** A list of three numbers (finite or infinite) is always accepted as a colour and every component ends up in [0,1],
provided storing a number does not turn it into NaN. -/
theorem C20_numbers_in_range (x y z : Flt) (hc : ∀ w : Flt, w ≠ .nan → P.conv .f w ≠ .nan)
    (hx : x ≠ .nan) (hy : y ≠ .nan) (hz : z ≠ .nan) :
    ∃ a : Arr, sfColor P (.list [.float x, .float y, .float z]) = .ok (.arr a) ∧ a.shape = [3] ∧
      a.data = [(P.conv .f x).clip, (P.conv .f y).clip, (P.conv .f z).clip] ∧ ∀ w ∈ a.data, InRange w := by
  refine ⟨⟨.f, [3], [(P.conv .f x).clip, (P.conv .f y).clip, (P.conv .f z).clip]⟩, ?_, rfl, rfl, ?_⟩
  · simp only [sfColor, sfVec]
    rw [C21_flat_unchanged _ (by simp [isList])]
    simp [mapE, pyFloat, fltArray, Arr.reshape, checkShape, clipArr]
  · intro w hw
    simp only [List.mem_cons, List.not_mem_nil, or_false] at hw
    rcases hw with rfl | rfl | rfl
    · exact (clip_range _).resolve_right (hc x hx)
    · exact (clip_range _).resolve_right (hc y hy)
    · exact (clip_range _).resolve_right (hc z hz)

/-- **C20 refuted.** A NaN component is accepted and stays NaN, which is not in [0,1]. -/
theorem C20_refuted_nan (h : P.conv .f .nan = .nan) :
    ∃ a : Arr, sfColor P (.list [.float .nan, .int 0, .int 0]) = .ok (.arr a) ∧ ∃ x ∈ a.data, ¬ InRange x := by
  refine ⟨⟨.f, [3], [.nan, (P.conv .f (.num 0)).clip, (P.conv .f (.num 0)).clip]⟩, ?_, .nan, by simp, ?_⟩
  · simp only [sfColor, sfVec]
    rw [C21_flat_unchanged _ (by simp [isList])]
    simp [mapE, pyFloat, fltArray, Arr.reshape, checkShape, clipArr, h, Flt.clip]
  · rintro ⟨q, hq, _⟩; cases hq

/-! ### C22: colour texts -/

theorem hex_go_append (a b : List Char) (n m : Nat) (h : hexValue.go a n = some m) :
    hexValue.go (a ++ b) n = hexValue.go b m := by
  induction a generalizing n with
  | nil => simp [hexValue.go] at h; subst h; rfl
  | cons c a ih =>
    simp only [hexValue.go, List.cons_append] at h ⊢
    split at h
    · exact ih _ h
    · cases h

/-- The lower-case hexadecimal digit of a number below 16 (specification of '%x'). -/
def hexChar (n : Nat) : Char := ("0123456789abcdef".toList)[n]!

/-- '#%02x%02x%02x'. -/
def hexText (r g b : Nat) : List Char :=
  ['#', hexChar (r / 16), hexChar (r % 16), hexChar (g / 16), hexChar (g % 16), hexChar (b / 16), hexChar (b % 16)]

theorem hexDigit_hexChar : ∀ n < 16, hexDigit (hexChar n) = some n ∧ (hexChar n).toLower = hexChar n := by decide

set_option maxRecDepth 10000 in
theorem css_no_hash : ∀ e ∈ cssTable, e.1.toList.head? ≠ some '#' := by decide +kernel

theorem find_hash (s : List Char) : cssTable.find? (fun e => e.1.toList == '#' :: s) = none := by
  rw [List.find?_eq_none]
  intro e he h
  have := css_no_hash e he
  simp only [beq_iff_eq] at h
  rw [h] at this
  simp at this

theorem mask_shift (v shift : Nat) : (v &&& (255 <<< shift)) >>> shift = (v / 2 ^ shift) % 256 := by
  apply Nat.eq_of_testBit_eq
  intro i
  rw [Nat.testBit_shiftRight, Nat.testBit_and, Nat.testBit_shiftLeft, show (256 : Nat) = 2 ^ 8 from rfl, Nat.testBit_mod_two_pow,
    Nat.testBit_div_two_pow]
  have h255 : Nat.testBit 255 i = decide (i < 8) := by
    rw [show (255 : Nat) = 2 ^ 8 - 1 from rfl, Nat.testBit_two_pow_sub_one]
  simp [h255, Nat.add_comm, Bool.and_comm]

/-- The colour a hexadecimal text denotes: bytes 2, 1 and 0 of its value. -/
theorem stringToColor_hex (h : List Char) (n : Nat) (hn : hexValue (lower h) = some n) (hb : n < 4294967296) :
    stringToColor P ('#' :: h) = .ok (((n / 65536 % 256 : Nat) : Rat) / 255, ((n / 256 % 256 : Nat) : Rat) / 255, ((n % 256 : Nat) : Rat) / 255) := by
  have hl : lower ('#' :: h) = '#' :: lower h := rfl
  simp only [stringToColor, hl, find_hash, int16, hn, toFloat]
  have : ((n : Int) % 4294967296).toNat = n := by omega
  rw [this, mask_shift, mask_shift, mask_shift]
  norm_num

/-- **C22.** A #rrggbb text gives the three bytes divided by 255. -/
theorem C22_hex6 (r g b : Nat) (hr : r < 256) (hg : g < 256) (hb : b < 256) :
    stringToColor P (hexText r g b) = .ok ((r : Rat) / 255, (g : Rat) / 255, (b : Rat) / 255) := by
  have d : ∀ n < 256, n / 16 < 16 ∧ n % 16 < 16 := by intro n hn; omega
  have hv : hexValue (lower [hexChar (r / 16), hexChar (r % 16), hexChar (g / 16), hexChar (g % 16), hexChar (b / 16), hexChar (b % 16)])
      = some (r * 65536 + g * 256 + b) := by
    simp only [lower, List.map_cons, List.map_nil]
    rw [(hexDigit_hexChar _ (d r hr).1).2, (hexDigit_hexChar _ (d r hr).2).2, (hexDigit_hexChar _ (d g hg).1).2,
      (hexDigit_hexChar _ (d g hg).2).2, (hexDigit_hexChar _ (d b hb).1).2, (hexDigit_hexChar _ (d b hb).2).2]
    simp only [hexValue, List.isEmpty_cons, Bool.false_eq_true, if_false, hexValue.go]
    rw [(hexDigit_hexChar _ (d r hr).1).1, (hexDigit_hexChar _ (d r hr).2).1, (hexDigit_hexChar _ (d g hg).1).1,
      (hexDigit_hexChar _ (d g hg).2).1, (hexDigit_hexChar _ (d b hb).1).1, (hexDigit_hexChar _ (d b hb).2).1]
    simp only [Option.some.injEq]
    omega
  rw [hexText, stringToColor_hex _ _ hv (by omega)]
  have e1 : (r * 65536 + g * 256 + b) / 65536 % 256 = r := by omega
  have e2 : (r * 65536 + g * 256 + b) / 256 % 256 = g := by omega
  have e3 : (r * 65536 + g * 256 + b) % 256 = b := by omega
  rw [e1, e2, e3]

/-- **C22.** Upper-case digits mean the same. -/
theorem C22_case_insensitive (s t : List Char) (h : lower s = lower t) : stringToColor P s = stringToColor P t := by
  simp only [stringToColor, h]

/-- **C22.** Converting a byte to a component and back gives the byte. -/
theorem C22_byte_round_trip (b : Nat) (hb : b < 256) : toInt (toFloat b 0) = b := by
  simp only [toInt, toFloat]
  have : ((b : Int) % 4294967296).toNat = b := by omega
  rw [this, mask_shift]
  have hm : b / 2 ^ 0 % 256 = b := by simp; omega
  rw [hm]
  have hq : ((b : Rat) / 255 * 255) = (b : Rat) := by field_simp
  rw [hq, roundEven]
  simp

/-- **C22** A component is written as the nearest byte; halves go to the even one. -/
theorem C22_nearest_byte (q : Rat) : |q * 255 - toInt q| ≤ 1 / 2 ∧ (|q * 255 - toInt q| = 1 / 2 → 2 ∣ toInt q) := by
  have h1 := Int.floor_le (q * 255)
  have h2 := Int.lt_floor_add_one (q * 255)
  unfold toInt roundEven
  dsimp only
  split
  · rename_i h
    rw [abs_of_nonneg (by linarith)]
    exact ⟨by linarith, fun h' => by linarith⟩
  · split
    · rename_i _ h
      push_cast
      rw [abs_of_nonpos (by linarith)]
      exact ⟨by linarith, fun h' => by linarith⟩
    · rename_i h3 h4
      split
      · rename_i h5
        rw [abs_of_nonneg (by linarith)]
        exact ⟨by linarith, fun _ => by omega⟩
      · rename_i h5
        push_cast
        rw [abs_of_nonpos (by linarith)]
        exact ⟨by linarith, fun _ => by omega⟩

/-- **C22.** Writing three bytes as #rrggbb, reading the text and converting the components back to bytes gives the bytes. -/
theorem C22_hex_round_trip (r g b : Nat) (hr : r < 256) (hg : g < 256) (hb : b < 256) :
    (match stringToColor P (hexText r g b) with
     | .ok (x, y, z) => some (toInt x, toInt y, toInt z)
     | .error _ => none) = some ((r : Int), (g : Int), (b : Int)) := by
  rw [C22_hex6 r g b hr hg hb]
  have k : ∀ n : Nat, toInt ((n : Rat) / 255) = n := by
    intro n
    have hq : ((n : Rat) / 255 * 255) = (n : Rat) := by field_simp
    rw [toInt, hq, roundEven]; simp
  simp [k]

/-- **C22 refuted.** #rgb is not read as doubled digits: #f00 (red) is read as (0, 15/255, 0). -/
theorem C22_refuted_short : stringToColor P "#f00".toList = .ok (0, 15 / 255, 0) := by
  have := stringToColor_hex (P := P) "f00".toList 3840 (by decide) (by decide)
  simpa using this

/-- **C22.** Every CSS colour name of the table is found, in any letter case, and has components in [0,1]. -/
theorem C22_names (s : List Char) (e : String × Nat × Nat × Nat) (he : e ∈ cssTable) (hs : lower s = e.1.toList) :
    stringToColor P s = .ok ((e.2.1 : Rat) / 10000, (e.2.2.1 : Rat) / 10000, (e.2.2.2 : Rat) / 10000) ∧
    (e.2.1 ≤ 10000 ∧ e.2.2.1 ≤ 10000 ∧ e.2.2.2 ≤ 10000) := by
  have hf : ∀ e ∈ cssTable, cssTable.find? (fun e' => e'.1.toList == e.1.toList) = some e := by decide +kernel
  have hr : ∀ e ∈ cssTable, e.2.1 ≤ 10000 ∧ e.2.2.1 ≤ 10000 ∧ e.2.2.2 ≤ 10000 := by decide +kernel
  refine ⟨?_, hr e he⟩
  simp only [stringToColor, hs, hf e he]

/-- **C22.** Whatever text is accepted as a colour, its components are in [0,1]. -/
theorem C22_range (s : List Char) (r g b : Rat) (h : stringToColor P s = .ok (r, g, b)) :
    (0 ≤ r ∧ r ≤ 1) ∧ (0 ≤ g ∧ g ≤ 1) ∧ (0 ≤ b ∧ b ≤ 1) := by
  have tf : ∀ (v : Int) (k : Nat), 0 ≤ toFloat v k ∧ toFloat v k ≤ 1 := by
    intro v k
    simp only [toFloat, mask_shift]
    have : (v % 4294967296).toNat / 2 ^ k % 256 ≤ 255 := by omega
    have hc : (((v % 4294967296).toNat / 2 ^ k % 256 : Nat) : Rat) ≤ 255 := by exact_mod_cast this
    constructor
    · positivity
    · rw [div_le_one (by norm_num)]; exact hc
  have hr : ∀ e ∈ cssTable, e.2.1 ≤ 10000 ∧ e.2.2.1 ≤ 10000 ∧ e.2.2.2 ≤ 10000 := by decide +kernel
  have dv : ∀ n : Nat, n ≤ 10000 → 0 ≤ (n : Rat) / 10000 ∧ (n : Rat) / 10000 ≤ 1 := by
    intro n hn
    have : (n : Rat) ≤ 10000 := by exact_mod_cast hn
    constructor
    · positivity
    · rw [div_le_one (by norm_num)]; exact this
  simp only [stringToColor] at h
  split at h
  · rename_i heq
    have hm := List.mem_of_find?_eq_some heq
    obtain ⟨h1, h2, h3⟩ := hr _ hm
    cases h
    exact ⟨dv _ h1, dv _ h2, dv _ h3⟩
  · split at h
    · split at h
      · cases h; exact ⟨tf _ _, tf _ _, tf _ _⟩
      · cases h
    · cases h

example : ("steelblue", 2745, 5098, 7059) ∈ cssTable ∨ ("red", 10000, 0, 0) ∈ cssTable := by decide
example : stringToColor P "#FF8000".toList = .ok (1, 128 / 255, 0) := by
  rw [C22_case_insensitive _ (hexText 255 128 0) (by decide), C22_hex6 255 128 0 (by norm_num) (by norm_num) (by norm_num)]
  norm_num

/-! ### C23 -/

theorem mapE_float (l : List Flt) : mapE (pyFloat P) (l.map .float) = .ok l := by
  have := mapE_map (f := pyFloat P) (g := fun v => match v with | .float x => x | _ => .nan) (l := l.map .float) (by
    intro x hx; obtain ⟨y, _, rfl⟩ := List.mem_map.1 hx; rfl)
  simpa [Function.comp_def] using this

/-- **C23.** A flat list or tuple of n numbers is accepted by an SFVec field of n components, in order (each stored in the
field's precision). -/
theorem C23_vec_accepts (t : DType) (n : Nat) (l : List Flt) (hl : l.length = n) :
    sfVec P t [n] (.list (l.map .float)) = .ok (.arr ⟨t, [n], l.map (P.conv t)⟩) ∧
    sfVec P t [n] (.tuple (l.map .float)) = .ok (.arr ⟨t, [n], l.map (P.conv t)⟩) := by
  have hc : collapse (l.map .float) = l.map .float := C21_flat_unchanged _ (by
    intro x hx; obtain ⟨y, _, rfl⟩ := List.mem_map.1 hx; rfl)
  constructor <;> simp [sfVec, hc, mapE_float, fltArray, Arr.reshape, checkShape, hl]

/-- **C23.** A flat list with another number of components is rejected with ValueError. -/
theorem C23_vec_rejects (t : DType) (n : Nat) (l : List Flt) (hl : l.length ≠ n) :
    sfVec P t [n] (.list (l.map .float)) = .error .value := by
  have hc : collapse (l.map .float) = l.map .float := C21_flat_unchanged _ (by
    intro x hx; obtain ⟨y, _, rfl⟩ := List.mem_map.1 hx; rfl)
  simp [sfVec, hc, mapE_float, fltArray, Arr.reshape, hl]

/-- **C23 refuted.** No list or tuple whatsoever is accepted by a matrix field (two or more dimensions): the reshaped array is
thrown away. -/
theorem C23_refuted_matrix (t : DType) (m n : Nat) (dims : List Nat) (l : List Py) (r : Py) :
    sfVec P t (m :: n :: dims) (.list l) ≠ .ok r ∧ sfVec P t (m :: n :: dims) (.tuple l) ≠ .ok r := by
  have key : ∀ (o : Except Err (List Flt)), (match o with
      | .ok l =>
        let a := fltArray P t l
        match a.reshape (m :: n :: dims) with
        | .ok _ => checkShape (m :: n :: dims) a
        | .error e => .error e
      | .error e => .error e) ≠ (.ok r : Except Err Py) := by
    intro o h
    split at h
    · simp only at h
      split at h
      · simp [checkShape, fltArray] at h
      · cases h
    · cases h
  exact ⟨key _, key _⟩

/-- **C23.** Matrix fields accept arrays with the right number of elements.  Excluded: plain nested lists (false). -/
theorem C23_matrix_array (t : DType) (dim : List Nat) (a : Arr) (hd : a.dtype = t) (hl : a.data.length = dim.prod) :
    sfVec P t dim (.arr a) = .ok (.arr ⟨t, dim, a.data⟩) := by
  simp [sfVec, ensure_same hd, hd, Arr.reshape, hl, checkShape]

theorem npRow (t : DType) (l : List Flt) : npArray P t (.list (l.map .float)) = .ok ([l.length], l.map (P.conv t)) := by
  simp only [npArray]
  induction l with
  | nil => rfl
  | cons x l ih =>
    cases l with
    | nil => rfl
    | cons y l =>
      simp only [List.map_cons] at ih ⊢
      simp only [npArray.rows, npArray]
      rw [ih]
      simp

theorem npRows (t : DType) (n : Nat) (rows : List (List Flt)) (h : ∀ r ∈ rows, r.length = n) (hne : rows ≠ []) :
    npArray P t (.list (rows.map (fun r => .list (r.map .float)))) = .ok ([rows.length, n], rows.flatten.map (P.conv t)) := by
  simp only [npArray]
  induction rows with
  | nil => exact absurd rfl hne
  | cons x l ih =>
    have hx := h x List.mem_cons_self
    cases l with
    | nil =>
      have := npRow (P := P) t x
      simp only [List.map_cons, List.map_nil, npArray.rows, this, hx]
      simp
    | cons y l =>
      have ih := ih (fun r hr => h r (List.mem_cons_of_mem _ hr)) (by simp)
      simp only [List.map_cons] at ih ⊢
      simp only [npArray.rows]
      rw [npRow, ih]
      simp [hx]

theorem npRows_shape (t : DType) (rows : List (List Flt)) {sh : List Nat} {d : List Flt}
    (h : npArray.rows P t (rows.map (fun r => .list (r.map .float))) = .ok (sh, d)) (hne : rows ≠ []) : ∀ r ∈ rows, sh = [rows.length, r.length] := by
  induction rows generalizing sh d with
  | nil => exact absurd rfl hne
  | cons x l ih =>
    have hx := npRow (P := P) t x
    cases l with
    | nil =>
      simp only [List.map_cons, List.map_nil, npArray.rows, hx] at h
      cases h
      simp
    | cons y l =>
      simp only [List.map_cons] at ih h
      simp only [npArray.rows, hx] at h
      split at h
      · cases h
      · next n s' d' hr =>
        have ih := ih hr (by simp)
        split at h
        · next hs =>
          cases h
          intro r hm
          rcases List.mem_cons.1 hm with rfl | hm
          · have := ih y (by simp)
            simp only [List.cons.injEq] at this
            simp [this.1]
          · have := ih r hm
            simp only [List.cons.injEq] at this
            have hl : x.length = r.length := by
              have h2 := this.2
              rw [← hs] at h2
              simpa using h2
            simp [this.1, hl]
        · cases h
      · cases h

theorem npRow_value (t : DType) (rows : List (List Flt)) {e : Err} (h : npArray.rows P t (rows.map (fun r => .list (r.map .float))) = .error e) : e = .value := by
  induction rows with
  | nil => cases h
  | cons x l ih =>
    have hx := npRow (P := P) t x
    cases l with
    | nil =>
      simp only [List.map_cons, List.map_nil, npArray.rows, hx] at h
      cases h
    | cons y l =>
      simp only [List.map_cons] at ih h
      simp only [npArray.rows, hx] at h
      split at h
      · next hr => cases h; exact ih hr
      · split at h
        · cases h
        · cases h; rfl
      · cases h; rfl

/-- **C23.** Rows of different lengths are rejected by every MFVec field, as a list and as a tuple. -/
theorem C23_mfvec_ragged (t : DType) (dim : List Nat) (rows : List (List Flt)) (r r' : List Flt) (hr : r ∈ rows) (hr' : r' ∈ rows) (h : r.length ≠ r'.length) :
    mfVec P t dim (.list (rows.map (fun r => .list (r.map .float)))) = .error .type ∧
    mfVec P t dim (.tuple (rows.map (fun r => .list (r.map .float)))) = .error .type := by
  have hne : rows ≠ [] := fun h0 => by rw [h0] at hr; cases hr
  cases hq : npArray.rows P t (rows.map (fun r => .list (r.map .float))) with
  | ok x =>
    have := (npRows_shape t rows hq hne r hr).symm.trans (npRows_shape t rows hq hne r' hr')
    simp only [List.cons.injEq, and_true, true_and] at this
    exact absurd this h
  | error e =>
    have he := npRow_value t rows hq
    subst he
    have hm : mapE (pyFloat P) (rows.map (fun r => Py.list (r.map .float))) = .error .type := by
      cases rows with
      | nil => exact absurd rfl hne
      | cons x l => rfl
    simp [mfVec, sfArrayWith, npArray, hq, hm]

example : [1] ∈ [[1], [1, 2]] ∧ [1, 2] ∈ [[1], [1, 2]] ∧ ([1] : List Nat).length ≠ [1, 2].length := by decide

/-- **C23.** A list of rows of n numbers is accepted by an MFVec field of n components: the rows are kept, in order. -/
theorem C23_mfvec_rows (t : DType) (n : Nat) (hn : n ≠ 0) (rows : List (List Flt)) (h : ∀ r ∈ rows, r.length = n) :
    mfVec P t [n] (.list (rows.map (fun r => .list (r.map .float)))) = .ok (.arr ⟨t, [rows.length, n], rows.flatten.map (P.conv t)⟩) := by
  have hlen : rows.flatten.length = rows.length * n := by
    clear hn
    induction rows with
    | nil => simp
    | cons r rows ih =>
      have := h r List.mem_cons_self
      have := ih (fun r hr => h r (List.mem_cons_of_mem _ hr))
      simp [*]
      rw [Nat.add_mul]; simp at this; omega
  by_cases hne : rows = []
  · subst hne
    simp [mfVec, sfArrayWith, npArray, npArray.rows, Arr.reshapeRows, hn]
  · simp only [mfVec, sfArrayWith]
    rw [npRows t n rows h hne]
    have hn' : 0 < n := Nat.pos_of_ne_zero hn
    simp only [Arr.reshapeRows, List.length_map, hlen, List.prod_cons, List.prod_nil, mul_one, Nat.mul_mod_left, ne_eq, hn,
      not_false_eq_true, and_self, if_true, Nat.mul_div_cancel _ hn']

/-- **C23.** So is a flat list of numbers whose count is a multiple of n. -/
theorem C23_mfvec_flat (t : DType) (n k : Nat) (hn : n ≠ 0) (l : List Flt) (h : l.length = k * n) :
    mfVec P t [n] (.list (l.map .float)) = .ok (.arr ⟨t, [k, n], l.map (P.conv t)⟩) := by
  have hn' : 0 < n := Nat.pos_of_ne_zero hn
  simp only [mfVec, sfArrayWith]
  rw [npRow]
  simp only [Arr.reshapeRows, List.length_map, h, List.prod_cons, List.prod_nil, mul_one, Nat.mul_mod_left, ne_eq, hn,
    not_false_eq_true, and_self, if_true, Nat.mul_div_cancel _ hn']

/-! ### Non-vacuity -/

/-- A concrete environment: exact storage, numbers without texts. -/
def demoPrims : Prims where
  floatOf := fun s => if s = "1".toList then some (.num 1) else none
  intOf := fun s => if s = "1".toList then some 1 else none
  int16Other := fun _ => none
  strOf := fun _ => []
  decode := fun b => some (b.map Char.ofNat)
  conv := fun _ x => x
  castI := fun _ x => match x with | .num q => trunc q | _ => 0
  asarray := fun t _ => .ok ⟨t, [], [.nan]⟩

example : Lawful demoPrims := by intro t v a h; cases h; rfl

-- accepted values exist: a nested list for SFVec3f, a mixed list for MFColor, a text for SFVec2f
example : sfVec demoPrims .f [3] (.list [.list [.int 1, .int 2], .int 3]) = .ok (.arr ⟨.f, [3], [.num 1, .num 2, .num 3]⟩) := by
  simp only [sfVec]
  rw [C21_leaves]
  rfl
example : sfVec demoPrims .f [2] (.str "1, 1".toList) = .ok (.arr ⟨.f, [2], [.num 1, .num 1]⟩) := by
  have : splitWords "1, 1".toList = ["1".toList, "1".toList] := by decide
  simp only [sfVec, this]
  simp only [mapE, pyFloat, demoPrims, if_true, List.map_cons, List.map_nil]
  rw [C21_leaves]
  rfl
example : mfColor demoPrims (.list [.int 2, .int 0, .float (.num (1/2)), .str "Red".toList])
    = .ok (.arr ⟨.f, [2, 3], [.num 1, .num 0, .num (1/2), .num 1, .num 0, .num 0]⟩) := by
  have hred : sfColor demoPrims (.str "Red".toList) = .ok (.arr ⟨.f, [3], [.num 1, .num 0, .num 0]⟩) := by
    have hc := (C22_names (P := demoPrims) "Red".toList ("red", 10000, 0, 0) (by decide +kernel) (by decide)).1
    simp only [sfColor, hc, sfVec]
    rw [C21_flat_unchanged _ (by simp [isList])]
    norm_num [mapE, pyFloat, fltArray, Arr.reshape, checkShape, clipArr, Flt.clip, demoPrims]
  have hnum : sfColor demoPrims (.list [.int 2, .int 0, .float (.num (1/2))]) = .ok (.arr ⟨.f, [3], [.num 1, .num 0, .num (1/2)]⟩) := by
    simp only [sfColor, sfVec]
    rw [C21_flat_unchanged _ (by simp [isList])]
    norm_num [mapE, pyFloat, fltArray, Arr.reshape, checkShape, clipArr, Flt.clip, demoPrims]
  have hfail : mfVec demoPrims .f [3] (.list [.int 2, .int 0, .float (.num (1/2)), .str "Red".toList]) = .error .value := by
    have : "Red".toList ≠ "1".toList := by decide
    simp [mfVec, sfArrayWith, npArray, npArray.rows, demoPrims, mapE, pyFloat]
  simp only [mfColor, hfail, clipArr, iter]
  simp only [mfColorLoop, List.length_cons, List.length_nil, List.reverse_cons, List.reverse_nil, List.nil_append, List.cons_append,
    Nat.reduceAdd, hnum, hred, List.isEmpty_nil, Bool.not_true, Bool.false_eq_true, if_false, if_true, Nat.reduceEqDiff]
  norm_num [mfVec, sfArrayWith, npArray, npArray.rows, Arr.reshapeRows, Flt.clip]

end Verif.Coerce
