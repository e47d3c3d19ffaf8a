import Verif.Props.Coerce
/-
C63: which value each scalar, text and list coercion stores.

Specification: truth value of a number or text, truncation toward zero, words of a text (runs of characters that are
neither white space nor commas), pointwise conversion in the order given.
-/
namespace Verif.Coerce

variable {P : Prims}

/-! ### Specification -/

/-- A separator of numbers in a text value. -/
def Sep (c : Char) : Prop := c = ',' ∨ c.isWhitespace = true

/-- `Words s ws`: `ws` are the words of `s`, in order. -/
inductive Words : List Char → List (List Char) → Prop
  | none {s : List Char} : (∀ c ∈ s, Sep c) → Words s []
  | word {gap w rest : List Char} {ws : List (List Char)} : (∀ c ∈ gap, Sep c) → w ≠ [] → (∀ c ∈ w, ¬ Sep c) →
      (∀ c ∈ rest.head?, Sep c) → Words rest ws → Words (gap ++ w ++ rest) (w :: ws)

/-- `n` is `q` truncated toward zero. -/
def Truncated (q : Rat) (n : Int) : Prop := (0 ≤ q → (n : Rat) ≤ q ∧ q < n + 1) ∧ (q ≤ 0 → q ≤ n ∧ (n : Rat) - 1 < q)

/-! ### Words -/

theorem go_gap (gap s : List Char) (h : ∀ c ∈ gap, Sep c) : splitWords.go (gap ++ s) [] = splitWords.go s [] := by
  induction gap with
  | nil => rfl
  | cons c gap ih =>
    have hc : (c == ',' || c.isWhitespace) = true := by
      rcases h c (by simp) with rfl | h <;> simp_all
    rw [List.cons_append, splitWords.go, hc]
    simpa using ih (fun d hd => h d (by simp [hd]))

theorem go_word (w s cur : List Char) (h : ∀ c ∈ w, ¬ Sep c) : splitWords.go (w ++ s) cur = splitWords.go s (w.reverse ++ cur) := by
  induction w generalizing cur with
  | nil => rfl
  | cons c w ih =>
    have hc : (c == ',' || c.isWhitespace) = false := by
      have := h c (by simp)
      simp only [Sep, not_or] at this
      simp [this.1, this.2]
    rw [List.cons_append, splitWords.go, hc]
    simpa using ih (c :: cur) (fun d hd => h d (by simp [hd]))

theorem go_end (rest cur : List Char) (hcur : cur ≠ []) (h : ∀ c ∈ rest.head?, Sep c) :
    splitWords.go rest cur = cur.reverse :: splitWords.go rest [] := by
  cases rest with
  | nil => simp [splitWords.go, hcur]
  | cons c rest =>
    have hc : (c == ',' || c.isWhitespace) = true := by
      rcases h c (by simp) with rfl | h <;> simp_all
    rw [splitWords.go, splitWords.go, hc]
    simp [hcur]

theorem Words.det {s : List Char} {ws : List (List Char)} (h : Words s ws) : splitWords s = ws := by
  unfold splitWords
  induction h with
  | none h =>
    have := go_gap _ [] h
    simpa [splitWords.go] using this
  | @word gap w rest ws hg hw hn hr _ ih =>
    rw [List.append_assoc, go_gap _ _ hg, go_word _ _ _ hn, go_end _ _ (by simpa using hw) hr, ih]
    simp

theorem words_exist (n : Nat) : ∀ s : List Char, s.length ≤ n → ∃ ws, Words s ws := by
  classical
  induction n with
  | zero =>
    intro s h
    have : s = [] := by simpa using h
    subst this
    exact ⟨[], .none (by simp)⟩
  | succ n ih =>
    intro s h
    have h1 := List.takeWhile_append_dropWhile (p := fun c => decide (Sep c)) (l := s)
    have hgap : ∀ c ∈ s.takeWhile (fun c => decide (Sep c)), Sep c := by
      intro c hc
      simpa using List.all_eq_true.1 (List.all_takeWhile (p := fun c => decide (Sep c)) (l := s)) c hc
    cases hd : s.dropWhile (fun c => decide (Sep c)) with
    | nil => exact ⟨[], .none (by rw [hd] at h1; rw [← h1]; simpa using hgap)⟩
    | cons c t =>
      have hc : ¬ Sep c := by
        have := List.head_dropWhile_not (p := fun c => decide (Sep c)) (l := s) (by simp [hd])
        simpa [hd] using this
      have h2 := List.takeWhile_append_dropWhile (p := fun c => !decide (Sep c)) (l := c :: t)
      have hw : ∀ d ∈ (c :: t).takeWhile (fun c => !decide (Sep c)), ¬ Sep d := by
        intro d hd
        simpa using List.all_eq_true.1 (List.all_takeWhile (p := fun c => !decide (Sep c)) (l := c :: t)) d hd
      have hl : ((c :: t).dropWhile (fun c => !decide (Sep c))).length ≤ n := by
        have e1 : (c :: t).dropWhile (fun c => !decide (Sep c)) = t.dropWhile (fun c => !decide (Sep c)) := by
          rw [List.dropWhile_cons]; simp [hc]
        have e2 := (List.dropWhile_suffix (p := fun c => !decide (Sep c)) (l := t)).length_le
        have e3 := (List.dropWhile_suffix (p := fun c => decide (Sep c)) (l := s)).length_le
        rw [hd] at e3
        simp only [List.length_cons] at e3
        rw [e1]; omega
      obtain ⟨ws, hws⟩ := ih _ hl
      refine ⟨(c :: t).takeWhile (fun c => !decide (Sep c)) :: ws, ?_⟩
      have e : s = s.takeWhile (fun c => decide (Sep c)) ++ (c :: t).takeWhile (fun c => !decide (Sep c)) ++
          (c :: t).dropWhile (fun c => !decide (Sep c)) := by rw [List.append_assoc, h2, ← hd, h1]
      have hwd : Words (s.takeWhile (fun c => decide (Sep c)) ++ (c :: t).takeWhile (fun c => !decide (Sep c)) ++
          (c :: t).dropWhile (fun c => !decide (Sep c))) ((c :: t).takeWhile (fun c => !decide (Sep c)) :: ws) := by
        refine .word hgap ?_ hw ?_ hws
        · rw [List.takeWhile_cons]; simp [hc]
        · intro d hd
          cases hr : (c :: t).dropWhile (fun c => !decide (Sep c)) with
          | nil => rw [hr] at hd; simp at hd
          | cons x xs =>
            have := List.head_dropWhile_not (p := fun c => !decide (Sep c)) (l := c :: t) (by simp [hr])
            rw [hr] at hd
            simp at hd
            subst hd
            simpa [hr] using this
      rw [← e] at hwd
      exact hwd

/-- **C63** A text given for a list of numbers is cut into its words: every text has exactly one decomposition into
words, and that is the one used. -/
theorem C63_words (s : List Char) (ws : List (List Char)) : splitWords s = ws ↔ Words s ws := by
  constructor
  · intro h
    obtain ⟨ws', h'⟩ := words_exist _ s le_rfl
    rw [← h, h'.det]; exact h'
  · exact Words.det

/-! ### Lists of numbers -/

/-- The 32-bit range of a list of integers: signed for MFInt32, unsigned for MFUInt32 and SFImage. -/
def Fits (t : DType) (n : Int) : Prop :=
  match t with
  | .i => -2 ^ 31 ≤ n ∧ n < 2 ^ 31
  | .u => 0 ≤ n ∧ n < 2 ^ 32
  | _ => True

theorem inRange_iff (t : DType) (n : Int) : inRange t n = true ↔ Fits t n := by
  cases t <;> simp [inRange, Fits]

/-- **C63** A list or tuple of integers becomes the array of exactly these integers, in order, provided each fits the
element type; otherwise the assignment fails with OverflowError. -/
theorem C63_int_list (t : DType) (l : List Int) :
    ((∀ n ∈ l, Fits t n) → ∀ v, v = Py.list (l.map .int) ∨ v = Py.tuple (l.map .int) →
      mfInt P t v = .ok (.arr ⟨t, [l.length], l.map (fun n : Int => Flt.num (n : Rat))⟩)) ∧
    (¬ (∀ n ∈ l, Fits t n) → ∀ v, v = Py.list (l.map .int) ∨ v = Py.tuple (l.map .int) → mfInt P t v = .error .overflow) := by
  have hm : mapE (pyInt P) (l.map Py.int) = .ok l := by
    have := mapE_map (f := pyInt P) (g := fun x => match x with | .int n => n | _ => 0) (l := l.map Py.int) (by
      intro x hx
      obtain ⟨n, _, rfl⟩ := List.mem_map.1 hx
      rfl)
    simpa [Function.comp_def] using this
  have ha : l.all (inRange t) = true ↔ ∀ n ∈ l, Fits t n := by simp [inRange_iff]
  constructor
  · rintro h v (rfl | rfl) <;> simp [mfInt, mfIntBody, hm, intArray, ha.2 h]
  · rintro h v (rfl | rfl) <;>
    · have : ¬ l.all (inRange t) = true := fun h' => h (ha.1 h')
      simp only [mfInt, mfIntBody, hm, intArray, if_neg this]

/-- **C63** A text given for a list of integers: the integers its words denote, in order. -/
theorem C63_int_text (t : DType) (s : List Char) (ws : List (List Char)) (l : List Int) (hs : Words s ws)
    (h : List.Forall₂ (fun w n => P.intOf w = some n) ws l) (hf : ∀ n ∈ l, Fits t n) :
    mfInt P t (.str s) = .ok (.arr ⟨t, [l.length], l.map (fun n : Int => Flt.num (n : Rat))⟩) := by
  have hm : mapE (fun w => pyInt P (.str w)) ws = .ok l := by
    rw [mapE_ok_iff]
    exact h.imp (fun w n e => by simp [pyInt, e])
  have := (C63_int_list (P := P) t l).1 hf _ (.inl rfl)
  simp only [mfInt, hs.det, hm]
  simpa [mfInt] using this

/-- **C63** A text with a word that is no integer is refused with ValueError. -/
theorem C63_int_text_rejected (t : DType) (s : List Char) (ws : List (List Char)) (hs : Words s ws) (w : List Char) (hw : w ∈ ws)
    (h : P.intOf w = none) : mfInt P t (.str s) = .error .value := by
  have hm : mapE (fun w => pyInt P (.str w)) ws = .error .value := by
    clear hs
    induction ws with
    | nil => cases hw
    | cons x ws ih =>
      rcases List.mem_cons.1 hw with rfl | hw
      · simp [mapE, pyInt, h]
      · cases hx : P.intOf x with
        | none => simp [mapE, pyInt, hx]
        | some n =>
          have hx' : pyInt P (.str x) = .ok n := by simp [pyInt, hx]
          simp only [mapE, hx', ih hw]
  simp only [mfInt, hs.det, hm]

/-- **C63** A nested list of floats becomes the array of all its numbers from left to right, each converted to the
element type. -/
theorem C63_float_list (t : DType) (l : List Py) (xs : List Flt) (h : List.Forall₂ (fun v x => pyFloat P v = .ok x) (leaves (.list l)) xs) :
    mfFloat P t (.list l) = .ok (.arr ⟨t, [xs.length], xs.map (P.conv t)⟩) ∧
    mfFloat P t (.tuple l) = .ok (.arr ⟨t, [xs.length], xs.map (P.conv t)⟩) := by
  have hm : mapE (pyFloat P) (collapse l) = .ok xs := by rw [mapE_ok_iff, C21_leaves]; exact h
  simp [mfFloat, hm, fltArray]

/-- **C63** A text given for a list of floats: the numbers its words denote, in order. -/
theorem C63_float_text (t : DType) (s : List Char) (ws : List (List Char)) (xs : List Flt) (hs : Words s ws)
    (h : List.Forall₂ (fun w x => P.floatOf w = some x) ws xs) :
    mfFloat P t (.str s) = .ok (.arr ⟨t, [xs.length], xs.map (P.conv t)⟩) := by
  have hm : mapE (fun w => pyFloat P (.str w)) ws = .ok xs := by
    rw [mapE_ok_iff]
    exact h.imp (fun w n e => by simp [pyFloat, e])
  simp only [mfFloat, hs.det, hm]
  rw [C21_flat_unchanged _ (by intro x hx; obtain ⟨y, _, rfl⟩ := List.mem_map.1 hx; rfl), mapE_float]
  simp [fltArray]

/-- **C63** A text given for a vector field: the numbers its words denote, in order, if there are exactly as many as
the vector has components; otherwise ValueError. -/
theorem C63_vec_text (t : DType) (n : Nat) (s : List Char) (ws : List (List Char)) (xs : List Flt) (hs : Words s ws)
    (h : List.Forall₂ (fun w x => P.floatOf w = some x) ws xs) :
    sfVec P t [n] (.str s) = if xs.length = n then .ok (.arr ⟨t, [n], xs.map (P.conv t)⟩) else .error .value := by
  have hm : mapE (fun w => pyFloat P (.str w)) ws = .ok xs := by
    rw [mapE_ok_iff]
    exact h.imp (fun w n e => by simp [pyFloat, e])
  simp only [sfVec, hs.det, hm]
  rw [C21_flat_unchanged _ (by intro x hx; obtain ⟨y, _, rfl⟩ := List.mem_map.1 hx; rfl), mapE_float]
  by_cases hl : xs.length = n
  · simp [fltArray, Arr.reshape, checkShape, hl]
  · simp [fltArray, Arr.reshape, hl]

/-! ### Scalars -/

/-- **C63** SFInt32 keeps integers, maps truth values to 0/1, and truncates floats toward zero. -/
theorem C63_int32 (n : Int) (b : Bool) (q : Rat) :
    sfInt32 P (.int n) = .ok (.int n) ∧ sfInt32 P (.bool b) = .ok (.int (if b then 1 else 0)) ∧
    (∃ m, sfInt32 P (.float (.num q)) = .ok (.int m) ∧ Truncated q m) := by
  refine ⟨rfl, rfl, trunc q, rfl, ?_⟩
  unfold trunc Truncated
  by_cases h : 0 ≤ q
  · rw [if_pos h]
    refine ⟨fun _ => ⟨Int.floor_le q, Int.lt_floor_add_one q⟩, fun h' => ?_⟩
    have : q = 0 := le_antisymm h' h
    subst this; simp
  · rw [if_neg h]
    refine ⟨fun h' => absurd h' h, fun _ => ?_⟩
    have h1 := Int.floor_le (-q)
    have h2 := Int.lt_floor_add_one (-q)
    push_cast
    constructor <;> linarith

/-- **C63** Truncation toward zero is unique, so the theorem above fixes the stored integer. -/
theorem C63_truncated_unique (q : Rat) (m n : Int) (h : Truncated q m) (h' : Truncated q n) : m = n := by
  rcases le_total 0 q with hq | hq
  · obtain ⟨a, b⟩ := h.1 hq
    obtain ⟨c, d⟩ := h'.1 hq
    have h1 : (m : Rat) < n + 1 := lt_of_le_of_lt a d
    have h2 : (n : Rat) < m + 1 := lt_of_le_of_lt c b
    have h1 : m < n + 1 := by exact_mod_cast h1
    have h2 : n < m + 1 := by exact_mod_cast h2
    omega
  · obtain ⟨a, b⟩ := h.2 hq
    obtain ⟨c, d⟩ := h'.2 hq
    have h1 : (m : Rat) - 1 < n := lt_of_lt_of_le b c
    have h2 : (n : Rat) - 1 < m := lt_of_lt_of_le d a
    have h1 : m - 1 < n := by exact_mod_cast h1
    have h2 : n - 1 < m := by exact_mod_cast h2
    omega

/-- **C63** SFInt32 and SFFloat refuse what has no value of that kind: NaN and the infinities as integers, and texts that are not numbers. -/
theorem C63_scalar_refused (s : List Char) (hi : P.intOf s = none) (hf : P.floatOf s = none) :
    sfInt32 P (.float .nan) = .error .value ∧ sfInt32 P (.float .pinf) = .error .overflow ∧ sfInt32 P (.float .ninf) = .error .overflow ∧
    sfInt32 P (.str s) = .error .value ∧ sfFloat P (.str s) = .error .value := by
  refine ⟨rfl, rfl, rfl, ?_, ?_⟩
  · simp [sfInt32, pyInt, hi]
  · simp [sfFloat, pyFloat, hf]

/-! ### Arrays -/

/-- The elements of an array that a field of floats with element type `t` stores: as they are if the types agree, else each converted. -/
def storedElems (P : Prims) (t : DType) (a : Arr) : List Flt := if a.dtype = t then a.data else a.data.map (P.conv t)

theorem ensure_float {t : DType} (ht : t = .f ∨ t = .d) (a : Arr) : a.ensure P t = ⟨t, a.shape, storedElems P t a⟩ := by
  unfold Arr.ensure storedElems
  by_cases h : a.dtype = t
  · simp [h]; subst h; rfl
  · rcases ht with rfl | rfl <;> simp [h, Arr.astype]

/-- **C63** An array given to a field of floats keeps its elements, in order, converted to the field's element type: a flat list loses the shape; a vector takes an array with the right number of
elements, whatever its shape, and no other; a list of rows takes the arrays that divide into rows; and SFArray keeps the shape. -/
theorem C63_float_array {t : DType} (ht : t = .f ∨ t = .d) (a : Arr) (dim : List Nat) :
    mfFloat P t (.arr a) = .ok (.arr ⟨t, [a.data.length], storedElems P t a⟩) ∧
    sfVec P t dim (.arr a) = (if a.data.length = dim.prod then .ok (.arr ⟨t, dim, storedElems P t a⟩) else .error .value) ∧
    mfVec P t dim (.arr a) = (if dim.prod ≠ 0 ∧ a.data.length % dim.prod = 0 then .ok (.arr ⟨t, (a.data.length / dim.prod) :: dim, storedElems P t a⟩) else .error .value) ∧
    sfArray P t (.arr a) = .ok (.arr ⟨t, a.shape, storedElems P t a⟩) := by
  have hl : (storedElems P t a).length = a.data.length := by unfold storedElems; split <;> simp
  refine ⟨?_, ?_, ?_, ?_⟩
  · simp [mfFloat, ensure_float ht, hl]
  · simp only [sfVec, ensure_float ht, Arr.reshape, hl]
    by_cases h : a.data.length = dim.prod
    · simp [h, checkShape]
    · simp [h]
  · simp only [mfVec, sfArrayWith, ensure_float ht, Arr.reshapeRows, hl]
    by_cases h : dim.prod ≠ 0 ∧ a.data.length % dim.prod = 0
    · simp only [if_pos h]
    · simp only [if_neg h]
  · simp only [sfArray, sfArrayWith, ensure_float ht]

/-- **C63** An array given to a field of 32-bit integers loses its shape; if the element types differ, each element becomes the integer of that range that agrees with the C conversion modulo 2³². -/
theorem C63_int_array (a : Arr) :
    ∃ d, mfInt P .i (.arr a) = .ok (.arr ⟨.i, [a.data.length], d⟩) ∧ (a.dtype = .i → d = a.data) ∧
      (a.dtype ≠ .i → List.Forall₂ (fun x y => ∃ k : Int, y = .num k ∧ -2147483648 ≤ k ∧ k < 2147483648 ∧ (4294967296 : Int) ∣ k - P.castI .i x) a.data d) := by
  by_cases h : a.dtype = .i
  · refine ⟨a.data, ?_, fun _ => rfl, fun h' => absurd h h'⟩
    simp [mfInt, mfIntBody, Arr.ensure, h]
  · refine ⟨a.data.map (fun x => .num (wrap .i (P.castI .i x))), ?_, fun h' => absurd h' h, fun _ => ?_⟩
    · simp [mfInt, mfIntBody, Arr.ensure, h, Arr.astype]
    · rw [List.forall₂_map_right_iff, List.forall₂_same]
      intro x _
      refine ⟨wrap .i (P.castI .i x), rfl, ?_, ?_, ?_⟩ <;> simp only [wrap]
      · have := Int.emod_nonneg (P.castI .i x + 2147483648) (by decide : (4294967296 : Int) ≠ 0); omega
      · have := Int.emod_lt_of_pos (P.castI .i x + 2147483648) (by decide : (0 : Int) < 4294967296); omega
      · have := Int.emod_add_mul_ediv (P.castI .i x + 2147483648) 4294967296
        exact ⟨-((P.castI .i x + 2147483648) / 4294967296), by omega⟩

/-- A 2×2 array of doubles given to the fields. -/
example : sfArray P .d (.arr ⟨.d, [2, 2], [.num 1, .num 2, .num 3, .num 4]⟩) = .ok (.arr ⟨.d, [2, 2], [.num 1, .num 2, .num 3, .num 4]⟩) ∧
    sfVec P .d [4] (.arr ⟨.d, [2, 2], [.num 1, .num 2, .num 3, .num 4]⟩) = .ok (.arr ⟨.d, [4], [.num 1, .num 2, .num 3, .num 4]⟩) :=
  ⟨(C63_float_array (P := P) (.inr rfl) _ []).2.2.2, (C63_float_array (P := P) (.inr rfl) _ [4]).2.1⟩

/-- **C63** SFFloat keeps floats, integers and truth values. -/
theorem C63_float (x : Flt) (n : Int) (b : Bool) :
    sfFloat P (.float x) = .ok (.float x) ∧ sfFloat P (.int n) = .ok (.float (.num n)) ∧
    sfFloat P (.bool b) = .ok (.float (.num (if b then 1 else 0))) := ⟨rfl, rfl, rfl⟩

/-- **C63** SFBool of a number is 1 exactly when it is not zero. -/
theorem C63_bool_number (n : Int) (b : Bool) (q : Rat) :
    sfBool P (.int n) = .ok (.int (if n = 0 then 0 else 1)) ∧ sfBool P (.bool b) = .ok (.int (if b then 1 else 0)) ∧
    sfBool P (.float (.num q)) = .ok (.int (if q = 0 then 0 else 1)) := by
  refine ⟨?_, ?_, ?_⟩
  · by_cases h : n = 0
    · subst h; rfl
    · have : (n != 0) = true := by simpa using h
      simp only [sfBool, truth, this, if_neg h]
  · cases b <;> rfl
  · by_cases h : q = 0
    · subst h; simp [sfBool, truth]
    · have : (Flt.num q != .num 0) = true := by simpa using h
      simp only [sfBool, truth, this, if_neg h]

/-- **C63** SFBool of a text: an integer text gives that integer's truth, `true`/`false` in any letter case give 1/0,
any other text is 1 exactly when it is not empty. -/
theorem C63_bool_text (s : List Char) :
    (∀ n, P.intOf s = some n → sfBool P (.str s) = .ok (.int (if n = 0 then 0 else 1))) ∧
    (P.intOf s = none → s.map Char.toLower = "true".toList → sfBool P (.str s) = .ok (.int 1)) ∧
    (P.intOf s = none → s.map Char.toLower = "false".toList → sfBool P (.str s) = .ok (.int 0)) ∧
    (P.intOf s = none → s.map Char.toLower ≠ "true".toList → s.map Char.toLower ≠ "false".toList →
      sfBool P (.str s) = .ok (.int (if s = [] then 0 else 1))) := by
  refine ⟨?_, ?_, ?_, ?_⟩
  · intro n h
    by_cases hn : n = 0
    · subst hn; simp [sfBool, truth, h]
    · have : (n != 0) = true := by simpa using hn
      simp only [sfBool, h, truth, this, if_neg hn]
  · intro h e
    simp only [sfBool, h, lower, e, if_true, truth]
  · intro h e
    have : ("false".toList : List Char) ≠ "true".toList := by decide
    simp only [sfBool, h, lower, e, if_true, this, if_false, truth]
  · intro h e e'
    simp only [sfBool, h, lower, e, e', if_false, truth]
    by_cases hs : s = []
    · simp [hs]
    · have : (!s.isEmpty) = true := by simpa using hs
      simp only [this, if_neg hs]

/-! ### Strings -/

/-- **C63** SFString keeps a text, decodes UTF-8 bytes, and joins a list or tuple of texts. -/
theorem C63_string (s : List Char) (b : List Nat) (l : List (List Char)) :
    sfString P (.str s) = .ok (.str s) ∧
    (∀ t, P.decode b = some t → sfString P (.bytes b) = .ok (.str t)) ∧
    sfString P (.list (l.map .str)) = .ok (.str l.flatten) ∧ sfString P (.tuple (l.map .str)) = .ok (.str l.flatten) := by
  have hj : ∀ l : List (List Char), joinStrs (l.map .str) = .ok l.flatten := by
    intro l
    induction l with
    | nil => rfl
    | cons a l ih => simp [joinStrs, ih]
  refine ⟨rfl, fun t h => by simp [sfString, h], ?_, ?_⟩ <;>
  · match l with
    | [] => rfl
    | [a] => simp [sfString]
    | a :: b :: l =>
      have := hj (a :: b :: l)
      simp only [List.map_cons] at this
      simp only [sfString, List.map_cons, this]

/-- **C63** MFString keeps a list or tuple of texts in order, and makes a single text a list of one. -/
theorem C63_mstring (s : List Char) (l : List (List Char)) :
    mfString P (.list (l.map .str)) = .ok (.list (l.map .str)) ∧ mfString P (.tuple (l.map .str)) = .ok (.list (l.map .str)) ∧
    mfString P (.str s) = .ok (.list [.str s]) := by
  have h : mapE (sfString P) (l.map Py.str) = .ok (l.map Py.str) := by
    have := mapE_map (f := sfString P) (g := id) (l := l.map Py.str) (by
      intro x hx
      obtain ⟨y, _, rfl⟩ := List.mem_map.1 hx
      rfl)
    simpa using this
  refine ⟨?_, ?_, rfl⟩ <;> simp [mfString, iter, h]

/-! ### Lists of colour names -/

theorem loop_names (l : List (List Char)) (cs : List Py) (acc : List Py)
    (h : List.Forall₂ (fun s c => sfColor P (.str s) = .ok c) l cs) :
    mfColorLoop P (l.map .str) acc [] = .ok (acc.reverse ++ cs) := by
  induction h generalizing acc with
  | nil => simp [mfColorLoop]
  | cons h _ ih => simp [mfColorLoop, h, ih]

/-- **C63** A list of colour names, none of them numbers, becomes the list of these colours in order. -/
theorem C63_colour_names (l : List (List Char)) (cs : List (Flt × Flt × Flt)) (hl : l ≠ []) (hnum : ∀ s ∈ l, P.floatOf s = none)
    (h : List.Forall₂ (fun s c => sfColor P (.str s) = .ok (.arr ⟨.f, [3], [c.1, c.2.1, c.2.2]⟩)) l cs) :
    mfColor P (.list (l.map .str)) = .ok (.arr ⟨.f, [cs.length, 3], cs.flatMap (fun c => [c.1.clip, c.2.1.clip, c.2.2.clip])⟩) := by
  have hrow : ∀ l : List (List Char), l ≠ [] → (∀ s ∈ l, P.floatOf s = none) → npArray.rows P .f (l.map .str) = .error .value := by
    intro l hl hn
    match l with
    | [] => exact absurd rfl hl
    | [s] => simp [npArray.rows, npArray, hn s (by simp)]
    | s :: t :: l => simp [npArray.rows, npArray, hn s (by simp)]
  have hflt : mapE (pyFloat P) (l.map Py.str) = .error .value := by
    cases l with
    | nil => exact absurd rfl hl
    | cons s l => simp [mapE, pyFloat, hnum s (by simp)]
  have hfail : mfVec P .f [3] (.list (l.map .str)) = .error .value := by
    simp [mfVec, sfArrayWith, npArray, hrow l hl hnum, hflt]
  have hloop := loop_names l (cs.map (fun c => Py.arr ⟨.f, [3], [c.1, c.2.1, c.2.2]⟩)) []
    (by rw [List.forall₂_map_right_iff]; exact h)
  have hne : cs ≠ [] := by
    rintro rfl
    cases h
    exact hl rfl
  have hrows : ∀ cs : List (Flt × Flt × Flt), cs ≠ [] →
      npArray.rows P .f (cs.map (fun c => Py.arr ⟨.f, [3], [c.1, c.2.1, c.2.2]⟩)) =
        .ok ([cs.length, 3], cs.flatMap (fun c => [c.1, c.2.1, c.2.2])) := by
    intro cs hcs
    induction cs with
    | nil => exact absurd rfl hcs
    | cons c cs ih =>
      cases cs with
      | nil => simp [npArray.rows, npArray]
      | cons d cs =>
        have := ih (by simp)
        simp only [List.map_cons] at this
        simp only [List.map_cons, npArray.rows, this]
        simp [npArray]
  have hlen : ∀ cs : List (Flt × Flt × Flt), (cs.flatMap (fun c => [c.1, c.2.1, c.2.2])).length = cs.length * 3 := by
    intro cs
    induction cs with
    | nil => rfl
    | cons c cs ih => simp only [List.flatMap_cons, List.length_append, ih, List.length_cons, List.length_nil]; omega
  have hok : mfVec P .f [3] (.list (cs.map (fun c => Py.arr ⟨.f, [3], [c.1, c.2.1, c.2.2]⟩)))
      = .ok (.arr ⟨.f, [cs.length, 3], cs.flatMap (fun c => [c.1, c.2.1, c.2.2])⟩) := by
    simp only [mfVec, sfArrayWith, npArray, hrows cs hne, Arr.reshapeRows, hlen, List.prod_cons, List.prod_nil, Nat.mul_one,
      Nat.mul_mod_left, ne_eq, OfNat.ofNat_ne_zero, not_false_eq_true, and_self, if_true,
      Nat.mul_div_cancel _ (show 0 < 3 by decide)]
  simp only [mfColor, hfail, clipArr, iter, hloop, List.reverse_nil, List.nil_append, hok, List.map_flatMap, List.map_cons,
    List.map_nil]

/-! ### Single numbers, and values that are no numbers -/

/-- **C63** A single number given for a list is a list of one element. -/
theorem C63_number_as_list (t : DType) (n : Int) (x : Flt) :
    (Fits t n → mfInt P t (.int n) = .ok (.arr ⟨t, [1], [.num n]⟩)) ∧ (¬ Fits t n → mfInt P t (.int n) = .error .overflow) ∧
    mfFloat P t (.int n) = .ok (.arr ⟨t, [1], [P.conv t (.num n)]⟩) ∧ mfFloat P t (.float x) = .ok (.arr ⟨t, [1], [P.conv t x]⟩) ∧
    sfArray P t (.int n) = .ok (.arr ⟨t, [1], [P.conv t (.num n)]⟩) ∧ sfArray P t (.float x) = .ok (.arr ⟨t, [1], [P.conv t x]⟩) ∧
    mfVec P t [1] (.float x) = .ok (.arr ⟨t, [1, 1], [P.conv t x]⟩) ∧ ∀ m, m ≠ 1 → mfVec P t [m] (.float x) = .error .value := by
  refine ⟨fun h => ?_, fun h => ?_, ?_, ?_, ?_, ?_, ?_, fun m hm => ?_⟩
  · rw [← inRange_iff] at h; simp [mfInt, mfIntBody, pyInt, intArray, h]
  · rw [← inRange_iff] at h; simp [mfInt, mfIntBody, pyInt, intArray, h]
  · simp [mfFloat, pyFloat, fltArray]
  · simp [mfFloat, pyFloat, fltArray]
  · simp [sfArray, sfArrayWith, npArray, npArray.rows]
  · simp [sfArray, sfArrayWith, npArray, npArray.rows]
  · simp [mfVec, sfArrayWith, npArray, npArray.rows, Arr.reshapeRows]
  · simp only [mfVec, sfArrayWith, npArray, npArray.rows, Arr.reshapeRows, List.length_singleton, List.prod_cons, List.prod_nil, mul_one]
    rw [if_neg]
    rintro ⟨h0, h1⟩
    rcases Nat.lt_or_ge 1 m with h | h
    · rw [Nat.mod_eq_of_lt h] at h1; cases h1
    · omega

/-- **C63** None and other values that count as false are the empty list; values that count as true and are neither numbers, texts, lists nor arrays are rejected. -/
theorem C63_other_values (t : DType) (id : Nat) (b : List Nat) (hb : b ≠ []) :
    (∀ v ∈ [Py.none, .obj id false, .bytes []], mfInt P t v = .ok (.arr ⟨t, [0], []⟩) ∧ mfFloat P t v = .ok (.arr ⟨t, [0], []⟩)) ∧
    ∀ v ∈ [Py.obj id true, .bytes b], mfInt P t v = .error .value ∧ mfFloat P t v = .error .value := by
  have : b.isEmpty = false := by cases b <;> simp_all
  constructor <;> intro v hv <;> simp only [List.mem_cons, List.not_mem_nil, or_false] at hv
  · rcases hv with rfl | rfl | rfl <;> exact ⟨rfl, rfl⟩
  · rcases hv with rfl | rfl <;> simp [mfInt, mfIntBody, mfFloat, truth, this]

/-! ### Non-vacuity -/

example : Words " 1,, 2 ".toList ["1".toList, "2".toList] :=
  .word (gap := [' ']) (w := ['1']) (rest := [',', ',', ' ', '2', ' ']) (by simp [Sep]) (by simp)
    (by simp [Sep]) (by simp [Sep])
    (.word (gap := [',', ',', ' ']) (w := ['2']) (rest := [' ']) (by simp [Sep]) (by simp) (by simp [Sep])
      (by simp [Sep]) (.none (by simp [Sep])))
example : Truncated (-3 / 2) (-1) := by constructor <;> intro h <;> norm_num at *
example : Fits .i 2147483647 ∧ ¬ Fits .i 2147483648 ∧ ¬ Fits .u (-1) := by simp [Fits]
example : List.Forall₂ (fun w n => demoPrims.intOf w = some n) ["1".toList, "1".toList] [1, 1] := by
  simp [demoPrims]
example : demoPrims.floatOf "red".toList = none := by simp [demoPrims]

end Verif.Coerce
