import Verif.Props.Library
import Verif.Props.Coerce
import Verif.Props.Scopes
/-!
C82: the reader and the writer of files (`Model/SceneRead`, `Model/Lineariser`, on the built-in types of `Model/Library`) store what the
coercions of the field classes (`Model/Coerce`, `Model/NodeCoerce`) make of the value given.
-/
namespace Verif.Agree
open Verif.Coerce Verif.Builtin Verif.Library Verif.TextOut
open Verif.Lin (Val Kind FieldType In32 toRows nodeStr)

/-- A node as a Python object: NULL is object 0 and false; other nodes are true. -/
def pyNode : Option Nat → Py
  | none => .obj 0 false
  | some i => .obj (i + 1) true

/-- The Python value that the reader hands to a field (parseprocessor.py:346-441): numbers, texts, nodes, and lists of them. -/
def given : Val Flt → Py
  | .bool b => .bool b
  | .int n => .int n
  | .num x => .float x
  | .str s => .str s
  | .ints l => .list (l.map .int)
  | .nums l => .list (l.map .float)
  | .rows l => .list (l.map (fun r => .list (r.map .float)))
  | .strs l => .list (l.map .str)
  | .ref o => pyNode o
  | .refs l => .list (l.map pyNode)

/-- Element types and shapes of the arrays that a field class stores. -/
def arrayType : FT → DType
  | .mint t | .mfloat t | .vec t _ | .mvec t _ => t
  | _ => .f
def width : FT → Nat
  | .mvec _ [n] => n
  | _ => 3

/-- The Python value that a stored value stands for: SFBool is 1 or 0, numbers are arrays, of vectors with one row for each. -/
def stored (ft : FT) : Val Flt → Py
  | .bool b => .int (if b then 1 else 0)
  | .int n => .int n
  | .num x => .float x
  | .str s => .str s
  | .ints l => .arr ⟨arrayType ft, [l.length], l.map (fun (n : Int) => Flt.num (n : Rat))⟩
  | .nums l => .arr ⟨arrayType ft, [l.length], l⟩
  | .rows l => .arr ⟨arrayType ft, [l.length, width ft], l.flatten⟩
  | .strs l => .list (l.map .str)
  | .ref o => pyNode o
  | .refs l => .list (l.map pyNode)

/-- Values that a file can give to a field of this kind; `rows` occur as defaults only. -/
def Gives : Kind → Val Flt → Prop
  | .sfBool, .bool _ => True
  | .sfInt32, .int _ => True
  | .sfFloat, .num _ => True
  | .sfString, .str _ => True
  | .sfVec _, .nums _ => True
  | .mfInt _, .ints _ => True
  | .mfFloat, .nums _ => True
  | .mfVec _, .nums _ => True
  | .mfString, .strs _ => True
  | .sfNode, .ref _ => True
  | .mfNode, .ref _ => True
  | .sfNode, .refs _ => True
  | .mfNode, .refs _ => True
  | _, .refs l => l ≠ []
  | _, _ => False

/-- The number operations `N` of the reader and writer are those of the coercions `P`; numpy makes no number of a node; `str` of nodes is as
simplified in the reader. -/
structure Same (P : Prims) (N : Num Flt) : Prop where
  round : N.round32 = P.conv .f
  clip : N.clip = Flt.clip
  double : ∀ x, P.conv .d x = x
  noNumber : ∀ t o, P.asarray t (pyNode o) = .error .type
  text : ∀ o, P.strOf (pyNode o) = nodeStr o

/-- `f(value)` returns the stored value if there is one, and raises an exception if there is none. -/
def Agrees (ft : FT) (r : Except Err Py) : Option (Val Flt) → Prop
  | some u => r = .ok (stored ft u)
  | none => ∃ e, r = .error e

/-! ### Lists of nodes -/

section
variable {P : Prims} {N : Num Flt}

theorem collapse_nodes (l : List (Option Nat)) : collapse (l.map pyNode) = l.map pyNode := C21_flat_unchanged _ (by
  intro x hx; obtain ⟨o, _, rfl⟩ := List.mem_map.1 hx; cases o <;> rfl)

theorem floats_nodes {l : List (Option Nat)} (h : l ≠ []) : mapE (pyFloat P) (l.map pyNode) = .error .type := by
  match l with
  | none :: l => rfl
  | some i :: l => rfl

theorem ints_nodes {l : List (Option Nat)} (h : l ≠ []) : mapE (pyInt P) (l.map pyNode) = .error .type := by
  match l with
  | none :: l => rfl
  | some i :: l => rfl

theorem npNode (hs : Same P N) (t : DType) (o : Option Nat) : npArray P t (pyNode o) = .error .type := by
  have := hs.noNumber t o
  cases o <;> simp only [pyNode] at this ⊢ <;> rw [npArray] <;> simp [this]

theorem npNodes (hs : Same P N) (t : DType) {l : List (Option Nat)} (h : l ≠ []) : npArray P t (.list (l.map pyNode)) = .error .type := by
  simp only [npArray]
  match l, h with
  | [o], _ => simp [npArray.rows, npNode hs]
  | o :: o' :: l, _ => simp [npArray.rows, npNode hs]

theorem vec_nodes {t : DType} {n : Nat} {l : List (Option Nat)} (h : l ≠ []) : sfVec P t [n] (.list (l.map pyNode)) = .error .type := by
  simp [sfVec, collapse_nodes, floats_nodes h]

theorem mvec_nodes (hs : Same P N) {t : DType} {n : Nat} {l : List (Option Nat)} (h : l ≠ []) : mfVec P t [n] (.list (l.map pyNode)) = .error .type := by
  simp [mfVec, sfArrayWith, npNodes hs t h]

theorem loop_item {x : Py} (h : ∀ s, x ≠ .str s) (l res cur : List Py) : mfColorLoop P (x :: l) res cur =
    if (x :: cur).length = 3 then
      match sfColor P (.list (x :: cur).reverse) with
      | .ok c => mfColorLoop P l (c :: res) []
      | .error e => .error e
    else mfColorLoop P l res (x :: cur) := by
  cases x <;> first | exact absurd rfl (h _) | (simp [mfColorLoop]; split <;> rfl)

/-- the loop over single items: numbers or nodes whose count is not a multiple of 3 -/
theorem loop_left : ∀ (l cur : List Py) (res : List Py), (∀ x ∈ l, ∀ s, x ≠ .str s) → cur.length < 3 → (l.length + cur.length) % 3 ≠ 0 → ∃ e, mfColorLoop P l res cur = .error e
  | [], cur, res, _, h3, h => by
    cases cur with
    | nil => simp at h
    | cons x cur => exact ⟨.value, by simp [mfColorLoop]⟩
  | x :: l, cur, res, hx, h3, h => by
    have hne := hx x (by simp)
    have hrest : ∀ y ∈ l, ∀ s, y ≠ .str s := fun y hy => hx y (by simp [hy])
    rw [loop_item hne]
    split
    · rename_i h4
      simp only [List.length_cons] at h4 h
      cases sfColor P (.list (x :: cur).reverse) with
      | error e => exact ⟨e, rfl⟩
      | ok c => exact loop_left l [] _ hrest (by simp) (by simp; omega)
    · rename_i h4
      simp only [List.length_cons] at h4 h
      exact loop_left l (x :: cur) _ hrest (by simp; omega) (by simp; omega)

theorem sfColor_nodes {l : List (Option Nat)} (h : l ≠ []) : sfColor P (.list (l.map pyNode)) = .error .type := by
  simp [sfColor, vec_nodes h, clipArr]

theorem loop_nodes : ∀ (l cur : List (Option Nat)) (res : List Py), cur.length < 3 → (l ≠ [] ∨ cur ≠ []) → ∃ e, mfColorLoop P (l.map pyNode) res (cur.map pyNode) = .error e
  | [], cur, res, h3, h => by
    match cur, h with
    | x :: cur, _ => exact ⟨.value, by simp [mfColorLoop]⟩
  | o :: l, cur, res, h3, h => by
    rw [List.map_cons, loop_item (by cases o <;> simp [pyNode])]
    split
    · have : (pyNode o :: cur.map pyNode).reverse = ((o :: cur).reverse).map pyNode := by simp
      rw [this, sfColor_nodes (by simp)]
      exact ⟨_, rfl⟩
    · rename_i h4
      simp only [List.length_cons, List.length_map] at h4
      have := loop_nodes l (o :: cur) res (by simp; omega) (.inr (by simp))
      simpa using this

theorem mcolor_nodes (hs : Same P N) {l : List (Option Nat)} (h : l ≠ []) : ∃ e, mfColor P (.list (l.map pyNode)) = .error e := by
  simp only [mfColor, mvec_nodes hs h, clipArr, iter]
  obtain ⟨e, he⟩ := loop_nodes (P := P) l [] [] (by simp) (.inl h)
  simp only [List.map_nil] at he
  rw [he]
  exact ⟨e, rfl⟩

/-! ### Numbers -/

theorem floats_flat (l : List Flt) : mapE (pyFloat P) (collapse (l.map .float)) = .ok l := by
  rw [C21_flat_unchanged _ (by intro x hx; obtain ⟨y, _, rfl⟩ := List.mem_map.1 hx; rfl), mapE_float]

theorem mvec_reject {t : DType} {n : Nat} {l : List Flt} (h : ¬ (n ≠ 0 ∧ l.length % n = 0)) : mfVec P t [n] (.list (l.map .float)) = .error .value := by
  simp only [mfVec, sfArrayWith]
  rw [npRow]
  simp only [Arr.reshapeRows, List.prod_cons, List.prod_nil, mul_one, List.length_map]
  rw [if_neg h]

theorem mcolor_reject {l : List Flt} (h : l.length % 3 ≠ 0) : ∃ e, mfColor P (.list (l.map .float)) = .error e := by
  simp only [mfColor, mvec_reject (P := P) (t := .f) (n := 3) (l := l) (by simp [h]), clipArr, iter]
  obtain ⟨e, he⟩ := loop_left (P := P) (l.map .float) [] [] (by simp) (by simp) (by simpa using h)
  rw [he]
  exact ⟨e, rfl⟩

theorem toRows_flatten {α : Type} {k : Nat} : ∀ {n : Nat} {l : List α}, l.length = n * k → (toRows k n l).flatten = l
  | 0, l, h => by have : l = [] := List.length_eq_zero_iff.1 (by simpa using h); simp [toRows, this]
  | n + 1, l, h => by
    rw [Nat.add_mul, Nat.one_mul] at h
    simp only [toRows, List.flatten_cons]
    rw [toRows_flatten (n := n) (by simp; omega), List.take_append_drop]

theorem toRows_count {α : Type} {k : Nat} : ∀ {n : Nat} {l : List α}, (toRows k n l).length = n
  | 0, l => rfl
  | n + 1, l => by simp [toRows, toRows_count]

theorem in32_inRange {t : DType} (ht : t = .i ∨ t = .u) (n : Int) : In32 (t == .i) n ↔ inRange t n = true := by
  rcases ht with rfl | rfl <;> simp [In32, inRange]

/-- the element types of the registered field types -/
def plainFT : FT → Bool
  | .mint t => t == .i || t == .u
  | .mfloat t | .vec t _ | .mvec t _ => t == .f || t == .d
  | _ => true

theorem conv_eq (hs : Same P N) {t : DType} (ht : t = .f ∨ t = .d) : N.conv t = P.conv t := by
  rcases ht with rfl | rfl
  · exact hs.round
  · funext x; exact (hs.double x).symm

theorem agree_ft (hs : Same P N) {ft : FT} (hp : plainFT ft = true) {t : FieldType Flt} (ht : fieldType N ft = some t) {v : Val Flt} (hv : Gives t.kind v) :
    Agrees ft (ft.coerce P (given v)) (Lin.coerce t.kind t.conv v) := by
  cases ft with
  | bool =>
    cases ht
    cases v <;> simp only [Gives] at hv
    case bool b => cases b <;> simp [Agrees, Lin.coerce, FT.coerce, given, sfBool, truth, stored]
    case refs l =>
      cases l with
      | nil => exact absurd rfl hv
      | cons o l => simp [Agrees, Lin.coerce, FT.coerce, given, sfBool, truth, stored]
  | int32 =>
    cases ht
    cases v <;> simp only [Gives] at hv
    case int n => simp [Agrees, Lin.coerce, FT.coerce, given, sfInt32, pyInt, stored]
    case refs l => exact ⟨.type, rfl⟩
  | float =>
    cases ht
    cases v <;> simp only [Gives] at hv
    case num x => simp [Agrees, Lin.coerce, FT.coerce, given, sfFloat, pyFloat, stored]
    case refs l => exact ⟨.type, rfl⟩
  | string =>
    cases ht
    cases v <;> simp only [Gives] at hv
    case str x => simp [Agrees, Lin.coerce, FT.coerce, given, sfString, stored]
    case refs l =>
      match l, hv with
      | [o], _ =>
        have := hs.text o
        cases o <;> simp_all [Agrees, Lin.coerce, FT.coerce, given, sfString, stored, pyNode]
      | o :: o' :: l, _ => exact ⟨.type, by cases o <;> simp [FT.coerce, given, sfString, joinStrs, pyNode]⟩
  | mstring =>
    cases ht
    cases v <;> simp only [Gives] at hv
    case strs l =>
      have : mapE (sfString P) (l.map .str) = .ok (l.map .str) := by
        have := mapE_map (f := sfString P) (g := id) (l := l.map .str) (by intro x hx; obtain ⟨y, _, rfl⟩ := List.mem_map.1 hx; rfl)
        simpa using this
      simp [Agrees, Lin.coerce, FT.coerce, given, mfString, iter, stored, this]
    case refs l =>
      have : mapE (sfString P) (l.map pyNode) = .ok ((l.map nodeStr).map .str) := by
        clear hv
        induction l with
        | nil => rfl
        | cons o l ih =>
          have h1 : sfString P (pyNode o) = .ok (.str (nodeStr o)) := by
            have := hs.text o
            cases o <;> simp_all [sfString, pyNode]
          simp [mapE, h1, ih]
      simp [Agrees, Lin.coerce, FT.coerce, given, mfString, iter, stored, this]
  | mint t =>
    cases ht
    have htt : t = .i ∨ t = .u := by simpa [plainFT] using hp
    cases v <;> simp only [Gives] at hv
    case ints l =>
      have hr : l.all (fun n => decide (In32 (t == .i) n)) = l.all (inRange t) := by
        congr 1; funext n
        rw [Bool.eq_iff_iff, decide_eq_true_eq, in32_inRange htt]
      simp only [Lin.coerce, hr, FT.coerce, given, mfInt, mfIntBody, mapE_pyInt, intArray]
      split
      · simp [Agrees, stored, arrayType]
      · exact ⟨_, rfl⟩
    case refs l => exact ⟨.type, by simp [FT.coerce, given, mfInt, mfIntBody, ints_nodes hv]⟩
  | mfloat t =>
    cases ht
    have htt : t = .f ∨ t = .d := by simpa [plainFT] using hp
    cases v <;> simp only [Gives] at hv
    case nums l => simp [Agrees, Lin.coerce, FT.coerce, given, mfFloat, floats_flat, fltArray, stored, arrayType, conv_eq hs htt]
    case refs l => exact ⟨.type, by simp [FT.coerce, given, mfFloat, collapse_nodes, floats_nodes hv]⟩
  | vec t dim =>
    have htt : t = .f ∨ t = .d := by simpa [plainFT] using hp
    match dim, ht with
    | [n], ht =>
      cases ht
      cases v <;> simp only [Gives] at hv
      case nums l =>
        simp only [Lin.coerce, FT.coerce, given]
        split
        · rename_i h
          rw [(C23_vec_accepts t n l h).1]
          simp [Agrees, stored, arrayType, conv_eq hs htt, h]
        · rename_i h
          exact ⟨_, C23_vec_rejects t n l h⟩
      case refs l => exact ⟨.type, vec_nodes hv⟩
  | mvec t dim =>
    have htt : t = .f ∨ t = .d := by simpa [plainFT] using hp
    match dim, ht with
    | [n], ht =>
      cases ht
      cases v <;> simp only [Gives] at hv
      case nums l =>
        simp only [Lin.coerce, FT.coerce, given]
        split
        · rename_i h
          have hl : l.length = l.length / n * n := by have := Nat.div_add_mod l.length n; rw [h.2, Nat.mul_comm] at this; omega
          rw [C23_mfvec_flat t n (l.length / n) h.1 l hl]
          simp [Agrees, stored, arrayType, width, conv_eq hs htt, toRows_count, toRows_flatten (l := l.map (P.conv t)) (n := l.length / n) (k := n) (by simpa using hl)]
        · rename_i h
          exact ⟨_, mvec_reject h⟩
      case refs l => exact ⟨.type, mvec_nodes hs hv⟩
  | color =>
    cases ht
    cases v <;> simp only [Gives] at hv
    case nums l =>
      simp only [Lin.coerce, FT.coerce, given, sfColor]
      split
      · rename_i h
        rw [(C23_vec_accepts .f 3 l h).1]
        simp [Agrees, stored, arrayType, clipArr, hs.round, hs.clip, h, Function.comp_def]
      · rename_i h
        exact ⟨.value, by rw [C23_vec_rejects .f 3 l h]; rfl⟩
    case refs l => exact ⟨.type, sfColor_nodes hv⟩
  | mcolor =>
    cases ht
    cases v <;> simp only [Gives] at hv
    case nums l =>
      simp only [Lin.coerce, FT.coerce, given]
      split
      · rename_i h
        have hl : l.length = l.length / 3 * 3 := by have := Nat.div_add_mod l.length 3; omega
        simp only [mfColor]
        rw [C23_mfvec_flat .f 3 (l.length / 3) h.1 l hl]
        simp [Agrees, stored, arrayType, width, clipArr, hs.round, hs.clip, toRows_count,
          toRows_flatten (l := l.map (fun x => (P.conv .f x).clip)) (n := l.length / 3) (k := 3) (by simpa using hl), Function.comp_def]
      · rename_i h
        exact mcolor_reject (by simpa using h)
    case refs l => exact mcolor_nodes hs hv
  | array t => cases ht

theorem mapE_nodes {isNode : Nat → Bool} (hn : ∀ i, isNode i = true) : ∀ l : List (Option Nat), mapE (sfNode isNode) (l.map pyNode) = .ok (l.map pyNode)
  | [] => rfl
  | o :: l => by
    have h1 : sfNode isNode (pyNode o) = .ok (pyNode o) := by cases o <;> simp [pyNode, sfNode, hn]
    simp [mapE, h1, mapE_nodes hn l]

end

/-- The coercion of a field type, for the form of what it stores. -/
def form (ty : String) : FT := (fieldTypes.lookup ty).getD .bool

theorem ft_of {P : Prims} {N : Num Flt} {isNode : Nat → Bool} {ty : String} {t : FieldType Flt} (h1 : ty ≠ "SFNode") (h2 : ty ≠ "MFNode") (ht : typeOf N ty = some t)
    {f : Py → Except Err Py} (hf : coerceOf P isNode ty = some f) : ∃ ft, fieldType N ft = some t ∧ plainFT ft = true ∧ form ty = ft ∧ f = ft.coerce P := by
  unfold typeOf at ht
  unfold coerceOf at hf
  rw [if_neg h1, if_neg h2] at ht hf
  split at ht
  swap
  · cases ht
  have hall : fieldTypes.all (fun e => plainFT e.2) = true := by decide
  have hl : (fieldTypes.find? (fun e => e.1 == ty)).map Prod.snd = fieldTypes.lookup ty := by
    generalize fieldTypes = l
    induction l with
    | nil => rfl
    | cons e l ih =>
      obtain ⟨a, b⟩ := e
      by_cases h : a = ty
      · subst h; simp
      · rw [List.find?_cons_of_neg (by simpa using h), ih, List.lookup_cons]
        have : (ty == a) = false := by simpa using fun h' => h h'.symm
        rw [this]
  obtain ⟨ft, h3, h4⟩ := Option.bind_eq_some_iff.1 ht
  obtain ⟨e, he, rfl⟩ := Option.map_eq_some_iff.1 hf
  rw [he, h3] at hl
  simp only [Option.map_some, Option.some.injEq] at hl
  subst hl
  exact ⟨e.2, h4, List.all_eq_true.1 hall _ (List.mem_of_find?_eq_some he), by simp [form, h3], rfl⟩

/-- **C82.** For every field type that files can have values of, and every value that a file can give to a field of that type: what the reader stores is what the
field's coercion returns, and the reader refuses the value exactly if the coercion raises. -/
theorem C82_coercions_agree {P : Prims} {N : Num Flt} (hs : Same P N) {isNode : Nat → Bool} (hn : ∀ i, isNode i = true) {ty : String} {t : FieldType Flt} (ht : typeOf N ty = some t)
    {f : Py → Except Err Py} (hf : coerceOf P isNode ty = some f) {v : Val Flt} (hv : Gives t.kind v) :
    Agrees (form ty) (f (given v)) (Lin.coerce t.kind t.conv v) := by
  have ht0 := ht
  have hf0 := hf
  unfold typeOf at ht
  unfold coerceOf at hf
  by_cases h1 : ty = "SFNode"
  · rw [if_pos h1] at ht hf
    cases ht; cases hf
    cases v <;> simp only [Gives] at hv
    case ref o => cases o <;> simp [Agrees, Lin.coerce, given, stored, pyNode, sfNode, hn]
    case refs l =>
      match l with
      | [] => exact ⟨.value, by simp [given, sfNode]⟩
      | [o] => cases o <;> simp [Agrees, Lin.coerce, given, stored, pyNode, sfNode, hn]
      | o :: o' :: l => exact ⟨.value, by simp [given, sfNode]⟩
  rw [if_neg h1] at ht hf
  by_cases h2 : ty = "MFNode"
  · rw [if_pos h2] at ht hf
    cases ht; cases hf
    cases v <;> simp only [Gives] at hv
    case ref o => cases o <;> simp [Agrees, Lin.coerce, given, stored, pyNode, mfNode, hn]
    case refs l =>
      cases l with
      | nil => simp [Agrees, Lin.coerce, given, stored, mfNode, mfRest, truth]
      | cons o l =>
        have := mapE_nodes hn (o :: l)
        simp only [List.map_cons] at this
        simp [Agrees, Lin.coerce, given, stored, mfNode, mfRest, truth, this, Except.map]
  rw [if_neg h2] at ht hf
  obtain ⟨ft, h3, h4, h5, rfl⟩ := ft_of h1 h2 ht0 hf0
  rw [h5]
  exact agree_ft hs h4 h3 hv

/-! ### Defaults -/

theorem rows_agree {P : Prims} {N : Num Flt} (hs : Same P N) {ft : FT} (hp : plainFT ft = true) {t : FieldType Flt} (ht : fieldType N ft = some t) {n : Nat} (hk : t.kind = .mfVec n)
    (hn : n ≠ 0) {l : List (List Flt)} (hl : ∀ r ∈ l, r.length = n) : Agrees ft (ft.coerce P (given (.rows l))) (Lin.coerce t.kind t.conv (.rows l)) := by
  have hall : l.all (fun r => r.length == n) = true := by simpa using hl
  cases ft with
  | mvec d dim =>
    have htt : d = .f ∨ d = .d := by simpa [plainFT] using hp
    match dim, ht with
    | [m], ht =>
      cases ht
      cases hk
      simp only [Lin.coerce, hall, FT.coerce, given, if_true]
      rw [C23_mfvec_rows d n hn l hl]
      simp [Agrees, stored, arrayType, width, conv_eq hs htt, List.map_flatten]
  | mcolor =>
    cases ht
    cases hk
    simp only [Lin.coerce, hall, FT.coerce, given, if_true, mfColor]
    rw [C23_mfvec_rows .f 3 hn l hl]
    simp [Agrees, stored, arrayType, width, clipArr, hs.round, hs.clip, List.map_flatten, Function.comp_def]
  | vec d dim =>
    match dim, ht with
    | [m], ht => cases ht; cases hk
  | _ => cases ht <;> cases hk

theorem bool_agree {P : Prims} (n : Int) : sfBool P (.int n) = sfBool P (.bool (n != 0)) := by
  by_cases h : n = 0 <;> simp [sfBool, truth, h]

theorem kind_sane {N : Num Flt} {ty : String} {t : FieldType Flt} (ht : typeOf N ty = some t) : saneKind t.kind = true := by
  have h := typeOf_kind N ty
  rw [ht] at h
  exact tyKind_sane h.symm

/-- **C82.** The same holds for the default of every field of the built-in node types: reading the field of a new node gives the coerced default, as the node classes
compute it. -/
theorem C82_defaults_agree {P : Prims} {N : Num Flt} (hs : Same P N) (hlit : ∀ q, N.lit q = .num (dec q)) {isNode : Nat → Bool} (hn : ∀ i, isNode i = true)
    {d : Decl} (hd : d ∈ fieldDecls) (hc : d.cls ∈ baseNames) {fd : Lin.FieldDecl Flt} (hfd : field N d = some fd) {f : Py → Except Err Py} (hf : coerceOf P isNode d.ty = some f) :
    ∃ v, fd.dflt.value = some v ∧ Agrees (form d.ty) (f d.dflt.value) (Lin.coerce fd.kind fd.conv v) := by
  obtain ⟨t, ht, rfl⟩ := Option.map_eq_some_iff.1 hfd
  obtain ⟨k, hk, hok⟩ := table_kinds d hd hc
  have hkt := typeOf_kind N d.ty
  rw [ht, hk] at hkt
  cases hkt
  have hsane := kind_sane ht
  by_cases hfont : (d.cls, d.name) = ("FontStyle", "family")
  · have hall : fieldDecls.all (fun d => (d.cls, d.name) != ("FontStyle", "family") || (d.ty == "MFString" && match d.dflt with | .str _ => true | _ => false)) = true := by decide +kernel
    have := List.all_eq_true.1 hall d hd
    rw [hfont] at this
    simp only [bne_self_eq_false, Bool.false_or, Bool.and_eq_true, beq_iff_eq] at this
    obtain ⟨h1, h2⟩ := this
    split at h2
    · rename_i s hs'
      have hk2 : t.kind = .mfString := by
        rw [h1] at hk
        have : tyKind "MFString" = some .mfString := by decide
        rw [this] at hk
        exact (Option.some.inj hk).symm
      refine ⟨.strs [s.toList], by simp [dflt, hs', hk2, Lin.Dflt.value], ?_⟩
      have := C82_coercions_agree hs hn ht hf (v := .strs [s.toList]) (by rw [hk2]; trivial)
      have e : f (given (.strs [s.toList])) = f d.dflt.value := by
        obtain ⟨ft, h3, h4, h5, rfl⟩ := ft_of (by rw [h1]; decide) (by rw [h1]; decide) ht hf
        rw [h1] at h5
        have : ft = .mstring := by rw [← h5]; decide
        subst this
        simp [FT.coerce, mfString, given, hs', Builtin.Dflt.value]
      rw [e] at this
      exact this
    · cases h2
  have hok := hok hfont
  have fin : ∀ v, (dflt N t.kind d.dflt).value = some v → given v = d.dflt.value → Gives t.kind v → ∃ v, (dflt N t.kind d.dflt).value = some v ∧ Agrees (form d.ty) (f d.dflt.value) (Lin.coerce t.kind t.conv v) :=
    fun v h1 h2 h3 => ⟨v, h1, by rw [← h2]; exact C82_coercions_agree hs hn ht hf h3⟩
  cases hb : d.dflt with
  | null =>
    rw [hb] at hok
    have : t.kind = .sfNode := by simpa [okDflt] using hok
    rw [← hb]
    exact fin (.ref none) (by simp [hb, dflt, Lin.Dflt.value]) (by simp [hb, Builtin.Dflt.value, given, pyNode, NULL]) (by rw [this]; trivial)
  | empty =>
    rw [hb] at hok
    rw [← hb]
    cases hkk : t.kind <;> rw [hkk] at hok <;> simp only [okDflt, Bool.false_eq_true] at hok <;> rw [← hkk]
    case mfString => exact fin (.strs []) (by simp [hb, hkk, dflt, Lin.Dflt.value]) (by simp [hb, Builtin.Dflt.value, given]) (by rw [hkk]; trivial)
    case mfNode => exact fin (.refs []) (by simp [hb, hkk, dflt, Lin.Dflt.value]) (by simp [hb, Builtin.Dflt.value, given]) (by rw [hkk]; trivial)
    case mfInt => exact fin (.ints []) (by simp [hb, hkk, dflt, Lin.Dflt.value]) (by simp [hb, Builtin.Dflt.value, given]) (by rw [hkk]; trivial)
    all_goals exact fin (.nums []) (by simp [hb, hkk, dflt, Lin.Dflt.value]) (by simp [hb, Builtin.Dflt.value, given]) (by rw [hkk]; trivial)
  | bool b =>
    rw [hb] at hok
    have : t.kind = .sfBool := by simpa [okDflt] using hok
    rw [← hb]
    exact fin (.bool b) (by simp [hb, dflt, Lin.Dflt.value]) (by simp [hb, Builtin.Dflt.value, given]) (by rw [this]; trivial)
  | int n =>
    rw [hb] at hok
    have : t.kind = .sfBool ∨ t.kind = .sfInt32 := by simpa [okDflt] using hok
    rcases this with h | h
    · refine ⟨.bool (n != 0), by simp [dflt, h, Lin.Dflt.value], ?_⟩
      have h1 : d.ty ≠ "SFNode" := by
        intro h1; rw [h1] at hk; have : tyKind "SFNode" = some .sfNode := by decide
        rw [this, h] at hk; cases hk
      have h2 : d.ty ≠ "MFNode" := by
        intro h1; rw [h1] at hk; have : tyKind "MFNode" = some .mfNode := by decide
        rw [this, h] at hk; cases hk
      have := C82_coercions_agree hs hn ht hf (v := .bool (n != 0)) (by rw [h]; trivial)
      obtain ⟨ft, h3, h4, h5, rfl⟩ := ft_of h1 h2 ht hf
      have hft : ft = .bool := by
        cases ft with
        | vec d dim => match dim, h3 with
          | [m], ht => cases ht; cases h
        | mvec d dim => match dim, h3 with
          | [m], ht => cases ht; cases h
        | bool => rfl
        | _ => cases h3 <;> cases h
      subst hft
      simp only [FT.coerce, given, Builtin.Dflt.value] at this ⊢
      rw [bool_agree]
      exact this
    · rw [← hb]
      exact fin (.int n) (by simp [hb, h, dflt, Lin.Dflt.value]) (by simp [hb, Builtin.Dflt.value, given]) (by rw [h]; trivial)
  | float q =>
    rw [hb] at hok
    have : t.kind = .sfFloat := by simpa [okDflt] using hok
    rw [← hb]
    exact fin (.num (N.lit q)) (by simp [hb, dflt, Lin.Dflt.value]) (by simp [hb, Builtin.Dflt.value, given, hlit]) (by rw [this]; trivial)
  | str s =>
    rw [hb] at hok
    have : t.kind = .sfString := by simpa [okDflt] using hok
    rw [← hb]
    exact fin (.str s.toList) (by simp [hb, this, dflt, Lin.Dflt.value]) (by simp [hb, Builtin.Dflt.value, given]) (by rw [this]; trivial)
  | ints l =>
    rw [hb] at hok
    rw [← hb]
    cases hkk : t.kind <;> simp [okDflt, hkk] at hok
    rw [← hkk]
    exact fin (.ints l) (by simp [hb, dflt, Lin.Dflt.value]) (by simp [hb, Builtin.Dflt.value, given]) (by rw [hkk]; trivial)
  | floats l =>
    rw [hb] at hok
    have : t.kind = .mfFloat ∨ t.kind = .sfVec l.length := by simpa [okDflt] using hok
    rw [← hb]
    exact fin (.nums (l.map N.lit)) (by simp [hb, dflt, Lin.Dflt.value]) (by simp [hb, Builtin.Dflt.value, given, hlit]) (by rcases this with h | h <;> rw [h] <;> trivial)
  | strs l =>
    rw [hb] at hok
    have : t.kind = .mfString := by simpa [okDflt] using hok
    rw [← hb]
    exact fin (.strs (l.map String.toList)) (by simp [hb, dflt, Lin.Dflt.value]) (by simp [hb, Builtin.Dflt.value, given]) (by rw [this]; trivial)
  | rows l =>
    rw [hb] at hok
    cases hkk : t.kind <;> simp [okDflt, hkk] at hok
    rename_i n
    rw [hkk] at hsane
    have hn0 : n ≠ 0 := by simp [saneKind] at hsane; omega
    have h1 : d.ty ≠ "SFNode" := by
      intro h1; rw [h1] at hk; have : tyKind "SFNode" = some .sfNode := by decide
      rw [this, hkk] at hk; cases hk
    have h2 : d.ty ≠ "MFNode" := by
      intro h1; rw [h1] at hk; have : tyKind "MFNode" = some .mfNode := by decide
      rw [this, hkk] at hk; cases hk
    obtain ⟨ft, h3, h4, h5, rfl⟩ := ft_of h1 h2 ht hf
    refine ⟨.rows (l.map (List.map N.lit)), by simp [dflt, Lin.Dflt.value], ?_⟩
    have := rows_agree hs h4 h3 hkk hn0 (l := l.map (List.map N.lit)) (by simpa using hok)
    rw [h5, ← hkk]
    have e : given (.rows (l.map (List.map N.lit))) = (Builtin.Dflt.rows l).value := by simp [given, Builtin.Dflt.value, hlit]
    rw [← e]
    exact this

/-! ### The reader -/

open Verif.Peg Verif.Grammar in
theorem simple_gives {fl : Lin.Floats Flt} {k : Kind} {kids : List Lin.PTree} {v : Val Flt} (h : Lin.simpleValue fl k kids = some v) : Gives k v := by
  cases k <;> simp only [Lin.simpleValue] at h <;> first | cases h | skip
  all_goals first
    | (obtain ⟨x, -, rfl⟩ := Option.map_eq_some_iff.1 h; trivial)
    | trivial

open Verif.Peg Verif.Grammar in
theorem disp_ref {F : Type} {base : Text → Option (Lin.Class F)} {fl : Lin.Floats F} {t : NT} {m : Text} {kids : List Lin.PTree} {ss ps : List Nat} {cur : Option Nat} {fd : Option Kind}
    {w w' : Full.World F} {r : Lin.RVal F} (ht : Lin.isNodeTag t = true) (h : Full.disp base fl (.node t m kids) ss ps cur fd w = some (r, w')) : ∃ o, r = .ref o := by
  rw [Full.disp.eq_def] at h
  cases t <;> first | (cases ht; done) | skip
  all_goals repeat' (first | (injections; done) | (cases h; done) | (cases h; exact ⟨_, rfl⟩) | split at h)
  all_goals first | (cases h; done) | skip

open Verif.Peg Verif.Grammar in
/-- **C82.** The values that the reader takes from a file for a field are of the forms that `C82_coercions_agree` speaks of. -/
theorem C82_reader_gives {base : Text → Option (Lin.Class Flt)} {fl : Lin.Floats Flt} {m : Text} {kids : List Lin.PTree} {ss ps : List Nat} {cur : Option Nat} {k : Kind}
    {w w' : Full.World Flt} {r : Lin.RVal Flt} (h : Full.disp base fl (.node .field m kids) ss ps cur (some k) w = some (r, w')) {v : Val Flt} (hv : r.toVal = some v) : Gives k v := by
  match kids with
  | [] =>
    rw [Full.disp] at h
    split at h
    · rename_i hk
      cases h; cases hv; subst hk; trivial
    · cases he : Lin.simpleValue fl k [] with
      | none => rw [he] at h; cases h
      | some u => rw [he] at h; cases h; cases hv; exact simple_gives he
  | .node t m' tk :: rest =>
    rw [Full.disp] at h
    split at h
    · rename_i ht
      split at h
      · rename_i hk
        obtain ⟨o, rfl⟩ := disp_ref ht h
        cases hv; subst hk; trivial
      · rename_i hk
        cases he : Full.dispList base fl (.node t m' tk :: rest) ss ps cur (some k) w with
        | none => rw [he] at h; cases h
        | some x =>
          obtain ⟨vs, w1⟩ := x
          rw [he] at h; cases h
          simp only [Lin.RVal.toVal] at hv
          obtain ⟨l, hl, rfl⟩ := Option.map_eq_some_iff.1 hv
          have hne : l ≠ [] := by
            rw [Full.dispList] at he
            cases hd : Full.disp base fl (.node t m' tk) ss ps cur (some k) w with
            | none => rw [hd] at he; cases he
            | some x =>
              obtain ⟨v1, w2⟩ := x
              rw [hd] at he
              simp only at he
              cases hd2 : Full.dispList base fl rest ss ps cur (some k) w2 with
              | none => rw [hd2] at he; cases he
              | some y =>
                rw [hd2] at he
                cases he
                rintro rfl
                cases v1 <;> simp [Lin.refList] at hl
          cases k <;> first | exact hne | trivial
    · split at h
      · rename_i hk
        cases h; cases hv; subst hk; trivial
      · cases he : Lin.simpleValue fl k (.node t m' tk :: rest) with
        | none => rw [he] at h; cases h
        | some u => rw [he] at h; cases h; cases hv; exact simple_gives he

/-! ### Examples -/

/-- exact floats -/
def exPrims : Prims := { demoPrims with strOf := fun v => match v with | .obj 0 _ => nodeStr none | _ => nodeStr (some 0), asarray := fun t v => match v with | .obj _ _ => .error .type | _ => .ok ⟨t, [], [.nan]⟩ }
def exN : Num Flt := ⟨fun a b => a == b, fun _ => none, fun _ => [], fun _ => [], id, Flt.clip, fun q => .num (dec q), fun _ _ _ => some none⟩

example : Same exPrims exN := ⟨rfl, rfl, fun _ => rfl, fun t o => by cases o <;> rfl, fun o => by cases o <;> rfl⟩
example : ∀ q, exN.lit q = .num (dec q) := fun _ => rfl

/-- Six numbers are two colours, clipped; four are none; a node is TRUE; 2³¹ is too large for MFInt32 and not for SFImage. -/
example : ((typeOf exN "MFColor").bind (fun t => Lin.coerce t.kind t.conv (.nums [.num 0, .num 2, .num 1, .num (-1), .num 0, .num 0]))).map (fun v => match v with | .rows l => l | _ => []) =
    some [[.num 0, .num 1, .num 1], [.num 0, .num 0, .num 0]] := by decide +kernel
example : ((typeOf exN "MFColor").bind (fun t => Lin.coerce t.kind t.conv (.nums [.num 0, .num 2, .num 1, .num (-1)]))).isNone = true := by decide +kernel
example : (typeOf exN "SFBool").map (fun t => Lin.coerce t.kind t.conv (.refs [some 5])) = some (some (.bool true)) := rfl
example : ["MFInt32", "SFImage"].map (fun ty => ((typeOf exN ty).bind (fun t => Lin.coerce t.kind t.conv (.ints [2147483648]))).isSome) = [false, true] := by decide +kernel

/-- **C82** NULL given to a field of text is the text NULL. -/
theorem C82_null_text {F : Type} (conv : F → F) : Lin.coerce .sfString conv (.refs [none]) = some (.str ['N', 'U', 'L', 'L']) ∧ Lin.coerce .mfString conv (.refs [none]) = some (.strs [['N', 'U', 'L', 'L']]) :=
  ⟨rfl, rfl⟩

end Verif.Agree
