import Verif.Model.CssColors
import Mathlib.Algebra.Order.Field.Rat
import Mathlib.Data.Rat.Floor
/-
Model of the value coercions of vrml/fieldtypes.py (Python 3 branches) and vrml/csscolors.py.

Simplifications: a float is a rational number, an infinity or NaN (no rounding; conversion to an array's element type is
the parameter `conv`, so single-precision rounding is covered); strings are character lists; text → number conversion of
Python (`float(s)`, `int(s)`), `unicode(x)` of non-strings and numpy's treatment of foreign objects are parameters;
map/zip/range objects (field.UNPACK_TYPES), structured numpy arrays (typecode 'V') and numpy scalars are not modelled;
`str.lower` is ASCII lower case.
-/
namespace Verif.Coerce

inductive Err where
  | value | type | overflow
  deriving DecidableEq, Repr

/-- A Python float. -/
inductive Flt where
  | num (q : Rat)
  | pinf
  | ninf
  | nan
  deriving DecidableEq

/-- numpy element types: int32 'i', uint32 'I', float32 'f', float64 'd', anything else. -/
inductive DType where
  | i | u | f | d | other
  deriving DecidableEq, Repr

/-- A numpy array: element type, shape, elements in C order. -/
structure Arr where
  dtype : DType
  shape : List Nat
  data : List Flt
  deriving DecidableEq

/-- Python values as far as the coercions distinguish them. -/
inductive Py where
  | none
  | bool (b : Bool)
  | int (n : Int)
  | float (x : Flt)
  | str (s : List Char)
  | bytes (b : List Nat)
  | list (l : List Py)
  | tuple (l : List Py)
  | arr (a : Arr)
  | obj (id : Nat) (truth : Bool)

/-- Behaviour outside the repository. -/
structure Prims where
  floatOf : List Char → Option Flt          -- float(s); none = ValueError
  intOf : List Char → Option Int            -- int(s); none = ValueError
  int16Other : List Char → Option Int       -- int(s, 16) when s is not just hexadecimal digits
  strOf : Py → List Char                    -- unicode(x) of a non-string
  decode : List Nat → Option (List Char)    -- bytes.decode('utf-8'); none = UnicodeDecodeError (a ValueError)
  conv : DType → Flt → Flt                  -- element conversion to a float dtype
  castI : DType → Flt → Int                 -- C cast used by astype to an integer dtype (before wrapping)
  asarray : DType → Py → Except Err Arr     -- numpy.asarray of bytes and foreign objects

variable (P : Prims)

/-- Integer range of a dtype. -/
def inRange : DType → Int → Bool
  | .i, n => decide (-2147483648 ≤ n ∧ n < 2147483648)
  | .u, n => decide (0 ≤ n ∧ n < 4294967296)
  | _, _ => true

/-- Wrap-around of a C cast. -/
def wrap : DType → Int → Int
  | .i, n => (n + 2147483648) % 4294967296 - 2147483648
  | .u, n => n % 4294967296
  | _, n => n

/-- `a.astype(t)`. -/
def Arr.astype (t : DType) (a : Arr) : Arr :=
  match t with
  | .i | .u => ⟨t, a.shape, a.data.map (fun x => .num (wrap t (P.castI t x)))⟩
  | _ => ⟨t, a.shape, a.data.map (P.conv t)⟩

/-- `if arrays.typeCode(value) not in self.acceptedTypes: value = value.astype(...)` (fieldtypes.py:397-398 and others). -/
def Arr.ensure (t : DType) (a : Arr) : Arr := if a.dtype ≠ t then a.astype P t else a

/-- `float(x)`. -/
def pyFloat : Py → Except Err Flt
  | .bool b => .ok (.num (if b then 1 else 0))
  | .int n => .ok (.num n)
  | .float x => .ok x
  | .str s => match P.floatOf s with | some x => .ok x | none => .error .value
  | .bytes b => match P.decode b with
    | some s => match P.floatOf s with | some x => .ok x | none => .error .value
    | none => .error .value
  | .arr a => match a.data with | [x] => .ok x | _ => .error .type
  | _ => .error .type

/-- Truncation toward zero. -/
def trunc (q : Rat) : Int := if 0 ≤ q then ⌊q⌋ else -⌊-q⌋

def fltInt : Flt → Except Err Int
  | .num q => .ok (trunc q)
  | .nan => .error .value
  | _ => .error .overflow

/-- `int(x)`. -/
def pyInt : Py → Except Err Int
  | .bool b => .ok (if b then 1 else 0)
  | .int n => .ok n
  | .float x => fltInt x
  | .str s => match P.intOf s with | some n => .ok n | none => .error .value
  | .bytes b => match P.decode b with
    | some s => match P.intOf s with | some n => .ok n | none => .error .value
    | none => .error .value
  | .arr a => match a.data with | [x] => fltInt x | _ => .error .type
  | _ => .error .type

/-- `s.replace(',', ' ').split()`. -/
def splitWords (s : List Char) : List (List Char) :=
  let rec go : List Char → List Char → List (List Char)
    | [], cur => if cur.isEmpty then [] else [cur.reverse]
    | c :: cs, cur =>
      if c == ',' || c.isWhitespace then (if cur.isEmpty then go cs [] else cur.reverse :: go cs [])
      else go cs (c :: cur)
  go s []

/-- fieldtypes.py:35-57 `_collapse` on the list from the current index on: a list element is spliced in place, the
index only advances past non-lists. -/
def collapse : List Py → List Py
  | [] => []
  | .list l :: rest => collapse (l ++ rest)
  | x :: rest => x :: collapse rest
termination_by l => sizeOf l
decreasing_by
  · have : sizeOf (l ++ rest) + 1 ≤ sizeOf l + sizeOf rest := by
      induction l with
      | nil => simp; omega
      | cons a l ih => simp at *; omega
    simp; omega
  · simp

/-- `for item in value` (none: TypeError, not iterable).  Rows of a multi-dimensional array are arrays. -/
def iter : Py → Option (List Py)
  | .list l => some l
  | .tuple l => some l
  | .str s => some (s.map (fun c => .str [c]))
  | .bytes b => some (b.map (fun n => .int n))
  | .arr a => match a.shape with
    | [] => none
    | [_] => some (a.data.map .float)
    | n :: rest => some ((List.range n).map (fun k => .arr ⟨a.dtype, rest, (a.data.drop (k * rest.prod)).take rest.prod⟩))
  | _ => none

/-- `bool(x)`; the truth of an array with several elements is a ValueError. -/
def truth : Py → Except Err Bool
  | .none => .ok false
  | .bool b => .ok b
  | .int n => .ok (n != 0)
  | .float x => .ok (x != .num 0)
  | .str s => .ok (!s.isEmpty)
  | .bytes b => .ok (!b.isEmpty)
  | .list l => .ok (!l.isEmpty)
  | .tuple l => .ok (!l.isEmpty)
  | .arr a => match a.data with
    | [] => .ok false
    | [x] => .ok (x != .num 0)
    | _ => .error .value
  | .obj _ t => .ok t

/-! ### Strings -/

/-- `u"".join(value)`. -/
def joinStrs : List Py → Except Err (List Char)
  | [] => .ok []
  | .str s :: l => match joinStrs l with
    | .ok t => .ok (s ++ t)
    | .error e => .error e
  | _ :: _ => .error .type

/-- fieldtypes.py:176-196 _SFString.coerce. -/
def sfString (v : Py) : Except Err Py :=
  let fin : Py → Except Err Py := fun v => match v with
    | .str s => .ok (.str s)
    | v => .ok (.str (P.strOf v))
  let seq : List Py → Except Err Py := fun l => match l with
    | [x] => fin x
    | [] => fin (.str [])
    | l => match joinStrs l with
      | .ok s => fin (.str s)
      | .error e => .error e
  match v with
  | .bytes b => match P.decode b with
    | some s => .ok (.str s)
    | none => .error .value
  | .list l => seq l
  | .tuple l => seq l
  | v => fin v

/-- `[f(x) for x in l]`. -/
def mapE (f : α → Except Err β) : List α → Except Err (List β)
  | [] => .ok []
  | x :: l => match f x with
    | .error e => .error e
    | .ok y => match mapE f l with
      | .error e => .error e
      | .ok ys => .ok (y :: ys)

/-- fieldtypes.py:214-229 _MFString.coerce. -/
def mfString (v : Py) : Except Err Py :=
  let v := match v with
    | .str s => Py.list [.str s]
    | v => v
  match iter v with
  | none => .error .type
  | some l => match mapE (sfString P) l with
    | .ok l => .ok (.list l)
    | .error e => .error e

/-! ### Scalars -/

/-- ASCII lower case. -/
def lower (s : List Char) : List Char := s.map Char.toLower

/-- fieldtypes.py:249-266 _SFBool.coerce. -/
def sfBool (v : Py) : Except Err Py :=
  let v := match v with
    | .str s => match P.intOf s with
      | some n => .int n
      | none =>
        if lower s = "true".toList then .bool true
        else if lower s = "false".toList then .bool false
        else .str s
    | v => v
  match truth v with
  | .ok true => .ok (.int 1)
  | .ok false => .ok (.int 0)
  | .error e => .error e

/-- fieldtypes.py:286-297 _SFInt32.coerce, 319-330 _SFUInt32.coerce. -/
def sfInt32 (v : Py) : Except Err Py :=
  match pyInt P v with
  | .ok n => .ok (.int n)
  | .error e => .error e

/-- fieldtypes.py:351-362 _SFFloat.coerce (also SFTime). -/
def sfFloat (v : Py) : Except Err Py :=
  match pyFloat P v with
  | .ok x => .ok (.float x)
  | .error e => .error e

/-! ### Flat lists of numbers -/

/-- `arrays.array([n, ...], t)` of Python ints: out of range raises OverflowError. -/
def intArray (t : DType) (l : List Int) : Except Err Py :=
  if l.all (inRange t) then .ok (.arr ⟨t, [l.length], l.map (fun (n : Int) => Flt.num (n : Rat))⟩) else .error .overflow

/-- fieldtypes.py:394-411 _MFInt32.coerce after the text case. -/
def mfIntBody (t : DType) (v : Py) : Except Err Py :=
  match v with
  | .bool _ | .int _ | .float _ => match pyInt P v with
    | .ok n => intArray t [n]
    | .error e => .error e
  | .arr a =>
    let a := a.ensure P t
    .ok (.arr ⟨a.dtype, [a.data.length], a.data⟩)
  | .list l | .tuple l => match mapE (pyInt P) l with
    | .ok l => intArray t l
    | .error e => .error e
  | v => match truth v with
    | .ok false => .ok (.arr ⟨t, [0], []⟩)
    | .ok true => .error .value
    | .error e => .error e

/-- fieldtypes.py:390-411 _MFInt32.coerce (t = 'i'), _MFUInt32, _SFImage (t = 'I'). -/
def mfInt (t : DType) (v : Py) : Except Err Py :=
  match v with
  | .str s => match mapE (fun w => pyInt P (.str w)) (splitWords s) with
    | .ok l => mfIntBody P t (.list (l.map .int))
    | .error e => .error e
  | v => mfIntBody P t v

/-- `arrays.array([x, ...], t)` of Python floats. -/
def fltArray (t : DType) (l : List Flt) : Arr := ⟨t, [l.length], l.map (P.conv t)⟩

/-- fieldtypes.py:452-473 _MFFloat.coerce (t = 'd'), _MFFloat32 (t = 'f'), _MFTime. -/
def mfFloat (t : DType) (v : Py) : Except Err Py :=
  let v : Except Err Py := match v with
    | .str s => match mapE (fun w => pyFloat P (.str w)) (splitWords s) with
      | .ok l => .ok (.list (l.map .float))
      | .error e => .error e
    | v => .ok v
  match v with
  | .error e => .error e
  | .ok v =>
    match v with
    | .bool _ | .int _ | .float _ => match pyFloat P v with
      | .ok x => .ok (.arr (fltArray P t [x]))
      | .error e => .error e
    | .arr a =>
      let a := a.ensure P t
      .ok (.arr ⟨a.dtype, [a.data.length], a.data⟩)
    | .list l | .tuple l => match mapE (pyFloat P) (collapse l) with
      | .ok l => .ok (.arr (fltArray P t l))
      | .error e => .error e
    | v => match truth v with
      | .ok false => .ok (.arr ⟨t, [0], []⟩)
      | .ok true => .error .value
      | .error e => .error e

/-! ### Vectors and matrices -/

/-- `a.reshape(dim)` without unknown dimension. -/
def Arr.reshape (dim : List Nat) (a : Arr) : Except Err Arr :=
  if a.data.length = dim.prod then .ok ⟨a.dtype, dim, a.data⟩ else .error .value

/-- fieldtypes.py:544-552: the final shape check. -/
def checkShape (dim : List Nat) (a : Arr) : Except Err Py :=
  if a.shape ≠ dim then .error .value else .ok (.arr a)

/-- fieldtypes.py:517-553 _SFVec.coerce with element type `t` and dimensions `dim` (never of total size 1).
The scalar branch (524-526) assigns float() of the freshly made zero array: a TypeError.  The sequence branch
(531-533) and the last branch (534-543) call reshape but drop its result. -/
def sfVec (t : DType) (dim : List Nat) (v : Py) : Except Err Py :=
  let v : Except Err Py := match v with
    | .str s => match mapE (fun w => pyFloat P (.str w)) (splitWords s) with
      | .ok l => .ok (.list (l.map .float))
      | .error e => .error e
    | v => .ok v
  match v with
  | .error e => .error e
  | .ok v =>
    match v with
    | .bool _ | .int _ | .float _ => .error .type
    | .arr a =>
      let a := a.ensure P t
      match a.reshape dim with
      | .ok a => checkShape dim a
      | .error e => .error e
    | .list l | .tuple l => match mapE (pyFloat P) (collapse l) with
      | .ok l =>
        let a := fltArray P t l
        match a.reshape dim with
        | .ok _ => checkShape dim a
        | .error e => .error e
      | .error e => .error e
    | .none =>                              -- asarray(None, t) is a 0-dimensional NaN
      let a : Arr := ⟨t, [], [.nan]⟩
      match a.reshape dim with
      | .ok _ => checkShape dim a
      | .error e => .error e
    | v => match P.asarray t v with
      | .ok a => match a.reshape dim with
        | .ok _ => checkShape dim a
        | .error e => .error e
      | .error _ => .error .value

/-- numpy.array of a nested sequence: shape and elements; different shapes side by side are a ValueError. -/
def npArray (t : DType) : Py → Except Err (List Nat × List Flt)
  | .none => .ok ([], [.nan])
  | .bool b => .ok ([], [P.conv t (.num (if b then 1 else 0))])
  | .int n => .ok ([], [P.conv t (.num n)])
  | .float x => .ok ([], [P.conv t x])
  | .str s => match P.floatOf s with
    | some x => .ok ([], [P.conv t x])
    | none => .error .value
  | .arr a => .ok (a.shape, if a.dtype ≠ t then a.data.map (P.conv t) else a.data)
  | .list l => rows l
  | .tuple l => rows l
  | v => match P.asarray t v with
    | .ok a => .ok (a.shape, a.data)
    | .error e => .error e
where
  /-- The rows of one nesting level. -/
  rows : List Py → Except Err (List Nat × List Flt)
    | [] => .ok ([0], [])
    | [x] => match npArray t x with
      | .ok (s, d) => .ok (1 :: s, d)
      | .error e => .error e
    | x :: y :: rest => match npArray t x with
      | .error e => .error e
      | .ok (s, d) => match rows (y :: rest) with
        | .error e => .error e
        | .ok (n :: s', d') => if s = s' then .ok ((n + 1) :: s, d ++ d') else .error .value
        | .ok ([], _) => .error .value

/-- `arrays.reshape(value, (-1,) + dim)`: fieldtypes.py:671-672. -/
def Arr.reshapeRows (dim : List Nat) (a : Arr) : Except Err Arr :=
  if dim.prod ≠ 0 ∧ a.data.length % dim.prod = 0 then .ok ⟨a.dtype, (a.data.length / dim.prod) :: dim, a.data⟩
  else .error .value

/-- fieldtypes.py:589-621 _SFArray.coerce; `rs` is the class's reshape.  A string argument is a TypeError
(`.replace(']')` lacks an argument, line 594). -/
def sfArrayWith (rs : Arr → Except Err Arr) (t : DType) (v : Py) : Except Err Py :=
  let go : Except Err Arr := match v with
    | .str _ => .error .type
    | .arr a => .ok (a.ensure P t)
    | .list l | .tuple l => match npArray P t (.list l) with
      | .ok (s, d) => .ok ⟨t, s, d⟩
      | .error .value => match mapE (pyFloat P) l with
        | .ok l => .ok (fltArray P t l)
        | .error e => .error e
      | .error e => .error e
    | .bool _ | .int _ | .float _ => match npArray P t (.list [v]) with
      | .ok (s, d) => .ok ⟨t, s, d⟩
      | .error e => .error e
    | .none => .ok ⟨t, [], [.nan]⟩
    | v => match P.asarray t v with
      | .ok a => .ok a
      | .error _ => .error .value
  match go with
  | .error e => .error e
  | .ok a => match rs a with
    | .ok a => .ok (.arr a)
    | .error e => .error e

/-- fieldtypes.py:578-621 _SFArray. -/
def sfArray (t : DType) (v : Py) : Except Err Py := sfArrayWith P .ok t v

/-- fieldtypes.py:653-672 _MFVec with dimension `dim`. -/
def mfVec (t : DType) (dim : List Nat) (v : Py) : Except Err Py := sfArrayWith P (Arr.reshapeRows dim) t v

/-! ### Colours -/

/-- One element of `arrays.clip(value, 0.0, 1.0)`: NaN stays NaN. -/
def Flt.clip : Flt → Flt
  | .num q => if q < 0 then .num 0 else if 1 < q then .num 1 else .num q
  | .pinf => .num 1
  | .ninf => .num 0
  | .nan => .nan

/-- fieldtypes.py:567-571 _Color.coerce after the base coercion. -/
def clipArr : Except Err Py → Except Err Py
  | .ok (.arr a) => .ok (.arr { a with data := a.data.map Flt.clip })
  | r => r

/-- One hexadecimal digit. -/
def hexDigit (c : Char) : Option Nat :=
  if '0' ≤ c ∧ c ≤ '9' then some (c.toNat - '0'.toNat)
  else if 'a' ≤ c ∧ c ≤ 'f' then some (c.toNat - 'a'.toNat + 10)
  else if 'A' ≤ c ∧ c ≤ 'F' then some (c.toNat - 'A'.toNat + 10)
  else none

/-- Value of a non-empty run of hexadecimal digits. -/
def hexValue (s : List Char) : Option Nat :=
  let rec go : List Char → Nat → Option Nat
    | [], n => some n
    | c :: cs, n => match hexDigit c with
      | some k => go cs (n * 16 + k)
      | none => none
  if s.isEmpty then none else go s 0

/-- `int(s, 16)`. -/
def int16 (s : List Char) : Option Int :=
  match hexValue s with
  | some n => some n
  | none => P.int16Other s

/-- csscolors.py:17-19 toFloat (the mask is below 2³², so only the low 32 bits of the integer matter). -/
def toFloat (v : Int) (shift : Nat) : Rat :=
  ((((v % 4294967296).toNat &&& (255 <<< shift)) >>> shift : Nat) : Rat) / 255

/-- Python's round(x, 0): half to even. -/
def roundEven (q : Rat) : Int :=
  let f := ⌊q⌋
  let r := q - f
  if r < 1 / 2 then f else if 1 / 2 < r then f + 1 else if f % 2 = 0 then f else f + 1

/-- csscolors.py:14-16 toInt. -/
def toInt (q : Rat) : Int := roundEven (q * 255)

/-- csscolors.py:2-13 stringToColor. -/
def stringToColor (s : List Char) : Except Err (Rat × Rat × Rat) :=
  let s := lower s
  match cssTable.find? (fun e => e.1.toList == s) with
  | some (_, r, g, b) => .ok ((r : Rat) / 10000, (g : Rat) / 10000, (b : Rat) / 10000)
  | none => match s with
    | '#' :: h => match int16 P h with
      | some n => .ok (toFloat n 16, toFloat n 8, toFloat n 0)
      | none => .error .value
    | _ => .error .value

/-- fieldtypes.py:800-804 _SFColor.coerce. -/
def sfColor (v : Py) : Except Err Py :=
  match v with
  | .str s => match stringToColor P s with
    | .ok (r, g, b) => clipArr (sfVec P .f [3] (.tuple [.float (.num r), .float (.num g), .float (.num b)]))
    | .error e => .error e
  | v => clipArr (sfVec P .f [3] v)

/-- fieldtypes.py:858-880: the fallback loop over the items of an MFColor value (`result` and `current` reversed). -/
def mfColorLoop : List Py → List Py → List Py → Except Err (List Py)
  | [], result, current => if current.isEmpty then .ok result.reverse else .error .value
  | item :: items, result, current =>
    match item with
    | .str s =>
      if !current.isEmpty then .error .value
      else match sfColor P (.str s) with
        | .ok c => mfColorLoop items (c :: result) current
        | .error e => .error e
    | item =>
      let current := item :: current
      if current.length = 3 then
        match sfColor P (.list current.reverse) with
        | .ok c => mfColorLoop items (c :: result) []
        | .error e => .error e
      else mfColorLoop items result current

/-- fieldtypes.py:852-882 _MFColor.coerce. -/
def mfColor (v : Py) : Except Err Py :=
  match clipArr (mfVec P .f [3] v) with
  | .ok r => .ok r
  | .error .overflow => .error .overflow
  | .error _ => match iter v with
    | none => .error .type
    | some l => match mfColorLoop P l [] [] with
      | .ok result => clipArr (mfVec P .f [3] (.list result))
      | .error e => .error e

/-! ### The field types -/

/-- The coercion a field class uses (class hierarchy of fieldtypes.py:209-913). -/
inductive FT where
  | bool | int32 | float | string | mstring
  | mint (t : DType)
  | mfloat (t : DType)
  | vec (t : DType) (dim : List Nat)
  | array (t : DType)
  | mvec (t : DType) (dim : List Nat)
  | color | mcolor
  deriving DecidableEq, Repr

/-- `field.coerce(value)`. -/
def FT.coerce : FT → Py → Except Err Py
  | .bool => sfBool P
  | .int32 => sfInt32 P
  | .float => sfFloat P
  | .string => sfString P
  | .mstring => mfString P
  | .mint t => mfInt P t
  | .mfloat t => mfFloat P t
  | .vec t dim => sfVec P t dim
  | .array t => sfArray P t
  | .mvec t dim => mfVec P t dim
  | .color => sfColor P
  | .mcolor => mfColor P

/-- fieldtypes.py:916-1300: the concrete field classes and the coercion each inherits (note that the MFVec2d field
class, 1053-1054, derives from the single-precision _MFVec2f). -/
def fieldTypes : List (String × FT) := [
  ("SFBool", .bool), ("SFInt32", .int32), ("SFUInt32", .int32), ("SFFloat", .float), ("SFTime", .float),
  ("SFString", .string), ("MFString", .mstring),
  ("MFInt32", .mint .i), ("MFUInt32", .mint .u), ("SFImage", .mint .u),
  ("MFFloat", .mfloat .d), ("MFFloat32", .mfloat .f), ("MFTime", .mfloat .d),
  ("SFVec2f", .vec .f [2]), ("SFVec3f", .vec .f [3]), ("SFVec4f", .vec .f [4]), ("SFRotation", .vec .f [4]),
  ("SFVec2d", .vec .d [2]), ("SFVec3d", .vec .d [3]), ("SFVec4d", .vec .d [4]),
  ("SFMatrix3f", .vec .f [3, 3]), ("SFMatrix4f", .vec .f [4, 4]), ("SFMatrix3d", .vec .d [3, 3]), ("SFMatrix4d", .vec .d [4, 4]),
  ("SFArray", .array .d), ("SFArray32", .array .f),
  ("MFVec2f", .mvec .f [2]), ("MFVec3f", .mvec .f [3]), ("MFVec4f", .mvec .f [4]),
  ("MFVec2d", .mvec .f [2]), ("MFVec3d", .mvec .d [3]), ("MFVec4d", .mvec .d [4]), ("MFRotation", .mvec .d [4]),
  ("MFMatrix3f", .mvec .f [3, 3]), ("MFMatrix4f", .mvec .f [4, 4]), ("MFMatrix3d", .mvec .d [3, 3]), ("MFMatrix4d", .mvec .d [4, 4]),
  ("SFColor", .color), ("MFColor", .mcolor)]

end Verif.Coerce
