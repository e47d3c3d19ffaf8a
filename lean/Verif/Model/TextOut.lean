/-
Text forms of field values: the `vrmlstr` functions of /repo/vrml/fieldtypes.py.
Python strings are lists of characters; `str(x)` of a number is given as a text (floats) or computed (integers).
-/
namespace Verif.TextOut

abbrev Text := List Char

/-- The formatting options, linearise.py:14-26 (`'EndComments'` may be absent, as in `minimal1`). -/
structure LinValues where
  subelspacer : Text
  courtesyspace : Text
  curindent : Text
  indent : Text
  numsep : Text
  fullSep : Text
  mffieldsep : Text
  endComments : Option Nat

/-- linearise.py:14-26 -/
def defaults : LinValues :=
  { subelspacer := [',', ' '], courtesyspace := [' '], curindent := [], indent := ['\t'], numsep := [','],
    fullSep := ['\n'], mffieldsep := ['\n'], endComments := some 10 }

/-- linearise.py:27-35 -/
def minimal1 : LinValues :=
  { subelspacer := [',', ' '], courtesyspace := [], curindent := [], indent := [' ', ' '], numsep := [' '],
    fullSep := ['\n'], mffieldsep := [' '], endComments := none }

/-- Python `s.split(c)` for a one-character separator. -/
def pySplit (c : Char) : Text → List Text
  | [] => [[]]
  | d :: s => if d = c then [] :: pySplit c s else
    match pySplit c s with
    | [] => [[d]]
    | w :: ws => (d :: w) :: ws

/-- Python `sep.join(l)`. -/
def pyJoin (sep : Text) : List Text → Text
  | [] => []
  | [a] => a
  | a :: l => a ++ (sep ++ pyJoin sep l)

/-- `SFString_vrmlstr`, fieldtypes.py:72-74 -/
def sfStringStr (value : Text) : Text :=
  ['"'] ++ pyJoin ['\\', '"'] (pySplit '"' (pyJoin ['\\', '\\'] (pySplit '\\' value))) ++ ['"']

/-- `MFString_vrmlstr`, fieldtypes.py:77-100.  In the long layout the loop appends the separator before an
element whenever `result` is not empty: before every element when there is an opening bracket, before none
when there is a single element. -/
def mfStringStr (lv : LinValues) (value : List Text) : Text :=
  if value = [] then ['[', ' ', ']'] else
  let anyobject := value.map sfStringStr
  let length := (anyobject.map List.length).sum
  if length > 60 then
    let sep := lv.subelspacer ++ ['\n'] ++ lv.curindent ++ lv.indent
    if anyobject.length > 1 then
      ['['] ++ (anyobject.map (fun el => sep ++ el)).flatten ++ (['\n'] ++ lv.curindent ++ [']', '\n'])
    else anyobject.flatten
  else if anyobject.length > 1 then ['[', ' '] ++ pyJoin lv.subelspacer anyobject ++ [' ', ']']
  else pyJoin lv.subelspacer anyobject

/-- `SFFloat_vrmlstr`, fieldtypes.py:103-115; the argument is `str(value)`. -/
def sfFloatStr (rpr : Text) : Text :=
  if rpr = ['0', '.', '0'] then ['0']
  else if rpr.take 2 = ['0', '.'] then rpr.drop 1
  else if rpr.take 3 = ['-', '0', '.'] then ['-'] ++ rpr.drop 2
  else if rpr.drop (rpr.length - 2) = ['.', '0'] then rpr.take (rpr.length - 2)
  else rpr

/-- The chunking loops `while l: out.append(sep.join(l[:n])); del l[:n]` of fieldtypes.py:123-126 and 703-705.
With `n = 0` the loop never ends: `none`. -/
def chunkJoin (n : Nat) (sep : Text) (l : List Text) : Option (List Text) :=
  match l with
  | [] => some []
  | a :: l' =>
    match n with
    | 0 => none
    | m + 1 =>
      match chunkJoin (m + 1) sep (l'.drop m) with
      | some rest => some (pyJoin sep ((a :: l').take (m + 1)) :: rest)
      | none => none
termination_by l.length
decreasing_by simp; omega

/-- `MFSimple_vrmlstr`, fieldtypes.py:118-127; the argument is `[str(obj) for obj in value]`. -/
def mfSimpleStr (lv : LinValues) (stringreps : List Text) : Option Text :=
  match chunkJoin 100 lv.numsep stringreps with
  | some stringsets => some (['[', ' '] ++ pyJoin ['\n'] stringsets ++ [' ', ']'])
  | none => none

/-- `_SFVec.vrmlstr`, fieldtypes.py:553-557; the argument is the texts `str(obj)` of the components. -/
def sfVecStr (lv : LinValues) (value : List Text) : Text := pyJoin lv.numsep (value.map sfFloatStr)

/-- `_MFVec.vrmlstr`, fieldtypes.py:683-706; the argument is the texts of the components of each row (`ravel`ed),
`length` the number of components of a row. -/
def mfVecStr (lv : LinValues) (length : Nat) (value : List (List Text)) : Option Text :=
  if value = [] then some ['[', ' ', ']'] else
  let sets := value.map (pyJoin lv.numsep)
  let setLength := 100 / length
  if sets.length < setLength then some (['['] ++ pyJoin lv.subelspacer sets ++ [']'])
  else match chunkJoin setLength lv.subelspacer sets with
    | some stringsets2 => some (['['] ++ pyJoin ['\n'] stringsets2 ++ [']'])
    | none => none

/-- `_SFBool.vrmlstr`, fieldtypes.py:273-278 -/
def sfBoolStr (value : Bool) : Text := if value then ['T', 'R', 'U', 'E'] else ['F', 'A', 'L', 'S', 'E']

/-- one decimal digit -/
def digitChar (d : Nat) : Char := Char.ofNat (48 + d)

/-- Python `str(n)` of a natural number -/
def natStr (n : Nat) : Text :=
  if n < 10 then [digitChar n] else natStr (n / 10) ++ [digitChar (n % 10)]
termination_by n
decreasing_by omega

/-- Python `str(n)` of an integer -/
def intStr (n : Int) : Text := if n < 0 then '-' :: natStr n.natAbs else natStr n.natAbs

/-- `_SFInt32.vrmlstr` and `_SFUInt32.vrmlstr`, fieldtypes.py:305-313, 338-343 (Python 3: `int(value)` of an
integer does not overflow and its text does not end in `L`). -/
def sfInt32Str (value : Int) : Text := intStr value

end Verif.TextOut
