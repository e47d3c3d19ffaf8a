import Verif.Model.Grammar
/-
Values from parse trees: the simple-value functions of /repo/vrml/vrml97/parseprocessor.py:361-441.
-/
namespace Verif.ParseVal
open Verif.Peg Verif.Grammar

abbrev Text := List Char
abbrev PTree := Tree NT

/-- production name of a parse-table entry (`entry[0]`) -/
def Tree.tag : PTree → NT | .node t _ _ => t
/-- text of a parse-table entry (`getString(entry, buffer)` or `buffer[start:stop]`) -/
def Tree.text : PTree → Text | .node _ m _ => m
/-- children of a parse-table entry -/
def Tree.kids : PTree → List PTree | .node _ _ k => k

/-- One element of a string, parseprocessor.py:421-426 and 435-440. -/
def stringPiece : PTree → Text
  | .node .charNoDblQuote m _ => m
  | .node .escapedChar m _ => m.drop 1
  | .node .simpleBackslash _ _ => ['\\']
  | .node _ _ _ => []

/-- The text of one string entry: `"".join(result)` over its sublist. -/
def decodeString (sublist : List PTree) : Text := (sublist.map stringPiece).flatten

/-- `SFString`, parseprocessor.py:430-441; the unpacking of exactly one entry raises otherwise. -/
def sfString : List PTree → Option Text
  | [t] => some (decodeString (Tree.kids t))
  | _ => none

/-- `MFString`, parseprocessor.py:416-428 -/
def mfString (tuples : List PTree) : List Text := tuples.map (fun t => decodeString (Tree.kids t))

/-- `SFBool`, parseprocessor.py:361-364 -/
def sfBool : List PTree → Option Bool
  | [t] => some (Tree.text t == ['T', 'R', 'U', 'E'])
  | _ => none

/-- value of a digit in bases up to 16 -/
def digitVal (c : Char) : Nat :=
  if c.toNat ≤ 57 then c.toNat - 48 else if c.toNat ≤ 70 then c.toNat - 55 else c.toNat - 87

/-- digits, most significant first -/
def digitsVal (base : Nat) (l : Text) : Nat := l.foldl (fun a c => a * base + digitVal c) 0

/-- The unsigned part of `int(text, 0)`.  Of the texts the number rule can match these are accepted: `0x`/`0X`
followed by hexadecimal digits, a decimal number without leading zero, or zeros only (`int("012", 0)` raises).
(`0o`, `0b` and `_` cannot occur: the number rule does not match them.) -/
def natBase0 : Text → Option Nat
  | [] => none
  | c :: s =>
    if c = '0' then
      match s with
      | x :: h => if x = 'x' ∨ x = 'X' then (if h ≠ [] ∧ h.all isHex then some (digitsVal 16 h) else none)
        else if (x :: h).all (· == '0') then some 0 else none
      | [] => some 0
    else if (c :: s).all isDigit then some (digitsVal 10 (c :: s)) else none

/-- Python `int(text, 0)`: an optional single sign, then the unsigned part; `none` is ValueError. -/
def intBase0 : Text → Option Int
  | [] => none
  | c :: s =>
    if c = '-' then (natBase0 s).map (fun n : Nat => -(n : Int))
    else if c = '+' then (natBase0 s).map (fun n : Nat => (n : Int))
    else (natBase0 (c :: s)).map (fun n : Nat => (n : Int))

/-- `SFInt32`, parseprocessor.py:372-374 -/
def sfInt32 : List PTree → Option Int
  | [t] => intBase0 (Tree.text t)
  | _ => none

/-- all or nothing (a raised exception leaves no value) -/
def allSome {α β} (f : α → Option β) : List α → Option (List β)
  | [] => some []
  | a :: l => match f a, allSome f l with
    | some b, some bs => some (b :: bs)
    | _, _ => none

/-- `MFInt32`, `SFImage`, `MFUInt32`, parseprocessor.py:399-409 -/
def mfInt32 (tuples : List PTree) : Option (List Int) := allSome (fun t => intBase0 (Tree.text t)) tuples

/-- `MFFloat`, `MFVec3f`, `SFVec3f`, `SFRotation`, ... parseprocessor.py:376-385, 411-414: the numbers, flat, through
Python's `float` (a parameter). -/
def mfFloat {F} (float : Text → Option F) (tuples : List PTree) : Option (List F) :=
  allSome (fun t => float (Tree.text t)) tuples

/-- `SFFloat`, `SFTime`, parseprocessor.py:366-370 -/
def sfFloat {F} (float : Text → Option F) : List PTree → Option F
  | [t] => float (Tree.text t)
  | _ => none

end Verif.ParseVal
