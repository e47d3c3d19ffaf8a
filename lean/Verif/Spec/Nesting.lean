import Verif.Model.TextOut
/-!
Specification for C72 and C56: nesting of brackets and braces in a text.  A text is read character by character; a string is
between double quotes (a backslash in it hides the next character), a comment is from `#` to the end of the line; brackets and
braces count outside strings and comments only.
Nothing here refers to the parser or the writer.
-/
namespace Verif.Nesting
open Verif.TextOut

inductive Mode
  | plain | string | escape | comment
deriving DecidableEq, Repr

def modeStep : Mode → Char → Mode
  | .plain, c => if c = '"' then .string else if c = '#' then .comment else .plain
  | .string, c => if c = '"' then .plain else if c = '\\' then .escape else .string
  | .escape, _ => .string
  | .comment, c => if c = '\n' then .plain else .comment

/-- Where we are after `t`. -/
def mode (m : Mode) (t : Text) : Mode := t.foldl modeStep m

/-- The brackets and braces that are open, as the characters that close them, innermost first. -/
def stackStep : Mode → List Char → Char → Option (List Char)
  | .plain, s, c =>
    if c = '[' then some (']' :: s) else if c = '{' then some ('}' :: s)
    else if c = ']' ∨ c = '}' then (match s with
      | d :: s => if d = c then some s else none
      | [] => none)
    else some s
  | _, s, _ => some s

/-- What is open after `t`; none if something is closed that is not open. -/
def nest : Mode → List Char → Text → Option (List Char)
  | _, s, [] => some s
  | m, s, c :: t => (stackStep m s c).bind (fun s => nest (modeStep m c) s t)

/-- Brackets and braces are properly nested, strings and comments are ended. -/
def Nested (t : Text) : Prop := mode .plain t = .plain ∧ nest .plain [] t = some []

/-- `w` occurs outside strings and comments. -/
def Occurs (w t : Text) : Prop := ∃ pre suf, t = pre ++ (w ++ suf) ∧ mode .plain pre = .plain

end Verif.Nesting
