import Verif.Props.Grammar
import Verif.Model.Lineariser
/-!
Specification for C07 on whole files: two texts that differ in layout only.
`Ignorable` (Props/Grammar) is text without meaning: blanks, commas and complete comments.
-/
namespace Verif.Layout
open Verif.Grammar

/-- Characters that end a word: blanks, commas, the start of a comment or string, brackets and braces. -/
def specials : List Char := [' ', ',', '\t', '\n', '\x0b', '\x0c', '\r', '#', '"', '[', ']', '{', '}']

/-- The inside of a string: characters other than quote and backslash, and backslashes followed by any character. -/
inductive StrBody : List Char → Prop
  | nil : StrBody []
  | plain {c s} : c ≠ '"' → c ≠ '\\' → StrBody s → StrBody (c :: s)
  | escaped {c s} : StrBody s → StrBody ('\\' :: c :: s)

/-- Something that stands for itself, with or without layout around it: a bracket, a brace, a string. -/
inductive Mark : List Char → Prop
  | bracket {c} : c ∈ ['[', ']', '{', '}'] → Mark [c]
  | string {s} : StrBody s → Mark ('"' :: (s ++ ['"']))

/-- The two texts consist of the same words, brackets, braces and strings; they differ at most in the ignorable text
between them.  Where there is some between two words there must be some in the other text too; around brackets,
braces and strings, and at the end of the text, it may be missing in one of them. -/
inductive SameTokens : List Char → List Char → Prop
  | same (s) : SameTokens s s
  | char {c r r'} : c ∉ specials → SameTokens r r' → SameTokens (c :: r) (c :: r')
  | gap {w w' r r'} : Ignorable w → Ignorable w' → w ≠ [] → w' ≠ [] → SameTokens r r' → SameTokens (w ++ r) (w' ++ r')
  | mark {a a' b b' k r r'} : Mark k → Ignorable a → Ignorable a' → Ignorable b → Ignorable b' → SameTokens r r' →
      SameTokens (a ++ (k ++ (b ++ r))) (a' ++ (k ++ (b' ++ r')))
  | ending {w w'} : Ignorable w → Ignorable w' → SameTokens w w'

/-- Text that is never a number: it contains a bracket, a brace or a capital L (as in NULL). -/
def BadNum (m : List Char) : Prop := '[' ∈ m ∨ '{' ∈ m ∨ 'L' ∈ m

/-- What is assumed of Python's `float()`: it accepts no such text. -/
def PyFloat {F : Type} (fl : Verif.Lin.Floats F) : Prop := ∀ t, BadNum t → fl.parse t = none

end Verif.Layout
