import Verif.Model.X3D
/-!
Specification for C70: VRML97 files in the clothes of X3D.
-/
namespace Verif.X3D
open Verif.Peg Verif.Grammar Verif.TextOut

/-- The words that are new in X3D: exposures of fields and directions of events. -/
def newWords : List (List Char) := [chars "inputOutput", chars "initializeOnly", chars "inputOnly", chars "outputOnly"]

/-- None of the new words occurs anywhere in the text. -/
def NoNew (text : List Char) : Prop := ∀ w ∈ newWords, ¬ w <:+: text

mutual
/-- No list of numbers within a list. -/
def noVec : Tree NT → Bool
  | .node n _ ts => n != .vector && noVecs ts
def noVecs : List (Tree NT) → Bool
  | [] => true
  | t :: ts => noVec t && noVecs ts
end

/-- The VRML97 file contains no list of numbers within a list. -/
def PlainLists (text : List Char) : Prop := ∀ ts m, Der gram (gram .vrmlFile) text (.ok ts m []) → noVecs ts = true

/-- The two lines before the scene: a comment and the profile. -/
def x3dHeader (comment profile : List Char) : List Char :=
  ['#'] ++ comment ++ ['\n'] ++ chars "PROFILE " ++ profile ++ ['\n']

/-- The first line does not look like `#X3D` with a bare number: either it is another comment, or it is `#X3D V...`. -/
def GoodComment (comment : List Char) : Prop :=
  '\n' ∉ comment ∧ '\r' ∉ comment ∧ (¬ chars "X3D" <+: comment ∨ chars "X3D V" <+: comment)

end Verif.X3D
