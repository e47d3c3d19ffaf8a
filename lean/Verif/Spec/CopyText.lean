import Verif.Model.CopyText
import Verif.Spec.RoundTrip
/-!
Specification for C89: which nodes are found below a node.
-/
namespace Verif.Lin
open Verif.TextOut
variable {F : Type}

/-- Node `j` is the value, or in the value or default, of one of the fields of `n` that appear in files. -/
def Refs (n : Node F) (j : Nat) : Prop :=
  ∃ d ∈ n.cls.fields, shownName d.name = true ∧ ∃ v, (d.read n = some v ∨ d.default = some v) ∧ j ∈ v.nodes

/-- Node `j` is below node `i`. -/
inductive Below (nodes : Nat → Option (Node F)) : Nat → Nat → Prop
  | one {i j n} : nodes i = some n → Refs n j → Below nodes i j
  | more {i j k n} : nodes i = some n → Refs n j → Below nodes j k → Below nodes i k

end Verif.Lin
