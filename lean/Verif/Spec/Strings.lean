import Verif.Spec.Nesting
import Verif.Spec.RoundTrip
/-!
Specification for C56: which nodes of a scene are written, and which of them make the text unreadable.
-/
namespace Verif.Lin
open Verif.TextOut
variable {F : Type}

/-- An attribute of node `i` that is written with its value `v`: shown, not declared by a Script, and not equal to its default. -/
structure WrittenAttr (fl : Floats F) (sc : Scene F) (i : Nat) (n : Node F) (d : FieldDecl F) (v : Val F) : Prop where
  mem : d ∈ n.cls.fields
  shown : Shown sc i d
  own : ¬ Declared n.cls d.name
  read : d.read n = some v
  differs : omitted fl d.dflt v = some false

/-- The nodes that are written: the children of the scene, the nodes in attributes that are written, and the nodes in defaults
declared by Scripts. -/
inductive Written (fl : Floats F) (sc : Scene F) : Nat → Prop
  | child {i} : i ∈ sc.children → Written fl sc i
  | attr {i n d v j} : Written fl sc i → sc.heap i = some n → WrittenAttr fl sc i n d v → j ∈ v.nodes → Written fl sc j
  | decl {i n d v j} : Written fl sc i → sc.heap i = some n → d ∈ n.cls.fields → Visible d → Declared n.cls d.name →
      d.default = some v → j ∈ v.nodes → Written fl sc j

/-- Node `i` has a string-list attribute that is written and is not empty. -/
def HasStrings (fl : Floats F) (sc : Scene F) (i : Nat) : Prop :=
  ∃ n d s l, sc.heap i = some n ∧ WrittenAttr fl sc i n d (.strs (s :: l))

/-- No brackets, quotes or comments in a name. -/
def Clean (t : Text) : Prop := ∀ c ∈ t, c ≠ '[' ∧ c ≠ ']' ∧ c ≠ '"' ∧ c ≠ '#'

/-- Names and number texts are clean. -/
structure CleanNode (n : Node F) : Prop where
  proto : Clean n.cls.proto
  DEF : Clean n.DEF
  fields : ∀ d ∈ n.cls.fields, Clean d.name ∧ Clean d.cls ∧ ∀ x, Clean (d.str x)
  events : ∀ e ∈ n.cls.events, Clean e.name ∧ Clean e.type

structure CleanScene (sc : Scene F) : Prop where
  nodes : ∀ i n, sc.heap i = some n → CleanNode n
  routes : ∀ r ∈ sc.routes, Clean r.srcField ∧ Clean r.dstField
  is : ∀ i f nm, IsMapped sc i f nm → Clean nm

end Verif.Lin
