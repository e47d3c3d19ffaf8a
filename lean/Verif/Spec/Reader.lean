import Verif.Spec.RoundTrip
/-!
Specification for C69: what a scene that was read from a file always satisfies.
-/
namespace Verif.Lin
open Verif.TextOut Verif.SceneText
variable {F : Type}

/-- Values of a field type: the right sort of value, vectors with the right number of components. -/
def HasType : Kind → Val F → Prop
  | .sfBool, .bool _ => True
  | .sfInt32, .int _ => True
  | .sfFloat, .num _ => True
  | .sfString, .str _ => True
  | .sfVec n, .nums l => l.length = n
  | .mfInt s, .ints l => ∀ n ∈ l, In32 s n
  | .mfFloat, .nums _ => True
  | .mfVec n, .rows l => ∀ r ∈ l, r.length = n
  | .mfString, .strs _ => True
  | .sfNode, .ref _ => True
  | .mfNode, .refs _ => True
  | _, _ => False

/-- The nodes in the default of a field. -/
def FieldDecl.dfltNodes (d : FieldDecl F) : List Nat := (d.dflt.value.map Val.nodes).getD []

/-- The class of a Script: besides the fields common to all Scripts, fields and events of registered types; all names
are distinct. -/
structure ScriptClass (fl : Floats F) (c : Class F) : Prop where
  proto : c.proto = chars "Script"
  fields : ∀ d ∈ c.fields, d ∈ (scriptProto : ProtoDef F).fields.map PField.decl ∨
    (reserved d.name = false ∧ fl.types.field d.cls = some ⟨d.kind, d.str, d.conv⟩)
  events : ∀ e ∈ c.events, reserved e.name = false ∧ fl.types.event e.type = true
  distinct : (c.fields.map FieldDecl.name ++ c.events.map EventDecl.name).Nodup
  mapped : c.mapped = []

/-- A scene without loose ends; `known` are the classes its nodes may have. -/
structure WellFormed (known : Class F → Prop) (sc : Scene F) : Prop where
  /-- every node has a known class -/
  cls : ∀ i n, sc.heap i = some n → known n.cls
  /-- a stored value belongs to a field of the class, has its type, and refers to nodes of the scene -/
  value : ∀ i n f v, sc.heap i = some n → n.dict f = some v →
    ∃ d ∈ n.cls.fields, d.name = f ∧ HasType d.kind v ∧ ∀ j ∈ v.nodes, (sc.heap j).isSome
  /-- the nodes in defaults are nodes of the scene -/
  dflts : ∀ i n, sc.heap i = some n → ∀ d ∈ n.cls.fields, ∀ j ∈ d.dfltNodes, (sc.heap j).isSome
  /-- DEF names are legal -/
  name : ∀ i n, sc.heap i = some n → n.DEF = [] ∨ LegalName n.DEF
  /-- the DEF table knows nodes by their own names -/
  table : ∀ nm i, sc.getDEF nm = some i → ∃ n, sc.heap i = some n ∧ n.DEF = nm
  /-- and under each name the node that was created last -/
  latest : ∀ i n, sc.heap i = some n → n.DEF ≠ [] → ∃ j, i ≤ j ∧ sc.getDEF n.DEF = some j
  children : ∀ i ∈ sc.children, (sc.heap i).isSome
  /-- routes connect named nodes of the scene -/
  routes : ∀ r ∈ sc.routes, (∃ n, sc.heap r.src = some n ∧ LegalName n.DEF) ∧ (∃ n, sc.heap r.dst = some n ∧ LegalName n.DEF) ∧
    LegalName r.srcField ∧ LegalName r.dstField
  /-- IS declarations are for nodes of the scene -/
  is : ∀ dict nm l i f, sc.is = some dict → (nm, l) ∈ dict → (i, f) ∈ l → (sc.heap i).isSome
  /-- the nodes are finitely many -/
  finite : ∃ N, ∀ i, (sc.heap i).isSome ↔ i < N

end Verif.Lin
