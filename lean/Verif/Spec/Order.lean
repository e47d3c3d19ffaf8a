import Verif.Model.ProtoText
/-
The order of what is written, independently of the writer's own sorting.
-/
namespace Verif.Lin
open Verif.Peg Verif.Grammar Verif.TextOut
variable {F : Type}

/-- alphabetical order by code points, equal texts included -/
def AlphaLe (s t : Text) : Prop := s = t ∨ List.Lex (fun a b : Char => a.toNat < b.toNat) s t

/-- the order of attributes: by type name, those of one type by name -/
def FieldBefore (a b : FieldDecl F) : Prop := (a.cls ≠ b.cls ∧ AlphaLe a.cls b.cls) ∨ (a.cls = b.cls ∧ AlphaLe a.name b.name)

/-- The same class, except that its fields and events may be declared in another order.  (The names of the fields of a class
are different, and so are those of its events: they are attributes of a Python class.) -/
structure OrderClass (c d : Class F) : Prop where
  proto : d.proto = c.proto
  fields : d.fields.Perm c.fields
  events : d.events.Perm c.events
  exposed : d.exposed.Perm c.exposed
  distinct : (c.fields.map FieldDecl.name).Nodup
  distinctEvents : (c.events.map EventDecl.name).Nodup

/-- The same scene, except for the order of declarations in the classes of its nodes. -/
structure OrderScene (a b : Scene F) : Prop where
  children : b.children = a.children
  routes : b.routes = a.routes
  defs : b.defs = a.defs
  is : b.is = a.is
  node : ∀ i, (a.heap i = none ∧ b.heap i = none) ∨
    ∃ n m, a.heap i = some n ∧ b.heap i = some m ∧ m.DEF = n.DEF ∧ m.dict = n.dict ∧ OrderClass n.cls m.cls

/-- The same prototype, except for the order of the declarations in its interface and in the classes of the nodes of its
body. -/
structure OrderProto (p q : ProtoDef F) : Prop where
  name : q.name = p.name
  fields : q.fields.Perm p.fields
  events : q.events.Perm p.events
  url : q.url = p.url
  free : q.free = p.free
  body : (p.body = none ∧ q.body = none) ∨ ∃ a b, p.body = some a ∧ q.body = some b ∧ OrderScene a b
  distinct : (p.fields.map (fun f => f.decl.name)).Nodup
  distinctEvents : (p.events.map EventDecl.name).Nodup

/-- The same file, except for the order of declarations. -/
structure OrderFile (f g : File F) : Prop where
  scene : OrderScene f.scene g.scene
  protos : ∀ x, (f.protos x = none ∧ g.protos x = none) ∨ ∃ p q, f.protos x = some p ∧ g.protos x = some q ∧ OrderProto p q
  free : g.free = f.free

/-- One attribute in the text: the field, what stands before its name, what stands after it and the text of its value. -/
structure Piece (F : Type) where
  field : FieldDecl F
  before : Text
  after : Text
  value : List Chunk

def Piece.chunks (p : Piece F) : List Chunk := Chunk.text (p.before ++ p.field.name ++ p.after) :: p.value

/-- the fields of a node that are written as its attributes: its fields with a name that is shown (of a Script, only `url`,
`mustEvaluate` and `directOutput`) that are bound to the interface or not left out as equal to the default -/
def WrittenField (fl : Floats F) (sc : Scene F) (i : Nat) (n : Node F) (d : FieldDecl F) : Prop :=
  d ∈ n.cls.fields ∧ (if n.cls.proto = scriptName then d.name ∈ scriptAttrs else d.name ≠ [] ∧ d.name.head? ≠ some ' ') ∧
    ((sc.isOf i d.name).isSome ∨ ∃ v, d.read n = some v ∧ omitted fl d.dflt v = some false)

end Verif.Lin
