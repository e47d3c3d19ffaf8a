import Verif.Spec.Content
/-!
Specification for C80: which files without prototypes are read.

`Fine` are the rules for such a file: every node has a built-in type, every attribute is for a field of the type and has a value for it, every name in USE
and ROUTE has been given by DEF before.  The lists are the names given so far.
-/
namespace Verif.Full
open Verif.Peg Verif.Grammar Verif.TextOut Verif.Lin Verif.Scopes
variable {F : Type}

/-- What a name stands for in a type: a field, with its kind and the conversion of numbers, or an event. -/
inductive PortKind (F : Type)
  | field (k : Kind) (conv : F → F)
  | event

def portKind : FieldDecl F ⊕ EventDecl → PortKind F
  | .inl d => .field d.kind d.conv
  | .inr _ => .event

/-- The fields and events of a class. -/
def classPorts (c : Class F) (x : Text) : Option (PortKind F) := (c.port x).map portKind

/-- The fields and events of a Script with these items: those of the last declarations, else those of every Script. -/
def scriptPorts (fl : Floats F) (items : List PTree) (x : Text) : Option (PortKind F) :=
  match lastItem items x with
  | none => classPorts (scriptProto : ProtoDef F).cls x
  | some (.field _ ty _ _) => (fl.types.field ty).map (fun ft => .field ft.kind ft.conv)
  | some (.event _ _ _) => some .event

/-- A value is accepted: by a field, if it can be coerced; as a declared value (no `conv`), always. -/
def accepted (k : Kind) (conv : Option (F → F)) (v : Val F) : Bool :=
  match conv with
  | some c => (coerce k c v).isSome
  | none => true

/-- Kinds of fields, other than SFNode, that take a list of `n` nodes: MFNode; but also SFBool, for which it is TRUE, and fields of strings, which get the
texts of the nodes. -/
def takes (k : Kind) (n : Nat) : Prop := k = .mfNode ∨ k = .sfBool ∨ k = .mfString ∨ k = .sfString ∧ n = 1

mutual
inductive Fine (base : Text → Option (Class F)) (fl : Floats F) : PTree → List Text → List Text → Prop
  | item {m kids s s'} : FineAll base fl kids s s' → Fine base fl (.node .rootItem m kids) s s'
  | null {m kids s} : Fine base fl (.node .sfNull m kids) s s
  | use {nm kids s} : nm ∈ s → Fine base fl (.node .use nm kids) s s
  | route {m x xf y yf a c d e s} : x ∈ s → y ∈ s → Fine base fl (.node .route m [.node .name x a, .node .name xf c, .node .name y d, .node .name yf e]) s s
  | node {m gi a rest c s s'} : base gi = some c → FineAttrs base fl (classPorts c) rest s s' → Fine base fl (.node .node m (.node .nodegi gi a :: rest)) s s'
  | defNode {m DEF a gi b rest c s s'} : base gi = some c → FineAttrs base fl (classPorts c) rest (DEF :: s) s' →
      Fine base fl (.node .node m (.node .name DEF a :: .node .nodegi gi b :: rest)) s s'
  | script {m rest s s1 s'} : (∀ t ∈ rest.head?, ParseVal.Tree.tag t ≠ .name) → FineDecls base fl rest s s1 → FineLater base fl (scriptPorts fl rest) rest s1 s' → Fine base fl (.node .script m rest) s s'
  | defScript {m DEF a rest s s1 s'} : FineDecls base fl rest (DEF :: s) s1 → FineLater base fl (scriptPorts fl rest) rest s1 s' →
      Fine base fl (.node .script m (.node .name DEF a :: rest)) s s'
inductive FineAll (base : Text → Option (Class F)) (fl : Floats F) : List PTree → List Text → List Text → Prop
  | nil {s} : FineAll base fl [] s s
  | cons {t ts s s1 s'} : Fine base fl t s s1 → FineAll base fl ts s1 s' → FineAll base fl (t :: ts) s s'
/-- the value of a field: text that can be read as a value of that kind and is accepted; a node (only the first counts), for SFNode; nodes, for the
kinds that take them (for a declared value, nodes are let pass for all types) -/
inductive FineValue (base : Text → Option (Class F)) (fl : Floats F) : Kind → Option (F → F) → PTree → List Text → List Text → Prop
  | text {k conv m kids v s} : (∀ t ∈ kids.head?, nodeEntry t = false) → meant fl k (.text kids) = some v → accepted k conv v = true → FineValue base fl k conv (.node .field m kids) s s
  | one {k conv m t kids s s'} : k = .sfNode → nodeEntry t = true → Fine base fl t s s' → FineValue base fl k conv (.node .field m (t :: kids)) s s'
  | all {k conv m t kids s s'} : (takes k (t :: kids).length ∨ conv.isNone = true ∧ k ≠ .sfNode) → (∀ x ∈ t :: kids, nodeEntry x = true) → FineAll base fl (t :: kids) s s' →
      FineValue base fl k conv (.node .field m (t :: kids)) s s'
/-- what stands in a node: values of fields, and ROUTEs -/
inductive FineAttrs (base : Text → Option (Class F)) (fl : Floats F) : (Text → Option (PortKind F)) → List PTree → List Text → List Text → Prop
  | nil {ports s} : FineAttrs base fl ports [] s s
  | attr {ports m nm a v k conv ts s s1 s'} : resolveName ports nm = some (.field k conv) → FineValue base fl k (some conv) v s s1 → FineAttrs base fl ports ts s1 s' →
      FineAttrs base fl ports (.node .attr m [.node .name nm a, v] :: ts) s s'
  | route {ports m kids ts s s1 s'} : Fine base fl (.node .route m kids) s s1 → FineAttrs base fl ports ts s1 s' → FineAttrs base fl ports (.node .route m kids :: ts) s s'
/-- the declarations in a Script; values of its fields are read later -/
inductive FineDecls (base : Text → Option (Class F)) (fl : Floats F) : List PTree → List Text → List Text → Prop
  | nil {s} : FineDecls base fl [] s s
  | field {m ex a ty b nm c v ft ts s s1 s'} : fl.types.field ty = some ft → reserved nm = false → FineValue base fl ft.kind none v s s1 → FineDecls base fl ts s1 s' →
      FineDecls base fl (.node .scriptFieldDecl m [.node .fieldExposure ex a, .node .dataType ty b, .node .name nm c, v] :: ts) s s'
  | event {m dir a ty b nm c ts s s'} : fl.types.event ty = true → reserved nm = false → nm ≠ chars "externalURL" → FineDecls base fl ts s s' →
      FineDecls base fl (.node .scriptEventDecl m [.node .eventDirection dir a, .node .dataType ty b, .node .name nm c] :: ts) s s'
  | attr {m kids ts s s'} : FineDecls base fl ts s s' → FineDecls base fl (.node .attr m kids :: ts) s s'
  | route {m kids ts s s1 s'} : Fine base fl (.node .route m kids) s s1 → FineDecls base fl ts s1 s' → FineDecls base fl (.node .route m kids :: ts) s s'
/-- the values of a Script's fields -/
inductive FineLater (base : Text → Option (Class F)) (fl : Floats F) : (Text → Option (PortKind F)) → List PTree → List Text → List Text → Prop
  | nil {ports s} : FineLater base fl ports [] s s
  | attr {ports m nm a v k conv ts s s1 s'} : resolveName ports nm = some (.field k conv) → FineValue base fl k (some conv) v s s1 → FineLater base fl ports ts s1 s' →
      FineLater base fl ports (.node .attr m [.node .name nm a, v] :: ts) s s'
  | other {ports t ts s s'} : ParseVal.Tree.tag t ≠ .attr → FineLater base fl ports ts s s' → FineLater base fl ports (t :: ts) s s'
end

mutual
/-- no PROTO or EXTERNPROTO stands in it -/
def noProtos : PTree → Bool
  | .node t _ kids => t != .proto && t != .externProto && noProtosAll kids
def noProtosAll : List PTree → Bool
  | [] => true
  | t :: ts => noProtos t && noProtosAll ts
end

end Verif.Full
