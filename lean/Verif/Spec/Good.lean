import Verif.Spec.Accept
/-!
Specification for C90: rules for files with prototypes.

A file that follows these rules is read without an error.  They say, in the order of the file: the type of a node is a prototype declared before it, in the
same file or prototype body or around it, or a built-in type; a value is for a field of the type and is of the field's kind; a name in USE or ROUTE has been
given by DEF before, in the same file or body; `IS` connects a field of a node with a field of the same kind in the interface, or an event with an event; a
ROUTE from a field leads to a field of the same kind.  The rules leave out: PROTO, EXTERNPROTO and ROUTE inside a Script, and nodes as defaults of
interface fields.
-/
namespace Verif.Full
open Verif.Peg Verif.Grammar Verif.TextOut Verif.Lin Verif.Scopes
variable {F : Type}

/-- What the names mean for a type: its fields and events. -/
abbrev Ports (F : Type) := Text → Option (PortKind F)

/-- What has been declared so far in a file, or in the body of a prototype: the names given by DEF, with the fields and events of the nodes, and the prototypes, with their interfaces; the latest first. -/
structure Scope (F : Type) where
  names : List (Text × Ports F)
  protos : List (Text × Ports F)

def Scope.empty : Scope F := ⟨[], []⟩
def Scope.def (s : Scope F) (nm : Text) (p : Ports F) : Scope F := { s with names := (nm, p) :: s.names }
def Scope.proto (s : Scope F) (nm : Text) (p : Ports F) : Scope F := { s with protos := (nm, p) :: s.protos }

/-- The fields and events of the type called `gi`: the innermost prototype of that name, else the built-in type. -/
def typeOf (base : Text → Option (Class F)) (e : List (Scope F)) (gi : Text) : Option (Ports F) :=
  match e.findSome? (fun s => s.protos.lookup gi) with
  | some p => some p
  | none => (base gi).map classPorts

/-- Two fields of the same kind, or two events. -/
def alike : PortKind F → PortKind F → Prop
  | .field k _, .field k' _ => k = k'
  | .event, .event => True
  | _, _ => False

/-- In the body of a prototype with interface `I`, the field or event `nm` of a node with these fields and events may be declared as `nm IS x`. -/
def MayBe (I : Option (Ports F)) (ports : Ports F) (nm x : Text) : Prop :=
  ∃ p a b, I = some p ∧ resolveName p x = some a ∧ resolveName ports nm = some b ∧ alike a b

/-- The field or event `xf` may be routed to `yf`: from a field, only to a field of the same kind. -/
def MayRoute (p : Ports F) (xf : Text) (q : Ports F) (yf : Text) : Prop :=
  ∀ k conv, resolveName p xf = some (.field k conv) → ∃ conv', resolveName q yf = some (.field k conv')

/-- The interface of a prototype: the last declaration of each name; and every prototype has a field `externalURL`, which for an EXTERNPROTO is not a field any
more. -/
def protoPorts (fl : Floats F) (parts : List PTree) (x : Text) : Option (PortKind F) :=
  if x = chars "externalURL" ∧ parts.getLast?.map ParseVal.Tree.tag = some .extProtoURL then none
  else match lastDecl parts x with
    | some (.field _ ty _ _) => (fl.types.field ty).map (fun ft => .field ft.kind ft.conv)
    | some (.event _ _ _) => some .event
    | none => if x = chars "externalURL" then some (.field .mfString id) else none

/-- A default in an interface: text for that kind of field, or NULL. -/
inductive GoodDefault (fl : Floats F) (ft : FieldType F) : PTree → Prop
  | text {m kids v} : (∀ t ∈ kids.head?, nodeEntry t = false) → meant fl ft.kind (.text kids) = some v → accepted ft.kind (some ft.conv) v = true → GoodDefault fl ft (.node .field m kids)
  | null {m a b kids} : ft.kind = .sfNode → GoodDefault fl ft (.node .field m (.node .sfNull a b :: kids))

mutual
/-- there is no PROTO, EXTERNPROTO or ROUTE anywhere in it -/
def calm : PTree → Bool
  | .node t _ kids => !(t == .proto || t == .externProto || t == .route) && allCalm kids
def allCalm : List PTree → Bool
  | [] => true
  | t :: ts => calm t && allCalm ts
end

mutual
/-- an entry of a file or body, or a node; `I` is the interface of the prototype whose body this is in -/
inductive Good (base : Text → Option (Class F)) (fl : Floats F) : Option (Ports F) → PTree → List (Scope F) → List (Scope F) → Prop
  | item {I m kids e e'} : GoodAll base fl I kids e e' → Good base fl I (.node .rootItem m kids) e e'
  | proto {I m nm a rest s e} : coreName nm = false → GoodParts base fl (protoPorts fl rest) rest (s :: e) →
      Good base fl I (.node .proto m (.node .nodegi nm a :: rest)) (s :: e) (s.proto nm (protoPorts fl rest) :: e)
  | externProto {I m nm a rest s e} : coreName nm = false → GoodParts base fl (protoPorts fl rest) rest (s :: e) →
      Good base fl I (.node .externProto m (.node .nodegi nm a :: rest)) (s :: e) (s.proto nm (protoPorts fl rest) :: e)
  | null {I m kids e} : Good base fl I (.node .sfNull m kids) e e
  | use {I nm kids s e p} : s.names.lookup nm = some p → Good base fl I (.node .use nm kids) (s :: e) (s :: e)
  | route {I m x xf y yf a b c d s e p q} : s.names.lookup x = some p → s.names.lookup y = some q → MayRoute p xf q yf →
      Good base fl I (.node .route m [.node .name x a, .node .name xf b, .node .name y c, .node .name yf d]) (s :: e) (s :: e)
  | node {I m gi a rest p e e'} : typeOf base e gi = some p → GoodAttrs base fl I p rest e e' → Good base fl I (.node .node m (.node .nodegi gi a :: rest)) e e'
  | defNode {I m DEF a gi b rest p s e e'} : DEF ≠ [] → typeOf base (s :: e) gi = some p → GoodAttrs base fl I p rest (s.def DEF p :: e) e' →
      Good base fl I (.node .node m (.node .name DEF a :: .node .nodegi gi b :: rest)) (s :: e) e'
  | script {I m rest e e1 e'} : (∀ t ∈ rest.head?, ParseVal.Tree.tag t ≠ .name) → GoodDecls base fl I (scriptPorts fl rest) rest e e1 →
      GoodAttrs base fl I (scriptPorts fl rest) (rest.filter (fun t => ParseVal.Tree.tag t = .attr)) e1 e' → Good base fl I (.node .script m rest) e e'
  | defScript {I m DEF a rest s e e1 e'} : DEF ≠ [] → GoodDecls base fl I (scriptPorts fl rest) rest (s.def DEF (scriptPorts fl rest) :: e) e1 →
      GoodAttrs base fl I (scriptPorts fl rest) (rest.filter (fun t => ParseVal.Tree.tag t = .attr)) e1 e' →
      Good base fl I (.node .script m (.node .name DEF a :: rest)) (s :: e) e'
inductive GoodAll (base : Text → Option (Class F)) (fl : Floats F) : Option (Ports F) → List PTree → List (Scope F) → List (Scope F) → Prop
  | nil {I e} : GoodAll base fl I [] e e
  | cons {I t ts e e1 e'} : Good base fl I t e e1 → GoodAll base fl I ts e1 e' → GoodAll base fl I (t :: ts) e e'
/-- the value of a field, as in `FineValue` -/
inductive GoodValue (base : Text → Option (Class F)) (fl : Floats F) : Option (Ports F) → Kind → Option (F → F) → PTree → List (Scope F) → List (Scope F) → Prop
  | text {I k conv m kids v e} : (∀ t ∈ kids.head?, nodeEntry t = false) → meant fl k (.text kids) = some v → accepted k conv v = true → GoodValue base fl I k conv (.node .field m kids) e e
  | one {I k conv m t kids e e'} : k = .sfNode → nodeEntry t = true → Good base fl I t e e' → GoodValue base fl I k conv (.node .field m (t :: kids)) e e'
  | all {I k conv m t kids e e'} : k ≠ .sfNode → (takes k (t :: kids).length ∨ conv.isNone = true) → (∀ x ∈ t :: kids, nodeEntry x = true) → GoodAll base fl I (t :: kids) e e' →
      GoodValue base fl I k conv (.node .field m (t :: kids)) e e'
/-- what stands in the braces of a node with these fields and events -/
inductive GoodAttrs (base : Text → Option (Class F)) (fl : Floats F) : Option (Ports F) → Ports F → List PTree → List (Scope F) → List (Scope F) → Prop
  | nil {I ports e} : GoodAttrs base fl I ports [] e e
  | is {I ports m nm a x kids ts e e'} : MayBe I ports nm x → GoodAttrs base fl I ports ts e e' →
      GoodAttrs base fl I ports (.node .attr m [.node .name nm a, .node .is x kids] :: ts) e e'
  | attr {I ports m nm a v k conv ts e e1 e'} : resolveName ports nm = some (.field k conv) → GoodValue base fl I k (some conv) v e e1 → GoodAttrs base fl I ports ts e1 e' →
      GoodAttrs base fl I ports (.node .attr m [.node .name nm a, v] :: ts) e e'
  | entry {I ports t ts e e1 e'} : (ParseVal.Tree.tag t = .route ∨ ParseVal.Tree.tag t = .proto ∨ ParseVal.Tree.tag t = .externProto) → Good base fl I t e e1 → GoodAttrs base fl I ports ts e1 e' →
      GoodAttrs base fl I ports (t :: ts) e e'
/-- the declarations in a Script, which has these fields and events when all have been read -/
inductive GoodDecls (base : Text → Option (Class F)) (fl : Floats F) : Option (Ports F) → Ports F → List PTree → List (Scope F) → List (Scope F) → Prop
  | nil {I ports e} : GoodDecls base fl I ports [] e e
  | field {I ports m ex a ty b nm c v ft ts e e1 e'} : fl.types.field ty = some ft → reserved nm = false → calm v = true → GoodValue base fl I ft.kind none v e e1 → GoodDecls base fl I ports ts e1 e' →
      GoodDecls base fl I ports (.node .scriptFieldDecl m [.node .fieldExposure ex a, .node .dataType ty b, .node .name nm c, v] :: ts) e e'
  | fieldIs {I ports m ex a ty b nm c x kids ft ts e e'} : fl.types.field ty = some ft → reserved nm = false → MayBe I ports nm x → GoodDecls base fl I ports ts e e' →
      GoodDecls base fl I ports (.node .scriptFieldDecl m [.node .fieldExposure ex a, .node .dataType ty b, .node .name nm c, .node .is x kids] :: ts) e e'
  | event {I ports m dir a ty b nm c ts e e'} : fl.types.event ty = true → reserved nm = false → nm ≠ chars "externalURL" → GoodDecls base fl I ports ts e e' →
      GoodDecls base fl I ports (.node .scriptEventDecl m [.node .eventDirection dir a, .node .dataType ty b, .node .name nm c] :: ts) e e'
  | eventIs {I ports m dir a ty b nm c x kids more ts e e'} : fl.types.event ty = true → reserved nm = false → nm ≠ chars "externalURL" → MayBe I ports nm x → GoodDecls base fl I ports ts e e' →
      GoodDecls base fl I ports (.node .scriptEventDecl m (.node .eventDirection dir a :: .node .dataType ty b :: .node .name nm c :: .node .is x kids :: more) :: ts) e e'
  | attr {I ports m kids ts e e'} : GoodDecls base fl I ports ts e e' → GoodDecls base fl I ports (.node .attr m kids :: ts) e e'
/-- the interface of a prototype (which is `p` in the end) and its body, or its addresses -/
inductive GoodParts (base : Text → Option (Class F)) (fl : Floats F) : Ports F → List PTree → List (Scope F) → Prop
  | body {p m kids s e} : GoodAll base fl (some p) kids (Scope.empty :: e) (s :: e) → GoodParts base fl p [.node .vrmlScene m kids] e
  | urls {p m kids e} : GoodParts base fl p [.node .extProtoURL m kids] e
  | field {p m ex a ty b nm c v ft ts e} : fl.types.field ty = some ft → reserved nm = false → GoodDefault fl ft v → GoodParts base fl p ts e →
      GoodParts base fl p (.node .fieldDecl m [.node .fieldExposure ex a, .node .dataType ty b, .node .name nm c, v] :: ts) e
  | extField {p m ex a ty b nm c ft ts e} : fl.types.field ty = some ft → reserved nm = false → ts.getLast?.map ParseVal.Tree.tag = some .extProtoURL → GoodParts base fl p ts e →
      GoodParts base fl p (.node .extFieldDecl m [.node .fieldExposure ex a, .node .dataType ty b, .node .name nm c] :: ts) e
  | event {p m dir a ty b nm c ts e} : fl.types.event ty = true → reserved nm = false → nm ≠ chars "externalURL" → GoodParts base fl p ts e →
      GoodParts base fl p (.node .eventDecl m [.node .eventDirection dir a, .node .dataType ty b, .node .name nm c] :: ts) e
end

end Verif.Full
