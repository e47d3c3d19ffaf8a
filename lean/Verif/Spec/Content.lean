import Verif.Spec.Interface
import Verif.Spec.Links
/-!
Specification for C78 and C79: what a file says about its nodes.

Reading a file from its beginning, every node gets the next number; with the scopes of names (`Spec/Scopes`) the nodes
that stand as values, or are named by USE, have numbers too.  What the file says is then a list of statements: this field of this node
has this value, this node stands at the top of this scene, and so on.
-/
namespace Verif.Scopes
open Verif.Peg Verif.Grammar Verif.TextOut

/-- A value, as written: text without nodes; one node (or NULL); several nodes. -/
inductive Given
  | text (kids : List (Tree NT))
  | one (o : Option Nat)
  | all (l : List (Option Nat))

/-- A statement. -/
inductive Said
  /-- field `name` of node `i` has this value -/
  | value (i : Nat) (name : Text) (g : Given)
  /-- `IS`: field or event `field` of node `i` is mapped to `name` in the interface of prototype `k` -/
  | is (k : Nat) (name : Text) (i : Nat) (field : Text)
  /-- node `i` stands at the top of scene `s` -/
  | child (s i : Nat)
  /-- node `i` is a Script with these items -/
  | script (i : Nat) (items : List (Tree NT))
  /-- field `name` of prototype `k` is declared, with this default (`none`: without one) -/
  | dflt (k : Nat) (name : Text) (g : Option Given)
  /-- field `name` of Script `i` is declared, with this value (`none`: with IS) -/
  | own (i : Nat) (name : Text) (g : Option Given)

/-- The scene we are in. -/
def Names.here (s : Names) : Nat := (s.around.headD ⟨0, [], [], []⟩).scene

/-- A place where DEF names are used; if `names` is false, DEF names are not followed. -/
def Names.look (s : Names) (names : Bool) (nm : Text) (i : Nat) : Prop := names = true → s.named nm = some i

mutual
/-- `Tells b names cur t s l r s'`: between the scopes `s` and `s'`, inside node `cur`, the entry `t` of the parse tree makes the statements `l`; what stands
there is `r`: nothing, NULL, or a node.  `b` are the built-in types. -/
inductive Tells (b : Text → Bool) (names : Bool) : Option Nat → Tree NT → Names → List Said → Option (Option Nat) → Names → Prop
  | item {cur m kids s l rs s'} : TellsAll b names cur kids s l rs s' →
      Tells b names cur (.node .rootItem m kids) s (l ++ (rs.filterMap Option.join).map (Said.child s'.here)) none s'
  | proto {cur m nm a rest s s1 l s2 s'} : s.step b (.proto rest) = some s1 → TellsParts b names s.nprotos rest s1 l s2 → s2.step b (.endProto nm) = some s' →
      Tells b names cur (.node .proto m (.node .nodegi nm a :: rest)) s l none s'
  | extern {cur m nm a rest s s1 l s2 s'} : s.step b (.proto rest) = some s1 → TellsParts b names s.nprotos rest s1 l s2 → s2.step b (.endProto nm) = some s' →
      Tells b names cur (.node .externProto m (.node .nodegi nm a :: rest)) s l none s'
  | node {cur m gi a rest s s1 l rs s'} : s.step b (.node gi []) = some s1 → TellsAll b names (some s.nodes.length) rest s1 l rs s' →
      Tells b names cur (.node .node m (.node .nodegi gi a :: rest)) s l (some (some s.nodes.length)) s'
  | defNode {cur m DEF a gi c rest s s1 l rs s'} : s.step b (.node gi DEF) = some s1 → TellsAll b names (some s.nodes.length) rest s1 l rs s' →
      Tells b names cur (.node .node m (.node .name DEF a :: .node .nodegi gi c :: rest)) s l (some (some s.nodes.length)) s'
  | script {cur m rest s s1 l l1 s2 l' s'} : s.step b (.script []) = some s1 → TellsDecls b names s.nodes.length rest s1 l l1 s2 → TellsAttrs b names s.nodes.length rest s2 l' s' →
      Tells b names cur (.node .script m rest) s (l ++ l1 ++ .script s.nodes.length rest :: l') (some (some s.nodes.length)) s'
  | defScript {cur m DEF a rest s s1 l l1 s2 l' s'} : s.step b (.script DEF) = some s1 → TellsDecls b names s.nodes.length rest s1 l l1 s2 → TellsAttrs b names s.nodes.length rest s2 l' s' →
      Tells b names cur (.node .script m (.node .name DEF a :: rest)) s (l ++ l1 ++ .script s.nodes.length rest :: l') (some (some s.nodes.length)) s'
  | null {cur m kids s} : Tells b names cur (.node .sfNull m kids) s [] (some none) s
  | use {cur nm kids s i} : s.look names nm i → Tells b names cur (.node .use nm kids) s [] (some (some i)) s
  | route {cur m x xf y yf a c d e s s'} : (if names then s.step b (.route x xf y yf) else some s) = some s' →
      Tells b names cur (.node .route m [.node .name x a, .node .name xf c, .node .name y d, .node .name yf e]) s [] none s'
  | isAttr {i m nm a x kids k s} : s.pending.head? = some k → Tells b names (some i) (.node .attr m [.node .name nm a, .node .is x kids]) s [.is k x i nm] none s
  | attr {i m nm a v s l g s'} : TellsValue b names v s l g s' → Tells b names (some i) (.node .attr m [.node .name nm a, v]) s (l ++ [.value i nm g]) none s'
/-- entries in order -/
inductive TellsAll (b : Text → Bool) (names : Bool) : Option Nat → List (Tree NT) → Names → List Said → List (Option (Option Nat)) → Names → Prop
  | nil {cur s} : TellsAll b names cur [] s [] [] s
  | cons {cur t ts s l r s1 l' rs s'} : Tells b names cur t s l r s1 → TellsAll b names cur ts s1 l' rs s' → TellsAll b names cur (t :: ts) s (l ++ l') (r :: rs) s'
/-- the value of a field: of several nodes, all are read or (if the field holds a single node) only the first -/
inductive TellsValue (b : Text → Bool) (names : Bool) : Tree NT → Names → List Said → Given → Names → Prop
  | text {m kids s} : (∀ t ∈ kids.head?, nodeEntry t = false) → TellsValue b names (.node .field m kids) s [] (.text kids) s
  | one {m t kids s l o s'} : nodeEntry t = true → Tells b names none t s l (some o) s' → TellsValue b names (.node .field m (t :: kids)) s l (.one o) s'
  | all {m t kids s l os s'} : nodeEntry t = true → TellsAll b names none (t :: kids) s l (os.map some) s' → TellsValue b names (.node .field m (t :: kids)) s l (.all os) s'
/-- the interface of prototype `k`, and its body -/
inductive TellsParts (b : Text → Bool) (names : Bool) : Nat → List (Tree NT) → Names → List Said → Names → Prop
  | body {k m kids s s1 l rs s2 s'} : s.step b .openBody = some s1 → TellsAll b names none kids s1 l rs s2 → s2.step b .closeBody = some s' →
      TellsParts b names k [.node .vrmlScene m kids] s l s'
  | urls {k m kids s} : TellsParts b names k [.node .extProtoURL m kids] s [] s
  | field {k m a c nm d v ts s l g s1 l' s'} : TellsValue b names v s l g s1 → TellsParts b names k ts s1 l' s' →
      TellsParts b names k (.node .fieldDecl m [a, c, .node .name nm d, v] :: ts) s (l ++ .dflt k nm (some g) :: l') s'
  | extField {k m a c nm d ts s l s'} : TellsParts b names k ts s l s' →
      TellsParts b names k (.node .extFieldDecl m [a, c, .node .name nm d] :: ts) s (.dflt k nm none :: l) s'
  | event {k m kids ts s l s'} : TellsParts b names k ts s l s' → TellsParts b names k (.node .eventDecl m kids :: ts) s l s'
/-- the items of Script `i` except attributes: they are read first.  The second list are the IS, which count as said after all the others. -/
inductive TellsDecls (b : Text → Bool) (names : Bool) : Nat → List (Tree NT) → Names → List Said → List Said → Names → Prop
  | nil {i s} : TellsDecls b names i [] s [] [] s
  | field {i m a c nm d v ts s l g s1 l' l1 s'} : TellsValue b names v s l g s1 → TellsDecls b names i ts s1 l' l1 s' →
      TellsDecls b names i (.node .scriptFieldDecl m [a, c, .node .name nm d, v] :: ts) s (l ++ .own i nm (some g) :: l') l1 s'
  | isField {i m a c nm d x kids ts s k l l1 s'} : s.pending.head? = some k → TellsDecls b names i ts s l l1 s' →
      TellsDecls b names i (.node .scriptFieldDecl m [a, c, .node .name nm d, .node .is x kids] :: ts) s (.own i nm none :: l) (.is k x i nm :: l1) s'
  | event {i m a c nm d ts s l l1 s'} : TellsDecls b names i ts s l l1 s' →
      TellsDecls b names i (.node .scriptEventDecl m [a, c, .node .name nm d] :: ts) s l l1 s'
  | isEvent {i m a c nm d x kids rest ts s k l l1 s'} : s.pending.head? = some k → TellsDecls b names i ts s l l1 s' →
      TellsDecls b names i (.node .scriptEventDecl m (a :: c :: .node .name nm d :: .node .is x kids :: rest) :: ts) s l (.is k x i nm :: l1) s'
  | attr {i m kids ts s l l1 s'} : TellsDecls b names i ts s l l1 s' → TellsDecls b names i (.node .attr m kids :: ts) s l l1 s'
  | other {i m kids t ts s l s1 l' l1 s'} : t = .proto ∨ t = .externProto ∨ t = .route → Tells b names none (.node t m kids) s l none s1 → TellsDecls b names i ts s1 l' l1 s' →
      TellsDecls b names i (.node t m kids :: ts) s (l ++ l') l1 s'
/-- the attributes of Script `i`: they are read last -/
inductive TellsAttrs (b : Text → Bool) (names : Bool) : Nat → List (Tree NT) → Names → List Said → Names → Prop
  | nil {i s} : TellsAttrs b names i [] s [] s
  | attr {i m kids ts s l r s1 l' s'} : Tells b names (some i) (.node .attr m kids) s l r s1 → TellsAttrs b names i ts s1 l' s' →
      TellsAttrs b names i (.node .attr m kids :: ts) s (l ++ l') s'
  | other {i t ts s l s'} : (∀ m kids, t ≠ .node .attr m kids) → TellsAttrs b names i ts s l s' → TellsAttrs b names i (t :: ts) s l s'
end

/-- The nodes at the top of scene `s`. -/
def childrenIn (s : Nat) (log : List Said) : List Nat := log.filterMap (fun e => match e with | .child t i => if t = s then some i else none | _ => none)

/-- What prototype `k` maps to `name` of its interface. -/
def mappedTo (k : Nat) (name : Text) (log : List Said) : List (Nat × Text) :=
  log.filterMap (fun e => match e with | .is k' nm i f => if k' = k ∧ nm = name then some (i, f) else none | _ => none)

/-- The default that is said last for field `name` of prototype `k`, and the value for field `name` of Script `i`. -/
def lastDflt (k : Nat) (name : Text) (log : List Said) : Option (Option Given) :=
  (log.filterMap (fun e => match e with | .dflt k' nm g => if k' = k ∧ nm = name then some g else none | _ => none)).getLast?
def lastOwn (i : Nat) (name : Text) (log : List Said) : Option (Option Given) :=
  (log.filterMap (fun e => match e with | .own j nm g => if j = i ∧ nm = name then some g else none | _ => none)).getLast?

end Verif.Scopes

namespace Verif.Full
open Verif.Peg Verif.Grammar Verif.TextOut Verif.Lin Verif.Scopes
variable {F : Type}

/-- The value that is meant, for a field of kind `k`: a text is read as that kind of value; a single node for SFNode, a list of nodes else. -/
def meant (fl : Floats F) (k : Kind) : Given → Option (Val F)
  | .text kids => if k = .mfNode then some (.refs []) else simpleValue fl k kids
  | .one o => if k = .sfNode then some (.ref o) else none
  | .all l => if k = .sfNode then none else some (.refs l)

/-- The field of node `i` that `name` stands for in a file. -/
def fieldAt (w : World F) (i : Nat) (name : Text) : Option (FieldDecl F) :=
  match (w.heap i).bind (fun n => n.cls.getField name) with
  | some (.inl d) => some d
  | _ => none

/-- The values said for field `f` of node `i`, in order. -/
def valuesFor (w : World F) (i : Nat) (f : Text) (log : List Said) : List (FieldDecl F × Given) :=
  log.filterMap (fun e => match e with
    | .value j name g => if j = i then (fieldAt w i name).bind (fun d => if d.name = f then some (d, g) else none) else none
    | _ => none)

/-- `f` is the name, without some prefixes `set_` and suffixes `_changed`. -/
inductive Leads : Text → Text → Prop
  | same {nm} : Leads nm nm
  | pre {nm f} : Leads nm f → Leads (['s', 'e', 't', '_'] ++ nm) f
  | post {nm f} : Leads nm f → Leads (nm ++ ['_', 'c', 'h', 'a', 'n', 'g', 'e', 'd']) f

/-- There are nodes of prototyped types: only they send values while a file is read. -/
def Sending (w : World F) : Prop := ∃ i, (w.inst i).isSome

/-- A connection leads to field `f` of node `i`, and values may be sent while the file is read. -/
def Connected (w : World F) (i : Nat) (f : Text) : Prop := Sending w ∧ ∃ x ∈ w.wires, x.dst = i ∧ Leads x.dstField f

/-- The default of a field of type `ty` and kind `k` is the one that is said: none (the type's own default), or a value. -/
def DfltSaid (fl : Floats F) (d : FieldDecl F) : Option Given → Prop
  | none => d.dflt = fl.types.dflt d.cls
  | some g => ∃ v, meant fl d.kind g = some v ∧ d.dflt = dfltOf v

/-- An item of a Script as a declaration; with IS, no value is written. -/
def scriptWritten : PTree → Option Written
  | .node .scriptFieldDecl _ [.node .fieldExposure ex _, .node .dataType ty _, .node .name nm _, .node .is _ _] => some (.field ex ty nm none)
  | .node .scriptFieldDecl _ [.node .fieldExposure ex _, .node .dataType ty _, .node .name nm _, value] => some (.field ex ty nm (some value))
  | .node .scriptEventDecl _ (.node .eventDirection dir _ :: .node .dataType ty _ :: .node .name nm _ :: _) => some (.event dir ty nm)
  | _ => none

/-- The declaration of name `x` in a Script that counts: the last one. -/
def lastItem (items : List PTree) (x : Text) : Option Written := ((items.filterMap scriptWritten).filter (fun d => d.name == x)).getLast?

/-- The class has the interface that the items of a Script declare: for every name exactly the field or the event of the last declaration of that name; a name
that is not declared means what it means for every Script (`url`, `directOutput`, `mustEvaluate`), or nothing. -/
def ScriptAs (fl : Floats F) (items : List PTree) (c : Class F) : Prop :=
  c.proto = scriptName ∧ ∀ x,
    match lastItem items x with
    | none => c.fields.filter (fun d => d.name == x) = (scriptProto : ProtoDef F).cls.fields.filter (fun d => d.name == x) ∧
        (x ∈ c.exposed ↔ x ∈ (scriptProto : ProtoDef F).cls.exposed) ∧ ∀ e ∈ c.events, e.name ≠ x
    | some (.field word ty _ value) => (∃ f : PField F, c.fields.filter (fun d => d.name == x) = [f.decl] ∧ FieldAs fl word ty x value f ∧ (x ∈ c.exposed ↔ word = chars "exposedField")) ∧
        ∀ e ∈ c.events, e.name ≠ x
    | some (.event word ty _) => (∀ d ∈ c.fields, d.name ≠ x) ∧ c.events.filter (fun e => e.name == x) = [⟨x, ty, decide (word = chars "eventOut")⟩] ∧ fl.types.event ty = true

/-- The fields of Script `i` have the values said last in its declarations. -/
def OwnSaid (fl : Floats F) (i : Nat) (log : List Said) (c : Class F) : Prop :=
  ∀ d ∈ c.fields, match lastOwn i d.name log with
    | none => d ∈ (scriptProto : ProtoDef F).cls.fields
    | some g => DfltSaid fl d g

/-- The objects are what the file says. -/
structure Content (fl : Floats F) (log : List Said) (w : World F) : Prop where
  /-- the nodes at the top of each scene, in order -/
  children : ∀ s, (w.scene s).children = childrenIn s log
  /-- the IS mappings of each prototype, in order -/
  is : ∀ k nm, ((w.cls k).is.lookup nm).getD [] = mappedTo k nm log
  /-- every value is for a field of the node, and can be read as a value of that kind -/
  fields : ∀ i nm g, .value i nm g ∈ log → ∃ d, fieldAt w i nm = some d ∧ (meant fl d.kind g).isSome
  /-- a field to which no connection leads has the last value said for it, coerced to the type of the field; or nothing is stored, if no value is said -/
  value : ∀ i n f, w.heap i = some n → ¬ Connected w i f →
    match (valuesFor w i f log).getLast? with
    | none => n.dict f = none
    | some (d, g) => ∃ v u, meant fl d.kind g = some v ∧ coerce d.kind d.conv v = some u ∧ n.dict f = some u
  /-- the fields of prototypes have the defaults said last -/
  dflt : ∀ k, ∀ f ∈ (w.cls k).decl.fields, match lastDflt k f.decl.name log with
    | none => f = externalURL
    | some g => DfltSaid fl f.decl g ∨ f = externalURL
  /-- Scripts have the interfaces that they declare, with the values said last -/
  script : ∀ i items, .script i items ∈ log → ∃ n, w.heap i = some n ∧ ScriptAs fl items n.cls ∧ OwnSaid fl i log n.cls

end Verif.Full
