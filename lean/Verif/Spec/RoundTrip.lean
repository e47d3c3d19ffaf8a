import Verif.Lemmas.SceneText
/-!
Specification for C09: what it means that a scene survives writing and reading, and which scenes the theorem covers.
Nothing here refers to the writer or the reader.
-/
namespace Verif.Lin
open Verif.TextOut Verif.Text Verif.SceneText
variable {F : Type}

/-- Fields a user sees (internal fields have names starting with a blank). -/
def Visible (d : FieldDecl F) : Prop := d.name ≠ [] ∧ ∀ s, d.name ≠ ' ' :: s

/-- The nodes a value refers to. -/
def Val.nodes : Val F → List Nat
  | .ref (some i) => [i]
  | .refs l => l.filterMap id
  | _ => []

/-- The value with the nodes it refers to renamed. -/
def Val.mapRef (φ : Nat → Nat) : Val F → Val F
  | .ref o => .ref (o.map φ)
  | .refs l => .refs (l.map (Option.map φ))
  | v => v

/-- The scene is the body of a prototype and field `f` of node `i` in it is declared as `f IS nm`. -/
def IsMapped (sc : Scene F) (i : Nat) (f nm : Text) : Prop :=
  ∃ dict l, sc.is = some dict ∧ (nm, l) ∈ dict ∧ (i, f) ∈ l

/-- A visible field of node `i` that has a value of its own (a field declared with IS gets its value from the
prototype's instances). -/
def Shown (sc : Scene F) (i : Nat) (d : FieldDecl F) : Prop := Visible d ∧ ∀ nm, ¬ IsMapped sc i d.name nm

/-- The same field declaration, apart from the default: same name and type. -/
structure SameType (d d' : FieldDecl F) : Prop where
  name : d'.name = d.name
  cls : d'.cls = d.cls
  kind : d'.kind = d.kind
  str : d'.str = d.str
  conv : d'.conv = d.conv

/-- The coerced default of a field. -/
def FieldDecl.default (d : FieldDecl F) : Option (Val F) := d.dflt.value.bind (coerce d.kind d.conv)

/-- The same field declaration: same name, type and coerced default. -/
structure SameField (d d' : FieldDecl F) : Prop extends SameType d d' where
  dflt : d'.default = d.default

/-- Field `f` is declared by the Script itself (every Script has its own class; `url`, `directOutput` and `mustEvaluate` are
common to all Scripts). -/
def Declared (c : Class F) (f : Text) : Prop :=
  c.proto = chars "Script" ∧ f ≠ chars "url" ∧ f ≠ chars "directOutput" ∧ f ≠ chars "mustEvaluate"

/-- Events a user sees. -/
def EventDecl.Visible (e : EventDecl) : Prop := e.name ≠ [] ∧ ∀ s, e.name ≠ ' ' :: s

/-- All fields and events of the class have distinct names. -/
def Class.Distinct (c : Class F) : Prop := (c.fields.map FieldDecl.name ++ c.events.map EventDecl.name).Nodup

instance (c : Class F) : Decidable c.Distinct := by unfold Class.Distinct; infer_instance

/-- The same node class: same name, the same visible fields (with the same defaults, except those declared by a Script: they may
contain nodes, and are compared in `SameScene`), the same ones mapped by IS, the same ones exposed, and the same events. -/
structure SameClass (c c' : Class F) : Prop where
  proto : c'.proto = c.proto
  fields : ∀ d ∈ c.fields, Visible d → ∃ d' ∈ c'.fields, SameType d d' ∧ (¬ Declared c d.name → SameField d d')
  back : ∀ d' ∈ c'.fields, Visible d' → ∃ d ∈ c.fields, SameType d d' ∧ (¬ Declared c d.name → SameField d d')
  mapped : ∀ f, f ∈ c'.mapped ↔ f ∈ c.mapped
  exposed : ∀ d ∈ c.fields, Visible d → (d.name ∈ c'.exposed ↔ d.name ∈ c.exposed)
  events : ∀ e : EventDecl, e.Visible → (e ∈ c'.events ↔ e ∈ c.events)

/-- The nodes of a scene: its children and everything their shown fields lead to. -/
inductive Reach (sc : Scene F) : Nat → Prop
  | child {i} : i ∈ sc.children → Reach sc i
  | field {i j n d v} : Reach sc i → sc.heap i = some n → d ∈ n.cls.fields → Shown sc i d → d.read n = some v →
      j ∈ v.nodes → Reach sc j

/-- Two scenes are the same up to the identity of their nodes: `φ` pairs the nodes of `a` with nodes of `b`, one to
one; paired nodes have the same class, the same DEF name, the same IS declarations and the same value of every
other visible field (node references paired by `φ`), and so do the defaults of the fields that a Script declares; children and
routes correspond, in order. -/
structure SameScene (a b : Scene F) (φ : Nat → Nat) : Prop where
  nodes : ∀ i, Reach a i → ∃ n m, a.heap i = some n ∧ b.heap (φ i) = some m ∧ SameClass n.cls m.cls ∧ m.DEF = n.DEF ∧
    ∀ d ∈ n.cls.fields, Shown a i d → ∀ d' ∈ m.cls.fields, d'.name = d.name → d'.read m = (d.read n).map (Val.mapRef φ) ∧
      (Declared n.cls d.name → d'.default = d.default.map (Val.mapRef φ))
  is : ∀ i, Reach a i → ∀ f nm, IsMapped b (φ i) f nm ↔ IsMapped a i f nm
  inj : ∀ i j, Reach a i → Reach a j → φ i = φ j → i = j
  children : b.children = a.children.map φ
  routes : b.routes = a.routes.map (fun r => ⟨φ r.src, r.srcField, φ r.dst, r.dstField⟩)

/-- The number text `t` is one number of the grammar, and reading and storing it gives `x`. -/
def Restored (fl : Floats F) (conv : F → F) (t : Text) (x : F) : Prop := NumTok t ∧ ∃ y, fl.parse t = some y ∧ conv y = x

/-- The value has the field's type and its numbers survive being written and read as text.  Excluded: non-empty
string lists (the writer breaks them), NULL inside node lists, empty vectors, rows of no or more than 100
components. -/
def Readable (fl : Floats F) (d : FieldDecl F) : Val F → Prop
  | .bool _ => d.kind = .sfBool
  | .int _ => d.kind = .sfInt32
  | .num x => d.kind = .sfFloat ∧ Restored fl d.conv (sfFloatStr (d.str x)) x
  | .str _ => d.kind = .sfString
  | .ints l => ∃ s, d.kind = .mfInt s ∧ ∀ n ∈ l, In32 s n
  | .nums l => (d.kind = .mfFloat ∧ ∀ x ∈ l, Restored fl d.conv (d.str x) x) ∨
      (d.kind = .sfVec l.length ∧ l ≠ [] ∧ ∀ x ∈ l, Restored fl d.conv (sfFloatStr (d.str x)) x)
  | .rows l => ∃ n, d.kind = .mfVec n ∧ 1 ≤ n ∧ n ≤ 100 ∧ ∀ row ∈ l, row.length = n ∧ ∀ x ∈ row, Restored fl d.conv (d.str x) x
  | .strs l => d.kind = .mfString ∧ l = []
  | .ref _ => d.kind = .sfNode
  | .refs l => d.kind = .mfNode ∧ none ∉ l

/-- Names of field and event types: `SF` or `MF` and a name. -/
def TypeName (ty : Text) : Prop := ∃ r, LegalName r ∧ (ty = ['S', 'F'] ++ r ∨ ty = ['M', 'F'] ++ r)

/-- A visible field that Script `n` declares can be written and read back: a legal name, a registered type, and a default that
survives being written (a list of strings always does) and is the value of the field: values that differ from the default
are not written. -/
structure GoodDecl (fl : Floats F) (n : Node F) (d : FieldDecl F) : Prop where
  name : LegalName d.name
  free : reserved d.name = false
  type : TypeName d.cls
  known : fl.types.field d.cls = some ⟨d.kind, d.str, d.conv⟩
  value : ∃ v, d.default = some v ∧ d.read n = some v ∧ ((∃ l, v = .strs l ∧ d.kind = .mfString) ∨ Readable fl d v)

/-- A Script that can be written and read back: its class has the fields common to all Scripts, and good declarations with
distinct names. -/
structure GoodScript (fl : Floats F) (n : Node F) : Prop where
  proto : n.cls.proto = chars "Script"
  common : ∀ g ∈ (scriptProto : ProtoDef F).fields, ∃ d ∈ n.cls.fields, d.name = g.decl.name ∧ (g.decl.name ≠ chars "externalURL" → SameField d g.decl ∧ (d.name ∈ n.cls.exposed ↔ g.exposed = true))
  mapped : n.cls.mapped = []
  decls : ∀ d ∈ n.cls.fields, Visible d → Declared n.cls d.name → GoodDecl fl n d
  events : ∀ e ∈ n.cls.events, e.Visible → LegalName e.name ∧ reserved e.name = false ∧ TypeName e.type ∧ fl.types.event e.type = true
  distinct : ∀ e ∈ n.cls.events, ∀ d ∈ n.cls.fields, d.name ≠ e.name
  events_distinct : (n.cls.events.map EventDecl.name).Nodup

/-- Node `i` = `n` of a scene can be written and read back: its type name stands for its class (as far as a user can
see), or it is a Script with good declarations; type and field names are safe and distinct; its DEF name is legal; a field
that is left out gets its value back from the default; a field that is written is readable; IS declarations are for visible
fields (not those a Script declares), one per field, and name legal names; a field that the node's prototype maps with IS is
left out. -/
structure GoodNode (lk : Text → Option (Class F)) (fl : Floats F) (sc : Scene F) (i : Nat) (n : Node F) : Prop where
  cls : (SafeName n.cls.proto ∧ ∃ c, lk n.cls.proto = some c ∧ SameClass n.cls c ∧ c.Distinct) ∨ GoodScript fl n
  DEF : n.DEF = [] ∨ LegalName n.DEF
  distinct : (n.cls.fields.map FieldDecl.name).Nodup
  names : ∀ d ∈ n.cls.fields, Visible d → ¬ Declared n.cls d.name → SafeName d.name
  omitted : ∀ d ∈ n.cls.fields, Shown sc i d → ¬ Declared n.cls d.name → ∀ v, d.read n = some v → omitted fl d.dflt v = some true →
    d.default = some v ∧ v.nodes = []
  written : ∀ d ∈ n.cls.fields, Shown sc i d → ¬ Declared n.cls d.name → ∀ v, d.read n = some v → Lin.omitted fl d.dflt v = some false → Readable fl d v
  isField : ∀ f nm, IsMapped sc i f nm → LegalName nm ∧ ∃ d ∈ n.cls.fields, Visible d ∧ ¬ Declared n.cls d.name ∧ d.name = f
  isOne : ∀ f nm nm', IsMapped sc i f nm → IsMapped sc i f nm' → nm = nm'
  forwarded : ∀ d ∈ n.cls.fields, d.name ∈ n.cls.mapped → Shown sc i d → ∀ v, d.read n = some v → Lin.omitted fl d.dflt v ≠ some false

/-- Node `i` has one field per name, and the fields it declares as a Script are not mapped and have their default as value. -/
structure PlainDecls (sc : Scene F) (i : Nat) (n : Node F) : Prop where
  distinct : (n.cls.fields.map FieldDecl.name).Nodup
  decls : ∀ d ∈ n.cls.fields, Visible d → Declared n.cls d.name → Shown sc i d ∧ ∃ v, d.default = some v ∧ d.read n = some v

/-- The end of a Script is followed by a comment, so lines must be ended if there is a Script. -/
def ScriptLines (lv : LinValues) (sc : Scene F) : Prop :=
  ∀ i n, Reach sc i → sc.heap i = some n → n.cls.proto = chars "Script" → '\n' ∈ lv.fullSep

/-- Formatting options under which texts can be read back: made of ignorable text, separators not empty, and the
separator ends the line if comments may be written. -/
structure GoodOptions (lv : LinValues) : Prop where
  plain : ListText.PlainOptions lv
  sep : lv.fullSep ≠ []
  line : lv.endComments = none ∨ '\n' ∈ lv.fullSep

/-- A place in a scene that can hold a node: the `k`-th child, or the `p`-th node of field `f` of node `i`. -/
inductive Loc
  | child (k : Nat)
  | field (i : Nat) (f : Text) (p : Nat)

/-- Place `l` holds node `j`. -/
inductive Refers (sc : Scene F) : Loc → Nat → Prop
  | child {k j} : sc.children[k]? = some j → Refers sc (.child k) j
  | field {i n d v p j} : Reach sc i → sc.heap i = some n → d ∈ n.cls.fields → Shown sc i d → d.read n = some v →
      v.nodes[p]? = some j → Refers sc (.field i d.name p) j

/-- A node without a DEF name is held in one place only, unless a route makes the writer give it a name. -/
def SharedNamed (sc : Scene F) : Prop :=
  ∀ j n l l', Refers sc l j → Refers sc l' j → sc.heap j = some n → n.DEF = [] → (∀ r ∈ sc.routes, r.src ≠ j ∧ r.dst ≠ j) → l = l'

/-- A scene that can be written: the nodes found in it exist and are finitely many, and their visible fields have
values comparable with the defaults. -/
structure Writable (fl : Floats F) (sc : Scene F) (all : List Nat) : Prop where
  finite : ∀ i, Reach sc i → i ∈ all
  node : ∀ i, Reach sc i → ∃ n, sc.heap i = some n ∧ ∀ d ∈ n.cls.fields, Visible d →
    ∃ v, d.read n = some v ∧ (Shown sc i d → ¬ Declared n.cls d.name → ∃ b, omitted fl d.dflt v = some b)

/-- Every named node of the scene is the one its scene graph finds under that name. -/
def Registered (sc : Scene F) : Prop := ∀ i n, Reach sc i → sc.heap i = some n → n.DEF ≠ [] → sc.getDEF n.DEF = some i

/-- `b` is `a` with names given to some unnamed nodes; nothing else differs. -/
structure Renamed (a b : Scene F) : Prop where
  children : b.children = a.children
  routes : b.routes = a.routes
  is : b.is = a.is
  node : ∀ i, (a.heap i = none ∧ b.heap i = none) ∨ ∃ n m, a.heap i = some n ∧ b.heap i = some m ∧ m.cls = n.cls ∧ m.dict = n.dict ∧
    (n.DEF ≠ [] → m.DEF = n.DEF)

/-- The scenes (files or bodies of prototypes) that can be written and read back: readable nodes, shared nodes named,
names registered, routes between nodes of the scene. -/
structure GoodBody (lk : Text → Option (Class F)) (fl : Floats F) (sc : Scene F) (all : List Nat) : Prop where
  nodes : ∀ i n, Reach sc i → sc.heap i = some n → GoodNode lk fl sc i n
  writable : Writable fl sc all
  shared : SharedNamed sc
  registered : Registered sc
  routes : ∀ r ∈ sc.routes, Reach sc r.src ∧ Reach sc r.dst ∧ LegalName r.srcField ∧ LegalName r.dstField

/-- The files covered by the round trip: a scene that can be read back, with at least one child and no IS
declarations. -/
structure GoodScene (lk : Text → Option (Class F)) (fl : Floats F) (sc : Scene F) (all : List Nat) : Prop extends GoodBody lk fl sc all where
  children : sc.children ≠ []
  file : sc.is = none

end Verif.Lin
