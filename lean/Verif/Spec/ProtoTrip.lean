import Verif.Model.ProtoText
import Verif.Spec.RoundTrip
/-!
Specification for C67: what it means that a file with prototypes survives writing and reading, and which files the theorem
covers.  Nothing here refers to the writer or the reader of prototypes.
-/
namespace Verif.Lin
open Verif.TextOut Verif.Text Verif.SceneText
variable {F : Type}

/-- The same prototype: same name, the same visible fields (types, defaults, exposure) and events, the same fields mapped by
IS, and the same body, up to names for its unnamed nodes. -/
structure SameProto (p p' : ProtoDef F) : Prop where
  name : p'.name = p.name
  cls : SameClass p.cls p'.cls
  exposed : ∀ f ∈ p.fields, Visible f.decl → ∀ f' ∈ p'.fields, f'.decl.name = f.decl.name → f'.exposed = f.exposed
  events : ∀ e, e.Visible → (e ∈ p'.events ↔ e ∈ p.events)
  body : ∃ b b' named φ, p.body = some b ∧ p'.body = some b' ∧ Renamed b named ∧ SameScene named b' φ

/-- The class with that type name: the prototype of the file, else a built-in class. -/
def Known (protos : Text → Option (ProtoDef F)) (base : Text → Option (Class F)) (t : Text) : Option (Class F) :=
  match protos t with
  | some p => some p.cls
  | none => base t

/-- Scene `sc` contains a node of type `x` (Scripts have no prototype). -/
def Uses (sc : Scene F) (x : Text) : Prop := x ≠ chars "Script" ∧ ∃ i n, Reach sc i ∧ sc.heap i = some n ∧ n.cls.proto = x

/-- Prototype `x` needs prototype `y`: registered with its body, or the type of a node in it. -/
def Dep (protos : Text → Option (ProtoDef F)) (x y : Text) : Prop :=
  ∃ p q, protos x = some p ∧ protos y = some q ∧ (y ∈ p.free ∨ ∃ b, p.body = some b ∧ Uses b y)

/-- The prototypes of a file: registered with its scene graph, the types of its nodes, and what they need. -/
inductive Needed (f : File F) : Text → Prop
  | free {x p} : x ∈ f.free → f.protos x = some p → Needed f x
  | used {x p} : Uses f.scene x → f.protos x = some p → Needed f x
  | dep {x y} : Needed f x → Dep f.protos x y → Needed f y

/-- The default of an interface field: NULL, no nodes, strings, or a value that survives being written. -/
def GoodDefault (fl : Floats F) (d : FieldDecl F) : Prop :=
  ∃ v, d.default = some v ∧
    match v with
    | .ref o => o = none ∧ d.kind = .sfNode
    | .refs l => l = [] ∧ d.kind = .mfNode
    | .strs _ => d.kind = .mfString
    | v => Readable fl d v

/-- A prototype that can be written and read back: a legal name that the reader does not need for itself; interface names that are legal, distinct and of registered types; good defaults; the field
`externalURL` inherited and empty; a body that can be read back, whose IS declarations belong to nodes of the body and name
interface events or fields of the same type. -/
structure GoodProto (lk : Text → Option (Class F)) (fl : Floats F) (fuel : Nat) (x : Text) (p : ProtoDef F) : Prop where
  name : p.name = x
  legal : LegalName x
  core : coreName x = false
  fields : ∀ f ∈ p.fields, Visible f.decl → LegalName f.decl.name ∧ reserved f.decl.name = false ∧ TypeName f.decl.cls ∧
    fl.types.field f.decl.cls = some ⟨f.decl.kind, f.decl.str, f.decl.conv⟩ ∧ GoodDefault fl f.decl
  events : ∀ e ∈ p.events, e.Visible → LegalName e.name ∧ reserved e.name = false ∧ TypeName e.type ∧ fl.types.event e.type = true
  distinct : (p.fields.map (fun f => f.decl.name) ++ p.events.map EventDecl.name).Nodup
  inherited : externalURL ∈ p.fields
  url : p.url = .inherited ∨ p.url = .urls []
  body : ∃ b all, p.body = some b ∧ b.is ≠ none ∧ GoodBody lk fl b all ∧ all.length < fuel ∧
    ∀ i f nm, IsMapped b i f nm → Reach b i ∧ ((∃ e ∈ p.events, e.name = nm) ∨
      ∃ g ∈ p.fields, g.decl.name = nm ∧ ∀ n d, b.heap i = some n → d ∈ n.cls.fields → d.name = f → d.kind = g.decl.kind)

/-- The files covered: scene and prototypes can be read back, no prototype needs itself, and something is written. -/
structure GoodFile (base : Text → Option (Class F)) (fl : Floats F) (f : File F) (all : List Nat) (fuel depth : Nat) : Prop where
  scene : GoodBody (Known f.protos base) fl f.scene all
  size : all.length < fuel
  file : f.scene.is = none
  content : f.scene.children ≠ [] ∨ ∃ x, Needed f x
  protos : ∀ x p, Needed f x → f.protos x = some p → GoodProto (Known f.protos base) fl fuel x p
  order : ∃ rank : Text → Nat, (∀ x y, Needed f x → Dep f.protos x y → rank y < rank x) ∧ ∀ x, Needed f x → rank x < depth

/-- Lines are ended if the file or one of its prototypes contains a Script. -/
structure FileLines (lv : LinValues) (f : File F) : Prop where
  scene : ScriptLines lv f.scene
  protos : ∀ x p b, Needed f x → f.protos x = some p → p.body = some b → ScriptLines lv b

end Verif.Lin
