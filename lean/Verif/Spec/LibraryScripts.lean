import Verif.Spec.Loaded
/-!
Specification for C81, C88 and C91 with Scripts: scenes of built-in nodes and Scripts.
-/
namespace Verif.Library
open Verif.TextOut Verif.Text Verif.SceneText Verif.Lin Verif.Full
variable {F : Type}

/-- A value that can be written in a declaration: its numbers survive as texts; no NULL in a list of nodes. (Lists of strings can be written here.) -/
def Declarable (N : Num F) (d : FieldDecl F) : Val F → Prop
  | .num x => Survives N d.str d.conv x
  | .nums l => ∀ x ∈ l, Survives N d.str d.conv x
  | .rows l => ∀ row ∈ l, ∀ x ∈ row, Survives N d.str d.conv x
  | .refs l => none ∉ l
  | _ => True

/-- What all Scripts have: `url`, `directOutput` and `mustEvaluate` are as the library declares them; `url` is empty and the others are booleans; every field that the Script
declares has the value of its declaration (the writer writes the declarations only), and that can be written. -/
structure ScriptValues (N : Num F) (n : Node F) : Prop where
  common : ∀ g ∈ (scriptProto : ProtoDef F).fields, g.decl.name ≠ chars "externalURL" → g.decl ∈ n.cls.fields ∧ (g.decl.name ∈ n.cls.exposed ↔ g.exposed = true)
  url : ∀ v, n.dict (chars "url") = some v → v = .strs []
  flags : ∀ f ∈ [chars "directOutput", chars "mustEvaluate"], ∀ v, n.dict f = some v → ∃ b, v = .bool b
  declared : ∀ d ∈ n.cls.fields, Declared n.cls d.name → ∃ v, d.default = some v ∧ d.read n = some v ∧ HasType d.kind v ∧ Declarable N d v

/-- A Script with any declarations: distinct legal names that are not reserved, registered types. -/
structure LibraryScriptNode (N : Num F) (n : Node F) : Prop extends ScriptValues N n where
  proto : n.cls.proto = chars "Script"
  DEF : n.DEF = [] ∨ LegalName n.DEF
  mapped : n.cls.mapped = []
  external : ∃ d ∈ n.cls.fields, d.name = chars "externalURL"
  distinct : (n.cls.fields.map FieldDecl.name ++ n.cls.events.map EventDecl.name).Nodup
  fields : ∀ d ∈ n.cls.fields, Declared n.cls d.name → LegalName d.name ∧ reserved d.name = false ∧ (floats N).types.field d.cls = some ⟨d.kind, d.str, d.conv⟩
  events : ∀ e ∈ n.cls.events, LegalName e.name ∧ reserved e.name = false ∧ (floats N).types.event e.type = true

/-- A scene of built-in nodes and Scripts: as `LibraryScene`. -/
structure ScriptScene (N : Num F) (sc : Scene F) (all : List Nat) : Prop where
  finite : ∀ i, Reach sc i → i ∈ all
  nodes : ∀ i, Reach sc i → ∃ n, sc.heap i = some n ∧ (LibraryNode N n ∨ LibraryScriptNode N n)
  shared : SharedNamed sc
  registered : Registered sc
  routes : ∀ r ∈ sc.routes, Reach sc r.src ∧ Reach sc r.dst ∧ LegalName r.srcField ∧ LegalName r.dstField
  children : sc.children ≠ []
  file : sc.is = none

/-- What a loaded file with Scripts must be like to be saved: as `Savable`, and the Scripts in it have `ScriptValues`. -/
structure SavableScripts (N : Num F) (w : World F) : Prop where
  children : w.file.children ≠ []
  names : ∀ i j n m, w.heap i = some n → w.heap j = some m → n.DEF ≠ [] → n.DEF = m.DEF → i = j
  scripts : ∀ i n, Reach w.file i → w.heap i = some n → n.cls.proto = chars "Script" → ScriptValues N n
  values : ∀ i n, Reach w.file i → w.heap i = some n → n.cls.proto ≠ chars "Script" → ∀ d ∈ n.cls.fields, ∀ v, n.dict d.name = some v → Storable N d v
  fonts : ∀ i n, Reach w.file i → w.heap i = some n → n.cls.proto = chars "FontStyle" → (n.dict (chars "family")).isSome
  routes : ∀ r ∈ w.file.routes, Reach w.file r.src ∧ Reach w.file r.dst

end Verif.Library
