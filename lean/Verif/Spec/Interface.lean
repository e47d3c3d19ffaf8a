import Verif.Model.SceneRead
import Verif.Spec.Scopes
/-!
Specification for C77: what the interface of a PROTO or EXTERNPROTO in a file says.
-/
namespace Verif.Full
open Verif.Peg Verif.Grammar Verif.TextOut Verif.Lin Verif.Scopes
variable {F : Type}

/-- One declaration of an interface, as written. -/
inductive Written
  /-- `field` or `exposedField` (`word`), type and name; the default as written, if there is one -/
  | field (word type name : Text) (value : Option PTree)
  /-- `eventIn` or `eventOut` (`word`), type and name -/
  | event (word type name : Text)

def Written.name : Written → Text
  | .field _ _ nm _ => nm
  | .event _ _ nm => nm

/-- An entry of the interface as a declaration. -/
def written : PTree → Option Written
  | .node .fieldDecl _ [.node .fieldExposure ex _, .node .dataType ty _, .node .name nm _, value] => some (.field ex ty nm (some value))
  | .node .extFieldDecl _ [.node .fieldExposure ex _, .node .dataType ty _, .node .name nm _] => some (.field ex ty nm none)
  | .node .eventDecl _ [.node .eventDirection dir _, .node .dataType ty _, .node .name nm _] => some (.event dir ty nm)
  | _ => none

/-- The declaration of name `x` that counts: the last one. -/
def lastDecl (ts : List PTree) (x : Text) : Option Written := ((ts.filterMap written).filter (fun d => d.name == x)).getLast?

/-- The default of a field of type `ty` (of kind `k`) is as written: the type's own default if none is written, else the value of the text (for
values that contain nodes nothing is said except for NULL). -/
def DefaultAs (fl : Floats F) (ty : Text) (k : Kind) (value : Option PTree) (d : Dflt F) : Prop :=
  match value with
  | none => d = fl.types.dflt ty
  | some t => ∀ m kids, t = .node .field m kids →
    (k ≠ .sfNode → k ≠ .mfNode → (∀ t ∈ kids.head?, nodeEntry t = false) → ∃ u, simpleValue fl k kids = some u ∧ d = dfltOf u) ∧
    (k = .mfNode → (∀ t ∈ kids.head?, nodeEntry t = false) → d = dfltOf (.refs [])) ∧
    (k = .sfNode → (∃ a b rest, kids = .node .sfNull a b :: rest) → d = dfltOf (.ref none))

/-- The field is the one that the declaration asks for. -/
def FieldAs (fl : Floats F) (word ty x : Text) (value : Option PTree) (f : PField F) : Prop :=
  f.decl.name = x ∧ f.decl.cls = ty ∧ (f.exposed = true ↔ word = chars "exposedField") ∧
  (∃ ft, fl.types.field ty = some ft ∧ f.decl.kind = ft.kind ∧ f.decl.str = ft.str ∧ f.decl.conv = ft.conv) ∧
  DefaultAs fl ty f.decl.kind value f.decl.dflt

/-- The interface of the prototype is the one that the file declares: for every name (but `externalURL`, which every node has), there is exactly the
field or the event of the last declaration of that name, and nothing if there is none; and its URLs are those of the file. -/
structure AsDeclared (fl : Floats F) (ts : List PTree) (p : ProtoDef F) : Prop where
  name : ∀ x, x ≠ chars "externalURL" →
    match lastDecl ts x with
    | none => (∀ f ∈ p.fields, f.decl.name ≠ x) ∧ (∀ e ∈ p.events, e.name ≠ x)
    | some (.field word ty _ value) => (∃ f, p.fields.filter (fun g => g.decl.name == x) = [f] ∧ FieldAs fl word ty x value f) ∧ (∀ e ∈ p.events, e.name ≠ x)
    | some (.event word ty _) => (∀ f ∈ p.fields, f.decl.name ≠ x) ∧ p.events.filter (fun e => e.name == x) = [⟨x, ty, decide (word = chars "eventOut")⟩] ∧ fl.types.event ty = true
  /-- the addresses of an EXTERNPROTO -/
  urls : ∀ m kids, ts.getLast? = some (.node .extProtoURL m kids) → p.url = .urls (ParseVal.mfString kids)
  /-- a PROTO has no addresses -/
  noUrls : lastDecl ts (chars "externalURL") = none → (∀ m kids, ts.getLast? ≠ some (.node .extProtoURL m kids)) → p.url = .inherited

end Verif.Full
