import Verif.Spec.RoundTrip
import Verif.Model.Library
/-!
Specification for C81: scenes made of the built-in node types.
-/
namespace Verif.Library
open Verif.TextOut Verif.Text Verif.SceneText Verif.Lin Verif.Coerce Verif.Builtin
variable {F : Type}

/-- The text of number `x`, in a field with this `str` and conversion, is a number of the grammar, and reading it gives `x` (both for
the short text of single values and for the text in lists). -/
def Survives (N : Num F) (str : F → Text) (conv : F → F) (x : F) : Prop :=
  Restored (floats N) conv (sfFloatStr (str x)) x ∧ Restored (floats N) conv (str x) x

/-- The numbers in a default. -/
def numbers : Builtin.Dflt → List (Int × Nat)
  | .float q => [q]
  | .floats l => l
  | .rows l => l.flatten
  | _ => []

/-- The decimal literals of the built-in defaults. -/
def literals : List (Int × Nat) := fieldDecls.flatMap (fun d => numbers d.dflt)

/-- The numbers of the built-in defaults survive, at every precision, and clipped as colours. -/
structure GoodNum (N : Num F) : Prop where
  lit : ∀ q ∈ literals, Survives N N.str id (N.lit q)
  lit32 : ∀ q ∈ literals, Survives N N.str32 N.round32 (N.round32 (N.lit q))
  color : ∀ q ∈ literals, Survives N N.str32 (fun x => N.clip (N.round32 x)) (N.clip (N.round32 (N.lit q)))

/-- A stored value is one that field `d` holds and that can be written: its numbers survive; a number that compares equal to the
default is the default (this excludes the negative zero); a list of strings is empty or the default (other string lists are written in a
form that cannot be read, C56); no NULL in a list of nodes. -/
def Fits (N : Num F) (d : FieldDecl F) : Val F → Prop
  | .bool _ => d.kind = .sfBool
  | .int _ => d.kind = .sfInt32
  | .num x => d.kind = .sfFloat ∧ Survives N d.str d.conv x ∧ ∀ y, d.dflt = .scalar (.num y) → N.eq y x = true → x = y
  | .str _ => d.kind = .sfString
  | .ints l => ∃ s, d.kind = .mfInt s ∧ ∀ n ∈ l, In32 s n
  | .nums l => (d.kind = .mfFloat ∨ d.kind = .sfVec l.length) ∧ ∀ x ∈ l, Survives N d.str d.conv x
  | .rows l => ∃ n, d.kind = .mfVec n ∧ ∀ row ∈ l, row.length = n ∧ ∀ x ∈ row, Survives N d.str d.conv x
  | .strs l => d.kind = .mfString ∧ (l = [] ∨ d.dflt = .list (.strs l))
  | .ref _ => d.kind = .sfNode
  | .refs l => d.kind = .mfNode ∧ none ∉ l

/-- A node of a built-in type: the values stored in it fit.  The font families of a FontStyle must have
been removed: the default, one string, is written in a form that cannot be read. -/
structure LibraryNode (N : Num F) (n : Node F) : Prop where
  cls : library N n.cls.proto = some n.cls
  DEF : n.DEF = [] ∨ LegalName n.DEF
  values : ∀ d ∈ n.cls.fields, ∀ v, n.dict d.name = some v → Fits N d v
  fonts : n.cls.proto = chars "FontStyle" → (n.dict (chars "family")).isSome

/-- A scene of built-in nodes: finitely many nodes, shared nodes have names, names are registered,
routes are between nodes of the scene, with legal field names; it has at least one child, and it is not the body of a prototype. -/
structure LibraryScene (N : Num F) (sc : Scene F) (all : List Nat) : Prop where
  finite : ∀ i, Reach sc i → i ∈ all
  nodes : ∀ i, Reach sc i → ∃ n, sc.heap i = some n ∧ LibraryNode N n
  shared : SharedNamed sc
  registered : Registered sc
  routes : ∀ r ∈ sc.routes, Reach sc r.src ∧ Reach sc r.dst ∧ LegalName r.srcField ∧ LegalName r.dstField
  children : sc.children ≠ []
  file : sc.is = none

/-- The value of a field declared without a default: false, zero, zeros (as stored), the empty text or list, NULL. -/
def EmptyValue (N : Num F) (t : FieldType F) (v : Val F) : Prop :=
  match t.kind with
  | .sfBool => v = .bool false
  | .sfInt32 => v = .int 0
  | .sfFloat => v = .num (N.lit (0, 0))
  | .sfString => v = .str []
  | .sfVec n => v = .nums (List.replicate n (t.conv (N.lit (0, 0))))
  | .mfInt _ => v = .ints []
  | .mfFloat => v = .nums []
  | .mfVec _ => v = .rows []
  | .mfString => v = .strs []
  | .sfNode => v = .ref none
  | .mfNode => v = .refs []

end Verif.Library
