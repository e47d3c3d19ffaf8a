import Verif.Spec.Library
import Verif.Spec.Reader
import Verif.Spec.Same
import Verif.Model.FullRead
/-!
Specification for C91: loaded files that can be saved.
-/
namespace Verif.Library
open Verif.TextOut Verif.Text Verif.SceneText Verif.Lin Verif.Full
variable {F : Type}

/-- A value that can be written: its numbers survive as texts; a number that compares equal to the default of the field is the default (this excludes the negative zero); a list of
strings is empty or the default (other string lists are written in a form that cannot be read, C56); no NULL in a list of nodes. -/
def Storable (N : Num F) (d : FieldDecl F) : Val F → Prop
  | .num x => Survives N d.str d.conv x ∧ ∀ y, d.dflt = .scalar (.num y) → N.eq y x = true → x = y
  | .nums l => ∀ x ∈ l, Survives N d.str d.conv x
  | .rows l => ∀ row ∈ l, ∀ x ∈ row, Survives N d.str d.conv x
  | .strs l => l = [] ∨ d.dflt = .list (.strs l)
  | .refs l => none ∉ l
  | _ => True

/-- What a loaded file must be like to be saved: it has a node; no two nodes have the same DEF name; the nodes in it are no Scripts, their values can be written, and a FontStyle has a family
(the default cannot be written); ROUTEs are between nodes of the scene. -/
structure Savable (N : Num F) (w : World F) : Prop where
  children : w.file.children ≠ []
  names : ∀ i j n m, w.heap i = some n → w.heap j = some m → n.DEF ≠ [] → n.DEF = m.DEF → i = j
  scripts : ∀ i n, Reach w.file i → w.heap i = some n → n.cls.proto ≠ chars "Script"
  values : ∀ i n, Reach w.file i → w.heap i = some n → ∀ d ∈ n.cls.fields, ∀ v, n.dict d.name = some v → Storable N d v
  fonts : ∀ i n, Reach w.file i → w.heap i = some n → n.cls.proto = chars "FontStyle" → (n.dict (chars "family")).isSome
  routes : ∀ r ∈ w.file.routes, Reach w.file r.src ∧ Reach w.file r.dst

end Verif.Library
