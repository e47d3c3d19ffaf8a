import Verif.Spec.Edit
import Verif.Spec.LibraryScripts
/-!
Specification for C92 with Scripts: which edits keep a scene with Scripts in order.
-/
namespace Verif.Editing
open Verif.TextOut Verif.Text Verif.SceneText Verif.Lin Verif.Library
variable {F : Type}

/-- A node of the library with values that fit, or a Script (whatever its name). -/
def NodeInOrder (N : Num F) (n : Node F) : Prop :=
  (library N n.cls.proto = some n.cls ∧ ∀ d ∈ n.cls.fields, ∀ v, n.dict d.name = some v → Fits N d v) ∨ LibraryScriptNode N { n with DEF := [] }

/-- The nodes of a program are in order, as `InOrder`, with Scripts among them. -/
structure ScriptsInOrder (N : Num F) (w : Work F) : Prop where
  nodes : ∀ i ∈ w.live, ∃ n, w.scene.heap i = some n ∧ NodeInOrder N n
  DEF : ∀ i ∈ w.live, ∀ n, w.scene.heap i = some n → n.DEF = [] ∨ LegalName n.DEF
  closed : ∀ l j, Holds w l j → j ∈ w.live
  once : ∀ j n l l', w.scene.heap j = some n → n.DEF = [] → Holds w l j → Holds w l' j → l = l'
  registered : ∀ i ∈ w.live, ∀ n, w.scene.heap i = some n → n.DEF ≠ [] → w.scene.getDEF n.DEF = some i
  routes : ∀ r ∈ w.scene.routes, LegalName r.srcField ∧ LegalName r.dstField
  file : w.scene.is = none

/-- What may be stored in a field of a Script: `directOutput` and `mustEvaluate` freely, in `url` only the empty list, and nothing in the fields that
it declares (the writer writes the declaration and not the value). -/
def ScriptMay (f : Text) (u : Val F) : Prop := f = chars "directOutput" ∨ f = chars "mustEvaluate" ∨ (f = chars "url" ∧ u = .strs [])

/-- The edits that keep the nodes in order, as `Allowed`. -/
def AllowedS (N : Num F) (w : Work F) : Edit F → Prop
  | .new _ _ => True
  | .set i f v rooted => i ∈ w.live ∧ (∀ j ∈ rooted, j ∈ w.live) ∧ ∀ n d u, w.scene.heap i = some n → d ∈ n.cls.fields → d.name = f →
      coerce d.kind d.conv v = some u → (if n.cls.proto = chars "Script" then ScriptMay f u else Fits N d u) ∧ OnePlace w (fun l => ∃ p, l = .field i f p) u.nodes
  | .children l rooted => (∀ j ∈ rooted, j ∈ w.live) ∧ OnePlace w (fun l => ∃ k, l = .child k) l
  | .name i nm => i ∈ w.live ∧ LegalName nm ∧ ∀ j ∈ w.live, ∀ n, w.scene.heap j = some n → n.DEF = nm → j = i
  | .route r => LegalName r.srcField ∧ LegalName r.dstField
  | .unroute _ => True

/-- Every edit of the history is allowed when it is made. -/
inductive AllowedAllS (N : Num F) : Work F → List (Edit F) → Prop
  | nil {w} : AllowedAllS N w []
  | cons {w e es} : AllowedS N w e → AllowedAllS N (apply N w e) es → AllowedAllS N w (e :: es)

end Verif.Editing
