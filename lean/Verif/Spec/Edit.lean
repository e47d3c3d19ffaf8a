import Verif.Spec.Library
import Verif.Model.Edit
/-!
Specification for C92: which edits keep a scene in order.
-/
namespace Verif.Editing
open Verif.TextOut Verif.Text Verif.SceneText Verif.Lin Verif.Library
variable {F : Type}

/-- Place `l` holds node `j`: the `k`-th child of the scene, or the `p`-th node of a field of a node the program has. -/
inductive Holds (w : Work F) : Loc → Nat → Prop
  | child {k j} : w.scene.children[k]? = some j → Holds w (.child k) j
  | field {i n d v p j} : i ∈ w.live → w.scene.heap i = some n → d ∈ n.cls.fields → d.read n = some v → v.nodes[p]? = some j →
      Holds w (.field i d.name p) j

/-- The nodes of a program are in order: they are nodes of the library with values that fit, their names are legal and registered
with the scene, no node without a name is in two places, and the scene is a file. -/
structure InOrder (N : Num F) (w : Work F) : Prop where
  cls : ∀ i ∈ w.live, ∃ n, w.scene.heap i = some n ∧ library N n.cls.proto = some n.cls
  DEF : ∀ i ∈ w.live, ∀ n, w.scene.heap i = some n → n.DEF = [] ∨ LegalName n.DEF
  values : ∀ i ∈ w.live, ∀ n, w.scene.heap i = some n → ∀ d ∈ n.cls.fields, ∀ v, n.dict d.name = some v → Fits N d v
  closed : ∀ l j, Holds w l j → j ∈ w.live
  once : ∀ j n l l', w.scene.heap j = some n → n.DEF = [] → Holds w l j → Holds w l' j → l = l'
  registered : ∀ i ∈ w.live, ∀ n, w.scene.heap i = some n → n.DEF ≠ [] → w.scene.getDEF n.DEF = some i
  routes : ∀ r ∈ w.scene.routes, LegalName r.srcField ∧ LegalName r.dstField
  file : w.scene.is = none

/-- Putting the nodes `js` where `old` says the places are given up gives no node without a name a second place. -/
def OnePlace (w : Work F) (old : Loc → Prop) (js : List Nat) : Prop :=
  ∀ j ∈ js, j ∈ w.live ∧ ∀ n, w.scene.heap j = some n → n.DEF = [] → (∀ l, Holds w l j → old l) ∧ ∀ p q : Nat, js[p]? = some j → js[q]? = some j → p = q

/-- The edits that keep the nodes in order: a value that is stored fits; a node without a name is not put in a second place;
a name is legal, and not the name of another node. -/
def Allowed (N : Num F) (w : Work F) : Edit F → Prop
  | .new _ _ => True
  | .set i f v rooted => i ∈ w.live ∧ (∀ j ∈ rooted, j ∈ w.live) ∧ ∀ n d u, w.scene.heap i = some n → d ∈ n.cls.fields → d.name = f →
      coerce d.kind d.conv v = some u → Fits N d u ∧ OnePlace w (fun l => ∃ p, l = .field i f p) u.nodes
  | .children l rooted => (∀ j ∈ rooted, j ∈ w.live) ∧ OnePlace w (fun l => ∃ k, l = .child k) l
  | .name i nm => i ∈ w.live ∧ LegalName nm ∧ ∀ j ∈ w.live, ∀ n, w.scene.heap j = some n → n.DEF = nm → j = i
  | .route r => LegalName r.srcField ∧ LegalName r.dstField
  | .unroute _ => True

/-- Every edit of the history is allowed when it is made. -/
inductive AllowedAll (N : Num F) : Work F → List (Edit F) → Prop
  | nil {w} : AllowedAll N w []
  | cons {w e es} : Allowed N w e → AllowedAll N (apply N w e) es → AllowedAll N w (e :: es)

/-- What must hold when the scene is saved: it has a child, its ROUTEs are between nodes in it, and every FontStyle in it has a family (the
default cannot be written). -/
structure Finished (w : Work F) : Prop where
  children : w.scene.children ≠ []
  routes : ∀ r ∈ w.scene.routes, Reach w.scene r.src ∧ Reach w.scene r.dst
  fonts : ∀ i n, Reach w.scene i → w.scene.heap i = some n → n.cls.proto = chars "FontStyle" → (n.dict (chars "family")).isSome

/-- The edit assigns field `f` of node `i`. -/
def Edit.Sets (i : Nat) (f : Text) : Edit F → Prop
  | .set j g _ _ => j = i ∧ g = f
  | _ => False

/-- The edit names node `i`. -/
def Edit.Names (i : Nat) : Edit F → Prop
  | .name j _ => j = i
  | _ => False

/-- The edit changes the children of the scene. -/
def Edit.Children : Edit F → Prop
  | .children _ _ => True
  | _ => False

/-- The ROUTEs that are left after the edits: added at the end, removed by position. -/
def routesLeft : List Rt → List (Edit F) → List Rt
  | l, [] => l
  | l, .route r :: es => routesLeft (l ++ [r]) es
  | l, .unroute k :: es => routesLeft (l.take k ++ l.drop (k + 1)) es
  | l, _ :: es => routesLeft l es

end Verif.Editing
