import Verif.Spec.Edit
import Verif.Spec.Animate
import Verif.Model.Session
/-!
Specification for C95: which actions keep a scene in order while its ROUTEs are live, and which of them change a field.
-/
namespace Verif.Editing
open Verif.TextOut Verif.Text Verif.SceneText Verif.Full Verif.Library
open Verif.Lin hiding disp dispList dispDecls dispAttrs
variable {F : Type}

/-- A ROUTE that the scene has now leads from field or event `p` to field `q` (the ROUTE may name them with `_changed` and `set_`). -/
inductive RoutedNow (w : Work F) : Place → Place → Prop
  | route {r n a m d} : r ∈ w.scene.routes → w.scene.heap r.src = some n → n.cls.getField r.srcField = some a → w.scene.heap r.dst = some m →
      m.cls.getField r.dstField = some (.inl d) → RoutedNow w (r.src, portName a) (r.dst, d.name)

/-- Zero or more ROUTEs lead from `p` to `q`. -/
def Leads (w : Work F) (p q : Place) : Prop := Relation.ReflTransGen (RoutedNow w) p q

/-- The assignment `node i.f = v` is allowed, and stores `u`: the field or event takes `v`, and so does every field that it leads to, where `u` fits; the ROUTEs lead to fields, or to events
from which no ROUTE leads on; the nodes in `u`, if any, have names. -/
structure Assignable (N : Num F) (w : Work F) (i : Nat) (f : Text) (v u : Val F) : Prop where
  live : i ∈ w.live
  starts : Starts (objects N w) i f v u
  keeps : KeepsValue (objects N w) (i, f) v u
  fits : ∀ j n d, j ∈ w.live → w.scene.heap j = some n → d ∈ n.cls.fields → Leads w (i, f) (j, d.name) → Fits N d u
  named : ∀ j ∈ u.nodes, j ∈ w.live ∧ ∀ n, w.scene.heap j = some n → n.DEF ≠ []

/-- The actions that keep the nodes in order.  An edit that puts a value into a field (perhaps a node without a name, that leaves its old place) is one from which no ROUTE leads on. -/
def AllowedAct (N : Num F) (w : Work F) : Act F → Prop
  | .edit e => Allowed N w e ∧ ∀ i f, e.Sets i f → ∀ r ∈ w.scene.routes, r.src = i → ∀ n a, w.scene.heap i = some n → n.cls.getField r.srcField = some a → portName a ≠ f
  | .assign i f v => ∃ u, Assignable N w i f v u

/-- Every action of the program is allowed when it is done. -/
inductive AllowedSession (N : Num F) : Work F → List (Act F) → Prop
  | nil {w} : AllowedSession N w []
  | cons {w a w' l} : AllowedAct N w a → act N w a = some w' → AllowedSession N w' l → AllowedSession N w (a :: l)

/-- The action may change the field `q`: it is assigned, or ROUTEs lead to it from what is assigned. -/
def Changes (w : Work F) (q : Place) : Act F → Prop
  | .edit e => e.Sets q.1 q.2
  | .assign i f _ => Leads w (i, f) q

/-- No action of the program changes the field `q`, with the ROUTEs that there are when it is done. -/
inductive Untouched (N : Num F) (q : Place) : Work F → List (Act F) → Prop
  | nil {w} : Untouched N q w []
  | cons {w a w' l} : ¬ Changes w q a → act N w a = some w' → Untouched N q w' l → Untouched N q w (a :: l)

end Verif.Editing
