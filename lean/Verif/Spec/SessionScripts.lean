import Verif.Spec.Session
import Verif.Spec.EditScripts
/-!
Specification for C95 with Scripts: which actions keep a scene with Scripts in order while its ROUTEs are live.
-/
namespace Verif.Editing
open Verif.TextOut Verif.Text Verif.SceneText Verif.Full Verif.Library
open Verif.Lin hiding disp dispList dispDecls dispAttrs
variable {F : Type}

/-- The assignment `node i.f = v` is allowed, and stores `u`, as `Assignable`; the node may be a Script, and so may those that it leads to: an event of a Script takes any value and the Script stores nothing; a field of
a Script takes what it may store. -/
structure AssignableS (N : Num F) (w : Work F) (i : Nat) (f : Text) (v u : Val F) : Prop where
  live : i ∈ w.live
  starts : Starts (objects N w) i f v u
  keeps : KeepsValue (objects N w) (i, f) v u
  fits : ∀ j n d, j ∈ w.live → w.scene.heap j = some n → d ∈ n.cls.fields → Leads w (i, f) (j, d.name) → if n.cls.proto = chars "Script" then ScriptMay d.name u else Fits N d u
  named : ∀ j ∈ u.nodes, j ∈ w.live ∧ ∀ n, w.scene.heap j = some n → n.DEF ≠ []

/-- The actions that keep the nodes in order, as `AllowedAct`. -/
def AllowedActS (N : Num F) (w : Work F) : Act F → Prop
  | .edit e => AllowedS N w e ∧ ∀ i f, e.Sets i f → ∀ r ∈ w.scene.routes, r.src = i → ∀ n a, w.scene.heap i = some n → n.cls.getField r.srcField = some a → portName a ≠ f
  | .assign i f v => ∃ u, AssignableS N w i f v u

/-- Every action of the program is allowed when it is done. -/
inductive AllowedSessionS (N : Num F) : Work F → List (Act F) → Prop
  | nil {w} : AllowedSessionS N w []
  | cons {w a w' l} : AllowedActS N w a → act N w a = some w' → AllowedSessionS N w' l → AllowedSessionS N w (a :: l)

end Verif.Editing
