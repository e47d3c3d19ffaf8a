import Verif.Model.Edit
import Verif.Model.Animate
/-!
A program that edits a scene while its ROUTEs are live: assignments are carried on along the ROUTEs that the scene has at that moment, also those that the program
has added, and no more along those that it has removed.
Models /repo/vrml/route.py:19-107, /repo/vrml/vrml97/scenegraph.py:111-154 (`addRoute`), /repo/vrml/field.py:108-144, 394-407 together with the edits of Model/Edit.
Simplification: a ROUTE lives exactly as long as it is in the list of ROUTEs of the scene (pydispatch holds receivers by weak reference, so a ROUTE that nothing
refers to forwards nothing any more, and `pop` of the observable list keeps no reference, olist.py:68-74; a program that keeps the removed ROUTE object itself is not modelled).
-/
namespace Verif.Editing
open Verif.TextOut Verif.Full Verif.Library
open Verif.Lin hiding disp dispList dispDecls dispAttrs
variable {F : Type}

/-- What a ROUTE connects, route.py:42-60: from the field or event of the source to the name at the destination; nothing if the source has no such field. -/
def connection (w : Work F) (r : Rt) : Option Wire :=
  match (w.scene.heap r.src).bind (fun n => n.cls.getField r.srcField) with
  | none => none
  | some (.inl d) => some ⟨r.src, d.name, r.dst, r.dstField⟩
  | some (.inr e) => some ⟨r.src, e.name, r.dst, r.dstField⟩

/-- The objects of the program as Model/Animate has them: the nodes, and the connections of the ROUTEs of the scene, in the order in which these were added
(scenegraph.py:153). -/
def objects (N : Num F) (w : Work F) : World F := { World.init (floats N) with heap := w.scene.heap, wires := w.scene.routes.filterMap (connection w) }

/-- What the program does: an edit, or an assignment that spreads. -/
inductive Act (F : Type) where
  | edit (e : Edit F)
  /-- `node.f = value` -/
  | assign (i : Nat) (f : Text) (v : Val F)

/-- One action; `none`: an exception. -/
def act (N : Num F) (w : Work F) : Act F → Option (Work F)
  | .edit e => some (apply N w e)
  | .assign i f v => ((objects N w).assign i f v).map (fun w' => { w with scene := { w.scene with heap := w'.heap } })

/-- The program. -/
def session (N : Num F) (w : Work F) (l : List (Act F)) : Option (Work F) := l.foldlM (act N) w

end Verif.Editing
