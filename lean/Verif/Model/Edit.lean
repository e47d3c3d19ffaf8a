import Verif.Model.Library
import Verif.Model.SceneRead
/-!
Editing a scene in a program: nodes are created, fields assigned, nodes named, children and ROUTEs changed.
Models /repo/vrml/node.py:57-88 (creating a node), /repo/vrml/field.py:108-144 (assigning a field), /repo/vrml/node.py:322-342,
467-515 and 398-432 (root scene graphs), /repo/vrml/vrml97/scenegraph.py:91-105 (`regDefName`), 111-152 (`addRoute`).
-/
namespace Verif.Editing
open Verif.TextOut Verif.Lin Verif.Library
variable {F : Type}

/-- One edit.  A value that a ROUTE carries on to another field is one more `set` (route.py:58-108 sets the destination). -/
inductive Edit (F : Type) where
  /-- `Box()`: a new node of a type of the library, at a free identity; arguments are further `set`s -/
  | new (type : Text) (j : Nat)
  /-- `node.field = value`; `rooted` lists the nodes that get the root scene graph of `node` by this (C85: those at or below the
  nodes put in, if it is done with `fset` as the constructor does; none at all for an attribute assignment) -/
  | set (i : Nat) (field : Text) (value : Val F) (rooted : List Nat)
  /-- `scene.children = nodes`, or any change of that list -/
  | children (nodes : List Nat) (rooted : List Nat)
  /-- `scene.regDefName(name, node)` -/
  | name (i : Nat) (name : Text)
  /-- `scene.addRoute(ROUTE(...))` -/
  | route (r : Rt)
  /-- `scene.routes.pop(k)` (olist.py:68-74), or `del scene.routes[k:k+1]`; `del scene.routes[k]` deletes nothing (C24) -/
  | unroute (k : Nat)

/-- The scene, and the nodes the program has (in the scene or not yet in it). -/
structure Work (F : Type) where
  scene : Scene F
  live : List Nat

/-- node.py:429-431: a node that gets a root scene graph is registered there under the name it has. -/
def root (sc : Scene F) (j : Nat) : Scene F := sc.regDefName (sc.defOf j) j

/-- One edit; if the value is refused (`coerce` raises before anything is stored, field.py:130-141), nothing changes. -/
def apply (N : Num F) (w : Work F) : Edit F → Work F
  | .new t j => match library N t, w.scene.heap j with
    | some c, none => ⟨{ w.scene with heap := fun k => if k = j then some ⟨c, [], fun _ => none⟩ else w.scene.heap k }, j :: w.live⟩
    | _, _ => w
  | .set i f v rooted => match w.scene.heap i with
    | none => w
    | some n => match n.cls.fields.find? (fun d => d.name == f) with
      | none => w
      | some d => match coerce d.kind d.conv v with
        | none => w
        | some u => ⟨rooted.foldl root { w.scene with heap := fun k => if k = i then some (n.set d.name u) else w.scene.heap k }, w.live⟩
  | .children l rooted => ⟨rooted.foldl root { w.scene with children := l }, w.live⟩
  | .name i nm => ⟨w.scene.regDefName nm i, w.live⟩
  | .route r => ⟨{ w.scene with routes := w.scene.routes ++ [r] }, w.live⟩
  | .unroute k => ⟨{ w.scene with routes := w.scene.routes.eraseIdx k }, w.live⟩

/-- A history of edits. -/
def applyAll (N : Num F) (w : Work F) (es : List (Edit F)) : Work F := es.foldl (apply N) w

end Verif.Editing
