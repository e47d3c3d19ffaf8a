import Verif.Model.Copy
import Verif.Model.Lineariser
/-
What the writer sees of a heap of nodes (Model/Copy): the bridge between `Node.copy` (/repo/vrml/node.py:126-140) and
`SceneGraph.copy` (/repo/vrml/vrml97/scenegraph.py:159-180) on the one side and the writer
(/repo/vrml/vrml97/linearise.py) on the other, and `Node.toString` (/repo/vrml/node.py:142-150) of a single node.

Simplifications: lists of nodes in the heap contain no NULL; a ROUTE is a node of the heap whose four fields are read
(/repo/vrml/route.py:15-19); one whose ends are not nodes is left out.
-/
namespace Verif.CopyText
open Verif.TextOut Verif.Lin Verif.PyDict

variable {F E : Type}

/-- Heaps as the writer knows them: names are texts, immutable values are field values, arrays and lists of strings have elements
of any type. -/
abbrev Heap (F E : Type) := Copy.Heap Text (Lin.Val F) E

/-- What a read shows, as a field value; `arr` is the value with these contents (fieldtypes.py, the arrays and lists of strings). -/
def valOf (arr : List E → Lin.Val F) : Copy.Seen (Lin.Val F) E → Option (Lin.Val F)
  | .unset => none
  | .imm v => some v
  | .node i => some (.ref (some i))
  | .data l => some (arr l)
  | .nodes l => some (.refs (l.map some))
  | .broken => none

/-- The name a read of the DEF field shows (node.py:48), empty if none is set. -/
def nameOf : Copy.Seen (Lin.Val F) E → Text
  | .imm (.str s) => s
  | _ => []

/-- storage name of the DEF field, node.py:48 -/
def defKey : Text := chars " DEF"

/-- Node `i` as the writer sees it (linearise.py:261-345): its class, its DEF name and its fields. `arr c f` shows the arrays stored in field `f` of
class `c`. -/
def nodeAt (cls : Nat → Class F) (arr : Nat → Text → List E → Lin.Val F) (h : Heap F E) (i : Nat) : Option (Node F) :=
  match h[i]? with
  | some (.node c _) => some ⟨cls c, nameOf (Copy.read h i defKey), fun f => valOf (arr c f) (Copy.read h i f)⟩
  | _ => none

/-- A list of nodes read from a field (linearise.py:160, 164). -/
def listAt (h : Heap F E) (i : Nat) (f : Text) : List Nat :=
  match Copy.read h i f with
  | .nodes l => l
  | _ => []

/-- Node `r` as a ROUTE, route.py:15-19, linearise.py:441-458. -/
def routeAt (h : Heap F E) (r : Nat) : Option Rt :=
  match Copy.read h r (chars "source"), Copy.read h r (chars "destination") with
  | .node s, .node d => some ⟨s, nameOf (Copy.read h r (chars "sourceField")), d, nameOf (Copy.read h r (chars "destinationField"))⟩
  | _, _ => none

/-- Scene graph node `sg` with its DEF table as the writer sees it, scenegraph.py:20-30, linearise.py:121-176. -/
def sceneAt (cls : Nat → Class F) (arr : Nat → Text → List E → Lin.Val F) (h : Heap F E) (sg : Nat) (defs : Dict Text Nat) : Scene F :=
  { heap := nodeAt cls arr h
    children := listAt h sg (chars "children")
    routes := (listAt h sg (chars "routes")).filterMap (routeAt h)
    defs := defs }

/-- `node.toString()`, node.py:142-150 with linearise.py:68-116: the text of a single node. -/
def nodeText (lv : LinValues) (fl : Floats F) (nodes : Nat → Option (Node F)) (fuel : Nat) (i : Nat) : Res Text :=
  match linNode lv fl ⟨nodes, [], [], [], none⟩ fuel ⟨[], [], 0, false⟩ i with
  | .error e => .error e
  | .ok st => .ok (header ++ textOf st.out)

/-- `sceneGraph.toString()`: the text only. -/
def sceneText (lv : LinValues) (fl : Floats F) (sc : Scene F) (fuel : Nat) : Res Text :=
  match linearise lv fl sc fuel with
  | .error e => .error e
  | .ok (t, _) => .ok t

end Verif.CopyText
