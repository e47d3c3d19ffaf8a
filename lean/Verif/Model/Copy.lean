import Verif.Model.PyDict
import Verif.Model.Route
/-
Copying nodes and scene graphs, and prototype instantiation.
Models /repo/vrml/node.py:126-140 (`Node.copy`), 171-218 (`PrototypedNode.instantiate`),
/repo/vrml/field.py:233-259 (`copy`, `copyValue`), /repo/vrml/fieldtypes.py `copyValue` (237-239, 414-416,
476-478, 559-561, 573-575, 641-643, 708-710), /repo/vrml/node.py:533-536 (`_MFNode.copyValue`),
/repo/vrml/copier.py:21-29 (`Copier.use`), /repo/vrml/vrml97/scenegraph.py:159-180 (`SceneGraph.copy`).
Names, immutable values and array/list elements are of arbitrary types.
-/
namespace Verif.Copy
open Verif.PyDict

variable {N I E : Type} [DecidableEq N]

/-- A value stored in a node's `__dict__`: an immutable value (number, string, None), a mutable object
(numpy array, list of strings, list of nodes) by reference, a node, or a weak reference to a node. -/
inductive Val (I : Type)
  | imm (v : I)
  | obj (id : Nat)
  | node (id : Nat)
  | weak (id : Nat)
deriving DecidableEq, Repr

/-- Heap objects: nodes (with class and `__dict__`), numpy arrays and lists of strings (contents), and
lists of nodes, observable (OList) or plain. -/
inductive Obj (N I E : Type)
  | node (cls : Nat) (dict : Dict N (Val I))
  | data (elems : List E)
  | nodes (observable : Bool) (elems : List Nat)

/-- The heap: object identities are positions. -/
abbrev Heap (N I E : Type) := List (Obj N I E)

/-- How a field type copies its values. -/
inductive Kind
  /-- `BaseField.copyValue`: the value itself (numbers, strings, SFNode) -/
  | share
  /-- arrays (`arrays.array(value, ..)`) and string lists (`value[:]`) -/
  | data
  /-- MFNode: a new plain list of the same nodes -/
  | nodes
  /-- a weak node field (the root scene graph): `fget` dereferences, the strong reference is stored -/
  | weak
deriving DecidableEq, Repr

/-- `field.copy(client, copier)` for a stored value: the new value and the heap with the new object. -/
def copyValue (h : Heap N I E) : Kind → Val I → Heap N I E × Val I
  | .data, .obj i => match h[i]? with
    | some (.data l) => (h ++ [.data l], .obj h.length)
    | _ => (h, .obj i)
  | .nodes, .obj i => match h[i]? with
    | some (.nodes _ l) => (h ++ [.nodes false l], .obj h.length)
    | _ => (h, .obj i)
  | .weak, .weak i => (h, .node i)
  | _, v => (h, v)

/-- the loop of node.py:133-136 over the class's fields -/
def copyFields (h : Heap N I E) (dict : Dict N (Val I)) : List (N × Kind) → Heap N I E × Dict N (Val I)
  | [] => (h, [])
  | (k, kind) :: l =>
    match get? dict k with
    | none => copyFields h dict l
    | some v =>
      let (h1, v') := copyValue h kind v
      let (h2, d) := copyFields h1 dict l
      (h2, (k, v') :: d)

/-- `Node.copy(copier)`, node.py:126-140. `fields cls` is the `getFields` list of the class (storage
name and kind); `memo` is the copier's `useNodes`. -/
def copyNode (fields : Nat → List (N × Kind)) (h : Heap N I E) (memo : Dict Nat Nat) (n : Nat) :
    Heap N I E × Dict Nat Nat × Nat :=
  match get? memo n with
  | some m => (h, memo, m)
  | none => match h[n]? with
    | some (.node cls dict) =>
      let (h1, d) := copyFields h dict (fields cls)
      (h1 ++ [.node cls d], set memo n h1.length, h1.length)
    | _ => (h, memo, n)

/-- scenegraph.py:172-176: copy the nodes of the DEF table (empty names skipped). -/
def copyDefs (fields : Nat → List (N × Kind)) (empty : N) (h : Heap N I E) (memo : Dict Nat Nat) :
    Dict N Nat → Heap N I E × Dict Nat Nat × Dict N Nat
  | [] => (h, memo, [])
  | (k, v) :: l =>
    if k = empty then copyDefs fields empty h memo l
    else
      let (h1, memo1, m) := copyNode fields h memo v
      let (h2, memo2, d) := copyDefs fields empty h1 memo1 l
      (h2, memo2, (k, m) :: d)

/-- scenegraph.py:159-180 `SceneGraph.copy`: DEF table copied node by node, then the scene graph node
itself like any node. Returns the heap, the new scene graph and its DEF table. -/
def copyScene (fields : Nat → List (N × Kind)) (empty : N) (h : Heap N I E) (sg : Nat) (defs : Dict N Nat) :
    Heap N I E × Nat × Dict N Nat :=
  let (h1, memo1, d) := copyDefs fields empty h [] defs
  let (h2, _, m) := copyNode fields h1 memo1 sg
  (h2, m, d)

/-- What reading a field of a node shows: the contents, nodes up to identity. -/
inductive Seen (I E : Type)
  | unset
  | imm (v : I)
  | node (id : Nat)
  | data (l : List E)
  | nodes (l : List Nat)
  | broken
deriving DecidableEq, Repr

/-- contents of a stored value -/
def see (h : Heap N I E) : Val I → Seen I E
  | .imm v => .imm v
  | .node i => .node i
  | .weak i => .node i
  | .obj i => match h[i]? with
    | some (.data l) => .data l
    | some (.nodes _ l) => .nodes l
    | _ => .broken

/-- `getattr(node, field)` up to defaults (`unset` = the class default is shown) -/
def read (h : Heap N I E) (n : Nat) (k : N) : Seen I E :=
  match h[n]? with
  | some (.node _ d) => match get? d k with
    | none => .unset
    | some v => see h v
  | _ => .broken

/-! ## Prototype instantiation (on the route model) -/

/-- A PROTO: its IS mappings, field number ↦ template ports (node.py:185, the ISMAPS of the class), and
the default value of each field (`none` for an event, which has no `getDefault`). -/
structure Proto (V : Type) where
  maps : List (Nat × List Nat)
  default : Nat → Option V

/-- the ports of instances (`ip instance field`); template ports are plain port numbers. -/
abbrev InstPort := Nat → Nat → Nat

/-- node.py:198-207: for every mapping one IS route per destination; an IS connects both ways
(route.py:150-156). The destinations are the nodes recorded while the PROTO body was parsed
(parseprocessor.py:330-333), that is the nodes of the template. -/
def isRoutes {V : Type} (ip : InstPort) (P : Proto V) (i : Nat) : List (Nat × Nat) :=
  P.maps.flatMap (fun m => m.2.flatMap (fun d => [(ip i m.1, d), (d, ip i m.1)]))

/-- node.py:208-217: after the inner loop, the default goes to the *last* destination of the mapping
only, without notification.  Rejected defaults raise (`none`). -/
def pushDefaults {V : Type} (coerce : Nat → V → Option V) (P : Proto V) :
    List (Nat × List Nat) → (Nat → Option V) → Option (Nat → Option V)
  | [], st => some st
  | m :: l, st =>
    match P.default m.1, m.2.getLast? with
    | some v, some d => match coerce d v with
      | some w => pushDefaults coerce P l (fun q => if q = d then some w else st q)
      | none => none
    | _, _ => pushDefaults coerce P l st

/-- `PrototypedNode.instantiate`, node.py:171-218, on network and stored values. -/
def instantiate {V : Type} (ip : InstPort) (P : Proto V) (net : Route.Net V) (st : Route.St V) (i : Nat) :
    Option (Route.Net V × Route.St V) :=
  match pushDefaults net.coerce P P.maps st.store with
  | none => none
  | some store => some ({ net with routes := net.routes ++ isRoutes ip P i }, { st with store := store })

end Verif.Copy
