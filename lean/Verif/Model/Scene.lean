import Verif.Model.PyDict
/-
Scene graphs as namespaces: DEF names, prototype scoping, root propagation, node copying and
prototype instantiation.
Models /repo/vrml/vrml97/scenegraph.py, /repo/vrml/node.py, /repo/vrml/copier.py and the scoping part
of /repo/vrml/vrml97/parseprocessor.py.
Nodes, scene graphs and prototypes are identities (`Nat`); names are an arbitrary type with equality.
-/
namespace Verif.Scene
open Verif.PyDict

variable {N : Type} [DecidableEq N]

/-! ## DEF names -/

/-- The DEF field of every node and the `defNames` dictionary of every scene graph. -/
structure DefSt (N : Type) where
  defOf : Nat → N
  tables : Nat → Dict N Nat

/-- scenegraph.py:87-89 `getDEF` -/
def DefSt.getDEF (s : DefSt N) (sg : Nat) (n : N) : Option Nat := get? (s.tables sg) n

/-- protofunctions.py:50-57 `defName(obj, value)`, also what `node.DEF = value` does. -/
def DefSt.setDEF (s : DefSt N) (o : Nat) (n : N) : DefSt N :=
  { s with defOf := fun o' => if o' = o then n else s.defOf o' }

/-- scenegraph.py:102-103: forget the object's current name if it is registered to it. -/
def DefSt.forget (s : DefSt N) (sg o : Nat) : DefSt N :=
  if s.getDEF sg (s.defOf o) = some o then
    { s with tables := fun g => if g = sg then erase (s.tables sg) (s.defOf o) else s.tables g }
  else s

/-- scenegraph.py:105 `self.defNames[defName] = object` -/
def DefSt.put (s : DefSt N) (sg : Nat) (n : N) (o : Nat) : DefSt N :=
  { s with tables := fun g => if g = sg then set (s.tables sg) n o else s.tables g }

/-- scenegraph.py:91-105 `regDefName` -/
def DefSt.reg (s : DefSt N) (sg : Nat) (n : N) (o : Nat) : DefSt N :=
  ((s.forget sg o).setDEF o n).put sg n o

/-- a history of registrations `(scene graph, name, node)`, oldest first -/
def DefSt.regs (s : DefSt N) (h : List (Nat × N × Nat)) : DefSt N :=
  h.foldl (fun s e => s.reg e.1 e.2.1 e.2.2) s

/-! ## Prototype scoping -/

/-- What prototype lookup sees of a SceneGraph: its own `protoTypes` and its `root` weak reference.
`root = none` also stands for a scene graph without a `root` attribute, which is what
`SceneGraph.copy` makes (scenegraph.py:159-180 builds it with `__new__`). -/
structure SceneObj (N : Type) where
  protos : Dict N Nat
  root : Option Nat

/-- All scene graphs, indexed by creation order, and which are still alive. -/
structure Scenes (N : Type) where
  objs : List (SceneObj N)
  alive : Nat → Bool

/-- scenegraph.py:71-85 `getProto`. A scene's root was created before the scene
(scenegraph.py:52-53), which is the guard `r < s` that makes the recursion well founded. -/
def getProto (h : Scenes N) (s : Nat) (n : N) : Option Nat :=
  match h.objs[s]? with
  | none => none
  | some o =>
    match get? o.protos n with
    | some p => some p
    | none =>
      match o.root with
      | none => none
      | some r => if h.alive r = true then (if _h : r < s then getProto h r n else none) else none
termination_by s

/-- scenegraph.py:106-110 `addProto` -/
def addProto (h : Scenes N) (s : Nat) (n : N) (p : Nat) : Scenes N :=
  match h.objs[s]? with
  | none => h
  | some o => { h with objs := h.objs.set s { o with protos := set o.protos n p } }

/-- scenegraph.py:33-70: a new SceneGraph is appended to the heap. -/
def newScene (h : Scenes N) (root : Option Nat) (protos : Dict N Nat) : Scenes N × Nat :=
  ({ h with objs := h.objs ++ [⟨protos, root⟩] }, h.objs.length)

/-- scenegraph.py:159-180 `SceneGraph.copy` as far as prototypes go: the copy has a copy of the own
prototypes and no `root` attribute. -/
def copyScene (h : Scenes N) (s : Nat) : Option (Scenes N × Nat) :=
  match h.objs[s]? with
  | none => none
  | some o => some (newScene h none o.protos)

/-- The scoping skeleton of a VRML file: PROTO declarations with their body, and node uses. -/
inductive Item (N : Type)
  | proto (name : N) (body : List (Item N))
  | node (gi : N)

/-- Processor state: scene graph heap, `sceneGraphStack` (top first), next prototype identity, and
the prototype found for each node built, in order. -/
structure Proc (N : Type) where
  h : Scenes N
  stack : List Nat
  next : Nat
  found : List (Option Nat)

mutual
/-- parseprocessor.py:95-105 `Proto` (create class, process body scene, add to the scene on top of
the stack afterwards) and :131 `Node` (`getProto` on the top scene).  Simplification: an unknown
type is recorded as `none` instead of aborting with NameError. -/
def procItem (s : Proc N) : Item N → Proc N
  | .node gi => match s.stack with
    | [] => s
    | top :: _ => { s with found := s.found ++ [getProto s.h top gi] }
  | .proto name body =>
    -- node.prototype(name): a new class
    let p := s.next
    let s := { s with next := s.next + 1 }
    let s := procScene s body
    match s.stack with
    | [] => s
    | top :: _ => { s with h := addProto s.h top name p }
/-- the items of a scene in order (vrmlScene's children) -/
def procItems (s : Proc N) : List (Item N) → Proc N
  | [] => s
  | i :: l => procItems (procItem s i) l
/-- parseprocessor.py:74-92 `vrmlScene` for a nested scene: push a scene whose root is the top of the
stack and that has no prototypes of its own, process, pop. -/
def procScene (s : Proc N) (body : List (Item N)) : Proc N :=
  let (h', id) := newScene s.h s.stack.head? []
  let s := procItems { s with h := h', stack := id :: s.stack } body
  { s with stack := s.stack.tail }
end

/-- parseprocessor.py:74-92 for the outermost scene: its prototypes are the base prototypes. -/
def procFile (base : Dict N Nat) (next : Nat) (items : List (Item N)) : List (Option Nat) :=
  (procItems ⟨⟨[⟨base, none⟩], fun _ => true⟩, [0], next, []⟩ items).found

/-! ## Root scene graph propagation -/

/-- What `RootScenegraphNode.fset` sees of one field of a node, in `getFields` order. -/
inductive FieldVal
  /-- an SFNode field (not the root or PROTO scenegraph field) holding this node (NULL included) -/
  | sf (child : Nat)
  /-- an MFNode field holding these nodes -/
  | mf (children : List Nat)
  /-- the ' DEF' field -/
  | deff
  /-- any other field -/
  | other

/-- roots of nodes and DEF data -/
structure RootSt (N : Type) where
  root : Nat → Option Nat
  defs : DefSt N

mutual
/-- node.py:401-431 `RootScenegraphNode.fset(client, value)` for a live scene graph `sg`: store the
weak reference, then for every field recurse into the node or nodes it holds, or register the DEF
name (even an empty one).  `fuel` bounds the recursion depth; `none` = the RecursionError of a cyclic
graph ("this will blow up on cyclic graphs").  Simplifications: the reference to `sg` stays alive;
`_SFNode.fset`'s own root update of `sg` is left out because a scene graph already has itself as root
(scenegraph.py:67). -/
def rootSet (fields : Nat → List FieldVal) (sg : Nat) : Nat → RootSt N → Nat → Option (RootSt N)
  | 0, _, _ => none
  | fuel + 1, s, c =>
    rootFields fields sg fuel { s with root := fun x => if x = c then some sg else s.root x } c (fields c)
/-- the loop over the fields of the client, node.py:407-430 -/
def rootFields (fields : Nat → List FieldVal) (sg : Nat) : Nat → RootSt N → Nat → List FieldVal → Option (RootSt N)
  | _, s, _, [] => some s
  | fuel, s, c, .sf x :: l => match rootSet fields sg fuel s x with
    | none => none
    | some s => rootFields fields sg fuel s c l
  | fuel, s, c, .mf xs :: l => match rootChildren fields sg fuel s xs with
    | none => none
    | some s => rootFields fields sg fuel s c l
  | fuel, s, c, .deff :: l =>
    rootFields fields sg fuel { s with defs := s.defs.reg sg (s.defs.defOf c) c } c l
  | fuel, s, c, .other :: l => rootFields fields sg fuel s c l
/-- the loop over an MFNode's children, node.py:421-422 -/
def rootChildren (fields : Nat → List FieldVal) (sg : Nat) : Nat → RootSt N → List Nat → Option (RootSt N)
  | _, s, [] => some s
  | fuel, s, x :: xs => match rootSet fields sg fuel s x with
    | none => none
    | some s => rootChildren fields sg fuel s xs
end

end Verif.Scene
