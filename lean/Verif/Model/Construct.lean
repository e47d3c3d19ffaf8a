import Verif.Model.Proto
/-
Building nodes and routes by hand: `Node.__init__` (/repo/vrml/node.py:54-83), `ROUTE.__init__`/`bind`
(/repo/vrml/route.py:19-60) and `SceneGraph.addRoute` (/repo/vrml/vrml97/scenegraph.py:111-157).

Classes and name lookup are those of Model/Proto; the coercion of each field object is a parameter.
Simplifications: class attributes other than fields and events are not settable descriptors (no `property` objects);
fields are stored with `BaseField.fset` (what `_MFNode.fset` and the root propagation of node fields add is in
Model/MFNode and Model/Scene).
-/
namespace Verif.Construct
open Verif.Proto Verif.PyDict

/-- The exceptions a constructor raises. -/
inductive Exc
  | attributeError | typeError | valueError
deriving DecidableEq, Repr

/-- A node under construction: its `__dict__` (by storage name) and the ('set', field) notifications sent. -/
structure Obj (V : Type) where
  dict : Name → Option V
  sent : List (Nat × V)

variable {V : Type}

/-- `f.fset(self, value)` with the default `notify=1` (field.py:118-126): coerce, store, notify. -/
def Obj.fset (coerce : Nat → V → Option V) (o : Obj V) (id : Nat) (storage : Name) (v : V) : Except Exc (Obj V) :=
  match coerce id v with
  | none => .error .valueError
  | some w => .ok { dict := fun s => if s = storage then some w else o.dict s, sent := o.sent ++ [(id, w)] }

/-- node.py:68-83, one keyword argument.  `getField` may give a string (protofunctions.py:132,136), which has no
`__set__`; events have `__set__` but no `fset` (field.py:377-476). -/
def setArg (coerce : Nat → V → Option V) (c : Cls) (o : Obj V) (key : Name) (v : V) : Except Exc (Obj V) :=
  match getField c key with
  | .attributeError => .error .attributeError
  | .str _ => .error .typeError
  | .obj (.other _) => .error .typeError
  | .obj (.event _ _) => .error .attributeError
  | .obj (.field id s) => o.fset coerce id s v

/-- node.py:54-83 `Node.__init__(**namedarguments)`: the arguments in the order of the call. -/
def construct (coerce : Nat → V → Option V) (c : Cls) : Obj V → List (Name × V) → Except Exc (Obj V)
  | o, [] => .ok o
  | o, (k, v) :: args =>
    match setArg coerce c o k v with
    | .error e => .error e
    | .ok o => construct coerce c o args

/-! ### Routes -/

/-- An end of a route as the caller gives it: a node or a DEF name. -/
inductive End
  | node (i : Nat)
  | name (n : Name)
deriving DecidableEq, Repr

/-- A ROUTE node (`id` is its identity); `none` is NULL (an unknown DEF name gives None, coerced to NULL by
node.py:351-352). -/
structure RouteObj where
  id : Nat
  src : Option Nat
  srcField : Name
  dst : Option Nat
  dstField : Name
deriving DecidableEq, Repr

/-- What `addRoute` is called with (scenegraph.py:111-123). -/
inductive RouteArg
  /-- a ROUTE object, which was bound when it was built -/
  | route (r : RouteObj)
  /-- (source, sourceField, destination, destinationField) -/
  | four (s : End) (sf : Name) (d : End) (df : Name)
  /-- (source, sourceField, function): `target` identifies the function, `none` = not callable -/
  | three (s : End) (sf : Name) (target : Option Nat)
deriving DecidableEq, Repr

/-- An entry of `sceneGraph.routes`: a ROUTE, or a tuple stored as it was given. -/
inductive Entry
  | route (r : RouteObj)
  | tuple (s : End) (sf : Name) (target : Option Nat)
deriving DecidableEq, Repr

/-- Who receives a signal: the `forward` method of a ROUTE, or a function. -/
inductive Receiver
  | route (id : Nat)
  | func (f : Nat)
deriving DecidableEq, Repr

/-- Field signals (field.py:111,121,179; route.py:102-107). -/
inductive Signal
  | set | del | route
deriving DecidableEq, Repr

/-- Dispatcher connections: (signal, field object, sender node) to receiver, in the order of the calls. -/
abbrev Conns := List ((Signal × Attr × Nat) × Receiver)

/-- `dispatcher.connect`: a receiver already connected to that signal and sender is moved to the end. -/
def connect (l : Conns) (key : Signal × Attr × Nat) (r : Receiver) : Conns :=
  l.filter (fun c => c != (key, r)) ++ [(key, r)]

/-- The receivers of a signal of field object `a` of node `i`, in the order they are called. -/
def receivers (l : Conns) (sig : Signal) (a : Attr) (i : Nat) : List Receiver :=
  (l.filter (fun c => c.1 == (sig, a, i))).map Prod.snd

/-- A scene graph, the dispatcher's connections, and the identity of the next ROUTE object built. -/
structure SG where
  defs : Dict Name Nat
  routes : List Entry
  conns : Conns
  next : Nat

/-- scenegraph.py:133-136, 148-149: a name is looked up with `getDEF`. -/
def SG.resolve (g : SG) : End → Option Nat
  | .node i => some i
  | .name n => get? g.defs n

/-- route.py:42-60 `_bind`: three connections, if there is a source and its class has such a field or event.
`clsOf` gives the class of a node. -/
def bind (clsOf : Nat → Cls) (l : Conns) (r : RouteObj) : Conns :=
  match r.src with
  | none => l
  | some i =>
    if r.srcField = [] then l
    else match getField (clsOf i) r.srcField with
      | .obj a => connect (connect (connect l (.set, a, i) (.route r.id)) (.del, a, i) (.route r.id)) (.route, a, i) (.route r.id)
      | _ => l

/-- field.py:316-329, 463-476 `watch`, twice (scenegraph.py:151-152). -/
def watch (l : Conns) (a : Attr) (i : Nat) (f : Nat) : Conns :=
  connect (connect l (.set, a, i) (.func f)) (.del, a, i) (.func f)

/-- scenegraph.py:111-157 `addRoute`; `none` = an exception, and nothing is changed.  (A name `getField` resolves to a
string has no `watch`, an attribute that is no field or event neither.) -/
def SG.addRoute (clsOf : Nat → Cls) (g : SG) : RouteArg → Option SG
  | .route r => some { g with routes := g.routes ++ [.route r] }
  | .four s sf d df =>
    let r : RouteObj := ⟨g.next, g.resolve s, sf, g.resolve d, df⟩
    some { g with routes := g.routes ++ [.route r], conns := bind clsOf g.conns r, next := g.next + 1 }
  | .three s sf target =>
    match target with
    | none => none
    | some f =>
      match g.resolve s with
      | none => none
      | some i =>
        match getField (clsOf i) sf with
        | .obj (.field id st) => some { g with routes := g.routes ++ [.tuple s sf target], conns := watch g.conns (.field id st) i f }
        | .obj (.event id st) => some { g with routes := g.routes ++ [.tuple s sf target], conns := watch g.conns (.event id st) i f }
        | _ => none

/-- linearise.py:126, 427-430: `_preroute` reads `source` and `destination` of every entry; a tuple has none and the
AttributeError is not caught. -/
def SG.prerouteOk (g : SG) : Bool := g.routes.all (fun e => match e with | .route _ => true | .tuple .. => false)

end Verif.Construct
