import Verif.Model.ProtoText
/-
Reading whole files: /repo/vrml/vrml97/parseprocessor.py with everything the grammar allows: prototypes inside prototypes
and inside the braces of nodes, EXTERNPROTOs, interface defaults that contain nodes, ROUTEs inside braces, and values for
interface fields that a prototype's body maps with IS (which are forwarded while the file is read).

All objects live in one store: nodes, scene graphs (the file's and one per PROTO) and classes (one per PROTO or EXTERNPROTO),
numbered in the order in which they are created.

Simplifications:
* Entries for the empty name in DEF tables are left out (`regDefName('', node)`, node.py:426-429): no file can refer to them.
* Reading a default stores it in the node's dictionary (field.py:140-154): not distinguished from the default itself.
* Instances get a copy of the body of their prototype (node.py:194-195): the copy is not represented, since IS mappings lead
  to the body itself (node.py:196-205) and the copies are never seen by the reader.
* The receivers of a signal are called in the order of connection.
* What fields make of forwarded values of other types is a parameter (`Floats.cross`).  Values stored by events (field.py:403) are not
  represented: the reader never reads them.  No class of the repository has `on_NAME` methods (field.py:396-402).
Not modelled (the reader of the model refuses such trees): SFArray fields; interface names that replace attributes of Python's
node classes (`reserved`), PROTOs named like a class the reader needs (`coreName`).
-/
namespace Verif.Full
open Verif.Peg Verif.Grammar Verif.TextOut Verif.Lin

variable {F : Type}

/-- A scene graph, scenegraph.py:33-70: the enclosing scene graph (`root`), the prototypes registered with it (latest first),
its DEF table, children and routes. -/
structure SceneObj where
  outer : Option Nat
  protos : List (Text × Nat)
  defs : List (Text × Nat)
  children : List Nat
  routes : List Rt

/-- A prototype class, node.py:229-261: its interface (of `decl`, `body` and `free` are not used), its IS mappings
(`ismaps(cls)`, node.py:558-569) and its scene graph. -/
structure ClassObj (F : Type) where
  decl : ProtoDef F
  is : List (Text × List (Nat × Text))
  body : Option Nat

/-- A connection: when field `srcField` of node `src` changes, the value is forwarded to `dstField` of `dst` (route.py:42-60, 138-166;
an IS makes two, one in each direction). -/
structure Wire where
  src : Nat
  srcField : Text
  dst : Nat
  dstField : Text
deriving DecidableEq, Repr

/-- All objects.  `inst` tells which prototype a node is an instance of; `cross` is a parameter, see `Floats`. -/
structure World (F : Type) where
  heap : Nat → Option (Node F)
  next : Nat
  scene : Nat → SceneObj
  nscenes : Nat
  cls : Nat → ClassObj F
  nclasses : Nat
  inst : Nat → Option Nat
  wires : List Wire
  cross : Kind → (F → F) → Option (Val F) → Option (Option (Val F))

/-- change the `i`-th object -/
def upd {α : Type} (f : Nat → α) (i : Nat) (g : α → α) : Nat → α := fun j => if j = i then g (f i) else f j

/-- An empty scene graph inside `outer`, parseprocessor.py:77-89. -/
def SceneObj.new (outer : Option Nat) : SceneObj := ⟨outer, [], [], [], []⟩

/-- Scene graph number `s` with the nodes of the world. -/
def World.view (w : World F) (s : Nat) (is : Option (List (Text × List (Nat × Text)))) : Scene F :=
  ⟨w.heap, (w.scene s).children, (w.scene s).routes, (w.scene s).defs, is⟩

/-- Class number `c` as a prototype, with its body. -/
def World.proto (w : World F) (c : Nat) : ProtoDef F :=
  { (w.cls c).decl with body := (w.cls c).body.map (fun s => w.view s (some (w.cls c).is)) }

/-- The IS mappings that the instances of a class get, node.py:184-190: those of a class without scene graph are not looked at. -/
def ClassObj.isMaps (o : ClassObj F) : List (Text × List (Nat × Text)) := if o.body.isSome then o.is else []

/-- The class of the instances: the interface, and the names mapped by IS.  After `setExternalURL` (protofunctions.py:215-219)
the class attribute `externalURL` is a list instead of a field: the name no longer stands for a field
(protofunctions.py:124-125). -/
def ClassObj.cls (o : ClassObj F) : Class F :=
  let fields := o.decl.fields.map PField.decl
  let mapped := o.isMaps.filterMap (fun e => match resolveName o.decl.port e.1 with
    | some (.inl d) => if e.2 = [] then none else some d.name
    | _ => none)
  ⟨o.decl.name, match o.decl.url with
    | .urls _ => fields.filter (fun d => d.name != chars "externalURL")
    | _ => fields, mapped, (o.decl.fields.filter PField.exposed).map (fun f => f.decl.name), o.decl.events⟩

/-- Store a value in a node. -/
def World.setField (w : World F) (i : Nat) (f : Text) (v : Val F) : World F :=
  { w with heap := fun j => if j = i then (w.heap i).map (fun n => n.set f v) else w.heap j }

/-- `sceneGraph.regDefName(name, node)` for scene graph `s`, scenegraph.py:91-105 -/
def World.regDef (w : World F) (s : Nat) (nm : Text) (i : Nat) : World F :=
  let sc := (w.view s none).regDefName nm i
  { w with heap := sc.heap, scene := upd w.scene s (fun o => { o with defs := sc.defs }) }

/-- the connections that start at a field, in order -/
def World.out (w : World F) (i : Nat) (f : Text) : List Wire := w.wires.filter (fun x => x.src == i && x.srcField == f)

/-- `_bind(source, field)`, route.py:42-60: if there is such a field or event, its changes are forwarded. -/
def World.bind (w : World F) (i : Nat) (f : Text) (dst : Nat) (dstField : Text) : World F :=
  match (w.heap i).bind (fun n => n.cls.getField f) with
  | none => w
  | some (.inl d) => { w with wires := w.wires ++ [⟨i, d.name, dst, dstField⟩] }
  | some (.inr e) => { w with wires := w.wires ++ [⟨i, e.name, dst, dstField⟩] }

/-! ### Forwarding -/

/-- The right sort of value for a field type. -/
def fitsKind : Kind → Val F → Bool
  | .sfBool, .bool _ => true
  | .sfInt32, .int _ => true
  | .sfFloat, .num _ => true
  | .sfString, .str _ => true
  | .sfVec n, .nums l => l.length == n
  | .mfInt s, .ints l => l.all (fun n => decide (In32 s n))
  | .mfFloat, .nums _ => true
  | .mfVec n, .rows l => l.all (fun r => r.length == n)
  | .mfString, .strs _ => true
  | .sfNode, .ref _ => true
  | .mfNode, .refs _ => true
  | _, _ => false

/-- The nodes in a value. -/
def refsOf : Val F → List Nat
  | .ref (some i) => [i]
  | .refs l => l.filterMap id
  | _ => []

/-- What field `d` makes of a value (`none`: of None): `coerce`, field.py:118-127.  `some none` is ValueError or TypeError, `none` any
other exception.  Of values of other types the parameter `cross` decides; only values of the field's type without new nodes
are accepted from it. -/
def World.take (w : World F) (d : FieldDecl F) (v : Option (Val F)) : Option (Option (Val F)) :=
  match v.bind (coerce d.kind d.conv) with
  | some u => some (some u)
  | none => match w.cross d.kind d.conv v with
    | some (some u) => if fitsKind d.kind u && (refsOf u).all (fun j => ((v.map refsOf).getD []).contains j) then some (some u) else none
    | r => r

/-- `_forward` of a value (`none`: None) to the field or event `f` of node `i`, route.py:72-107.  `vis` are the fields and events this event has
visited (event.py).  A field stores what it makes of the value and that goes on along the connections from there; if it raises
ValueError or TypeError nothing is stored and the value itself goes on (92-96).  An event sends the value along its
connections, each as a new event (field.py:394-407), and then None (route.py:98-107: `Event.__set__` returns None). -/
def forward : Nat → List (Nat × Text) → World F → Nat → Text → Option (Val F) → Option (List (Nat × Text) × World F)
  | 0, _, _, _, _, _ => none
  | fuel + 1, vis, w, i, f, v =>
    match (w.heap i).bind (fun n => n.cls.getField f) with
    | none => none
    | some (.inl d) =>
      if (i, d.name) ∈ vis then some (vis, w)
      else match w.take d v with
        | none => none
        | some u =>
          (w.out i d.name).foldlM (fun (p : List (Nat × Text) × World F) x => forward fuel p.1 p.2 x.dst x.dstField (u.or v))
            ((i, d.name) :: vis, match u with
              | some u => w.setField i d.name u
              | none => w)
    | some (.inr e) =>
      if (i, e.name) ∈ vis then some (vis, w)
      else match (w.out i e.name).foldlM (fun w x => (forward fuel [] w x.dst x.dstField v).map Prod.snd) w with
        | none => none
        | some w' =>
          (w.out i e.name).foldlM (fun (p : List (Nat × Text) × World F) x => forward fuel p.1 p.2 x.dst x.dstField none) ((i, e.name) :: vis, w')

/-- A recursion depth that is enough for forwarding if any is: an event starts a new event at most once per event on the way
(`C87_value_refused_iff`). -/
def World.depth (w : World F) : Nat := (w.wires.length + 1) * (w.wires.length + 1)

/-- `field.fset(node, value, notify)`, field.py:118-127 with parseprocessor.py:336-342: coerce and store; for an instance of a
prototype, every connection from the field forwards the value (each as a new event).  A list of nodes is put into the list
the node already has (node.py:477-480: `root(newNode, ...)` has read the field, node.py:418-424), and no signal is sent. -/
def World.setAttr (w : World F) (i : Nat) (d : FieldDecl F) (v : Val F) : Option (World F) :=
  match coerce d.kind d.conv v with
  | none => none
  | some u =>
    let w := w.setField i d.name u
    if (w.inst i).isSome && d.kind != .mfNode then
      (w.out i d.name).foldlM (fun w x => (forward w.depth [] w x.dst x.dstField (some u)).map Prod.snd) w
    else some w

/-! ### New nodes -/

/-- `getProto(name)`, scenegraph.py:71-86: the prototypes of the scene graph, then those of the enclosing ones (`ss` are the
scene graphs being read, innermost first). -/
def World.getProto (w : World F) (ss : List Nat) (nm : Text) : Option Nat := ss.findSome? (fun s => (w.scene s).protos.lookup nm)

/-- The nodes in the fields of a node. -/
def nodeRefs (n : Node F) : List Nat := n.cls.fields.flatMap (fun d => ((d.read n).map refsOf).getD [])

/-- `RootScenegraphNode.fset(node, sceneGraph)`, node.py:401-432: registers the DEF names of the node and of all nodes below it.
`none`: a node below itself (RecursionError). -/
def rootSet (s : Nat) : Nat → World F → Nat → Option (World F)
  | 0, _, _ => none
  | fuel + 1, w, i =>
    match w.heap i with
    | none => none
    | some n => (nodeRefs n).foldlM (rootSet s fuel) (if n.DEF = [] then w else w.regDef s n.DEF i)

/-- One entry of the IS mappings, for a new instance `i` of class `c`: node.py:196-213. -/
def World.bindIs (w : World F) (i : Nat) (c : Class F) (e : Text × List (Nat × Text)) : Option (World F) :=
  match c.getField e.1 with
  | none => none
  | some p =>
    let w := e.2.foldl (fun w x => (w.bind i e.1 x.1 x.2).bind x.1 x.2 i e.1) w
    match p, e.2.getLast? with
    | .inl d, some (j, f) =>
      match (w.heap j).bind (fun n => n.cls.getField f), d.dflt.value with
      | some (.inl _), none => none
      | some (.inl d2), some v => match w.take d2 (some v) with
        | some (some u) => some (w.setField j d2.name u)
        | _ => none
      | _, _ => some w
    | _, _ => some w

/-- A new node without a name, with nothing stored. -/
def World.alloc (w : World F) (c : Class F) (k : Option Nat) : World F :=
  { w with
    heap := fun j => if j = w.next then some ⟨c, [], fun _ => none⟩ else w.heap j
    next := w.next + 1
    inst := fun j => if j = w.next then k else w.inst j }

/-- A new node of class `c` (an instance of prototype `k`, if given): created, its IS mappings connected, its root scene graph set
and its DEF name registered; parseprocessor.py:139-142. -/
def World.newNode (w : World F) (ss : List Nat) (c : Class F) (k : Option Nat) (DEF : Text) : Option (World F) :=
  let is := match k with
    | some k => (w.cls k).isMaps
    | none => []
  match is.foldlM (fun w' e => w'.bindIs w.next c e) (w.alloc c k) with
  | none => none
  | some w1 =>
    match rootSet (ss.getLastD 0) (w1.next + 1) w1 w.next with
    | none => none
    | some w2 => some (if DEF = [] then w2 else w2.regDef (ss.headD 0) DEF w.next)

/-- A new node of the type with that name, parseprocessor.py:131-142. -/
def World.create (w : World F) (base : Text → Option (Class F)) (ss : List Nat) (gi DEF : Text) : Option (World F) :=
  match w.getProto ss gi with
  | some k => w.newNode ss (w.cls k).cls (some k) DEF
  | none => match base gi with
    | none => none
    | some c => w.newNode ss c none DEF

/-! ### Declarations -/

/-- Change the interface of class `c`. -/
def World.onDecl (w : World F) (c : Nat) (g : ProtoDef F → ProtoDef F) : World F :=
  { w with cls := upd w.cls c (fun o => { o with decl := g o.decl }) }

/-- `node.prototype(name)`, node.py:229-257 -/
def World.newClass (w : World F) (nm : Text) : World F :=
  { w with cls := upd w.cls w.nclasses (fun _ => ⟨ProtoDef.new nm, [], none⟩), nclasses := w.nclasses + 1 }

/-- a new scene graph inside `outer` -/
def World.newScene (w : World F) (outer : Option Nat) : World F :=
  { w with scene := upd w.scene w.nscenes (fun _ => SceneObj.new outer), nscenes := w.nscenes + 1 }

/-- `setSceneGraph(proto, scene)`, protofunctions.py:194-198 -/
def World.setBody (w : World F) (c s : Nat) : World F := { w with cls := upd w.cls c (fun o => { o with body := some s }) }

/-- `addProto(proto)`, scenegraph.py:107-111 -/
def World.addProto (w : World F) (s : Nat) (nm : Text) (c : Nat) : World F :=
  { w with scene := upd w.scene s (fun o => { o with protos := (nm, c) :: o.protos }) }

/-- `setExternalURL(proto, urls)`: replaces a declared field `externalURL`, so that the inherited one is found again. -/
def ProtoDef.setURL (p : ProtoDef F) (l : List Text) : ProtoDef F :=
  { p with fields := externalURL :: p.fields.filter (fun f => f.decl.name != chars "externalURL"), url := .urls l }

/-- `ismaps(prototypeStack[-1]).setdefault(name, []).append((node, field))`, parseprocessor.py:331-333; IndexError outside
prototypes. -/
def World.addIs (w : World F) (ps : List Nat) (nm : Text) (i : Nat) (f : Text) : Option (World F) :=
  match ps with
  | [] => none
  | c :: _ => some { w with cls := upd w.cls c (fun o => { o with is := isAppend nm (i, f) o.is }) }

/-- parseprocessor.py:180-183: the IS mappings of a Script's declarations, if there are any -/
def World.addAllIs (w : World F) (ps : List Nat) (i : Nat) (l : List (Text × Text)) : Option (World F) :=
  l.foldlM (fun w e => w.addIs ps e.1 i e.2) w

/-- `getDEF(name)` of scene graph `s`, scenegraph.py:87-89 -/
def World.getDEF (w : World F) (s : Nat) (nm : Text) : Option Nat := (w.view s none).getDEF nm

/-- A new ROUTE, appended to the routes of scene graph `s`: parseprocessor.py:207-228, route.py:18-60. -/
def World.addRoute (w : World F) (s : Nat) (r : Rt) : World F :=
  let w := w.bind r.src r.srcField r.dst r.dstField
  { w with scene := upd w.scene s (fun o => { o with routes := o.routes ++ [r] }) }

/-- the field that a declaration makes: name, type, exposure and default -/
def mkField (fl : Floats F) (ex ty nm : Text) (dflt : Dflt F) : Option (PField F) :=
  if reserved nm then none
  else (fl.types.field ty).map (fun ft => ⟨⟨nm, ty, ft.kind, ft.str, ft.conv, dflt⟩, decide (ex = chars "exposedField")⟩)

/-- the event that a declaration makes -/
def mkEvent (fl : Floats F) (dir ty nm : Text) : Option EventDecl :=
  if reserved nm || nm == chars "externalURL" then none
  else if fl.types.event ty then some ⟨nm, ty, decide (dir = chars "eventOut")⟩ else none

/-- Give node `i` the class `c`. -/
def World.setClass (w : World F) (i : Nat) (c : Class F) : World F :=
  { w with heap := fun j => if j = i then (w.heap i).map (fun n => { n with cls := c }) else w.heap j }

/-! ### The reader -/

mutual
/-- `dispatch` on an entry (parseprocessor.py:65-228, 314-359).  `ss` is the stack of scene graphs, `ps` the stack of prototypes, `cur` the top
of the node stack, `fd` the top of the field-type stack. -/
def disp (base : Text → Option (Class F)) (fl : Floats F) : PTree → List Nat → List Nat → Option Nat → Option Kind → World F → Option (RVal F × World F)
  | .node .rootItem _ kids, ss, ps, cur, fd, w =>
    match dispList base fl kids ss ps cur fd w with
    | none => none
    | some (items, w) =>
      let nodes := items.filterMap (fun v => match v with | .ref (some i) => some i | _ => none)
      some (.nothing, { w with scene := upd w.scene (ss.headD 0) (fun o => { o with children := o.children ++ nodes }) })
  | .node .proto _ (.node .nodegi nm _ :: rest), ss, ps, _, _, w =>
    if coreName nm then none
    else match dispProto base fl rest ss (w.nclasses :: ps) w.nclasses (w.newClass nm) with
      | none => none
      | some w' => some (.nothing, w'.addProto (ss.headD 0) nm w.nclasses)
  | .node .externProto _ (.node .nodegi nm _ :: rest), ss, ps, _, _, w =>
    if coreName nm then none
    else match dispProto base fl rest ss (w.nclasses :: ps) w.nclasses (w.newClass nm) with
      | none => none
      | some w' => some (.nothing, w'.addProto (ss.headD 0) nm w.nclasses)
  | .node .node _ (.node .name nm _ :: .node .nodegi gi _ :: rest), ss, ps, _, fd, w =>
    match w.create base ss gi nm with
    | none => none
    | some w1 =>
      match dispList base fl rest ss ps (some w.next) fd w1 with
      | none => none
      | some (_, w') => some (.ref (some w.next), w')
  | .node .node _ (.node .nodegi gi _ :: rest), ss, ps, _, fd, w =>
    match w.create base ss gi [] with
    | none => none
    | some w1 =>
      match dispList base fl rest ss ps (some w.next) fd w1 with
      | none => none
      | some (_, w') => some (.ref (some w.next), w')
  | .node .script _ (.node .name nm _ :: rest), ss, ps, _, fd, w =>
    match w.newNode ss scriptProto.cls none nm with
    | none => none
    | some w1 =>
      match dispDecls base fl rest ss ps w.next scriptProto [] w1 with
      | none => none
      | some (is, w2) =>
        match w2.addAllIs ps w.next is with
        | none => none
        | some w3 =>
          match dispAttrs base fl rest ss ps w.next fd w3 with
          | none => none
          | some w' => some (.ref (some w.next), w')
  | .node .script _ rest, ss, ps, _, fd, w =>
    match w.newNode ss scriptProto.cls none [] with
    | none => none
    | some w1 =>
      match dispDecls base fl rest ss ps w.next scriptProto [] w1 with
      | none => none
      | some (is, w2) =>
        match w2.addAllIs ps w.next is with
        | none => none
        | some w3 =>
          match dispAttrs base fl rest ss ps w.next fd w3 with
          | none => none
          | some w' => some (.ref (some w.next), w')
  | .node .sfNull _ _, _, _, _, _, w => some (.ref none, w)
  | .node .use m _, ss, _, _, _, w =>
    match w.getDEF (ss.headD 0) m with
    | none => none
    | some i => some (.ref (some i), w)
  | .node .route _ [.node .name s _, .node .name sf _, .node .name d _, .node .name df _], ss, _, _, _, w =>
    match w.getDEF (ss.headD 0) s, w.getDEF (ss.headD 0) d with
    | some si, some di => some (.nothing, w.addRoute (ss.headD 0) ⟨si, sf, di, df⟩)
    | _, _ => none
  | .node .attr _ [.node .name nm _, value], ss, ps, some i, _, w =>
    match w.heap i with
    | none => none
    | some n =>
      match n.cls.getField nm, isTarget value with
      | none, _ => none
      | some _, some m =>
        match w.addIs ps m i nm with
        | none => none
        | some w => some (.nothing, w)
      -- events have no `fset`: AttributeError
      | some (.inr _), none => none
      | some (.inl d), none =>
          match disp base fl value ss ps (some i) (some d.kind) w with
            | none => none
            | some (v, w) =>
              match v.toVal with
              | none => none
              | some v =>
                match w.setAttr i d v with
                | none => none
                | some w => some (.nothing, w)
  | .node .field _ kids, ss, ps, cur, some k, w =>
    match kids with
    | [] =>
      if k = .mfNode then some (.val (.refs []), w)
      else match simpleValue fl k [] with
        | none => none
        | some v => some (.val v, w)
    | .node t m tk :: rest =>
      if isNodeTag t then
        if k = .sfNode then disp base fl (.node t m tk) ss ps cur (some k) w
        else match dispList base fl (.node t m tk :: rest) ss ps cur (some k) w with
          | none => none
          | some (vs, w) => some (.vals vs, w)
      else if k = .mfNode then some (.val (.refs []), w)
      else match simpleValue fl k (.node t m tk :: rest) with
        | none => none
        | some v => some (.val v, w)
  | _, _, _, _, _, _ => none
/-- `dispatchList` -/
def dispList (base : Text → Option (Class F)) (fl : Floats F) : List PTree → List Nat → List Nat → Option Nat → Option Kind → World F →
    Option (List (RVal F) × World F)
  | [], _, _, _, _, w => some ([], w)
  | t :: ts, ss, ps, cur, fd, w =>
    match disp base fl t ss ps cur fd w with
    | none => none
    | some (v, w) =>
      match dispList base fl ts ss ps cur fd w with
      | none => none
      | some (vs, w) => some (v :: vs, w)
/-- The declarations of prototype `c` and, at the end, its body or its URLs (parseprocessor.py:74-118, 231-274, 449-451). -/
def dispProto (base : Text → Option (Class F)) (fl : Floats F) : List PTree → List Nat → List Nat → Nat → World F → Option (World F)
  | [.node .vrmlScene _ kids], ss, ps, c, w =>
    match dispList base fl kids (w.nscenes :: ss) ps none none (w.newScene (some (ss.headD 0))) with
    | none => none
    | some (_, w') => some (w'.setBody c w.nscenes)
  | [.node .extProtoURL _ kids], _, _, c, w => some (w.onDecl c (ProtoDef.setURL · (ParseVal.mfString kids)))
  | .node .fieldDecl _ [.node .fieldExposure ex _, .node .dataType ty _, .node .name nm _, value] :: ts, ss, ps, c, w =>
    match fl.types.field ty with
    | none => none
    | some ft =>
      match disp base fl value ss ps none (some ft.kind) w with
      | none => none
      | some (v, w) =>
        match v.toVal with
        | none => none
        | some v =>
          match mkField fl ex ty nm (dfltOf v) with
          | none => none
          | some f => dispProto base fl ts ss ps c (w.onDecl c (·.addField f))
  | .node .extFieldDecl _ [.node .fieldExposure ex _, .node .dataType ty _, .node .name nm _] :: ts, ss, ps, c, w =>
    match mkField fl ex ty nm (fl.types.dflt ty) with
    | none => none
    | some f => dispProto base fl ts ss ps c (w.onDecl c (·.addField f))
  | .node .eventDecl _ [.node .eventDirection dir _, .node .dataType ty _, .node .name nm _] :: ts, ss, ps, c, w =>
    match mkEvent fl dir ty nm with
    | none => none
    | some e => dispProto base fl ts ss ps c (w.onDecl c (·.addEvent e))
  | _, _, _, _, _ => none
/-- The first pass over the items of Script `i`, parseprocessor.py:170-179, with 276-311: the class of the Script (`p`) gets the
declared fields and events; IS mappings are collected in `is`.  PROTOs and ROUTEs are processed, attributes left for later. -/
def dispDecls (base : Text → Option (Class F)) (fl : Floats F) : List PTree → List Nat → List Nat → Nat → ProtoDef F → List (Text × Text) → World F →
    Option (List (Text × Text) × World F)
  | [], _, _, _, _, is, w => some (is, w)
  | .node .scriptFieldDecl _ [.node .fieldExposure ex _, .node .dataType ty _, .node .name nm _, value] :: ts, ss, ps, i, p, is, w =>
    match fl.types.field ty with
    | none => none
    | some ft =>
      match isTarget value with
      | some m =>
        match mkField fl ex ty nm (fl.types.dflt ty) with
        | none => none
        | some f => dispDecls base fl ts ss ps i (p.addField f) (is ++ [(m, nm)]) (w.setClass i (p.addField f).cls)
      | none =>
        match disp base fl value ss ps (some i) (some ft.kind) w with
        | none => none
        | some (v, w) =>
          match v.toVal with
          | none => none
          | some v =>
            match mkField fl ex ty nm (dfltOf v) with
            | none => none
            | some f => dispDecls base fl ts ss ps i (p.addField f) is (w.setClass i (p.addField f).cls)
  | .node .scriptEventDecl _ (.node .eventDirection dir _ :: .node .dataType ty _ :: .node .name nm _ :: rest) :: ts, ss, ps, i, p, is, w =>
    match mkEvent fl dir ty nm with
    | none => none
    | some e =>
      match rest with
      | [] => dispDecls base fl ts ss ps i (p.addEvent e) is (w.setClass i (p.addEvent e).cls)
      | t :: _ => match isTarget t with
        | some m => dispDecls base fl ts ss ps i (p.addEvent e) (is ++ [(m, nm)]) (w.setClass i (p.addEvent e).cls)
        | none => none
  | .node .attr _ _ :: ts, ss, ps, i, p, is, w => dispDecls base fl ts ss ps i p is w
  | .node .proto m kids :: ts, ss, ps, i, p, is, w =>
    match disp base fl (.node .proto m kids) ss ps (some i) none w with
    | none => none
    | some (_, w) => dispDecls base fl ts ss ps i p is w
  | .node .externProto m kids :: ts, ss, ps, i, p, is, w =>
    match disp base fl (.node .externProto m kids) ss ps (some i) none w with
    | none => none
    | some (_, w) => dispDecls base fl ts ss ps i p is w
  | .node .route m kids :: ts, ss, ps, i, p, is, w =>
    match disp base fl (.node .route m kids) ss ps (some i) none w with
    | none => none
    | some (_, w) => dispDecls base fl ts ss ps i p is w
  | _ :: _, _, _, _, _, _, _ => none
/-- The second pass: `dispatchList(self, attributes, buffer)`, parseprocessor.py:184. -/
def dispAttrs (base : Text → Option (Class F)) (fl : Floats F) : List PTree → List Nat → List Nat → Nat → Option Kind → World F → Option (World F)
  | [], _, _, _, _, w => some w
  | t :: ts, ss, ps, i, fd, w =>
    if ParseVal.Tree.tag t = .attr then
      match disp base fl t ss ps (some i) fd w with
      | none => none
      | some (_, w) => dispAttrs base fl ts ss ps i fd w
    else dispAttrs base fl ts ss ps i fd w
end

/-- The store before a file is read, with the file's scene graph, number 0: parseprocessor.py:77-89. -/
def World.init (fl : Floats F) : World F := ⟨fun _ => none, 0, fun _ => SceneObj.new none, 1, fun _ => ⟨ProtoDef.new [], [], none⟩, 0, fun _ => none, [], fl.cross⟩

/-- `parse(text)`, parser.py:63-72: the text is a VRML file, and processing its parse tree gives the objects `w`, with the file's
scene graph as number 0. -/
def ReadsWorld (base : Text → Option (Class F)) (fl : Floats F) (text : Text) (w : World F) : Prop :=
  ∃ hdr sm kids eof m vs,
    Der gram (gram .vrmlFile) text (.ok [hdr, .node .vrmlScene sm kids, eof] m []) ∧
    dispList base fl kids [0] [] none none (World.init fl) = some (vs, w)

end Verif.Full
