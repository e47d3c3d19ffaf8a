import Verif.Model.ParseVal
import Verif.Model.Lineariser
/-
Reading scenes: /repo/vrml/vrml97/parseprocessor.py, turning parse trees into a scene graph.

PROTO declarations are read in Model/ProtoText.
Not modelled here (the reader of the model refuses such trees): EXTERNPROTO declarations, SFArray fields,
ROUTEs, PROTOs inside the braces of a node, declarations of Scripts that replace attributes of Python's node classes, values for those fields of PROTO instances that the PROTO's body maps with IS (setting one also sets it on the template
and on all other instances, see Props/Copy C51).
-/
namespace Verif.Lin
open Verif.Peg Verif.Grammar Verif.TextOut

abbrev PTree := Tree NT

variable {F : Type}

/-- The reader's state: the scene graph under construction and the identity of the next node created. -/
structure RSt (F : Type) where
  sc : Scene F
  next : Nat

/-- What dispatching a parse-tree entry returns: None, a node or NULL, a simple value, a list of nodes. -/
inductive RVal (F : Type)
  | nothing
  | ref (o : Option Nat)
  | val (v : Val F)
  | vals (l : List (RVal F))

/-- `getField` of protofunctions.py:103-146: the first of the name, the name without the prefix `set_` or the suffix
`_changed`, and so on, that is known. -/
def resolveName {α : Type} (known : Text → Option α) (name : Text) : Option α :=
  match known name with
  | some a => some a
  | none =>
    if h : ['s', 'e', 't', '_'].isPrefixOf name = true then resolveName known (name.drop 4)
    else if h : ['_', 'c', 'h', 'a', 'n', 'g', 'e', 'd'].isSuffixOf name = true then resolveName known (name.take (name.length - 8))
    else none
termination_by name.length
decreasing_by
  · obtain ⟨t, rfl⟩ := List.isPrefixOf_iff_prefix.mp h; simp; omega
  · obtain ⟨t, rfl⟩ := List.isSuffixOf_iff_suffix.mp h; simp

/-- The field or event of the class with exactly that name (the class attribute of that name, protofunctions.py:124-125). -/
def Class.port (c : Class F) (nm : Text) : Option (FieldDecl F ⊕ EventDecl) :=
  match c.events.find? (fun e => e.name == nm) with
  | some e => some (.inr e)
  | none => (c.fields.find? (fun d => d.name == nm)).map .inl

/-- `getField` of protofunctions.py:103-146: the field or event of that name, else that without the
prefix `set_` or the suffix `_changed`.  (Visible fields are stored in the class under their own name.) -/
def Class.getField (c : Class F) (name : Text) : Option (FieldDecl F ⊕ EventDecl) := resolveName c.port name

/-- The value functions chosen by field type, parseprocessor.py:356-359 and 361-441; `none` = an exception. -/
def simpleValue (fl : Floats F) (k : Kind) (kids : List PTree) : Option (Val F) :=
  match k with
  | .sfBool => (ParseVal.sfBool kids).map .bool
  | .sfInt32 => (ParseVal.sfInt32 kids).map .int
  | .sfFloat => (ParseVal.sfFloat fl.parse kids).map .num
  | .sfString => (ParseVal.sfString kids).map .str
  | .mfInt _ => (ParseVal.mfInt32 kids).map .ints
  | .sfVec _ | .mfFloat | .mfVec _ => (ParseVal.mfFloat fl.parse kids).map .nums
  | .mfString => some (.strs (ParseVal.mfString kids))
  | .sfNode | .mfNode => none

/-- The nodes in a list of results. -/
def refList : List (RVal F) → Option (List (Option Nat))
  | [] => some []
  | .ref o :: l => (refList l).map (o :: ·)
  | _ :: _ => none

/-- A value as the argument of `fset`: a node or NULL, or a list of nodes, or a simple value. -/
def RVal.toVal : RVal F → Option (Val F)
  | .nothing => none
  | .ref o => some (.ref o)
  | .val v => some v
  | .vals l => (refList l).map .refs

/-- A node with field `f` set. -/
def Node.set (n : Node F) (f : Text) (v : Val F) : Node F :=
  { n with dict := fun g => if g = f then some v else n.dict g }

/-- `field.fset(node, value)`: coerce and store, parseprocessor.py:336-342, field.py:118-144. -/
def RSt.store (rs : RSt F) (i : Nat) (d : FieldDecl F) (v : Val F) : Option (RSt F) :=
  match coerce d.kind d.conv v with
  | none => none
  | some v =>
    let heap := fun j => if j = i then (rs.sc.heap i).map (fun n => n.set d.name v) else rs.sc.heap j
    some { rs with sc := { rs.sc with heap := heap } }

/-- A new node of class `c`, parseprocessor.py:131-143: created, given its root scene graph (which registers its
empty DEF name, node.py:401-432), and registered under its DEF name if it has one. -/
def RSt.newNode (rs : RSt F) (c : Class F) (DEF : Text) : RSt F :=
  let i := rs.next
  let sc := { rs.sc with heap := fun j => if j = i then some ⟨c, [], fun _ => none⟩ else rs.sc.heap j }
  let sc := sc.regDefName [] i
  let sc := if DEF = [] then sc else sc.regDefName DEF i
  ⟨sc, i + 1⟩

/-- Does the first entry of a field make it a node field?  parseprocessor.py:349 -/
def isNodeTag : NT → Bool
  | .use | .script | .node | .sfNull => true
  | _ => false

/-- The name after IS, if a value is an IS (parseprocessor.py:329-330). -/
def isTarget : PTree → Option Text
  | .node .is m _ => some m
  | _ => none

/-- `set.setdefault(mapName, []).append((clientNode, name))`, parseprocessor.py:331-333. -/
def isAppend (nm : Text) (e : Nat × Text) : List (Text × List (Nat × Text)) → List (Text × List (Nat × Text))
  | [] => [(nm, [e])]
  | (k, l) :: d => if k = nm then (k, l ++ [e]) :: d else (k, l) :: isAppend nm e d

/-! ### Interfaces of prototypes and Scripts -/

/-- What the class attribute `externalURL` of a prototype is (node.py:51, protofunctions.py:215-226): inherited, a list of
strings set on the class, or a field declared by the prototype itself. -/
inductive ExtURL
  | inherited
  | urls (l : List Text)
  | declared

/-- A prototype class, or the class of a Script node: name, fields and events (`getFields`, own and inherited), `externalURL`, the scene graph of its
body, and the names of the prototypes registered with that scene graph. -/
structure ProtoDef (F : Type) where
  name : Text
  fields : List (PField F)
  events : List EventDecl
  url : ExtURL
  body : Option (Scene F)
  free : List Text

/-! ### Names of the interface -/

/-- The field or event of the interface with exactly that name. -/
def ProtoDef.port (p : ProtoDef F) (nm : Text) : Option (FieldDecl F ⊕ EventDecl) :=
  match p.events.find? (fun e => e.name == nm) with
  | some e => some (.inr e)
  | none => ((p.fields.map PField.decl).find? (fun d => d.name == nm)).map .inl

/-- `ismaps(prototype)`, node.py:558-569 -/
def ProtoDef.isMaps (p : ProtoDef F) : List (Text × List (Nat × Text)) :=
  match p.body with
  | some b => b.is.getD []
  | none => []

/-- The interface fields with an IS link to the body, node.py:196-205. -/
def ProtoDef.mapped (p : ProtoDef F) : List Text :=
  p.isMaps.filterMap (fun e => match resolveName p.port e.1 with
    | some (.inl d) => if e.2 = [] then none else some d.name
    | _ => none)

/-- The class of the instances. -/
def ProtoDef.cls (p : ProtoDef F) : Class F :=
  ⟨p.name, p.fields.map PField.decl, p.mapped, (p.fields.filter PField.exposed).map (fun f => f.decl.name), p.events⟩

/-- The field every node class inherits, node.py:51. -/
def externalURL : PField F := ⟨⟨chars "externalURL", chars "MFString", .mfString, fun _ => [], id, .list (.strs [])⟩, true⟩

/-- Names that mean something else in Python's node classes (node.py:47-53, 97-214, 437-438); the model's reader refuses them. -/
def reserved (nm : Text) : Bool :=
  [chars "DEF", chars "PROTO", chars "scenegraph", chars "rootSceneGraph", chars "copy", chars "toString", chars "instantiate",
    chars "renderedChildren"].contains nm || ['_', '_'].isPrefixOf nm

/-- The default object of a field created with a value from a file: a list stays a list (fields of numbers store
arrays), the NULL node stays the NULL node. -/
def dfltOf : Val F → Dflt F
  | .bool b => .scalar (.bool b)
  | .int n => .scalar (.int n)
  | .num x => .scalar (.num x)
  | .str s => .scalar (.str s)
  | .ints l => .other (.ints l)
  | .nums l => .other (.nums l)
  | .rows l => .other (.rows l)
  | .strs l => .list (.strs l)
  | .ref none => .null
  | .ref (some i) => .other (.ref (some i))
  | .refs l => .list (.refs l)

/-- no nodes in the value -/
def Val.plain : Val F → Bool
  | .ref (some _) => false
  | .refs (_ :: _) => false
  | _ => true

/-- `addField(proto, field)`, protofunctions.py:83-88: replaces what had the name. -/
def ProtoDef.addField (p : ProtoDef F) (f : PField F) : ProtoDef F :=
  { p with
    fields := p.fields.filter (fun g => g.decl.name != f.decl.name) ++ [f]
    events := p.events.filter (fun e => e.name != f.decl.name)
    url := if f.decl.name = chars "externalURL" then .declared else p.url }

/-- the same for an event -/
def ProtoDef.addEvent (p : ProtoDef F) (e : EventDecl) : ProtoDef F :=
  { p with
    fields := p.fields.filter (fun g => g.decl.name != e.name)
    events := p.events.filter (fun g => g.name != e.name) ++ [e] }

/-- The class of a new Script node: script.py:5-22 with node.py:51, parseprocessor.py:160-163. -/
def scriptProto : ProtoDef F :=
  ⟨scriptName, [externalURL,
      ⟨⟨chars "url", chars "MFString", .mfString, fun _ => [], id, .list (.strs [])⟩, true⟩,
      ⟨⟨chars "directOutput", chars "SFBool", .sfBool, fun _ => [], id, .scalar (.bool false)⟩, false⟩,
      ⟨⟨chars "mustEvaluate", chars "SFBool", .sfBool, fun _ => [], id, .scalar (.bool false)⟩, false⟩],
    [], .inherited, none, []⟩

/-- Give node `i` the class `c`. -/
def RSt.setClass (rs : RSt F) (i : Nat) (c : Class F) : RSt F :=
  { rs with sc := { rs.sc with heap := fun j => if j = i then (rs.sc.heap i).map (fun n => { n with cls := c }) else rs.sc.heap j } }

/-- parseprocessor.py:180-183: the IS mappings of a Script's declarations, if there are any; outside a prototype
`self.prototypeStack[-1]` raises IndexError. -/
def RSt.addIs (rs : RSt F) (i : Nat) (l : List (Text × Text)) : Option (RSt F) :=
  if l = [] then some rs
  else match rs.sc.is with
    | none => none
    | some dict => some { rs with sc := { rs.sc with is := some (l.foldl (fun d e => isAppend e.1 (i, e.2) d) dict) } }

mutual
/-- `dispatch` on the entry for a node, a Script, a use, NULL, an attribute, a field, a route or a root item
(parseprocessor.py:65-92, 120-147, 149-187, 189-205, 207-228, 314-359).  A Script's class is given to the node when all
declarations are read: until then nothing looks at it.
`lk` finds node classes by name, `cur` is the top of the node stack, `fd` the top of the field-type stack. -/
def disp (lk : Text → Option (Class F)) (fl : Floats F) : PTree → Option Nat → Option Kind → RSt F → Option (RVal F × RSt F)
  | .node .rootItem _ kids, cur, fd, rs =>
    match dispList lk fl kids cur fd rs with
    | none => none
    | some (items, rs) =>
      let nodes := items.filterMap (fun v => match v with | .ref (some i) => some i | _ => none)
      some (.nothing, { rs with sc := { rs.sc with children := rs.sc.children ++ nodes } })
  | .node .vrmlScene _ kids, cur, fd, rs =>
    match dispList lk fl kids cur fd rs with
    | none => none
    | some (_, rs) => some (.nothing, rs)
  | .node .node _ (.node .name nm _ :: .node .nodegi gi _ :: rest), _, fd, rs =>
    match lk gi with
    | none => none
    | some c =>
      match dispList lk fl rest (some rs.next) fd (rs.newNode c nm) with
      | none => none
      | some (_, rs') => some (.ref (some rs.next), rs')
  | .node .node _ (.node .nodegi gi _ :: rest), _, fd, rs =>
    match lk gi with
    | none => none
    | some c =>
      match dispList lk fl rest (some rs.next) fd (rs.newNode c []) with
      | none => none
      | some (_, rs') => some (.ref (some rs.next), rs')
  | .node .script _ (.node .name nm _ :: rest), _, fd, rs =>
    match dispDecls lk fl rest rs.next scriptProto [] (rs.newNode scriptProto.cls nm) with
    | none => none
    | some (p, is, rs1) =>
      match (rs1.setClass rs.next p.cls).addIs rs.next is with
      | none => none
      | some rs2 =>
        match dispAttrs lk fl rest rs.next fd rs2 with
        | none => none
        | some rs' => some (.ref (some rs.next), rs')
  | .node .script _ rest, _, fd, rs =>
    match dispDecls lk fl rest rs.next scriptProto [] (rs.newNode scriptProto.cls []) with
    | none => none
    | some (p, is, rs1) =>
      match (rs1.setClass rs.next p.cls).addIs rs.next is with
      | none => none
      | some rs2 =>
        match dispAttrs lk fl rest rs.next fd rs2 with
        | none => none
        | some rs' => some (.ref (some rs.next), rs')
  | .node .sfNull _ _, _, _, rs => some (.ref none, rs)
  | .node .use m _, _, _, rs =>
    match rs.sc.getDEF m with
    | none => none
    | some i => some (.ref (some i), rs)
  | .node .route _ [.node .name s _, .node .name sf _, .node .name d _, .node .name df _], none, _, rs =>
    match rs.sc.getDEF s, rs.sc.getDEF d with
    | some si, some di => some (.nothing, { rs with sc := { rs.sc with routes := rs.sc.routes ++ [⟨si, sf, di, df⟩] } })
    | _, _ => none
  | .node .attr _ [.node .name nm _, value], some i, _, rs =>
    match rs.sc.heap i with
    | none => none
    | some n =>
      match n.cls.getField nm, isTarget value with
      | none, _ => none
      | some _, some m =>
        -- outside a prototype `self.prototypeStack[-1]` raises IndexError
        match rs.sc.is with
        | none => none
        | some dict => some (.nothing, { rs with sc := { rs.sc with is := some (isAppend m (i, nm) dict) } })
      -- events have no `fset`: AttributeError
      | some (.inr _), none => none
      | some (.inl d), none =>
          if d.name ∈ n.cls.mapped then none
          else match disp lk fl value (some i) (some d.kind) rs with
            | none => none
            | some (v, rs) =>
              match v.toVal with
              | none => none
              | some v =>
                match rs.store i d v with
                | none => none
                | some rs => some (.nothing, rs)
  | .node .field _ kids, cur, some k, rs =>
    match kids with
    | [] =>
      if k = .mfNode then some (.val (.refs []), rs)
      else match simpleValue fl k [] with
        | none => none
        | some v => some (.val v, rs)
    | .node t m tk :: rest =>
      if isNodeTag t then
        if k = .sfNode then disp lk fl (.node t m tk) cur (some k) rs
        else match dispList lk fl (.node t m tk :: rest) cur (some k) rs with
          | none => none
          | some (vs, rs) => some (.vals vs, rs)
      else if k = .mfNode then some (.val (.refs []), rs)
      else match simpleValue fl k (.node t m tk :: rest) with
        | none => none
        | some v => some (.val v, rs)
  | _, _, _, _ => none
/-- `dispatchList` -/
def dispList (lk : Text → Option (Class F)) (fl : Floats F) : List PTree → Option Nat → Option Kind → RSt F → Option (List (RVal F) × RSt F)
  | [], _, _, rs => some ([], rs)
  | t :: ts, cur, fd, rs =>
    match disp lk fl t cur fd rs with
    | none => none
    | some (v, rs) =>
      match dispList lk fl ts cur fd rs with
      | none => none
      | some (vs, rs) => some (v :: vs, rs)
/-- The first pass over the items of Script `i`, parseprocessor.py:170-179, with 276-311: declarations are collected in `p`, IS
mappings in `is`. -/
def dispDecls (lk : Text → Option (Class F)) (fl : Floats F) : List PTree → Nat → ProtoDef F → List (Text × Text) → RSt F →
    Option (ProtoDef F × List (Text × Text) × RSt F)
  | [], _, p, is, rs => some (p, is, rs)
  | .node .scriptFieldDecl _ [.node .fieldExposure ex _, .node .dataType ty _, .node .name nm _, value] :: ts, i, p, is, rs =>
    if reserved nm then none
    else match fl.types.field ty with
      | none => none
      | some ft =>
        match isTarget value with
        | some m =>
          dispDecls lk fl ts i (p.addField ⟨⟨nm, ty, ft.kind, ft.str, ft.conv, fl.types.dflt ty⟩, decide (ex = chars "exposedField")⟩) (is ++ [(m, nm)]) rs
        | none =>
          match disp lk fl value (some i) (some ft.kind) rs with
          | none => none
          | some (v, rs) =>
            match v.toVal with
            | none => none
            | some v => dispDecls lk fl ts i (p.addField ⟨⟨nm, ty, ft.kind, ft.str, ft.conv, dfltOf v⟩, decide (ex = chars "exposedField")⟩) is rs
  | .node .scriptEventDecl _ (.node .eventDirection dir _ :: .node .dataType ty _ :: .node .name nm _ :: rest) :: ts, i, p, is, rs =>
    if reserved nm || nm == chars "externalURL" then none
    else if fl.types.event ty then
      match rest with
      | [] => dispDecls lk fl ts i (p.addEvent ⟨nm, ty, decide (dir = chars "eventOut")⟩) is rs
      | t :: _ => match isTarget t with
        | some m => dispDecls lk fl ts i (p.addEvent ⟨nm, ty, decide (dir = chars "eventOut")⟩) (is ++ [(m, nm)]) rs
        | none => none
    else none
  | .node .attr _ _ :: ts, i, p, is, rs => dispDecls lk fl ts i p is rs
  | _ :: _, _, _, _, _ => none
/-- The second pass: `dispatchList(self, attributes, buffer)`, parseprocessor.py:184. -/
def dispAttrs (lk : Text → Option (Class F)) (fl : Floats F) : List PTree → Nat → Option Kind → RSt F → Option (RSt F)
  | [], _, _, rs => some rs
  | t :: ts, i, fd, rs =>
    if ParseVal.Tree.tag t = .attr then
      match disp lk fl t (some i) fd rs with
      | none => none
      | some (_, rs) => dispAttrs lk fl ts i fd rs
    else dispAttrs lk fl ts i fd rs
end

/-- An empty scene graph, scenegraph.py:33-70. -/
def Scene.empty : Scene F := ⟨fun _ => none, [], [], [], none⟩

/-- `parse(text)` as a relation: the text is a VRML file, and processing its parse tree gives the scene graph `sc`.
parser.py:63-72, parseprocessor.py:74-92, 140-141. -/
def Reads (lk : Text → Option (Class F)) (fl : Floats F) (text : Text) (sc : Scene F) : Prop :=
  ∃ hdr scene eof m n,
    Der gram (gram .vrmlFile) text (.ok [hdr, scene, eof] m []) ∧
    disp lk fl scene none none ⟨Scene.empty, 0⟩ = some (.nothing, ⟨sc, n⟩)

end Verif.Lin
