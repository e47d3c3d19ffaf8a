import Verif.Model.SceneRead
/-
Prototypes in files: writing (/repo/vrml/vrml97/linearise.py:121-257, 392-425, /repo/vrml/field.py:286-314, 444-461) and reading
(/repo/vrml/vrml97/parseprocessor.py:74-118, 230-274, /repo/vrml/node.py:174-214, 229-261).

Simplifications:
* One class per prototype name: `protos` maps names to classes.  (The writer tells classes apart by identity and name, and
  writes only the first of several classes with one name.)
* A prototype's body is a scene graph of its own, with its own node identities.
* Bodies keep their nodes' values when instances are created.  (`instantiate` stores the default of every mapped interface
  field in the last node mapped to it; the values of mapped fields are not compared by the specification.)
Not modelled (the reader of the model refuses such trees): defaults that contain nodes, PROTO declarations inside PROTO
bodies (the writer puts every prototype at the beginning of the file), EXTERNPROTO, interface names that replace
attributes of Python's node classes.
-/
namespace Verif.Lin
open Verif.Peg Verif.Grammar Verif.TextOut

variable {F : Type}

/-! ### Writing -/

/-- A file to be written: its scene graph, the prototypes of its nodes, and the prototypes registered with the scene
graph. -/
structure File (F : Type) where
  scene : Scene F
  protos : Text → Option (ProtoDef F)
  free : List Text

/-- field.py:305-313 in `fieldVrmlstr`: the text of the coerced default (node.py:368-373, 529-531 for nodes; a default that
contains nodes is not modelled). -/
def defaultText (lv : LinValues) (d : FieldDecl F) : Res Text :=
  match d.dflt.value with
  | none => .error .raised
  | some u => match coerce d.kind d.conv u with
    | none => .error .raised
    | some (.ref none) => .ok ['N', 'U', 'L', 'L']
    | some (.ref (some _)) => .error .raised
    | some (.refs []) => .ok ([' ', '['] ++ lv.courtesyspace ++ [']'])
    | some (.refs (_ :: _)) => .error .raised
    | some (.strs l) => .ok (mfStringStr { lv with curindent := lv.indent } l)
    | some v => simpleText lv d v

/-- the fields of a declaration, linearise.py:406-417 -/
def declFields (l : List (PField F)) : List (PField F) :=
  sortBy (fun a b => textLe a.decl.name b.decl.name) (l.filter (fun f => f.decl.name != chars "DEF" && shownName f.decl.name))

/-- linearise.py:406-418 `_fieldDict`, at indentation 1 -/
def fieldsText (lv : LinValues) : List (PField F) → Res Text
  | [] => .ok []
  | f :: l => match defaultText lv f.decl with
    | .error e => .error e
    | .ok t => match fieldsText lv l with
      | .error e => .error e
      | .ok ts => .ok (lv.fullSep ++ lv.indent ++ fieldHead f ++ t ++ ts)

/-- linearise.py:206-242: a PROTO declaration. -/
def protoText (lv : LinValues) (name decls body : Text) : Text :=
  let t := chars "PROTO " ++ name ++ [' ', '['] ++ decls ++ ['\n', ']', ' ', '{', '\n'] ++ body
  t ++ match lv.endComments with
    | some k => if k * 60 < t.length then ['\n', '}'] ++ chars "#End PROTO " ++ name ++ ['\n'] else ['\n', '}', '\n']
    | none => ['\n', '}', '\n']

/-- linearise.py:209-210, 220-225: an EXTERNPROTO declaration. -/
def externText (lv : LinValues) (name decls : Text) (urls : List Text) : Text :=
  chars "EXTERNPROTO " ++ name ++ [' ', '['] ++ decls ++ ['\n', ']', ' '] ++ mfStringStr { lv with curindent := [] } urls ++ ['\n']

/-- The writer's state for prototypes: `protobuffer` (piece by piece, with the names) and the names in
`protoalreadydone`. -/
structure PSt where
  out : List (Text × Text)
  done : List Text

/-- The types of the nodes written, in order: `_Node` calls `_proto` for each, linearise.py:267 (`_Script` does not). -/
def headProtos (out : List Chunk) : List Text :=
  out.filterMap (fun c => match c with | .head _ _ p => if p = scriptName then none else some p | _ => none)

/-- for every name in the list -/
def foldRes {α β : Type} (f : β → α → Res β) : β → List α → Res β
  | b, [] => .ok b
  | b, a :: l => match f b a with
    | .error e => .error e
    | .ok b => foldRes f b l

/-- linearise.py:178-257 `_proto` for the class named `x`; `fuel` bounds the depth of nodes, the first argument the depth of
prototypes within prototypes.  A class that is not in `protos` is built in.  If the class declares a field
`externalURL` itself, the field object is taken for the list of URLs (206-208) and `MFString_vrmlstr` raises. -/
def writeProto (lv : LinValues) (fl : Floats F) (protos : Text → Option (ProtoDef F)) (fuel : Nat) : Nat → PSt → Text → Res PSt
  | 0, ps, x => if (protos x).isNone then .ok ps else .error .depth
  | k + 1, ps, x =>
    match protos x with
    | none => .ok ps
    | some p =>
      if x ∈ ps.done then .ok ps
      else
        let ps := { ps with done := x :: ps.done }
        match fieldsText lv (declFields p.fields) with
        | .error e => .error e
        | .ok ft =>
          let decls := eventsText lv lv.indent p.events ++ ft
          match p.url with
          | .declared => .error .raised
          | .urls (u :: us) => .ok { ps with out := ps.out ++ [(x, externText lv p.name decls (u :: us))] }
          | _ =>
            match p.body with
            | none => .error .raised
            | some b =>
              match linBody lv fl (preroute b) fuel with
              | .error e => .error e
              | .ok st =>
                match foldRes (writeProto lv fl protos fuel k) ps (p.free ++ headProtos st.out) with
                | .error e => .error e
                | .ok ps => .ok { ps with out := ps.out ++ [(x, protoText lv p.name decls (textOf st.out))] }

/-- `linearise(sceneGraph)`, linearise.py:68-115 with 121-176. -/
def lineariseFile (lv : LinValues) (fl : Floats F) (f : File F) (fuel depth : Nat) : Res (Text × Scene F) :=
  let sc := preroute f.scene
  match linBody lv fl sc fuel with
  | .error e => .error e
  | .ok st =>
    match foldRes (writeProto lv fl f.protos fuel depth) ⟨[], []⟩ (f.free ++ headProtos st.out) with
    | .error e => .error e
    | .ok ps => .ok (header ++ (ps.out.map Prod.snd).flatten ++ textOf st.out, sc)

/-! ### Reading -/

/-- parseprocessor.py:231-247 `fieldDecl`, 261-274 `eventDecl` -/
def readDecl (lk : Text → Option (Class F)) (fl : Floats F) (rs : RSt F) (p : ProtoDef F) : PTree → Option (ProtoDef F)
  | .node .fieldDecl _ [.node .fieldExposure ex _, .node .dataType ty _, .node .name nm _, value] =>
    if reserved nm then none
    else match fl.types.field ty with
      | none => none
      | some ft =>
        match disp lk fl value none (some ft.kind) rs with
        | none => none
        | some (v, _) =>
          match v.toVal with
          | none => none
          | some v =>
            if v.plain then some (p.addField ⟨⟨nm, ty, ft.kind, ft.str, ft.conv, dfltOf v⟩, decide (ex = chars "exposedField")⟩)
            else none
  | .node .eventDecl _ [.node .eventDirection dir _, .node .dataType ty _, .node .name nm _] =>
    if reserved nm || nm == chars "externalURL" then none
    else if fl.types.event ty then some (p.addEvent ⟨nm, ty, decide (dir = chars "eventOut")⟩)
    else none
  | _ => none

/-- The names under which the reader itself looks up classes (parseprocessor.py:84, 160, 191, 221): a PROTO of that name
takes the place of the class (scenegraph.py:107-111 with parseprocessor.py:81); the model's reader refuses it. -/
def coreName (nm : Text) : Bool := [chars "Script", chars "NULL", chars "sceneGraph", chars "ROUTE"].contains nm

/-- The declarations of a prototype and, at the end, its body (parseprocessor.py:95-103). -/
def readDecls (lk : Text → Option (Class F)) (fl : Floats F) (rs : RSt F) : List PTree → ProtoDef F → Option (ProtoDef F)
  | [.node .vrmlScene m kids], p =>
    if coreName p.name then none
    else match disp lk fl (.node .vrmlScene m kids) none none ⟨{ (Scene.empty : Scene F) with is := some [] }, 0⟩ with
    | none => none
    | some (_, rs) => some { p with body := some rs.sc }
  | t :: ts, p =>
    match readDecl lk fl rs p t with
    | none => none
    | some p => readDecls lk fl rs ts p
  | [], _ => none

/-- Can the prototype be instantiated?  node.py:196-213: every mapped name must be in the interface; the default of a
field must be accepted by the last field mapped to it (an AttributeError is ignored). -/
def ProtoDef.usable (p : ProtoDef F) : Bool :=
  p.isMaps.all (fun e =>
    match resolveName p.port e.1 with
    | none => false
    | some (.inr _) => true
    | some (.inl d) =>
      match e.2.getLast?, p.body with
      | some (j, f), some b =>
        match b.heap j with
        | none => true
        | some n =>
          match n.cls.getField f with
          | none => true
          | some (.inr _) => true
          | some (.inl d2) =>
            match d.dflt.value with
            | none => false
            | some v => (coerce d2.kind d2.conv v).isSome
      | _, _ => true)

/-- State of the reader of a file: the prototypes registered with the scene graph, latest first, and the scene. -/
structure FSt (F : Type) where
  protos : List (Text × ProtoDef F)
  rs : RSt F

/-- `getProto(name)` and creating an instance: prototypes of the file first, then the built-in classes. -/
def FSt.lookup (base : Text → Option (Class F)) (protos : List (Text × ProtoDef F)) (t : Text) : Option (Class F) :=
  match protos.lookup t with
  | some p => if p.usable then some p.cls else none
  | none => base t

/-- A new prototype, node.py:229-257. -/
def ProtoDef.new (nm : Text) : ProtoDef F := ⟨nm, [externalURL], [], .inherited, none, []⟩

/-- The items of a file, parseprocessor.py:65-103. -/
def readItems (base : Text → Option (Class F)) (fl : Floats F) : List PTree → FSt F → Option (FSt F)
  | [], f => some f
  | .node .rootItem _ [.node .proto _ (.node .nodegi nm _ :: rest)] :: ts, f =>
    match readDecls (FSt.lookup base f.protos) fl f.rs rest (ProtoDef.new nm) with
    | none => none
    | some p => readItems base fl ts { f with protos := (nm, p) :: f.protos }
  | t :: ts, f =>
    match disp (FSt.lookup base f.protos) fl t none none f.rs with
    | none => none
    | some (_, rs) => readItems base fl ts { f with rs := rs }

/-- `parse(text)` for files with prototypes: the text is a VRML file, and processing its parse tree gives `f`. -/
def ReadsFile (base : Text → Option (Class F)) (fl : Floats F) (text : Text) (f : FSt F) : Prop :=
  ∃ hdr sm kids eof m,
    Der gram (gram .vrmlFile) text (.ok [hdr, .node .vrmlScene sm kids, eof] m []) ∧
    readItems base fl kids ⟨[], ⟨Scene.empty, 0⟩⟩ = some f

end Verif.Lin
