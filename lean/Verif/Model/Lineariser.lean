import Verif.Model.TextOut
/-
Writing scenes: /repo/vrml/vrml97/linearise.py, with nodes of built-in classes.

A scene is a heap of nodes (identities are natural numbers), the children and the routes of its scene graph.
Python strings are lists of characters, floats are an arbitrary type `F` with Python's `==`, `str` and `float` as
parameters.
The IS mappings of the prototype whose body the scene is are part of the scene; the PROTO texts themselves are written
in Model/ProtoText.
A Script node has a class of its own, with the fields and events it declares; it is told apart by its type name `Script`, as in
the code.
Not modelled here: the Python recursion limit.
-/
namespace Verif.Lin
open Verif.TextOut

open Lean in
/-- a text written out as a list of characters -/
macro "chars" s:str : term => do
  let cs := s.getString.toList.toArray.map (fun c => (Syntax.mkCharLit c))
  `(([$cs,*] : List Char))

/-- Field values as stored in a node, and as produced by the reader before coercion. Node references are node
identities, `none` is NULL. -/
inductive Val (F : Type)
  | bool (b : Bool)
  | int (n : Int)
  | num (x : F)
  | str (s : Text)
  | ints (l : List Int)
  | nums (l : List F)
  | rows (l : List (List F))
  | strs (l : List Text)
  | ref (o : Option Nat)
  | refs (l : List (Option Nat))

/-- Field types (their writer, reader and coercion families). `sfVec n` has `n` components: SFVec2f, SFVec3f,
SFVec4f, SFColor, SFRotation; `mfVec n` has rows of `n`: MFVec2f, MFVec3f, MFColor, MFRotation;
`mfInt` are MFInt32 (signed), MFUInt32 and SFImage. -/
inductive Kind
  | sfBool | sfInt32 | sfFloat | sfString | sfVec (n : Nat) | mfInt (signed : Bool) | mfFloat | mfVec (n : Nat) | mfString
  | sfNode | mfNode
deriving DecidableEq, Repr

/-- The default object of a field, as `safeCompare` sees it (arrays.py:66-81). -/
inductive Dflt (F : Type)
  /-- no default (None) -/
  | none
  /-- an int, float or str -/
  | scalar (v : Val F)
  /-- a numpy array -/
  | array (xs : List F)
  /-- an object of another type than the stored value (a tuple or list where the stored value is an array) -/
  | other (v : Val F)
  /-- a list, where the stored value is a list (MFString, MFNode) -/
  | list (v : Val F)
  /-- the NULL node -/
  | null

/-- A field declaration: name, class name (used for sorting, field.py:331-337), type, Python's `str` of its
components (which depends on the element type of its arrays), the conversion of a component when it is stored
(rounding to the element type, clipping of colours), and the default. -/
structure FieldDecl (F : Type) where
  name : Text
  cls : Text
  kind : Kind
  str : F → Text
  conv : F → F
  dflt : Dflt F

/-- An event, field.py:376-391: name, type, and whether it is an eventOut. -/
structure EventDecl where
  name : Text
  type : Text
  out : Bool
deriving DecidableEq, Repr

/-- A field of an interface (of a prototype or a Script): the field and its `exposure`. -/
structure PField (F : Type) where
  decl : FieldDecl F
  exposed : Bool

/-- A registered field type: value family, Python's `str` of components, conversion of components. -/
structure FieldType (F : Type) where
  kind : Kind
  str : F → Text
  conv : F → F

/-- The registered types, field.py:36-48: `baseFieldTypes` and `baseEventTypes`; and the default of a field that is declared
without one (with IS in a Script, parseprocessor.py:294-301). -/
structure Types (F : Type) where
  field : Text → Option (FieldType F)
  event : Text → Bool
  dflt : Text → Dflt F := fun _ => .none

/-- Python's float operations used by writer and reader, and the registered field types. -/
structure Floats (F : Type) where
  /-- `a == b` -/
  eq : F → F → Bool
  /-- `float(text)`; none = ValueError -/
  parse : Text → Option F
  types : Types F := ⟨fun _ => .none, fun _ => false, fun _ => .none⟩
  /-- what a field of a type, with a conversion of components, makes of a value of another type (`none`: of None), where `coerce` below does
  not apply; the answer is none for any exception but ValueError and TypeError, `some none` for these.  (Model/Coerce and
  Model/NodeCoerce have these coercions; the reader is the same whatever they are.) -/
  cross : Kind → (F → F) → Option (Val F) → Option (Option (Val F)) := fun _ _ _ => some none

/-- A node class: its PROTO name and its fields (protofunctions.py:149-175 `getFields`).  For a prototype, `mapped` names
the fields that its body maps with IS: setting one on an instance is forwarded (node.py:196-205); `exposed` names the
fields declared as exposedField, `events` are its events. -/
structure Class (F : Type) where
  proto : Text
  fields : List (FieldDecl F)
  mapped : List Text := []
  exposed : List Text := []
  events : List EventDecl := []

/-- A node: its class, its DEF name (empty = none) and its `__dict__` for the fields of the class. -/
structure Node (F : Type) where
  cls : Class F
  DEF : Text
  dict : Text → Option (Val F)

/-- A route: (source, sourceField, destination, destinationField). -/
structure Rt where
  src : Nat
  srcField : Text
  dst : Nat
  dstField : Text
deriving DecidableEq, Repr

/-- A scene graph: its nodes by identity, children and routes, and its DEF table (scenegraph.py:87-105).  If it is the
body of a prototype, `is` is the dictionary `ismaps(prototype)` (node.py:558-569, parseprocessor.py:331-333): for names of
the prototype's interface, in order, the fields of the body that are mapped to it; otherwise `none`. -/
structure Scene (F : Type) where
  heap : Nat → Option (Node F)
  children : List Nat
  routes : List Rt
  defs : List (Text × Nat)
  is : Option (List (Text × List (Nat × Text))) := none

variable {F : Type}

/-! ### Reading a field of a node -/

/-- Split a flat list into rows of `k` (`arrays.reshape(value, (-1, k))`, fieldtypes.py:671-672): the number of
components must be a multiple of `k`. -/
def toRows {α : Type} (k : Nat) : Nat → List α → List (List α)
  | 0, _ => []
  | n + 1, l => l.take k :: toRows k n (l.drop k)

/-- Integers that fit into arrays of 32-bit integers, signed or unsigned; others raise OverflowError (fieldtypes.py:401-409). -/
def In32 (signed : Bool) (n : Int) : Prop :=
  if signed then -2147483648 ≤ n ∧ n < 2147483648 else 0 ≤ n ∧ n < 4294967296

instance (s : Bool) (n : Int) : Decidable (In32 s n) := by unfold In32; infer_instance

/-- `str` of a node, node.py:85-97 and 295-297.  Simplification: the text of a node other than NULL contains its type, DEF name and address
in memory; here it is one fixed text. -/
def nodeStr : Option Nat → Text
  | none => ['N', 'U', 'L', 'L']
  | some _ => ['@', '0', 'x']

/-- Coercion by field type, as far as it applies to the values above (the full coercions are in Model/Coerce and
Model/NodeCoerce, compared in Props/Agree); `none` = an exception.  A list of nodes is TRUE for SFBool, and its texts are taken for strings
(fieldtypes.py:176-196, 214-229, 249-266). -/
def coerce (k : Kind) (conv : F → F) : Val F → Option (Val F)
  | .bool b => if k = .sfBool then some (.bool b) else none
  | .int n => if k = .sfInt32 then some (.int n) else none
  | .num x => if k = .sfFloat then some (.num (conv x)) else none
  | .str s => if k = .sfString then some (.str s) else none
  | .ints l => match k with
    | .mfInt s => if l.all (fun n => decide (In32 s n)) then some (.ints l) else none
    | _ => none
  | .nums l => match k with
    | .sfVec n => if l.length = n then some (.nums (l.map conv)) else none
    | .mfFloat => some (.nums (l.map conv))
    | .mfVec n => if n ≠ 0 ∧ l.length % n = 0 then some (.rows (toRows n (l.length / n) (l.map conv))) else none
    | _ => none
  | .rows l => match k with
    | .mfVec n => if l.all (fun r => r.length == n) then some (.rows (l.map (List.map conv))) else none
    | _ => none
  | .strs l => if k = .mfString then some (.strs l) else none
  | .ref o => match k with
    | .sfNode => some (.ref o)
    | .mfNode => match o with
      | some i => some (.refs [some i])
      | none => some (.refs [none])
    | _ => none
  | .refs l => match k with
    | .mfNode => some (.refs l)
    | .sfNode => match l with
      | [o] => some (.ref o)
      | _ => none
    | .sfBool => some (.bool (!l.isEmpty))
    | .sfString => match l with
      | [] => some (.str [])
      | [o] => some (.str (nodeStr o))
      | _ => none
    | .mfString => some (.strs (l.map nodeStr))
    | _ => none

/-- The default object as a value. -/
def Dflt.value : Dflt F → Option (Val F)
  | .none => .none
  | .scalar v => some v
  | .array xs => some (.nums xs)
  | .other v => some v
  | .list v => some v
  | .null => some (.ref .none)

/-- `field.fget(node)`, field.py:96-106: the stored value or the coerced default; `none` = the default raises. -/
def FieldDecl.read (d : FieldDecl F) (n : Node F) : Option (Val F) :=
  match n.dict d.name with
  | some v => some v
  | none => match d.dflt.value with
    | some v => coerce d.kind d.conv v
    | none => none

/-! ### Leaving out defaults -/

/-- Python `==` of two values of one field type. -/
def Val.eq (fl : Floats F) : Val F → Val F → Bool
  | .bool a, .bool b => a == b
  | .int a, .int b => a == b
  | .num a, .num b => fl.eq a b
  | .str a, .str b => a == b
  | .strs a, .strs b => a == b
  | .refs a, .refs b => a == b
  | _, _ => false

/-- the components of a value stored as an array -/
def Val.flat : Val F → Option (List F)
  | .nums l => some l
  | .rows l => some l.flatten
  | _ => none

/-- linearise.py:382-384: is the attribute left out?  `safeCompare(default, value)`: scalars and lists by `==`,
arrays when *some* component is equal (arrays of different sizes raise: `none`), different types never, NULL
never. -/
def omitted (fl : Floats F) : Dflt F → Val F → Option Bool
  | .none, _ => some false
  | .scalar d, v => some (Val.eq fl d v)
  | .array xs, v => match v.flat with
    | some ys => if xs.length = ys.length then some ((xs.zip ys).any (fun p => fl.eq p.1 p.2)) else none
    | none => some false
  | .other _, _ => some false
  | .list d, v => some (Val.eq fl d v)
  | .null, _ => some false

/-! ### The writer -/

/-- A piece of output: plain text, the opening of a node (`DEF name Type {` or `Type {`), or `USE name`.
The output text is the concatenation; the pieces keep track of what was written where. -/
inductive Chunk
  | text (t : Text)
  | head (id : Nat) (DEF proto : Text)
  | use (id : Nat) (DEF : Text)
deriving DecidableEq, Repr

/-- `DEF name ` or nothing, linearise.py:535-540. -/
def defPart (d : Text) : Text := if d = [] then [] else ['D', 'E', 'F', ' '] ++ d ++ [' ']

/-- The type name of Script nodes: `linear` and `_linear` choose `_Script` by it (linearise.py:37-53, 460-470, 542-551). -/
def scriptName : Text := chars "Script"

/-- linearise.py:277-283 and, for Scripts, 324 with `_defName` (535-540), and 511-512. -/
def Chunk.toText : Chunk → Text
  | .text t => t
  | .head _ d p => defPart d ++ (if p = scriptName then [' '] else []) ++ p ++ [' ', '{']
  | .use _ d => ['U', 'S', 'E', ' '] ++ d

def textOf (l : List Chunk) : Text := (l.map Chunk.toText).flatten

/-- Writer state: what is written so far, the `alreadydone` dictionary (latest entry first; start and, when the node
is finished, stop), the indentation level, and whether a warning or error comment was written. Positions are counted
in pieces. -/
structure St where
  out : List Chunk
  done : List (Nat × (Nat × Option Nat))
  level : Nat
  warned : Bool

/-- `alreadydone.get(id)` -/
def St.look (st : St) (i : Nat) : Option (Nat × Option Nat) := st.done.lookup i

def St.write (st : St) (t : Text) : St := { st with out := st.out ++ [Chunk.text t] }

/-- `self.linvalues['curindent']`, linearise.py:497-506. -/
def St.cur (lv : LinValues) (st : St) : Text := (List.replicate st.level lv.indent).flatten

/-- Why the writer gives no text: recursion deeper than the bound, an exception, or a loop that never ends
(rows of more than 100 components). -/
inductive Err
  | depth | raised | diverges
deriving DecidableEq, Repr

abbrev Res (α : Type) := Except Err α

def warning : Text := (chars "#WARNING HERE -- USE of node with no DEF name, Node duplicated\n")
def errorText : Text := (chars "#ERROR HERE -- USE of a parent node that has no DEF name USE ignored")

/-- the text of a simple value: the `vrmlstr` of its field (fieldtypes.py) -/
def simpleText (lv : LinValues) (d : FieldDecl F) : Val F → Res Text
  | .bool b => .ok (sfBoolStr b)
  | .int n => .ok (sfInt32Str n)
  | .num x => .ok (sfFloatStr (d.str x))
  | .str s => .ok (sfStringStr s)
  | .ints l => match mfSimpleStr lv (l.map intStr) with
    | some t => .ok t
    | none => .error .diverges
  | .nums l => match d.kind with
    | .mfFloat => match mfSimpleStr lv (l.map d.str) with
      | some t => .ok t
      | none => .error .diverges
    | _ => .ok (sfVecStr lv (l.map d.str))
  | .rows l => match d.kind with
    | .mfVec n => match mfVecStr lv n (l.map (List.map d.str)) with
      | some t => .ok t
      | none => .error .diverges
    | _ => .error .raised
  | _ => .error .raised

/-- The elements of a list of nodes, linearise.py:571-575; `lin` writes a node. -/
def linElems (lv : LinValues) (lin : St → Nat → Res St) : St → List (Option Nat) → Res St
  | st, [] => .ok st
  | st, o :: l =>
    let st := st.write (lv.fullSep ++ st.cur lv ++ lv.indent)
    match o with
    | none => linElems lv lin (st.write ['N', 'U', 'L', 'L']) l
    | some i =>
      match lin st i with
      | .error e => .error e
      | .ok st => linElems lv lin st l

/-- linearise.py:553-579 `_mfnode` -/
def linMF (lv : LinValues) (lin : St → Nat → Res St) (st : St) (l : List (Option Nat)) : Res St :=
  if l = [] then .ok (st.write ([' ', '['] ++ lv.courtesyspace ++ [']']))
  else
    let st := { st with level := st.level + 1 }
    match linElems lv lin (st.write ['[', ' ']) l with
    | .error e => .error e
    | .ok st =>
      let st := st.write (lv.fullSep ++ st.cur lv ++ [']'])
      .ok { st with level := st.level - 1 }

/-- linearise.py:460-494 `_sffield`.  A list of strings takes the `_mfnode` branch, whose first element raises
AttributeError after the indentation was changed and `[ ` and the separator were written; the handler then writes
the list's own text. -/
def linField (lv : LinValues) (lin : St → Nat → Res St) (st : St) (d : FieldDecl F) : Val F → Res St
  | .ref none => .ok (st.write ['N', 'U', 'L', 'L'])
  | .ref (some i) => lin st i
  | .refs l => linMF lv lin st l
  | .strs [] => linMF lv lin st []
  | .strs (s :: l) =>
    let st := { st with level := st.level + 1 }
    let st := (st.write ['[', ' ']).write (lv.fullSep ++ st.cur lv ++ lv.indent)
    .ok (st.write (mfStringStr { lv with curindent := st.cur lv } (s :: l)))
  | v => match simpleText lv d v with
    | .ok t => .ok (st.write t)
    | .error e => .error e

/-- Character-wise order of texts (Python's `<=` on strings). -/
def textLe : Text → Text → Bool
  | [], _ => true
  | _ :: _, [] => false
  | a :: s, b :: t => if a = b then textLe s t else decide (a.toNat < b.toNat)

/-- field.py:331-337: fields are sorted by class name, then by name. -/
def fieldLe (a b : FieldDecl F) : Bool := if a.cls = b.cls then textLe a.name b.name else textLe a.cls b.cls

/-- put `a` before the first element that is not smaller -/
def insertBy {α : Type} (le : α → α → Bool) (a : α) : List α → List α
  | [] => [a]
  | b :: l => if le a b then a :: b :: l else b :: insertBy le a l

/-- Python's (stable) `sorted` -/
def sortBy {α : Type} (le : α → α → Bool) (l : List α) : List α := l.foldr (insertBy le) []

/-- is a name written?  (not empty, not starting with a blank) linearise.py:369, 401, 409-413 -/
def shownName : Text → Bool
  | [] => false
  | c :: _ => c != ' '

/-- the fields of a Script that are written as attributes, linearise.py:360-365, and not declared, 331-335 -/
def scriptAttrs : List Text := [chars "url", chars "mustEvaluate", chars "directOutput"]

/-- linearise.py:360-371: the fields written as attributes (names not empty and not starting with a blank; of a Script, three
of them), sorted. -/
def attrFields (c : Class F) : List (FieldDecl F) :=
  sortBy fieldLe (c.fields.filter (fun d => if c.proto = scriptName then scriptAttrs.contains d.name else shownName d.name))

/-- linearise.py:352-356, the loops over the dictionary of IS mappings: the mapping of field `f` of node `i` found last. -/
def isLookup (i : Nat) (f : Text) (cur : Option Text) : List (Text × List (Nat × Text)) → Option Text
  | [] => cur
  | (nm, l) :: d => isLookup i f (if l.contains (i, f) then some nm else cur) d

/-- linearise.py:350-358: `isMaps.get(f)` for node `i`. -/
def Scene.isOf (sc : Scene F) (i : Nat) (f : Text) : Option Text :=
  match sc.is with
  | some d => isLookup i f none d
  | none => none

/-- linearise.py:372-390 `_attrDict`, the loop. -/
def linAttrs (lv : LinValues) (fl : Floats F) (lin : St → Nat → Res St) (n : Node F) (isn : Text → Option Text) :
    St → List (FieldDecl F) → Res St
  | st, [] => .ok st
  | st, d :: l =>
    match d.read n with
    | none => .error .raised
    | some v => match isn d.name with
      | some nm =>
        linAttrs lv fl lin n isn (st.write (lv.fullSep ++ st.cur lv ++ lv.indent ++ d.name ++ [' ', 'I', 'S', ' '] ++ nm ++ ['\t'])) l
      | none => match omitted fl d.dflt v with
        | none => .error .raised
        | some true => linAttrs lv fl lin n isn st l
        | some false =>
          match linField lv lin (st.write (lv.fullSep ++ st.cur lv ++ lv.indent ++ d.name ++ ['\t'])) d v with
          | .error e => .error e
          | .ok st => linAttrs lv fl lin n isn st l

/-! ### Declarations (of a Script, and in Model/ProtoText of a PROTO) -/

/-- field.py:444-461 `eventVrmlstr` -/
def eventText (e : EventDecl) : Text :=
  (if e.out then chars "eventOut" else chars "eventIn") ++ [' '] ++ e.type ++ [' '] ++ e.name

/-- field.py:286-304 -/
def fieldHead (f : PField F) : Text :=
  (if f.exposed then chars "exposedField" else chars "field") ++ [' '] ++ f.decl.cls ++ [' '] ++ f.decl.name ++ [' ']

/-- the events that are written, linearise.py:399-401 -/
def declEvents (l : List EventDecl) : List EventDecl :=
  sortBy (fun a b => textLe a.name b.name) (l.filter (fun e => shownName e.name))

/-- linearise.py:392-404 `_eventDict`, at indentation `cur` -/
def eventsText (lv : LinValues) (cur : Text) (l : List EventDecl) : Text :=
  ((declEvents l).map (fun e => lv.fullSep ++ cur ++ eventText e)).flatten

/-- field.py:305-313 in `fieldVrmlstr`: the text of the coerced default; nodes are written where they stand
(node.py:368-373, 529-531), lists of strings by their own writer. -/
def linDefault (lv : LinValues) (lin : St → Nat → Res St) (st : St) (d : FieldDecl F) : Res St :=
  match d.dflt.value with
  | none => .error .raised
  | some u => match coerce d.kind d.conv u with
    | none => .error .raised
    | some (.strs l) => .ok (st.write (mfStringStr { lv with curindent := st.cur lv } l))
    | some v => linField lv lin st d v

/-- The fields a Script declares, in order (linearise.py:331-335, 406-415). -/
def scriptFields (c : Class F) : List (PField F) :=
  (sortBy (fun a b => textLe a.name b.name) (c.fields.filter (fun d => !scriptAttrs.contains d.name && shownName d.name))).map
    (fun d => ⟨d, c.exposed.contains d.name⟩)

/-- linearise.py:406-418 `_fieldDict` for a Script -/
def linDecls (lv : LinValues) (lin : St → Nat → Res St) : St → List (PField F) → Res St
  | st, [] => .ok st
  | st, f :: l => match linDefault lv lin (st.write (lv.fullSep ++ st.cur lv ++ fieldHead f)) f.decl with
    | .error e => .error e
    | .ok st => linDecls lv lin st l

/-- linearise.py:325-336: what `_Script` writes between the head and the attributes; nothing for other nodes. -/
def linBegin (lv : LinValues) (lin : St → Nat → Res St) (st : St) (c : Class F) : Res St :=
  if c.proto = scriptName then
    let st := { st with level := st.level + 1 }
    match linDecls lv lin (st.write (eventsText lv (st.cur lv) c.events)) (scriptFields c) with
    | .error e => .error e
    | .ok st => .ok { st with level := st.level - 1 }
  else .ok st

/-- linearise.py:288-302: the end of a node; `nothing` = no attribute was written, `start` = where the node began; and
338-342: the end of a Script. -/
def closing (lv : LinValues) (st : St) (n : Node F) (start : Nat) (nothing : Bool) : Text :=
  if n.cls.proto = scriptName then lv.fullSep ++ st.cur lv ++ ['}', '#'] ++ (if n.DEF = [] then n.cls.proto else defPart n.DEF)
  else if nothing then lv.courtesyspace ++ ['}']
  else
    let plain := lv.fullSep ++ st.cur lv ++ ['}']
    match lv.endComments with
    | some k =>
      if k * 60 < (textOf (st.out.drop start)).length then
        plain ++ (chars " #EndNode ") ++ (if n.DEF = [] then n.cls.proto else n.DEF)
      else plain
    | none => plain

/-- linearise.py:261-305 `_Node`, and 307-345 `_Script`, with `_canUse` (508-530). -/
def linNode (lv : LinValues) (fl : Floats F) (sc : Scene F) : Nat → St → Nat → Res St
  | 0, _, _ => .error .depth
  | fuel + 1, st, i =>
    match sc.heap i with
    | none => .error .raised
    | some n =>
      match st.look i with
      | some (start, stop) =>
        if n.DEF ≠ [] then .ok { st with out := st.out ++ [Chunk.use i n.DEF] }
        else match stop with
          | some stop => .ok { st with out := st.out ++ [Chunk.text warning] ++ (st.out.take stop).drop start, warned := true }
          | none => .ok { st with out := st.out ++ [Chunk.text errorText], warned := true }
      | none =>
        let start := st.out.length
        let st := { st with done := (i, (start, none)) :: st.done, out := st.out ++ [Chunk.head i n.DEF n.cls.proto] }
        let position := st.out.length
        let st := { st with level := st.level + 1 }
        match linBegin lv (linNode lv fl sc fuel) st n.cls with
        | .error e => .error e
        | .ok st =>
        match linAttrs lv fl (linNode lv fl sc fuel) n (sc.isOf i) st (attrFields n.cls) with
        | .error e => .error e
        | .ok st =>
          let st := st.write (closing lv st n start (st.out.length == position))
          .ok { st with level := st.level - 1, done := (i, (start, some st.out.length)) :: st.done }

/-- linearise.py:159-162: the children, each followed by the separator. -/
def linChildren (lv : LinValues) (lin : St → Nat → Res St) : St → List Nat → Res St
  | st, [] => .ok st
  | st, i :: l =>
    match lin st i with
    | .error e => .error e
    | .ok st => linChildren lv lin (st.write lv.fullSep) l

/-- linearise.py:441-458 `_route` -/
def routeText (lv : LinValues) (defOf : Nat → Text) (r : Rt) : Text :=
  lv.fullSep ++ ['R', 'O', 'U', 'T', 'E', ' '] ++ defOf r.src ++ ['.'] ++ r.srcField ++ [' ', 'T', 'O', ' ']
    ++ defOf r.dst ++ ['.'] ++ r.dstField

/-- DEF name of a node (empty for an unknown identity) -/
def Scene.defOf (sc : Scene F) (i : Nat) : Text := match sc.heap i with | some n => n.DEF | none => []

/-- linearise.py:88 -/
def header : Text := (chars "#VRML V2.0 utf8\n")

/-! ### Names for routed nodes -/

/-- scenegraph.py:87-89 `getDEF` -/
def Scene.getDEF (sc : Scene F) (n : Text) : Option Nat := sc.defs.lookup n

/-- scenegraph.py:91-105 `regDefName`: forget the object's current name if it is registered to it, store the new one
on the node and in the table. -/
def Scene.regDefName (sc : Scene F) (n : Text) (i : Nat) : Scene F :=
  let cur := sc.defOf i
  let defs := if sc.defs.lookup cur = some i then sc.defs.filter (fun p => p.1 != cur) else sc.defs
  { sc with
    heap := fun j => if j = i then (sc.heap i).map (fun nd => { nd with DEF := n }) else sc.heap j
    defs := (n, i) :: defs.filter (fun p => p.1 != n) }

/-- linearise.py:434-439: the first of `PROTO_0`, `PROTO_1`, ... that the scene graph does not know, tried from
`count` on, at most `fuel` times. -/
def freeName (sc : Scene F) (proto : Text) : Nat → Nat → Option Text
  | 0, _ => none
  | fuel + 1, count =>
    let name := proto ++ ['_'] ++ natStr count
    if sc.getDEF name = none then some name else freeName sc proto fuel (count + 1)

/-- linearise.py:427-439 `_preroute` for one end of a route.  The loop `while 1` ends because the table is finite:
it can be unlucky at most once per entry. -/
def nameEnd (sc : Scene F) (i : Nat) : Scene F :=
  match sc.heap i with
  | none => sc
  | some n =>
    if n.DEF ≠ [] then sc
    else match freeName sc n.cls.proto (sc.defs.length + 1) 0 with
      | some name => sc.regDefName name i
      | none => sc

/-- linearise.py:126 with 427-439: all routes, source before destination. -/
def preroute (sc : Scene F) : Scene F :=
  sc.routes.foldl (fun sc r => nameEnd (nameEnd sc r.src) r.dst) sc

/-- linearise.py:121-176 `_sceneGraph` after the names are given. -/
def linBody (lv : LinValues) (fl : Floats F) (sc : Scene F) (fuel : Nat) : Res St :=
  match linChildren lv (linNode lv fl sc fuel) ⟨[], [], 0, false⟩ sc.children with
  | .error e => .error e
  | .ok st => .ok (sc.routes.foldl (fun st r => st.write (routeText lv sc.defOf r)) st)

/-- `linearise(sceneGraph)` for a top-level scene graph without prototypes (linear, 55-115): the text, and the scene graph, which the writer may have changed by naming the ends of
its routes. -/
def linearise (lv : LinValues) (fl : Floats F) (sc : Scene F) (fuel : Nat) : Res (Text × Scene F) :=
  let sc := preroute sc
  match linBody lv fl sc fuel with
  | .error e => .error e
  | .ok st => .ok (header ++ textOf st.out, sc)

end Verif.Lin
