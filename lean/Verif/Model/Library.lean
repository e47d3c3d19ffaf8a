import Verif.Model.SceneRead
import Verif.Model.NodeCoerce
/-
The built-in node types, as the reader and the writer of files use them: the classes of /repo/vrml/vrml97/basenodes.py
(`Model/BuiltinTable`, generated from the source), with their fields, defaults and events, and the registered field types
(/repo/vrml/fieldtypes.py, with `Model/Coerce.fieldTypes`).

Numbers are abstract (`Num`): Python's floats, numpy's 32-bit floats.

Not modelled: the names `sceneGraph`, `ROUTE`, `PROTO` and `NULL` of basenamespaces.py:13-21 used as node types; field types without a
method in the reader (`parsable`), matrices and SFArray; invisible fields (names beginning with a blank).
-/
namespace Verif.Library
open Verif.TextOut Verif.Lin Verif.Coerce Verif.Builtin
variable {F : Type}

/-- Operations on floats: comparison, `float(text)`, `str` of Python floats and of numpy's 64-bit floats (the same), `str` of 32-bit ones,
rounding to 32 bits, `clip(x, 0.0, 1.0)`, decimal literals, and coercions between field types (see `Floats.cross`). -/
structure Num (F : Type) where
  eq : F → F → Bool
  parse : Text → Option F
  str : F → Text
  str32 : F → Text
  round32 : F → F
  clip : F → F
  lit : Int × Nat → F
  cross : Kind → (F → F) → Option (Val F) → Option (Option (Val F)) := fun _ _ _ => some none

/-- `str` of a component of an array of this element type -/
def Num.strOf (N : Num F) : DType → F → Text
  | .f => N.str32
  | _ => N.str

/-- storing a float in an array of this element type -/
def Num.conv (N : Num F) : DType → F → F
  | .f => N.round32
  | _ => id

/-- The value family of a field class with its `str` and conversion of components: fieldtypes.py:209-913.  Colours are stored as 32-bit
floats and clipped (fieldtypes.py:557-563). -/
def fieldType (N : Num F) : FT → Option (FieldType F)
  | .bool => some ⟨.sfBool, N.str, id⟩
  | .int32 => some ⟨.sfInt32, N.str, id⟩
  | .float => some ⟨.sfFloat, N.str, id⟩
  | .string => some ⟨.sfString, N.str, id⟩
  | .mstring => some ⟨.mfString, fun _ => [], id⟩
  | .mint t => some ⟨.mfInt (t == .i), N.str, id⟩
  | .mfloat t => some ⟨.mfFloat, N.strOf t, N.conv t⟩
  | .vec t [n] => some ⟨.sfVec n, N.strOf t, N.conv t⟩
  | .mvec t [n] => some ⟨.mfVec n, N.strOf t, N.conv t⟩
  | .color => some ⟨.sfVec 3, N.str32, fun x => N.clip (N.round32 x)⟩
  | .mcolor => some ⟨.mfVec 3, N.str32, fun x => N.clip (N.round32 x)⟩
  | _ => none

/-- The registered field types that files can have values of, by name: field.py:20-45, fieldtypes.py:914-1370, node.py:315-399 and 455-556 for nodes,
and the reader's methods (`parsable`). -/
def typeOf (N : Num F) (ty : String) : Option (FieldType F) :=
  if ty = "SFNode" then some ⟨.sfNode, N.str, id⟩
  else if ty = "MFNode" then some ⟨.mfNode, N.str, id⟩
  else if parsable.contains ty then (fieldTypes.lookup ty).bind (fieldType N) else none

/-- Names of registered event types: fieldtypes.py:914-1370, each field type has one; node.py. -/
def eventType (ty : String) : Bool := ty == "SFNode" || ty == "MFNode" || (fieldTypes.lookup ty).isSome

/-- `defaultDefault`, the default of fields declared without one (fieldtypes.py:174-762, node.py:343-345, 464): zero, an array of zeros, the empty
text or list, NULL. -/
def typeDflt (N : Num F) (ty : String) : Dflt F :=
  match (typeOf N ty).map FieldType.kind with
  | none => .none
  | some .sfBool => .scalar (.bool false)
  | some .sfInt32 => .scalar (.int 0)
  | some .sfFloat => .scalar (.num (N.lit (0, 0)))
  | some .sfString => .scalar (.str [])
  | some (.sfVec n) => .array (List.replicate n (N.lit (0, 0)))
  | some (.mfInt _) => .other (.ints [])
  | some .mfFloat => .other (.nums [])
  | some (.mfVec _) => .other (.nums [])
  | some .mfString => .list (.strs [])
  | some .sfNode => .null
  | some .mfNode => .list (.refs [])

/-- The float operations of reader and writer, with these types. -/
def floats (N : Num F) : Floats F :=
  ⟨N.eq, N.parse, ⟨fun t => typeOf N (String.ofList t), fun t => eventType (String.ofList t), fun t => typeDflt N (String.ofList t)⟩, N.cross⟩

/-- The default of a declaration, as `safeCompare` sees it (arrays.py:66-81): lists where arrays are stored never compare equal, and neither
does the `list` of a node list, which is stored as an OList (node.py:466-475). -/
def dflt (N : Num F) (k : Kind) : Builtin.Dflt → Dflt F
  | .null => .null
  | .empty => match k with
    | .mfString => .list (.strs [])
    | .mfNode => .other (.refs [])
    | .mfInt _ => .other (.ints [])
    | _ => .other (.nums [])
  | .bool b => .scalar (.bool b)
  | .int n => if k = .sfBool then .scalar (.bool (n != 0)) else .scalar (.int n)
  | .float q => .scalar (.num (N.lit q))
  | .str s => if k = .mfString then .other (.strs [s.toList]) else .scalar (.str s.toList)
  | .ints l => .other (.ints l)
  | .floats l => .other (.nums (l.map N.lit))
  | .strs l => .list (.strs (l.map String.toList))
  | .rows l => .other (.rows (l.map (List.map N.lit)))

/-- A declared field. -/
def field (N : Num F) (d : Decl) : Option (FieldDecl F) :=
  (typeOf N d.ty).map (fun t => ⟨d.name.toList, d.ty.toList, t.kind, t.str, t.conv, dflt N t.kind d.dflt⟩)

/-- The declarations in a node class. -/
def declsOf (c : String) : List Decl := fieldDecls.filter (fun d => d.cls == c)
def eventsOf (c : String) : List (String × String × String × Bool) := eventDecls.filter (fun e => e.1 == c)

/-- A node class: the field `externalURL`, which every node has (node.py:49), and the declared fields and events (basenodes.py). -/
def nodeClass (N : Num F) (c : String) : Class F :=
  ⟨c.toList, externalURL.decl :: (declsOf c).filterMap (field N), [],
    chars "externalURL" :: ((declsOf c).filter Decl.exposed).map (fun d => d.name.toList), (eventsOf c).map (fun e => ⟨e.2.1.toList, e.2.2.1.toList, e.2.2.2⟩)⟩

/-- The built-in node types by name: basenamespaces.py:22-29. -/
def library (N : Num F) (t : Text) : Option (Class F) :=
  if baseNames.contains (String.ofList t) then some (nodeClass N (String.ofList t)) else none

end Verif.Library
