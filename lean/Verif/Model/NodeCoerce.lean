import Verif.Model.BuiltinTable
/-
Coercion of node fields (/repo/vrml/node.py:347-366, 514-527) and of the defaults of built-in nodes.

Nodes are the objects for which `isNode` holds; NULL is a node (node.py:264-297), object number 0, and is falsy.
-/
namespace Verif.Builtin
open Verif.Coerce

/-- `node.NULL` -/
def NULL : Py := .obj 0 false

/-- node.py:347-366 `_SFNode.coerce` with requiredTypes = (Node,) and allowNULL. -/
def sfNode (isNode : Nat → Bool) : Py → Except Err Py
  | .obj i t => if isNode i then .ok (.obj i t) else .error .value
  | .none => .ok NULL
  | .list [x] => sfNode isNode x
  | .tuple [x] => sfNode isNode x
  | _ => .error .value
termination_by v => sizeOf v

/-- node.py:519-527: `_MFNode.coerce` of anything but a node. -/
def mfRest (isNode : Nat → Bool) (v : Py) : Except Err Py :=
  match truth v with
  | .error e => .error e
  | .ok false => .ok (.list [])
  | .ok true => match v with
    | .list l => (mapE (sfNode isNode) l).map .list
    | .tuple l => (mapE (sfNode isNode) l).map .list
    | _ => .error .value

/-- node.py:514-527 `_MFNode.coerce` (the result is an OList of the nodes). -/
def mfNode (isNode : Nat → Bool) (v : Py) : Except Err Py :=
  match v with
  | .obj i t => if isNode i then .ok (.list [.obj i t]) else mfRest isNode (.obj i t)
  | v => mfRest isNode v

/-- A decimal literal as a number. -/
def dec (q : Int × Nat) : Rat := q.1 / 10 ^ q.2

/-- The value of a default: callables are called (field.py:88-94, 154-166). -/
def Dflt.value : Dflt → Py
  | .null => NULL
  | .empty => .list []
  | .bool b => .bool b
  | .int n => .int n
  | .float q => .float (.num (dec q))
  | .str s => .str s.toList
  | .ints l => .list (l.map .int)
  | .floats l => .list (l.map (fun q => .float (.num (dec q))))
  | .strs l => .list (l.map (fun s => .str s.toList))
  | .rows l => .list (l.map (fun r => .list (r.map (fun q => .float (.num (dec q))))))

/-- `field.baseFieldTypes[ty]` and its `coerce` (field.py:59-70): the registered type of that name, if there is one. -/
def coerceOf (P : Prims) (isNode : Nat → Bool) (ty : String) : Option (Py → Except Err Py) :=
  if ty = "SFNode" then some (sfNode isNode)
  else if ty = "MFNode" then some (mfNode isNode)
  else (fieldTypes.find? (fun e => e.1 == ty)).map (fun e => e.2.coerce P)

/-- The types for which the parser has a method of that name, parseprocessor.py:346-441, plus the node types it
handles before looking for one (349-355). -/
def parsable : List String :=
  ["SFNode", "MFNode", "SFBool", "SFFloat", "SFTime", "SFInt32", "SFVec3f", "SFVec2f", "SFColor", "SFRotation", "SFArray", "MFInt32",
   "SFImage", "MFUInt32", "MFFloat", "MFColor", "MFRotation", "MFVec2f", "MFVec3f", "MFTime", "MFFloat32", "MFString", "SFString"]

end Verif.Builtin
