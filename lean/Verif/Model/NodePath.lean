/-
Node paths: /repo/vrml/nodepath.py:33-60 and the parent/child registry of
/repo/vrml/vrml97/nodepath.py:101-130; value comparison: /repo/vrml/arrays.py:66-81.
Nodes are identities (`Nat`), a path is a list of them.
-/
namespace Verif.NodePath

/-- a strong-reference path -/
abbrev Path := List Nat

/-- vrml/nodepath.py:38-44, the loop of `common` from index `i`, `fuel` indices left. -/
def commonFrom (p q : Path) (i : Nat) : Nat → Path → Path
  | 0, result => result
  | fuel + 1, result =>
    match p[i]?, q[i]? with
    | some a, some b => if a = b then commonFrom p q (i + 1) fuel (result ++ [a]) else result
    | _, _ => result

/-- vrml/nodepath.py:33-44 `common` -/
def common (p q : Path) : Path := commonFrom p q 0 (min p.length q.length) []

/-- right operand of `+`: a node or a list of nodes, vrml/nodepath.py:47-48 -/
inductive Tail
  | node (n : Nat)
  | list (l : List Nat)

/-- vrml/nodepath.py:45-49 `__add__` -/
def add (p : Path) : Tail → Path
  | .node n => p ++ [n]
  | .list l => p ++ l

/-- vrml/nodepath.py:57-60, the loop of `__eq__` over indices `i, i+1, …`. -/
def eqFrom (p q : Path) (i : Nat) : Nat → Bool
  | 0 => true
  | fuel + 1 => if p[i]? = q[i]? then eqFrom p q (i + 1) fuel else false

/-- vrml/nodepath.py:53-60 `__eq__` -/
def pathEq (p q : Path) : Bool :=
  if p.length ≠ q.length then false else eqFrom p q 0 p.length

/-! ### the registry of derived paths -/

/-- Path objects: which are alive, their `children` weak references, and the `broken` flags. -/
structure Reg where
  alive : Nat → Bool
  children : Nat → List Nat
  broken : Nat → Bool
  next : Nat

/-- vrml97/nodepath.py:101-110 `__add__`: a new path object registered with its parent. -/
def Reg.addChild (s : Reg) (p : Nat) : Reg :=
  { alive := fun x => if x = s.next then true else s.alive x
    children := fun x => if x = p then s.children p ++ [s.next] else if x = s.next then [] else s.children x
    broken := fun x => if x = s.next then false else s.broken x
    next := s.next + 1 }

/-- A path object is collected; it cannot be while a path derived from it lives, because
`base.parent = self` is a strong reference (vrml97/nodepath.py:104). -/
def Reg.die (s : Reg) (p : Nat) : Reg :=
  if (s.children p).any s.alive then s else { s with alive := fun x => if x = p then false else s.alive x }

/-- vrml97/nodepath.py:111-119 `iterchildren`: what it yields; dead references are removed. -/
def Reg.live (s : Reg) (p : Nat) : List Nat := (s.children p).filter s.alive
def Reg.prune (s : Reg) (p : Nat) : Reg :=
  { s with children := fun x => if x = p then s.live p else s.children x }

/-- vrml97/nodepath.py:120-125 `iterdescendents`: the children and their children. -/
def Reg.descendents (s : Reg) (p : Nat) : List Nat :=
  (s.live p).flatMap (fun c => c :: s.live c)

/-- vrml97/nodepath.py:126-130 `invalidate` -/
def Reg.invalidate (s : Reg) (p : Nat) : Reg :=
  let ds := s.descendents p
  let s' := (p :: s.live p).foldl Reg.prune s
  { s' with broken := fun x => if x = p ∨ x ∈ ds then true else s.broken x }

/-! ### safeCompare -/

/-- Values as `safeCompare` sees them: None, numbers (ints and floats, compared by value), strings, numpy
arrays (flat contents and shape), lists and tuples of comparable data, anything else by identity. -/
inductive Val
  | none
  | int (n : Int)
  /-- a float with an integral or other value is represented by a rational pair; NaN is left out -/
  | float (n : Int) (d : Nat)
  | str (s : String)
  | array (shape : List Nat) (elems : List Int)
  | list (elems : List Int)
  | tuple (elems : List Int)
  | other (cls : Nat) (id : Nat)
deriving DecidableEq, Repr

/-- what a call gives: a Boolean, an array (numpy's elementwise result, not a Boolean), or an exception -/
inductive Res
  | bool (b : Bool)
  | array
  | raises
deriving DecidableEq, Repr

/-- Python `==` between numbers -/
def numEq : Val → Val → Bool
  | .int a, .int b => a = b
  | .int a, .float n d => a * d = n
  | .float n d, .int b => n = b * d
  | .float n d, .float m e => n * e = m * d
  | _, _ => false

/-- arrays.py:66-81 `safeCompare`. Line 76 with an array on the right gives numpy's elementwise result;
line 78 is `bool(any(first == second))` for arrays of equal shape; different shapes are broadcast by numpy or
raise, which is left as `raises`. -/
def safeCompare : Val → Val → Res
  | .none, .none => .bool true
  | .none, _ => .bool false
  | _, .none => .bool false
  | .int _, .array _ _ => .array
  | .float _ _, .array _ _ => .array
  | .str _, .array _ _ => .array
  | .int a, v => .bool (numEq (.int a) v)
  | .float n d, v => .bool (numEq (.float n d) v)
  | .str s, .str t => .bool (s = t)
  | .str _, _ => .bool false
  | .array sh l, .array sh' l' =>
    if sh = sh' then .bool ((l.zip l').any (fun p => p.1 = p.2)) else .raises
  | .list l, .list l' => .bool (l = l')
  | .tuple l, .tuple l' => .bool (l = l')
  | .other c i, .other c' j => .bool (c = c' ∧ i = j)
  | _, _ => .bool false

end Verif.NodePath
