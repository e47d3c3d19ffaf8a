import Verif.Model.Scene
/-
Root scene graphs when node fields are assigned: /repo/vrml/node.py:322-341 (`_SFNode.fset`) and 473-513 (`_MFNode.fset`), over
the recursion of Model/Scene.lean (`RootScenegraphNode.fset`).  A scene graph that is some node's root stays alive.
-/
namespace Verif.Scene
variable {N : Type} [DecidableEq N]

/-- The nodes with the values of their fields, the roots and the DEF tables. -/
structure Graph (N : Type) where
  fields : Nat → List FieldVal
  st : RootSt N

/-- the value of the `k`-th field of `c` replaced -/
def Graph.edit (g : Graph N) (c k : Nat) (v : FieldVal) : Graph N :=
  { g with fields := fun n => if n = c then (g.fields c).set k v else g.fields n }

/-- The end of `_SFNode.fset`, node.py:334-340, and one round of the loop of `_MFNode.fset`, node.py:509-512: a node without root
gets `sg`, recursively; `none` is the RecursionError of a cyclic graph. -/
def giveRoot (fields : Nat → List FieldVal) (sg fuel : Nat) (s : RootSt N) (x : Nat) : Option (RootSt N) :=
  match s.root x with
  | some _ => some s
  | none => rootSet fields sg fuel s x

/-- One assignment to a node field. -/
inductive Assign where
  /-- `field.fset(c, x)` of an SFNode field (also the constructor and the parser) -/
  | sf (c k x : Nat)
  /-- `field.fset(c, xs)` of an MFNode field -/
  | mf (c k : Nat) (xs : List Nat)
  /-- a change that does not go through `fset`: `c.field = x` (field.py:108-116 and fieldaccel2.pyx:27-29 do not call `fset`), or
  appending to a child list (olist.py) -/
  | raw (c k : Nat) (v : FieldVal)

/-- The assignment; `null` is the NULL node, which is false (node.py:334). -/
def Graph.assign (null fuel : Nat) (g : Graph N) : Assign → Option (Graph N)
  | .sf c k x =>
    let g := g.edit c k (.sf x)
    if x = null then some g
    else match g.st.root c with
      | none => some g
      | some sg => (giveRoot g.fields sg fuel g.st x).map (fun s => { g with st := s })
  | .mf c k xs =>
    let g := g.edit c k (.mf xs)
    match g.st.root c with
    | none => some g
    | some sg => (xs.foldlM (giveRoot g.fields sg fuel) g.st).map (fun s => { g with st := s })
  | .raw c k v => some (g.edit c k v)

/-- a history of assignments -/
def Graph.assigns (null fuel : Nat) (g : Graph N) (l : List Assign) : Option (Graph N) := l.foldlM (Graph.assign null fuel) g

end Verif.Scene
