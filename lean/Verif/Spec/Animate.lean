import Verif.Spec.Links
import Verif.Model.Animate
import Verif.Spec.Same
/-!
Specification for C93: what assigning a field or event of a loaded node should do.
-/
namespace Verif.Full
open Verif.TextOut
open Verif.Lin hiding disp dispList dispDecls dispAttrs
variable {F : Type}

/-- The field or event `f` of node `i` starts `p`: an event, or a field of a type that makes `u` of `v`. -/
def Starts (w : World F) (i : Nat) (f : Text) (v u : Val F) : Prop :=
  ∃ n, w.heap i = some n ∧ ((∃ d, n.cls.port f = some (.inl d) ∧ coerce d.kind d.conv v = some u) ∨ ∃ e, n.cls.port f = some (.inr e))

/-- A field: not an event. -/
def FieldAt (w : World F) (p : Place) : Prop := ∃ n d, w.heap p.1 = some n ∧ n.cls.port p.2 = some (.inl d)

/-- Every connection that can be reached from `p` leads to a field whose type makes `u` of `v` and keeps `u`, or to an event from which nothing leads on. -/
def KeepsValue (w : World F) (p : Place) (v u : Val F) : Prop :=
  ∀ x ∈ w.wires, Linked w p (x.src, x.srcField) →
    (∃ d, Resolves w x.dst x.dstField d ∧ coerce d.kind d.conv v = some u ∧ coerce d.kind d.conv u = some u) ∨
    ∃ e, PortAt w x.dst x.dstField (.inr e) ∧ ∀ y ∈ w.wires, (y.src, y.srcField) ≠ (x.dst, e.name)

/-- The same nodes, types, names, scenes and connections. -/
structure SameApartFromValues (w w' : World F) : Prop where
  nodes : ∀ j, (w'.heap j).map (fun n => (n.cls, n.DEF)) = (w.heap j).map (fun n => (n.cls, n.DEF))
  scene : w'.scene = w.scene
  cls : w'.cls = w.cls
  inst : w'.inst = w.inst
  wires : w'.wires = w.wires
  next : w'.next = w.next

/-- what is stored in a field -/
def World.at (w : World F) (j : Nat) (g : Text) : Option (Val F) := (w.heap j).bind (fun n => n.dict g)

/-- An assignment `node i.f = v`, by which `u` is stored. -/
structure Asg (F : Type) where
  i : Nat
  f : Text
  v : Val F
  u : Val F

/-- the field or event that is assigned -/
def Asg.place (a : Asg F) : Place := (a.i, a.f)

/-- The assignments as the program makes them. -/
def Asg.given (a : Asg F) : Nat × Text × Val F := (a.i, a.f, a.v)

/-- The assignment is accepted, and so it is wherever it spreads. -/
def Asg.Good (w : World F) (a : Asg F) : Prop := Starts w a.i a.f a.v a.u ∧ KeepsValue w a.place a.v a.u

/-- The value that `q` has after the assignments: that of the last one from which connections lead to `q`, or the old one. -/
inductive LastAt (w : World F) (q : Place) : List (Asg F) → Option (Val F) → Prop
  | none {l} : (∀ a ∈ l, ¬ Linked w a.place q) → LastAt w q l (w.at q.1 q.2)
  | last {before a after} : Linked w a.place q → (∀ b ∈ after, ¬ Linked w b.place q) → LastAt w q (before ++ a :: after) (some a.u)

/-- A ROUTE of the file leads from field or event `p` to field `q` (`r.srcField` and `r.dstField` may be written with `_changed` and `set_`). -/
inductive Routed (w : World F) : Place → Place → Prop
  | route {r a d} : r ∈ w.file.routes → PortAt w r.src r.srcField a → Resolves w r.dst r.dstField d → Routed w (r.src, portName a) (r.dst, d.name)

/-- not a node or list of nodes -/
def Plain : Val F → Prop
  | .ref _ => False
  | .refs _ => False
  | _ => True

end Verif.Full
