import Verif.Model.FullRead
/-!
Specification for C75: which fields a value reaches.
-/
namespace Verif.Full
open Verif.TextOut Verif.Lin
variable {F : Type}

/-- A field of a node, by the name under which it is stored. -/
abbrev Place := Nat × Text

/-- `f` is a name of field `d` of node `i`. -/
def Resolves (w : World F) (i : Nat) (f : Text) (d : FieldDecl F) : Prop := ∃ n, w.heap i = some n ∧ n.cls.getField f = some (.inl d)

/-- The name under which a field or event is stored. -/
def portName : FieldDecl F ⊕ EventDecl → Text
  | .inl d => d.name
  | .inr e => e.name

/-- `f` is a name of the field or event `p` of node `i`. -/
def PortAt (w : World F) (i : Nat) (f : Text) (p : FieldDecl F ⊕ EventDecl) : Prop := ∃ n, w.heap i = some n ∧ n.cls.getField f = some p

/-- Fields connected with a field, directly or through others. -/
inductive Linked (w : World F) (p : Place) : Place → Prop
  | start : Linked w p p
  | step {q x d} : Linked w p q → x ∈ w.wires → (x.src, x.srcField) = q → Resolves w x.dst x.dstField d → Linked w p (x.dst, d.name)

/-- A connection leads from `p` to `q` (fields or events). -/
inductive Onward (w : World F) : Place → Place → Prop
  | wire {x q} : x ∈ w.wires → PortAt w x.dst x.dstField q → Onward w (x.src, x.srcField) (x.dst, portName q)

/-- Zero or more connections lead from `p` to `q`. -/
inductive Onwards (w : World F) : Place → Place → Prop
  | here (p) : Onwards w p p
  | step {p q r} : Onward w p q → Onwards w q r → Onwards w p r

/-- A connection leads from `p` to a name that the node there does not know. -/
def DeadEnd (w : World F) (p : Place) : Prop := ∃ x ∈ w.wires, (x.src, x.srcField) = p ∧ ∀ q, ¬ PortAt w x.dst x.dstField q

/-- An event of a node. -/
def EventAt (w : World F) (p : Place) : Prop := ∃ n e, w.heap p.1 = some n ∧ e ∈ n.cls.events ∧ e.name = p.2

/-- An event on a cycle of connections. -/
def LoopAt (w : World F) (p : Place) : Prop := EventAt w p ∧ ∃ q, Onward w p q ∧ Onwards w q p

/-- Prototype `k` maps its field `nm` (not a list of nodes) and one of its events to the same field of a node in its body (not a Script). -/
def DoublyMapped (w : World F) (k : Nat) (nm : Text) : Prop :=
  ∃ (d : FieldDecl F) (ev : EventDecl) (t : Nat) (g g2 : Text) (d2 : FieldDecl F) (ends ends2 : List (Nat × Text)),
    (w.cls k).body.isSome = true ∧ (nm, ends) ∈ (w.cls k).is ∧ (t, g) ∈ ends ∧ (ev.name, ends2) ∈ (w.cls k).is ∧ (t, g2) ∈ ends2 ∧
    (w.cls k).cls.getField nm = some (.inl d) ∧ d.kind ≠ .mfNode ∧ (w.cls k).cls.getField ev.name = some (.inr ev) ∧
    Resolves w t g d2 ∧ Resolves w t g2 d2 ∧ ∀ n, w.heap t = some n → n.cls.proto ≠ chars "Script"

end Verif.Full
