import Verif.Model.FullRead
/-!
Specification: a scene graph that is part of a larger store, with its nodes renumbered.
-/
namespace Verif.Lin
open Verif.TextOut
variable {F : Type}

/-- The value with its nodes renumbered. -/
def Val.rename (ρ : Nat → Nat) : Val F → Val F
  | .ref o => .ref (o.map ρ)
  | .refs l => .refs (l.map (Option.map ρ))
  | v => v

/-- The default with its nodes renumbered. -/
def Dflt.rename (ρ : Nat → Nat) : Dflt F → Dflt F
  | .scalar v => .scalar (v.rename ρ)
  | .other v => .other (v.rename ρ)
  | .list v => .list (v.rename ρ)
  | d => d

/-- The field with the nodes of its default renumbered. -/
def FieldDecl.rename (ρ : Nat → Nat) (d : FieldDecl F) : FieldDecl F := { d with dflt := d.dflt.rename ρ }

/-- The class with the nodes in defaults renumbered. -/
def Class.rename (ρ : Nat → Nat) (c : Class F) : Class F := { c with fields := c.fields.map (FieldDecl.rename ρ) }

/-- The route with its nodes renumbered. -/
def Rt.rename (ρ : Nat → Nat) (r : Rt) : Rt := ⟨ρ r.src, r.srcField, ρ r.dst, r.dstField⟩

/-- IS mappings with their nodes renumbered. -/
def renameIs (ρ : Nat → Nat) (l : List (Text × List (Nat × Text))) : List (Text × List (Nat × Text)) :=
  l.map (fun e => (e.1, e.2.map (fun x => (ρ x.1, x.2))))

end Verif.Lin

namespace Verif.Full
open Verif.TextOut Verif.Lin
variable {F : Type}

/-- Scene graph number `s` of the store is the scene `sc`, with node `j` of `sc` being node `ρ j` of the store; except that the fields in
`free` may have other values. -/
structure Holds (w : World F) (s : Nat) (ρ : Nat → Nat) (free : Nat → Text → Prop) (sc : Scene F) : Prop where
  /-- different nodes stay different -/
  inj : ∀ i j, ρ i = ρ j → i = j
  /-- the same nodes: class, DEF name, values -/
  nodes : ∀ j n, sc.heap j = some n → ∃ n', w.heap (ρ j) = some n' ∧ n'.cls = n.cls.rename ρ ∧ n'.DEF = n.DEF ∧
    ∀ g, ¬ free j g → n'.dict g = (n.dict g).map (Val.rename ρ)
  children : (w.scene s).children = sc.children.map ρ
  routes : (w.scene s).routes = sc.routes.map (Rt.rename ρ)
  /-- the same names -/
  defs : ∀ nm, nm ≠ [] → (w.scene s).defs.lookup nm = (sc.defs.lookup nm).map ρ

/-- Field `g` of node `j` of a prototype's body is mapped to the interface with IS. -/
def MappedField (sc : Scene F) (j : Nat) (g : Text) : Prop :=
  ∃ l nm ends f n d, sc.is = some l ∧ (nm, ends) ∈ l ∧ (j, f) ∈ ends ∧ sc.heap j = some n ∧ n.cls.getField f = some (.inl d) ∧ d.name = g

/-- Class number `k` of the store is the prototype `p`: the same interface, the same body (mapped fields may have other values) and the same IS
mappings. -/
structure HoldsProto (w : World F) (k : Nat) (p : ProtoDef F) : Prop where
  decl : (w.cls k).decl = { p with body := none }
  body : ∃ s ρ sc l, (w.cls k).body = some s ∧ p.body = some sc ∧ sc.is = some l ∧ (w.cls k).is = renameIs ρ l ∧
    Holds w s ρ (MappedField sc) sc

/-- The scene graph of the file. -/
def World.file (w : World F) : Scene F := w.view 0 none

end Verif.Full
