import Verif.Model.OList
import Verif.Model.Field
/-
Model of multi-node fields of one node: vrml/node.py `_MFNode` (460-536), `_changeSender` (443-457), with the
observable list of Model/OList.

Fields of the node are numbered; the items are node identities.  Only the notification behaviour is modelled:
values are already lists of acceptable nodes (coercion is the identity up to making a fresh list), root
propagation is in Model/Root.
`conns` is the list of `_changeSender` closures connected to the node's own 'new'/'del' signals: each one
answers every 'new' or 'del' event sent from the node by sending ('set', its field) from the node.
-/
namespace Verif.MFNode
open Verif.OList Verif.PyList

/-- The list object a field holds: its items, and whether `setSender(client)` was called on it, so that its
events are sent from the node rather than from the list itself (olist.py:34-46). -/
structure MList where
  items : List Nat
  sender : Bool
  deriving DecidableEq, Repr

/-- What a ('set', field) notification carries as its value: the list (an ordinary set) or the node itself
(`value=sender` in node.py:449, where the sender of the list's event is the node). -/
inductive Payload where
  | list (items : List Nat)
  | theNode
  deriving DecidableEq, Repr

/-- A ('set', field) notification from the node. -/
structure Note where
  field : Nat
  value : Payload
  deriving DecidableEq, Repr

/-- One node. -/
structure St where
  slots : Nat → Option MList
  conns : List Nat
  log : List Note

/-- A node on which nothing has been set. -/
def init : St := ⟨fun _ => none, [], []⟩

/-- Store a list object in a field. -/
def St.put (s : St) (f : Nat) (l : MList) : St :=
  { s with slots := fun g => if g = f then some l else s.slots g }

/-- The notifications that follow from list events: one per connected closure for each 'new' and each 'del'
event, provided the events are sent from the node. -/
def changeNotes (conns : List Nat) (sender : Bool) (evs : List (Ev Nat)) : List Note :=
  if sender then
    (evs.filter (fun e => e.sig = .new ∨ e.sig = .del)).flatMap (fun _ => conns.map (fun f => ⟨f, .theNode⟩))
  else []

/-- What a program does with the node's multi-node fields. -/
inductive Op where
  | attrSet (f : Nat) (vs : List Nat)                  -- node.f = vs   (BaseField.__set__)
  | fset (f : Nat) (vs : List Nat) (notify : Bool)     -- also the constructor and the parser
  | read (f : Nat)                                     -- node.f
  | mutate (f : Nat) (o : OList.Op Nat)                -- node.f.append(..) etc.
  deriving Repr

/-- Reading: the default is a fresh OList stored without a sender (field.py:154-166, node.py:464). -/
def read (s : St) (f : Nat) : St :=
  match s.slots f with
  | some _ => s
  | none => s.put f ⟨[], false⟩

/-- Perform one operation. -/
def step (s : St) : Op → St
  -- field.py:108-116: the descriptor's `__set__` does not go through the overridden `fset`
  | .attrSet f vs =>
    let s1 := s.put f ⟨vs, false⟩
    { s1 with log := s1.log ++ [⟨f, .list vs⟩] }
  -- node.py:468-512
  | .fset f vs notify =>
    match s.slots f with
    | some l =>
      -- previous[:] = self.coerce(value)
      let r := OList.setSlice l.items {} vs
      let s1 := s.put f { l with items := r.items }
      { s1 with log := s1.log ++ changeNotes s.conns l.sender r.events }
    | none =>
      let s1 := s.put f ⟨vs, true⟩
      { s1 with log := s1.log ++ (if notify then [⟨f, .list vs⟩] else []), conns := s1.conns ++ [f] }
  | .read f => read s f
  | .mutate f o =>
    let s1 := read s f
    match s1.slots f with
    | none => s1
    | some l =>
      let r := OList.step l.items o
      let s2 := s1.put f { l with items := r.items }
      { s2 with log := s2.log ++ changeNotes s2.conns l.sender r.events }

/-- The state after a history. -/
def run (s : St) (ops : List Op) : St := ops.foldl step s

end Verif.MFNode
