import Verif.Model.FullRead
/-!
Assigning fields and events of loaded nodes in a program.
Models /repo/vrml/field.py:108-144 (`BaseField.__set__`, `fset`, `_set`), 394-407 (`Event.__set__`), /repo/vrml/node.py:467-515 (`MFNode.fset`) and, by `forward`
(Model/FullRead), /repo/vrml/route.py:58-107.
Simplification: a node put into a field gets the root scene graph of its new place here in no table (that is C85 and C92; the theorems about saving are about
values without nodes).
-/
namespace Verif.Full
open Verif.TextOut
open Verif.Lin hiding disp dispList dispDecls dispAttrs
variable {F : Type}

/-- Every connection from the field or event named `f` of node `i` forwards the value, each as a new event (route.py:79-81). -/
def World.spread (w : World F) (i : Nat) (f : Text) (v : Val F) : Option (World F) :=
  (w.out i f).foldlM (fun a x => (forward w.depth [] a x.dst x.dstField (some v)).map Prod.snd) w

/-- `node.f = value`.  A field stores what its type makes of the value and sends that on (field.py:108-116, fieldaccel2.pyx:27-29: `__set__` does not
call the `fset` of `MFNode`, so this also holds of lists of nodes).  An event sends the value as it is (field.py:394-407; no node of the library defines
`on_NAME`); what `Event.__set__` stores is not a field and is left out.  `none`: an exception (or endless
recursion); or no such field or event (Python then makes an attribute of that name, which no field sees; not modelled). -/
def World.assign (w : World F) (i : Nat) (f : Text) (v : Val F) : Option (World F) :=
  match (w.heap i).bind (fun n => n.cls.port f) with
  | none => none
  | some (.inl d) => match w.take d (some v) with
    | some (some u) => (w.setField i d.name u).spread i d.name u
    | _ => none
  | some (.inr e) => w.spread i e.name v

/-- `getField(node, f).fset(node, value)`, field.py:118-127: as `node.f = value`, but a list of nodes is put into the list the node has, and nothing
is sent (node.py:477-480).  `none`: an exception, or an event, which has no `fset`. -/
def World.fset (w : World F) (i : Nat) (f : Text) (v : Val F) : Option (World F) :=
  match (w.heap i).bind (fun n => n.cls.port f) with
  | none => none
  | some (.inl d) => match w.take d (some v) with
    | some (some u) => if d.kind = .mfNode then some (w.setField i d.name u) else (w.setField i d.name u).spread i d.name u
    | _ => none
  | some (.inr _) => none

/-- One assignment after the other. -/
def World.assignAll (w : World F) (l : List (Nat × Text × Val F)) : Option (World F) := l.foldlM (fun w a => w.assign a.1 a.2.1 a.2.2) w

end Verif.Full
