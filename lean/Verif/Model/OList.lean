import Verif.Model.PyList
/-
Model of vrml/olist.py: the observable list.

Simplifications: items are compared by one decidable equality that stands for both Python's `==`
and `is` (nodes compare by identity); items are hashable (the NULL node is not); `setSender` only
changes which object the events are sent from, so the sender is not part of an event here (see
Model/MFNode for it); receivers do not themselves mutate the list.
-/
namespace Verif.OList
open Verif.PyList

variable {α : Type}

/-- olist.py:28-31 the four signals; each event carries the contents the receiver sees. -/
inductive Sig where
  | new | added | del | removed
  deriving DecidableEq, Repr

/-- One dispatched event: the signal, the child it is about, and the list contents at that moment. -/
structure Ev (α : Type) where
  sig : Sig
  child : α
  seen : List α
  deriving DecidableEq, Repr

/-- olist.py:47-51 `_sendAdded`: NEW_CHILD_EVT from the list, then NEW_PARENT_EVT from the child. -/
def sendAdded (cur : List α) (v : α) : List (Ev α) := [⟨.new, v, cur⟩, ⟨.added, v, cur⟩]
/-- olist.py:52-56 `_sendRemoved`. -/
def sendRemoved (cur : List α) (v : α) : List (Ev α) := [⟨.del, v, cur⟩, ⟨.removed, v, cur⟩]

/-- Result of an operation: exceptions carry the contents they leave behind and the events sent. -/
structure Out (α : Type) where
  err : Option Err := none
  items : List α
  events : List (Ev α) := []
  deriving Repr

/-- olist.py:58-62 `append`. -/
def append (l : List α) (v : α) : Out α :=
  let l' := l ++ [v]
  { items := l', events := sendAdded l' v }

/-- olist.py:63-67 `insert`. -/
def insert (l : List α) (i : Int) (v : α) : Out α :=
  let l' := PyList.insert l i v
  { items := l', events := sendAdded l' v }

/-- olist.py:68-74 `pop(index=None)`: None means `len(self)-1`. -/
def pop (l : List α) (i : Option Int) : Out α :=
  let i := match i with | none => (l.length : Int) - 1 | some i => i
  match PyList.pop l i with
  | .error e => { err := some e, items := l }
  | .ok (l', v) => { items := l', events := sendRemoved l' v }

/-- olist.py:75-79 `remove`. -/
def remove [DecidableEq α] (l : List α) (v : α) : Out α :=
  match PyList.remove l v with
  | .error e => { err := some e, items := l }
  | .ok l' => { items := l', events := sendRemoved l' v }

/-- olist.py:82-87 `__delitem__` with a slice: events first, deletion afterwards. -/
def delSlice (l : List α) (s : Slice) : Out α :=
  match PyList.getSlice l s with
  | .error e => { err := some e, items := l }
  | .ok cur =>
    match PyList.delSlice l s with
    | .error e => { err := some e, items := l, events := cur.flatMap (sendRemoved l) }
    | .ok l' => { items := l', events := cur.flatMap (sendRemoved l) }

/-- olist.py:88-91 `__delitem__` with an index: sends the events, and deletes nothing. -/
def delItem (l : List α) (i : Int) : Out α :=
  match PyList.getItem l i with
  | .error e => { err := some e, items := l }
  | .ok v => { items := l, events := sendRemoved l v }

/-- olist.py:101-108, the loop over the assigned values.  `currents` is the set of the replaced items,
`prev` the list of replaced items not yet accounted for. Returns the events and what is left of `prev`. -/
def sliceLoop [DecidableEq α] (seen : List α) (currents : List α) :
    List α → List α → List (Ev α) × List α
  | [], prev => ([], prev)
  | v :: vs, prev =>
    if v ∈ currents then sliceLoop seen currents vs (prev.erase v)
    else
      let r := sliceLoop seen currents vs prev
      (sendAdded seen v ++ r.1, r.2)

/-- olist.py:96-111 `__setitem__` with a slice. -/
def setSlice [DecidableEq α] (l : List α) (s : Slice) (vs : List α) : Out α :=
  match PyList.getSlice l s with
  | .error e => { err := some e, items := l }
  | .ok prev =>
    match PyList.setSlice l s vs with
    | .error e => { err := some e, items := l }
    | .ok l' =>
      let r := sliceLoop l' prev vs prev
      { items := l', events := r.1 ++ r.2.flatMap (sendRemoved l') }

/-- olist.py:112-119 `__setitem__` with an index. -/
def setItem [DecidableEq α] (l : List α) (i : Int) (v : α) : Out α :=
  match PyList.getItem l i with
  | .error e => { err := some e, items := l }
  | .ok cur =>
    match PyList.setItem l i v with
    | .error e => { err := some e, items := l }
    | .ok l' =>
      { items := l'
        events := if cur = v then [] else sendRemoved l cur ++ sendAdded l' v }

/-- olist.py:122-125 `__iadd__` / `extend`: slice assignment at the end. -/
def extend [DecidableEq α] (l : List α) (vs : List α) : Out α :=
  setSlice l { start := some l.length, stop := some l.length } vs

/-- What `__iadd__` / `extend` return: the plain list of the added values, because `__setitem__`
returns `values` (olist.py:97,111,124). -/
def extendResult (_l : List α) (vs : List α) : List α := vs

/-- `x.f += vs` on an attribute holding the list rebinds the attribute to the result of `__iadd__`
(Python semantics). The flag says whether the attribute still holds the original list object. -/
def iaddAttr [DecidableEq α] (l : List α) (vs : List α) : Out α × List α × Bool :=
  (extend l vs, extendResult l vs, false)

/-- The operations on an observable list. `clear`, `reverse` and `sort` are inherited from `list`
(olist.py does not override them) and therefore send nothing. `sort` is by the given permutation of
the contents and is left out. -/
inductive Op (α : Type) where
  | append (v : α)
  | insert (i : Int) (v : α)
  | pop (i : Option Int)
  | remove (v : α)
  | delSlice (s : Slice)
  | delItem (i : Int)
  | setSlice (s : Slice) (vs : List α)
  | setItem (i : Int) (v : α)
  | extend (vs : List α)
  | clear
  | reverse
  deriving Repr

/-- Perform one operation. -/
def step [DecidableEq α] (l : List α) : Op α → Out α
  | .append v => append l v
  | .insert i v => insert l i v
  | .pop i => pop l i
  | .remove v => remove l v
  | .delSlice s => delSlice l s
  | .delItem i => delItem l i
  | .setSlice s vs => setSlice l s vs
  | .setItem i v => setItem l i v
  | .extend vs => extend l vs
  | .clear => { items := [] }
  | .reverse => { items := l.reverse }

/-- Perform a sequence of operations (an operation that raises leaves the list for the next one);
returns the final contents, the error of each operation and all events in order. -/
def run [DecidableEq α] : List α → List (Op α) → List α × List (Option Err) × List (Ev α)
  | l, [] => (l, [], [])
  | l, o :: os =>
    let r := step l o
    let r' := run r.items os
    (r'.1, r.err :: r'.2.1, r.events ++ r'.2.2)

end Verif.OList
