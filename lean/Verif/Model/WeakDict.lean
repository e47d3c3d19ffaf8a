import Verif.Model.PyDict
/-
Model of vrml/weakkeydictfix.py `WeakKeyDictionary` (Python 3 behaviour; the methods it inherits are those of CPython's
`weakref.WeakKeyDictionary`, which work on `self.data`) and of `ismaps` (vrml/node.py:559-569).

An object is an identity (`Nat`); a key of `data` is a weak reference: its own identity and its referent. The environment keeps which
objects can be weakly referenced (the living ones) and a counter of fresh reference identities. The death of an object is a step of the
environment: the interpreter first clears every reference to it and then runs the callbacks of those references.
Simplification: objects are compared by identity (nodes do not define `__eq__`).
-/
namespace Verif.WeakDict

/-- A weak reference. -/
structure Ref where
  rid : Nat
  obj : Nat
  deriving DecidableEq, Repr

/-- The dictionary (`self.data`, in order of insertion) and its environment. -/
structure St (V : Type) where
  alive : List Nat
  next : Nat
  data : List (Ref × V)
  deriving Repr, DecidableEq

/-- CPython's comparison of two weak references: the referents while both are alive, else the identity of the references. -/
def refEq (alive : List Nat) (a b : Ref) : Bool :=
  if a.obj ∈ alive ∧ b.obj ∈ alive then a.obj == b.obj else a.rid == b.rid

/-- Exceptions. -/
inductive Exn where
  | keyError | typeError | attributeError
  deriving DecidableEq, Repr

/-- Result of an operation. -/
inductive Res (V : Type) where
  | none
  | val (v : V)
  | pair (k : Nat) (v : V)
  | bool (b : Bool)
  | raised (e : Exn)
  deriving Repr, DecidableEq

/-- `data.get(r)` -/
def lookup (alive : List Nat) (r : Ref) : List (Ref × V) → Option V
  | [] => none
  | (k, v) :: d => if refEq alive k r then some v else lookup alive r d

/-- `data[r] = v`: the reference stored first stays the key. -/
def store (alive : List Nat) (r : Ref) (v : V) : List (Ref × V) → List (Ref × V)
  | [] => [(r, v)]
  | (k, w) :: d => if refEq alive k r then (k, v) :: d else (k, w) :: store alive r v d

/-- `del data[r]` -/
def delete (alive : List Nat) (r : Ref) : List (Ref × V) → List (Ref × V)
  | [] => []
  | (k, w) :: d => if refEq alive k r then d else (k, w) :: delete alive r d

/-- The operations of the class. -/
inductive Op (V : Type) where
  | setItem (k : Nat) (v : V)
  | setDefault (k : Nat) (v : V)
  | update (l : List (Nat × V))
  | getItem (k : Nat)
  | get (k : Nat) (dflt : V)
  | contains (k : Nat)
  | delItem (k : Nat)
  | pop (k : Nat)
  | popItem
  | length
  | iterate
  deriving Repr, DecidableEq

/-- `data[ref(key, self._remove)] = value`; something that cannot be weakly referenced is a TypeError -/
def put (s : St V) (k : Nat) (v : V) : Option (St V) :=
  if k ∈ s.alive then some { s with next := s.next + 1, data := store s.alive ⟨s.next, k⟩ v s.data } else none

/-- CPython `update`: one key after the other; those before a failure stay. -/
def putAll (s : St V) : List (Nat × V) → St V × Res V
  | [] => (s, .none)
  | (k, v) :: l => match put s k v with
    | none => (s, .raised .typeError)
    | some s' => putAll s' l

/-- the loop in CPython's `popitem`: the last entry; entries whose object is dead are dropped -/
def popLast (alive : List Nat) : List (Ref × V) → Option (Nat × V × List (Ref × V))
  | [] => none
  | (r, v) :: rev => if r.obj ∈ alive then some (r.obj, v, rev.reverse) else popLast alive rev

/-- One operation. -/
def step (s : St V) : Op V → St V × Res V
  -- inherited `__setitem__`
  | .setItem k v => match put s k v with
    | none => (s, .raised .typeError)
    | some s' => (s', .none)
  -- inherited `setdefault`: `self.data.setdefault(ref(key, self._remove), default)`
  | .setDefault k v => if k ∈ s.alive then
      match lookup s.alive ⟨s.next, k⟩ s.data with
      | some w => ({ s with next := s.next + 1 }, .val w)
      | none => ({ s with next := s.next + 1, data := store s.alive ⟨s.next, k⟩ v s.data }, .val v)
    else (s, .raised .typeError)
  -- inherited `update`
  | .update l => putAll s l
  -- inherited `__getitem__`
  | .getItem k => if k ∈ s.alive then
      match lookup s.alive ⟨s.next, k⟩ s.data with
      | some w => (s, .val w)
      | none => (s, .raised .keyError)
    else (s, .raised .typeError)
  -- inherited `get`
  | .get k d => if k ∈ s.alive then (s, .val ((lookup s.alive ⟨s.next, k⟩ s.data).getD d)) else (s, .raised .typeError)
  -- inherited `__contains__`: TypeError counts as absent
  | .contains k => (s, .bool (decide (k ∈ s.alive) && (lookup s.alive ⟨s.next, k⟩ s.data).isSome))
  -- weakkeydictfix.py:31-36 `__delitem__`
  | .delItem k => if k ∈ s.alive then
      match lookup s.alive ⟨s.next, k⟩ s.data with
      | some _ => ({ s with data := delete s.alive ⟨s.next, k⟩ s.data }, .none)
      | none => (s, .raised .keyError)
    else (s, .raised .typeError)
  -- inherited `pop`
  | .pop k => if k ∈ s.alive then
      match lookup s.alive ⟨s.next, k⟩ s.data with
      | some w => ({ s with data := delete s.alive ⟨s.next, k⟩ s.data }, .val w)
      | none => (s, .raised .keyError)
    else (s, .raised .typeError)
  -- inherited `popitem`
  | .popItem => match popLast s.alive s.data.reverse with
    | none => ({ s with data := [] }, .raised .keyError)
    | some (k, v, d) => ({ s with data := d }, .pair k v)
  -- weakkeydictfix.py:13-30: `__init__` does not make the attributes (`_dirty_len`, `_pending_removals`, `_iterating`) that the
  -- inherited `__len__`, `__iter__`, `keys`, `values`, `items`, `copy` and the truth value need
  | .length => (s, .raised .attributeError)
  | .iterate => (s, .raised .attributeError)

/-- weakkeydictfix.py:20-27 `remove`: the callback of the reference with this identity deletes its entry. The reference is dead: it equals
only itself. -/
def remover (alive : List Nat) (r : Ref) (d : List (Ref × V)) : List (Ref × V) := delete alive r d

/-- Death of `o`: it stops being alive, then the callback of every reference to it runs. -/
def die (s : St V) (o : Nat) : St V :=
  let alive := s.alive.filter (· != o)
  let dead := (s.data.map Prod.fst).filter (fun r => r.obj == o)
  { s with alive := alive, data := dead.foldl (fun d r => remover alive r d) s.data }

/-- A new object (possibly with the identity of a dead one). -/
def born (s : St V) (o : Nat) : St V := { s with alive := o :: s.alive }

/-- A step of a history. -/
inductive Act (V : Type) where
  | op (o : Op V)
  | die (o : Nat)
  | born (o : Nat)
  deriving Repr, DecidableEq

/-- One step, with its result. -/
def act (s : St V) : Act V → St V × Res V
  | .op o => step s o
  | .die o => (die s o, .none)
  | .born o => (born s o, .none)

/-- The state after a history and the results of its steps. -/
def run (s : St V) : List (Act V) → St V × List (Res V)
  | [] => (s, [])
  | a :: h => ((run (act s a).1 h).1, (act s a).2 :: (run (act s a).1 h).2)

/-- The empty dictionary in a world without objects. -/
def init : St V := ⟨[], 0, []⟩

/-- node.py:562-569 `ismaps`: `ISMAPS.setdefault(node, {})`; `mk` is the new empty mapping. -/
def ismaps (s : St V) (node : Nat) (mk : V) : St V × Res V := step s (.setDefault node mk)

end Verif.WeakDict
