import Verif.Model.PyList
/-
Model of vrml/weaklist.py (Python 3 behaviour).

An object is an identity (`Nat`); a list entry is one weak reference: its own identity and its
referent.  The environment keeps which objects are alive and a counter of fresh reference identities.
Death of an object (garbage collection) is an environment step that may come between any two
operations: the interpreter first clears every reference to it and then runs the callbacks of those
references one after the other.
Simplification: a reference object that was taken out of the list is itself destroyed at once, so its
callback no longer exists (true in CPython: nobody else holds it).
-/
namespace Verif.WeakList
open Verif.PyList

/-- One weak reference stored in the list. -/
structure Ref where
  rid : Nat
  obj : Nat
  deriving DecidableEq, Repr

/-- The list together with its environment. -/
structure St where
  alive : List Nat
  next : Nat
  refs : List Ref
  deriving Repr, DecidableEq

/-- Exceptions. -/
inductive Exn where
  | indexError | valueError | typeError | nameError | attributeError
  deriving DecidableEq, Repr

/-- Lift the exceptions of the built-in list. -/
def ofErr : Err → Exn
  | .indexError => .indexError
  | .valueError => .valueError

/-- An argument: an object, or a weak reference to one. -/
inductive Arg where
  | obj (o : Nat)
  | weak (o : Nat)
  deriving DecidableEq, Repr

/-- The object an argument denotes. -/
def Arg.target : Arg → Nat
  | .obj o => o
  | .weak o => o

/-- weaklist.py:30-40 `wrap`: a fresh reference with the remover callback; a dead reference argument
unwraps to None, which cannot be weakly referenced (TypeError). -/
def wrap (s : St) (a : Arg) : Except Exn (St × Ref) :=
  if a.target ∈ s.alive then .ok ({ s with next := s.next + 1 }, ⟨s.next, a.target⟩)
  else .error .typeError

/-- `[self.wrap(x) for x in seq]` -/
def wrapAll : St → List Arg → Except Exn (St × List Ref)
  | s, [] => .ok (s, [])
  | s, a :: as =>
    match wrap s a with
    | .error e => .error e
    | .ok (s1, r) =>
      match wrapAll s1 as with
      | .error e => .error e
      | .ok (s2, rs) => .ok (s2, r :: rs)

/-- weaklist.py:41-48 `unwrap`: call the reference: the object, or None when dead. -/
def unwrap (s : St) (r : Ref) : Option Nat := if r.obj ∈ s.alive then some r.obj else none

/-- The operations that exist on the list; `broken` stands for every method that goes through `get()`
(`in`, count, index, remove, sort, comparisons, repr). -/
inductive Op where
  | append (a : Arg)
  | insert (i : Int) (a : Arg)
  | extend (as : List Arg)
  | setSlice (sl : Slice) (as : List Arg)
  | setItem (i : Int) (a : Arg)
  | pop (i : Int)
  | getItem (i : Int)
  | delItem (i : Int)
  | delSlice (sl : Slice)
  | clear
  | reverse
  | broken
  deriving Repr, DecidableEq

/-- Result of an operation. -/
inductive Res where
  | none
  | val (o : Option Nat)
  | raised (e : Exn)
  deriving Repr, DecidableEq

/-- Perform one list operation. -/
def step (s : St) : Op → St × Res
  -- weaklist.py:74-76
  | .append a =>
    match wrap s a with
    | .error e => (s, .raised e)
    | .ok (s', r) => ({ s' with refs := s'.refs ++ [r] }, .none)
  -- weaklist.py:77-81
  | .insert i a =>
    match wrap s a with
    | .error e => (s, .raised e)
    | .ok (s', r) => ({ s' with refs := PyList.insert s'.refs i r }, .none)
  -- weaklist.py:82-87; `__iadd__` is the same function
  | .extend as =>
    match wrapAll s as with
    | .error e => (s, .raised e)
    | .ok (s', rs) => ({ s' with refs := s'.refs ++ rs }, .none)
  -- weaklist.py:64-72, slice branch
  | .setSlice sl as =>
    match wrapAll s as with
    | .error e => (s, .raised e)
    | .ok (s', rs) =>
      match PyList.setSlice s'.refs sl rs with
      | .error e => (s', .raised (ofErr e))
      | .ok l => ({ s' with refs := l }, .none)
  -- weaklist.py:68-69: `self.wrap(x)` with `x` undefined
  | .setItem _ _ => (s, .raised .nameError)
  -- weaklist.py:92-94
  | .pop i =>
    match PyList.pop s.refs i with
    | .error e => (s, .raised (ofErr e))
    | .ok (l, r) => ({ s with refs := l }, .val (unwrap s r))
  -- weaklist.py:89-91 (integer index)
  | .getItem i =>
    match PyList.getItem s.refs i with
    | .error e => (s, .raised (ofErr e))
    | .ok r => (s, .val (unwrap s r))
  -- inherited from list
  | .delItem i =>
    match PyList.delItem s.refs i with
    | .error e => (s, .raised (ofErr e))
    | .ok l => ({ s with refs := l }, .none)
  | .delSlice sl =>
    match PyList.delSlice s.refs sl with
    | .error e => (s, .raised (ofErr e))
    | .ok l => ({ s with refs := l }, .none)
  | .clear => ({ s with refs := [] }, .none)
  | .reverse => ({ s with refs := s.refs.reverse }, .none)
  -- weaklist.py:50-56: `list.__getslice__` does not exist in Python 3
  | .broken => (s, .raised .attributeError)

/-- weaklist.py:149-162 the remover: `list.remove(reference)`, ValueError ignored. A dead reference
equals only itself, so this removes the first entry with that reference identity. -/
def remover (rid : Nat) (refs : List Ref) : List Ref := refs.eraseP (fun r => r.rid == rid)

/-- Garbage collection of `o`: it stops being alive, then the callback of every reference to it runs. -/
def die (s : St) (o : Nat) : St :=
  let s1 := { s with alive := s.alive.filter (· != o) }
  let dead := s.refs.filter (fun r => r.obj == o)
  { s1 with refs := dead.foldl (fun l r => remover r.rid l) s1.refs }

/-- Creation of an object. -/
def born (s : St) (o : Nat) : St := { s with alive := o :: s.alive }

/-- One step of a history: an operation of the program or an act of the memory manager. -/
inductive Act where
  | op (o : Op)
  | die (o : Nat)
  | born (o : Nat)
  deriving Repr, DecidableEq

/-- Perform one step of a history. -/
def act (s : St) : Act → St
  | .op o => (step s o).1
  | .die o => die s o
  | .born o => born s o

/-- The state after a history. -/
def run (s : St) (h : List Act) : St := h.foldl act s

/-- The empty list in a world without objects. -/
def init : St := ⟨[], 0, []⟩

/-- weaklist.py:57-62 `__iter__`: an index into the current list.  `next` advances the generator, the
other steps are deaths that happen while the consumer runs. Yields the results in order; the
generator ends when the index is past the end. -/
inductive ItStep where
  | next
  | die (o : Nat)
  deriving Repr, DecidableEq

/-- Run the generator under a schedule. Returns what each `next` produced (`unwrap` result together with
the set of live objects at that moment) and whether it has stopped. -/
def iter : St → Nat → List ItStep → List (Option Nat × List Nat) × Bool
  | _, _, [] => ([], false)
  | s, i, .die o :: sch => iter (die s o) i sch
  | s, i, .next :: sch =>
    match s.refs[i]? with
    | none => ([], true)
    | some r =>
      let rest := iter s (i + 1) sch
      ((unwrap s r, s.alive) :: rest.1, rest.2)

end Verif.WeakList
