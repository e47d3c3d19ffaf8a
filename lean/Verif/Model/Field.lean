/-
Model of the field descriptors: vrml/field.py (BaseField, pure Python) and
accelerate/src/fieldaccel2.pyx (BaseField, accelerated), and vrml/field.py WeakField.

Nodes are identities (`Nat`), storage names are `String` (the `name` of the field, the key in the node's
`__dict__`), values are an arbitrary type `V`.  A field's `coerce` is a parameter: any function that
returns a value or raises.
Simplifications: clients are instances (the branch for classes, `setattr(client, ..)`, is left out);
receivers of notifications do not write fields themselves (cascades are in Model/Route); a callable
default is represented by the value it produces.
-/
namespace Verif.Field

/-- Exceptions a coercion may raise. -/
inductive Exn where
  | valueError | typeError | attributeError | other
  deriving DecidableEq, Repr

/-- The part of a field object that its get/set behaviour depends on. -/
structure FieldDef (V : Type) where
  name : String
  coerce : V → Except Exn V
  default : V

/-- Signal kinds of field notifications, field.py:111,121,179. -/
inductive Kind where
  | set | del
  deriving DecidableEq, Repr

/-- One dispatched notification `((kind, field), node, value=…)`. -/
structure Note (V : Type) where
  kind : Kind
  node : Nat
  field : String
  value : Option V
  deriving DecidableEq, Repr

/-- The `__dict__`s of all nodes and the notifications sent so far. -/
structure St (V : Type) where
  store : Nat → String → Option V
  log : List (Note V)

/-- Which implementation of BaseField is in use (field.py:83-87). -/
inductive Impl where
  | pure | accel
  deriving DecidableEq, Repr

variable {V : Type}

/-- `client.__dict__[name] = value` -/
def St.put (s : St V) (n : Nat) (k : String) (v : V) : St V :=
  { s with store := fun n' k' => if n' = n ∧ k' = k then some v else s.store n' k' }

/-- `del client.__dict__[name]` -/
def St.erase (s : St V) (n : Nat) (k : String) : St V :=
  { s with store := fun n' k' => if n' = n ∧ k' = k then none else s.store n' k' }

/-- `dispatcher.send` -/
def St.send (s : St V) (m : Note V) : St V := { s with log := s.log ++ [m] }

/-- field.py:128-144 `_set` (pure): coerce, turning ValueError and TypeError into ValueError and letting anything else
through, then store. -/
def rawSet (s : St V) (n : Nat) (f : FieldDef V) (v : V) : Except Exn (St V × V) :=
  match f.coerce v with
  | .error .valueError => .error .valueError
  | .error .typeError => .error .valueError
  | .error e => .error e
  | .ok w => .ok (s.put n f.name w, w)

/-- The value returned and the new state, or an exception and the state it leaves. -/
structure Out (V : Type) where
  st : St V
  res : Except Exn (Option V)

/-- field.py:118-126 `fset` (pure): notifies on request and returns the value. -/
def fset (s : St V) (n : Nat) (f : FieldDef V) (v : V) (notify : Bool) : Out V :=
  match rawSet s n f v with
  | .error e => ⟨s, .error e⟩
  | .ok (s', w) =>
    ⟨if notify then s'.send ⟨.set, n, f.name, some w⟩ else s', .ok (some w)⟩

/-- field.py:108-116 `__set__` (pure): always notifies and returns None. -/
def dunderSet (s : St V) (n : Nat) (f : FieldDef V) (v : V) : Out V :=
  match rawSet s n f v with
  | .error e => ⟨s, .error e⟩
  | .ok (s', w) => ⟨s'.send ⟨.set, n, f.name, some w⟩, .ok none⟩

/-- fieldaccel2.pyx:76-94 `_set(client, value, notify)` (accelerated): coerce, store, notify on request, return the value. -/
def accelSet (s : St V) (n : Nat) (f : FieldDef V) (v : V) (notify : Bool) : Out V :=
  match f.coerce v with
  | .error e => ⟨s, .error (if e = .valueError ∨ e = .typeError then .valueError else e)⟩
  | .ok w =>
    let s := s.put n f.name w
    let s := if notify then s.send ⟨.set, n, f.name, some w⟩ else s
    ⟨s, .ok (some w)⟩

/-- fieldaccel2.pyx:16-26, 49-62 `__get__`, `fget` and `getDefault` (accelerated): the default goes through `_set` without
notification. -/
def accelGet (s : St V) (n : Nat) (f : FieldDef V) : Out V :=
  match s.store n f.name with
  | some v => ⟨s, .ok (some v)⟩
  | none => accelSet s n f f.default false

/-- fieldaccel2.pyx:64-75 `_del(client, notify)` (accelerated): pop the value (AttributeError if there is none), notify on
request, return the value. -/
def accelDel (s : St V) (n : Nat) (f : FieldDef V) (notify : Bool) : Out V :=
  match s.store n f.name with
  | none => ⟨s, .error .attributeError⟩
  | some v =>
    let s := s.erase n f.name
    ⟨if notify then s.send ⟨.del, n, f.name, none⟩ else s, .ok (some v)⟩

/-- field.py:154-166 `getDefault(client)` (pure). Stored, never notified. -/
def getDefault (s : St V) (n : Nat) (f : FieldDef V) : Out V :=
  match rawSet s n f f.default with
  | .error e => ⟨s, .error e⟩
  | .ok (s', w) => ⟨s', .ok (some w)⟩

/-- field.py:96-106 `__get__`/`fget` (pure). -/
def fget (s : St V) (n : Nat) (f : FieldDef V) : Out V :=
  match s.store n f.name with
  | none => getDefault s n f
  | some v => ⟨s, .ok (some v)⟩

/-- field.py:168-173 `__delete__` (pure): looks the key up, raises AttributeError when it is missing and
deletes nothing. -/
def delete (s : St V) (n : Nat) (f : FieldDef V) : Out V :=
  match s.store n f.name with
  | none => ⟨s, .error .attributeError⟩
  | some _ => ⟨s, .ok none⟩

/-- field.py:175-182 `fdel` (pure): `__delete__`, then notify on request. -/
def fdel (s : St V) (n : Nat) (f : FieldDef V) (notify : Bool) : Out V :=
  match delete s n f with
  | ⟨s, .error e⟩ => ⟨s, .error e⟩
  | ⟨s, .ok _⟩ => ⟨if notify then s.send ⟨.del, n, f.name, none⟩ else s, .ok none⟩

/-- field.py:224-231 `fhas` (instance branch). -/
def fhas (s : St V) (n : Nat) (f : FieldDef V) : Bool := (s.store n f.name).isSome

/-- The operations of a client program. -/
inductive Op (V : Type) where
  | get (n : Nat) (f : FieldDef V)
  | set (n : Nat) (f : FieldDef V) (v : V)                     -- node.f = v
  | fset (n : Nat) (f : FieldDef V) (v : V) (notify : Bool)
  | delete (n : Nat) (f : FieldDef V)                          -- del node.f
  | fdel (n : Nat) (f : FieldDef V) (notify : Bool)

/-- A method that returns nothing: the result is None. -/
def Out.noValue (o : Out V) : Out V :=
  match o with
  | ⟨s, .ok _⟩ => ⟨s, .ok none⟩
  | o => o

/-- Perform one operation.  Accelerated: fieldaccel2.pyx:27-41, `__set__` = `_set(.., True)`, `__delete__` = `_del(.., True)`
(both without a value), `fset` = `_set(.., notify)`, `fdel` = `_del(.., notify)`. -/
def step (impl : Impl) (s : St V) : Op V → Out V
  | .get n f => match impl with
    | .pure => fget s n f
    | .accel => accelGet s n f
  | .set n f v => match impl with
    | .pure => dunderSet s n f v
    | .accel => (accelSet s n f v true).noValue
  | .fset n f v notify => match impl with
    | .pure => fset s n f v notify
    | .accel => accelSet s n f v notify
  | .delete n f => match impl with
    | .pure => delete s n f
    | .accel => (accelDel s n f true).noValue
  | .fdel n f notify => match impl with
    | .pure => fdel s n f notify
    | .accel => accelDel s n f notify

/-- Perform a sequence of operations; exceptions are caught by the program, which goes on. -/
def run (impl : Impl) : St V → List (Op V) → St V × List (Except Exn (Option V))
  | s, [] => (s, [])
  | s, o :: os =>
    let r := step impl s o
    let r' := run impl r.st os
    (r'.1, r.res :: r'.2)

/-! ### Weak fields (field.py:340-374) -/

/-- What a weak field stores in the client's dictionary: the NULL node (the default of `rootSceneGraph`) or a
weak reference. -/
inductive WVal where
  | null
  | ref (o : Nat)
  deriving DecidableEq, Repr

/-- One weak field slot of one client, with the objects alive and the notifications sent
(`true` = set, `false` = del). -/
structure WSt where
  alive : List Nat
  slot : Option WVal
  log : List Bool
  deriving DecidableEq, Repr

/-- What the caller passes to a weak field's `fset`. -/
inductive WArg where
  | node (o : Nat)      -- a live node
  | weak (o : Nat)      -- a weak reference to a node
  | falsy               -- None or NULL
  deriving DecidableEq, Repr

/-- Results of weak field operations: a node, NULL, None, a raw weak reference, or AttributeError. -/
inductive WRes where
  | node (o : Nat) | null | none | rawRef (o : Nat) | attributeError
  deriving DecidableEq, Repr

/-- `fdel` on the slot, as above. -/
def wfdel (impl : Impl) (s : WSt) (notify : Bool) : WSt × Bool :=
  match s.slot with
  | Option.none => (s, false)
  | some _ =>
    let s' := match impl with
      | .pure => s
      | .accel => { s with slot := Option.none }
    (if notify then { s' with log := s'.log ++ [false] } else s', true)

/-- field.py:343-356 `WeakField.fset`: a weak reference argument is dereferenced; a falsy value deletes;
otherwise a new weak reference is stored (WeakSFNode.coerce accepts it unchanged, node.py:347-366 with empty
requiredTypes). -/
def wfset (impl : Impl) (s : WSt) (a : WArg) (notify : Bool) : WSt × WRes :=
  let target : Option Nat := match a with
    | .node o => if o ∈ s.alive then some o else Option.none
    | .weak o => if o ∈ s.alive then some o else Option.none
    | .falsy => Option.none
  match target with
  | Option.none =>
    match wfdel impl s notify with
    | (s', true) => (s', .none)
    | (s', false) => (s', .attributeError)
  | some o =>
    let s' := { s with slot := some (.ref o) }
    (if notify then { s' with log := s'.log ++ [true] } else s', .node o)

/-- field.py:358-374 `WeakField.fget`: the default (NULL) is falsy and returned as it is; a live reference gives
its node; a dead one is deleted quietly and gives None. -/
def wfget (impl : Impl) (s : WSt) : WSt × WRes :=
  match s.slot with
  | Option.none => ({ s with slot := some .null }, .null)      -- default stored by __get__
  | some .null => (s, .null)
  | some (.ref o) =>
    if o ∈ s.alive then (s, .node o)
    else
      match wfdel impl s false with
      | (s', true) => (s', .none)
      | (s', false) => (s', .attributeError)

/-- Attribute access `node.f` is BaseField.__get__, which WeakField does not override: the raw stored
reference comes back. -/
def wattr (s : WSt) : WSt × WRes :=
  match s.slot with
  | Option.none => ({ s with slot := some .null }, .null)
  | some .null => (s, .null)
  | some (.ref o) => (s, .rawRef o)

/-- A history of a weak field: operations of the program, births and deaths of nodes. -/
inductive WAct where
  | fset (a : WArg) (notify : Bool)
  | fget
  | attr
  | born (o : Nat)
  | die (o : Nat)
  deriving DecidableEq, Repr

/-- One step of a weak field history. -/
def wact (impl : Impl) (s : WSt) : WAct → WSt
  | .fset a n => (wfset impl s a n).1
  | .fget => (wfget impl s).1
  | .attr => (wattr s).1
  | .born o => { s with alive := o :: s.alive }
  | .die o => { s with alive := s.alive.filter (· != o) }

/-- The state after a history. -/
def wrun (impl : Impl) (s : WSt) (h : List WAct) : WSt := h.foldl (wact impl) s

end Verif.Field
