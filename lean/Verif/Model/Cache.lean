/-
Model of vrml/cache.py: Cache (48-86), cleaner (91-98), CacheHolder (101-250).

Objects (client nodes, paths, watched nodes) have unique numbers (`Oid`); `id(x)` is the object's address, which is
reused after the object died.  The cache dictionary is keyed by the address.  Garbage collection is an
environment step (`die`, `release`) that runs the weak-reference callbacks.
Simplifications: the cache itself stays alive (`self.cache()` is never None: CACHE is a module global); one
connection stands for the three signals ('set' | 'del' | 'route', field) `depend` connects together (171-185), so
`fire n f` is any of the three; field names resolve (`getField`); pydispatcher holds receivers weakly and
senders by identity, so a connection lives as long as both ends do; a holder is freed only when it is in no
cache dictionary (`release` is otherwise ignored; a caller may keep it longer).
-/
namespace Verif.Cache

abbrev Oid := Nat
abbrev Hid := Nat
abbrev Addr := Nat

/-- What a `depend_object` weak reference points to: a node or another holder. -/
inductive Ref where
  | obj (o : Oid)
  | holder (h : Hid)
  deriving DecidableEq, Repr

/-- cache.py:124-149: the attributes of a holder.  `data = none` is Python's None. -/
structure Holder (K D : Type) where
  client : Oid
  key : K
  data : Option D
  nodeDeps : List Ref
  deriving DecidableEq, Repr

/-- An object: where it lives, whether it is alive, and its truth value (a node path is a list, so an empty one is
false). -/
structure Obj where
  addr : Addr
  alive : Bool
  truthy : Bool
  deriving DecidableEq, Repr

structure St (K D : Type) where
  objs : List Obj                                    -- indexed by Oid
  holders : List (Option (Holder K D))               -- indexed by Hid; none = freed
  cache : Addr → Option (List (K × Hid))             -- the dict of dicts (inner dict: distinct keys)
  conns : List ((Oid × Nat) × Hid)                   -- dispatcher connections (sender, field) → holder.clear

variable {K D : Type} [DecidableEq K]

def St.init : St K D := ⟨[], [], fun _ => none, []⟩

def St.obj? (s : St K D) (o : Oid) : Option Obj := s.objs[o]?

def St.alive (s : St K D) (o : Oid) : Bool :=
  match s.objs[o]? with
  | some x => x.alive
  | none => false

def St.holder? (s : St K D) (h : Hid) : Option (Holder K D) := (s.holders[h]?).join

/-- dict get. -/
def dget (m : List (K × Hid)) (k : K) : Option Hid := (m.find? (fun p => p.1 == k)).map Prod.snd

/-- dict set. -/
def dset (m : List (K × Hid)) (k : K) (h : Hid) : List (K × Hid) := (k, h) :: m.filter (fun p => !(p.1 == k))

/-- dict del. -/
def ddel (m : List (K × Hid)) (k : K) : List (K × Hid) := m.filter (fun p => !(p.1 == k))

/-- cache.py:60-65 getHolder: `self.get(id(client))` then `.get(key)`. -/
def St.getHolder (s : St K D) (c : Oid) (k : K) : Option Hid :=
  match s.objs[c]? with
  | none => none
  | some o =>
    match s.cache o.addr with
    | none => none
    | some current => dget current k

/-- cache.py:66-73 getData with default None: the holder's data, or the default. -/
def St.getData (s : St K D) (c : Oid) (k : K) : Option D :=
  match s.getHolder c k with
  | none => none
  | some h =>
    match s.holder? h with
    | some x => x.data
    | none => none

def St.setHolder (s : St K D) (h : Hid) (x : Holder K D) : St K D := { s with holders := s.holders.set h (some x) }

/-- cache.py:124-149 CacheHolder.__init__ (the new holder gets the next number). -/
def newHolder (s : St K D) (c : Oid) (k : K) (d : Option D) : St K D :=
  match s.objs[c]? with
  | some o =>
    if o.alive then
      let current := (s.cache o.addr).getD []
      { s with
        holders := s.holders ++ [some ⟨c, k, d, []⟩]
        cache := fun a => if a = o.addr then some (dset current k s.holders.length) else s.cache a }
    else s
  | none => s

/-- cache.py:210-250 `__call__`. -/
def call (s : St K D) (h : Hid) : St K D :=
  match s.holder? h with
  | none => s
  | some x =>
    match s.objs[x.client]? with
    | none => s
    | some o =>
      if o.alive then
        -- 231: self.data = None
        let s1 := s.setHolder h { x with data := none }
        match s1.cache o.addr with
        | none => s1
        | some current =>
          match dget current x.key with
          | none => s1                                                   -- KeyError → return 0
          | some _ =>
            let current' := ddel current x.key
            -- 236-244: drop an empty dict, clear nodeDependencies
            let s2 := { s1 with cache := fun a =>
              if a = o.addr then (if current'.isEmpty then none else some current') else s1.cache a }
            s2.setHolder h { x with data := none, nodeDeps := [] }
      else s                                                             -- client is None: return 0

/-- cache.py:204-209 `clear`. -/
def clear (s : St K D) (h : Hid) : St K D :=
  match s.holder? h with
  | none => s
  | some x =>
    match s.objs[x.client]? with
    | none => s
    | some o => if o.alive && o.truthy then s.setHolder h { x with data := none } else call s h

/-- cache.py:91-98: the client's weak references call `cleaner`, which deletes `cache[id]`. -/
def clean (s : St K D) (a : Addr) : St K D := { s with cache := fun b => if b = a then none else s.cache b }

/-- The holders whose `depend_object` reference points to `r`. -/
def St.watching (s : St K D) (r : Ref) : List Hid :=
  (List.range s.holders.length).filter (fun h => match s.holder? h with
    | some x => decide (r ∈ x.nodeDeps)
    | none => false)

/-- Is the holder stored in some cache dictionary? -/
def St.stored (s : St K D) (h : Hid) : Bool :=
  s.objs.any (fun o => match s.cache o.addr with
    | some m => m.any (fun p => p.2 == h)
    | none => false)

inductive Op (K D : Type) where
  | alloc (a : Addr) (truthy : Bool)       -- a new object at address a
  | setTruthy (o : Oid) (b : Bool)         -- e.g. a path being emptied or filled
  | newHolder (c : Oid) (k : K) (d : Option D)
  | setData (h : Hid) (d : Option D)       -- 150-152, or holder.data = d
  | depend (h : Hid) (n : Oid) (f : Nat)   -- 154-195 with a field
  | dependObj (h : Hid) (r : Ref)          -- 196-203
  | fire (n : Oid) (f : Nat)               -- ('set'|'del'|'route', f) sent by n
  | call (h : Hid)                         -- holder()
  | die (o : Oid)                          -- o is garbage collected
  | release (h : Hid)                      -- a holder no cache dictionary refers to is garbage collected
  deriving Repr

/-- One step. -/
def step (s : St K D) : Op K D → St K D
  | .alloc a t =>
    -- the allocator only hands out an address that no living object has
    if s.objs.any (fun o => o.alive && o.addr == a) then s else { s with objs := s.objs ++ [⟨a, true, t⟩] }
  | .setTruthy o b =>
    match s.objs[o]? with
    | some x => { s with objs := s.objs.set o { x with truthy := b } }
    | none => s
  | .newHolder c k d => newHolder s c k d
  | .setData h d =>
    match s.holder? h with
    | some x => s.setHolder h { x with data := d }
    | none => s
  | .depend h n f =>
    match s.holder? h with
    | some _ => if s.alive n then { s with conns := s.conns ++ [((n, f), h)] } else s
    | none => s
  | .dependObj h r =>
    match s.holder? h with
    | some x => s.setHolder h { x with nodeDeps := x.nodeDeps ++ [r] }
    | none => s
  | .fire n f =>
    if s.alive n then
      ((s.conns.filter (fun c => c.1 == (n, f))).map Prod.snd).foldl clear s
    else s
  | .call h => call s h
  | .die o =>
    match s.objs[o]? with
    | none => s
    | some x =>
      if x.alive then
        let s1 := { s with objs := s.objs.set o { x with alive := false } }
        -- every live holder of this client has a weak reference with the cleaner callback
        let s2 := if s.holders.any (fun h => match h with | some y => y.client == o | none => false)
          then clean s1 x.addr else s1
        (s2.watching (.obj o)).foldl call s2
      else s
  | .release h =>
    match s.holder? h with
    | none => s
    | some _ =>
      if s.stored h then s
      else
        let s1 := { s with holders := s.holders.set h none }
        (s1.watching (.holder h)).foldl call s1

/-- The state after a history. -/
def run (ops : List (Op K D)) : St K D := ops.foldl step St.init

end Verif.Cache
