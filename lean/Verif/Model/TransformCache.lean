import Verif.Model.Cache
/-
Model of the two cached matrix queries on top of the cache:
vrml/vrml97/basenodes.py Transform.localMatrices (575-614) and vrml/vrml97/nodepath.py
_NodePath.transformMatrix (34-86), transformChildren (87-99).

The matrix computations themselves are parameters (`Params`); Verif/Model/Matrix.lean models them.
Fields are numbered: 0 translation, 1 center, 2 scale, 3 scaleOrientation, 4 rotation, others ≥ 5.
Simplifications: node paths are not mutated after creation and hold strong references (a node on a living path does
not die); fields are changed through the field API (not by writing into a stored array in place), which
always ends in one notification ('set' | 'del' | 'route'); every Transforming node is a Transform.
-/
namespace Verif.TCache
open Verif.Cache

/-- The three boolean arguments. -/
structure Flags where
  translate : Bool
  scale : Bool
  rotate : Bool
  deriving DecidableEq, Repr

/-- Cache keys: ('local_matrices', t, s, r), ('matrix' | 'inverse_matrix', t, s, r), and everybody else's. -/
inductive Key where
  | loc (fl : Flags)
  | path (inverse : Bool) (fl : Flags)
  | other (n : Nat)
  deriving DecidableEq, Repr

/-- Cached data: the (forward, inverse) pair of one node, one matrix of a path, or something else. -/
inductive Dat (M : Type) where
  | pair (m : M × M)
  | mat (m : M)
  | foreign (n : Nat)
  deriving DecidableEq, Repr

/-- basenodes.py:597-605: which fields are read (and watched). -/
def localFields (fl : Flags) : List Nat :=
  (if fl.translate then [0] else []) ++ (if fl.scale || fl.rotate then [1] else []) ++
  (if fl.scale then [2, 3] else []) ++ (if fl.rotate then [4] else [])

/-- nodepath.py:71-78: which fields of each transform the path's holder watches. -/
def pathFields (fl : Flags) : List Nat :=
  (if fl.translate then [0] else []) ++ (if fl.scale then [2, 3] else []) ++ (if fl.rotate then [4, 1] else [])

/-- The computations outside this module. -/
structure Params (V M : Type) where
  loc : (Nat → Option V) → M × M            -- transformmatrix.localMatrices(**fields)
  compress : List M → M                     -- compressMatrices, identity if None
  dflt : Nat → V                            -- field defaults

/-- `dict([(k, d.get(k)) for k in fields])`: fields not listed keep the function's default arguments. -/
def mask (fs : List Nat) (v : Nat → Option V) : Nat → Option V := fun f => if f ∈ fs then v f else none

structure Sys (V M : Type) where
  cache : St Key (Dat M)
  vals : Oid → Nat → Option V                -- the nodes' __dict__ (explicit or already read values)
  items : Oid → List Oid                     -- the nodes on a path object
  isT : Oid → Bool                           -- isinstance(item, nodetypes.Transforming)

variable {V M : Type}

def Sys.init : Sys V M := ⟨St.init, fun _ _ => none, fun _ => [], fun _ => false⟩

/-- The pair computed from the node's current dictionary. -/
def Sys.localNow (P : Params V M) (S : Sys V M) (n : Oid) (fl : Flags) : M × M := P.loc (mask (localFields fl) (S.vals n))

def dependAll (c : St Key (Dat M)) (h : Hid) (n : Oid) (fs : List Nat) : St Key (Dat M) :=
  fs.foldl (fun c f => step c (.depend h n f)) c

def holderData (c : St Key (Dat M)) (h : Hid) : Option (Dat M) :=
  match c.holder? h with
  | some y => y.data
  | none => none

/-- basenodes.py:575-614; returns the holder. -/
def queryLocal (P : Params V M) (S : Sys V M) (c : St Key (Dat M)) (n : Oid) (fl : Flags) : Hid × St Key (Dat M) :=
  match c.getHolder n (.loc fl) with
  | none =>
    let h := c.holders.length
    let c1 := step c (.newHolder n (.loc fl) none)
    let c2 := dependAll c1 h n (localFields fl)
    (h, step c2 (.setData h (some (.pair (S.localNow P n fl)))))
  | some h =>
    match holderData c h with
    | none => (h, step c (.setData h (some (.pair (S.localNow P n fl)))))
    | some _ => (h, c)

/-- nodepath.py:66-79 get_mat for each transform, collecting `child_holder.data[inverse]`. -/
def collect (P : Params V M) (S : Sys V M) (ph : Hid) (doConnect inverse : Bool) (fl : Flags) :
    List Oid → St Key (Dat M) → List (Option M) × St Key (Dat M)
  | [], c => ([], c)
  | n :: ns, c =>
    let (ch, c1) := queryLocal P S c n fl
    let c2 := if doConnect then dependAll (step c1 (.dependObj ph (.holder ch))) ph n (pathFields fl) else c1
    let m := match holderData c2 ch with
      | some (.pair p) => some (if inverse then p.2 else p.1)
      | _ => none
    let (ms, c3) := collect P S ph doConnect inverse fl ns c2
    (m :: ms, c3)

/-- nodepath.py:87-99 transformChildren. -/
def Sys.children (S : Sys V M) (p : Oid) (reverse : Bool) : List Oid :=
  if reverse then ((S.items p).reverse.filter S.isT) else (S.items p).filter S.isT

/-- nodepath.py:80-86: collect, compress, store. -/
def finishPath (P : Params V M) (S : Sys V M) (p : Oid) (inverse : Bool) (fl : Flags) (h : Hid) (doConnect : Bool)
    (c : St Key (Dat M)) : St Key (Dat M) :=
  let r := collect P S h doConnect inverse fl (S.children p inverse) c
  -- data[inverse] of a missing entry would raise; it never is missing (proved)
  match r.1.mapM id with
  | some l => step r.2 (.setData h (some (.mat (P.compress l))))
  | none => r.2

/-- nodepath.py:34-86. -/
def queryPath (P : Params V M) (S : Sys V M) (p : Oid) (inverse : Bool) (fl : Flags) : St Key (Dat M) :=
  match S.cache.getHolder p (.path inverse fl) with
  | none => finishPath P S p inverse fl S.cache.holders.length true (step S.cache (.newHolder p (.path inverse fl) none))
  | some h =>
    match holderData S.cache h with
    | some _ => S.cache
    | none => finishPath P S p inverse fl h false S.cache

/-- What can happen. -/
inductive Ev (V M : Type) where
  | newNode (a : Addr) (isT : Bool)
  | newPath (a : Addr) (items : List Oid)
  | change (n : Oid) (f : Nat) (v : Option V)   -- set / routed update (some) or deletion (none)
  | readDefault (n : Oid) (f : Nat)             -- reading an unset field stores the default silently
  | askLocal (n : Oid) (fl : Flags)
  | askPath (p : Oid) (inverse : Bool) (fl : Flags)
  | other (o : Op Key (Dat M))                  -- any other use of the cache

/-- The other users of the cache keep to their own keys, create objects through `newNode`/`newPath`, and nodes on a
living path do not die. -/
def Allowed (S : Sys V M) : Op Key (Dat M) → Prop
  | .alloc _ _ => False
  | .newHolder _ k _ => ∃ n, k = .other n
  | .setData h _ => ∀ y, S.cache.holder? h = some y → ∃ n, y.key = .other n
  | .die o => ∀ p, S.cache.alive p = true → p ≠ o → o ∉ S.items p
  | _ => True

open Classical in
/-- One step of the whole system. -/
noncomputable def sysStep (P : Params V M) (S : Sys V M) : Ev V M → Sys V M
  | .newNode a t =>
    if S.cache.objs.any (fun o => o.alive && o.addr == a) then S
    else
      let i := S.cache.objs.length
      { cache := step S.cache (.alloc a true), vals := fun o => if o = i then (fun _ => none) else S.vals o,
        items := fun o => if o = i then [] else S.items o, isT := fun o => if o = i then t else S.isT o }
  | .newPath a l =>
    if S.cache.objs.any (fun o => o.alive && o.addr == a) then S
    else if l.all (fun n => S.cache.alive n) then
      let i := S.cache.objs.length
      { cache := step S.cache (.alloc a (!l.isEmpty)), vals := fun o => if o = i then (fun _ => none) else S.vals o,
        items := fun o => if o = i then l else S.items o, isT := fun o => if o = i then false else S.isT o }
    else S
  | .change n f v =>
    if S.cache.alive n then
      { S with cache := step S.cache (.fire n f), vals := fun o g => if o = n ∧ g = f then v else S.vals o g }
    else S
  | .readDefault n f =>
    { S with vals := fun o g => if o = n ∧ g = f ∧ S.vals n f = none then some (P.dflt f) else S.vals o g }
  | .askLocal n fl => if S.cache.alive n then { S with cache := (queryLocal P S S.cache n fl).2 } else S
  | .askPath p inverse fl => if S.cache.alive p then { S with cache := queryPath P S p inverse fl } else S
  | .other o => if Allowed S o then { S with cache := step S.cache o } else S

/-- The state after a history. -/
noncomputable def sysRun (P : Params V M) (evs : List (Ev V M)) : Sys V M := evs.foldl (sysStep P) Sys.init

end Verif.TCache
