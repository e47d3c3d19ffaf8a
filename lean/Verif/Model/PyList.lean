/-
Python's built-in `list`, as far as /repo's list subclasses use it.
This is the environment, not code of /repo: it is the meaning of `super().append(..)` etc.
Indices are arbitrary Python ints (`Int`), exceptions are values.
-/
namespace Verif.PyList

/-- The exceptions the list operations can raise. -/
inductive Err where
  | indexError | valueError
  deriving DecidableEq, Repr

/-- Position of a Python index in a list of length `n`: negative indices count from the end,
`none` where Python raises IndexError. -/
def normIdx (n : Nat) (i : Int) : Option Nat :=
  let j := if i < 0 then i + n else i
  if 0 ≤ j ∧ j < n then some j.toNat else none

/-- Position used by `list.insert`: clamped, never an error. -/
def insertIdx (n : Nat) (i : Int) : Nat :=
  let j := if i < 0 then i + n else i
  if j < 0 then 0 else if (n : Int) < j then n else j.toNat

/-- A Python slice object `start:stop:step`. -/
structure Slice where
  start : Option Int := none
  stop  : Option Int := none
  step  : Option Int := none
  deriving DecidableEq, Repr

/-- One bound of `PySlice_AdjustIndices`: clamp into `[lo, hi]` after adding the length to negatives. -/
def adjust (n : Int) (lo hi : Int) (i : Int) : Int :=
  let j := if i < 0 then i + n else i
  if j < lo then lo else if hi < j then hi else j

/-- `slice.indices(n)`: (start, stop, step); `none` for step zero (ValueError). -/
def Slice.indices (s : Slice) (n : Nat) : Option (Int × Int × Int) :=
  let step := s.step.getD 1
  if step = 0 then none
  else if 0 < step then
    some ((s.start.map (adjust n 0 n)).getD 0, (s.stop.map (adjust n 0 n)).getD n, step)
  else
    some ((s.start.map (adjust n (-1) (n - 1))).getD (n - 1),
          (s.stop.map (adjust n (-1) (n - 1))).getD (-1), step)

/-- The positions selected by `range(start, stop, step)`, for a list of length `n`,
walking at most `fuel` steps (callers pass the list length, which bounds the number of positions). -/
def rangeIdx : Nat → Int → Int → Int → List Nat
  | 0, _, _, _ => []
  | fuel + 1, start, stop, step =>
    if (0 < step ∧ start < stop) ∨ (step < 0 ∧ stop < start)
    then start.toNat :: rangeIdx fuel (start + step) stop step
    else []

/-- Positions selected by a slice in a list of length `n`, in slice order. -/
def Slice.positions (s : Slice) (n : Nat) : Option (List Nat) :=
  (s.indices n).map fun (a, b, st) => rangeIdx n a b st

variable {α : Type}

/-- The items at the given positions. -/
def pick (l : List α) (ps : List Nat) : List α := ps.filterMap (fun p => l[p]?)

/-- `l[s]` -/
def getSlice (l : List α) (s : Slice) : Except Err (List α) :=
  match s.positions l.length with
  | none => .error .valueError
  | some ps => .ok (pick l ps)

/-- The list without the items at the given positions. -/
def dropAt (l : List α) (ps : List Nat) : List α :=
  (l.zipIdx.filter (fun x => !ps.contains x.2)).map Prod.fst

/-- Store `vs` at the given positions, one by one. -/
def putAt : List α → List Nat → List α → List α
  | l, p :: ps, v :: vs => putAt (l.set p v) ps vs
  | l, _, _ => l

/-- `l[s] = vs` -/
def setSlice (l : List α) (s : Slice) (vs : List α) : Except Err (List α) :=
  match s.indices l.length with
  | none => .error .valueError
  | some (a, b, st) =>
    if st = 1 then .ok (l.take a.toNat ++ vs ++ l.drop (max a b).toNat)
    else
      let ps := rangeIdx l.length a b st
      if ps.length = vs.length then .ok (putAt l ps vs) else .error .valueError

/-- `del l[s]` -/
def delSlice (l : List α) (s : Slice) : Except Err (List α) :=
  match s.positions l.length with
  | none => .error .valueError
  | some ps => .ok (dropAt l ps)

/-- `l[i]` -/
def getItem (l : List α) (i : Int) : Except Err α :=
  match normIdx l.length i with
  | none => .error .indexError
  | some k => match l[k]? with
    | some x => .ok x
    | none => .error .indexError

/-- `l[i] = v` -/
def setItem (l : List α) (i : Int) (v : α) : Except Err (List α) :=
  match normIdx l.length i with
  | none => .error .indexError
  | some k => .ok (l.set k v)

/-- `del l[i]` -/
def delItem (l : List α) (i : Int) : Except Err (List α) :=
  match normIdx l.length i with
  | none => .error .indexError
  | some k => .ok (l.eraseIdx k)

/-- `l.insert(i, v)` -/
def insert (l : List α) (i : Int) (v : α) : List α :=
  l.insertIdx (insertIdx l.length i) v

/-- `l.pop(i)` -/
def pop (l : List α) (i : Int) : Except Err (List α × α) :=
  match normIdx l.length i with
  | none => .error .indexError
  | some k => match l[k]? with
    | some x => .ok (l.eraseIdx k, x)
    | none => .error .indexError

/-- `l.remove(v)` (first occurrence) -/
def remove [DecidableEq α] (l : List α) (v : α) : Except Err (List α) :=
  if v ∈ l then .ok (l.erase v) else .error .valueError

end Verif.PyList
