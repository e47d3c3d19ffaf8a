import Verif.Model.WeakDict
/-!
What is expected of a weak-keyed dictionary: a Python `dict` whose keys are the objects themselves, from which the entry of an object is
deleted when the object dies.
-/
namespace Verif.WeakDict
open Verif

/-- A plain dictionary over objects, and the objects that are alive. -/
structure Plain (V : Type) where
  alive : List Nat
  dict : PyDict.Dict Nat V
  deriving Repr, DecidableEq

/-- `update`: entry by entry, until something that cannot be a key. -/
def Plain.update (s : Plain V) : List (Nat × V) → Plain V × Res V
  | [] => (s, .none)
  | (k, v) :: l => if k ∈ s.alive then Plain.update { s with dict := PyDict.set s.dict k v } l else (s, .raised .typeError)

/-- An operation on the plain dictionary; objects that are not alive (or cannot be weakly referenced) are refused as keys. Length and
iteration are broken. -/
def Plain.step (s : Plain V) : Op V → Plain V × Res V
  | .setItem k v => if k ∈ s.alive then ({ s with dict := PyDict.set s.dict k v }, .none) else (s, .raised .typeError)
  | .setDefault k v => if k ∈ s.alive then
      match PyDict.get? s.dict k with
      | some w => (s, .val w)
      | none => ({ s with dict := PyDict.set s.dict k v }, .val v)
    else (s, .raised .typeError)
  | .update l => Plain.update s l
  | .getItem k => if k ∈ s.alive then
      match PyDict.get? s.dict k with
      | some w => (s, .val w)
      | none => (s, .raised .keyError)
    else (s, .raised .typeError)
  | .get k d => if k ∈ s.alive then (s, .val ((PyDict.get? s.dict k).getD d)) else (s, .raised .typeError)
  | .contains k => (s, .bool (PyDict.get? s.dict k).isSome)
  | .delItem k => if k ∈ s.alive then
      if (PyDict.get? s.dict k).isSome then ({ s with dict := PyDict.erase s.dict k }, .none) else (s, .raised .keyError)
    else (s, .raised .typeError)
  | .pop k => if k ∈ s.alive then
      match PyDict.get? s.dict k with
      | some w => ({ s with dict := PyDict.erase s.dict k }, .val w)
      | none => (s, .raised .keyError)
    else (s, .raised .typeError)
  | .popItem => match s.dict.getLast? with
    | some (k, v) => ({ s with dict := PyDict.erase s.dict k }, .pair k v)
    | none => (s, .raised .keyError)
  | .length => (s, .raised .attributeError)
  | .iterate => (s, .raised .attributeError)

/-- A step of a history: the death of an object deletes its entry. -/
def Plain.act (s : Plain V) : Act V → Plain V × Res V
  | .op o => s.step o
  | .die o => (⟨s.alive.filter (· != o), PyDict.erase s.dict o⟩, .none)
  | .born o => ({ s with alive := o :: s.alive }, .none)

/-- A history. -/
def Plain.run (s : Plain V) : List (Act V) → Plain V × List (Res V)
  | [] => (s, [])
  | a :: h => ((Plain.run (s.act a).1 h).1, (s.act a).2 :: (Plain.run (s.act a).1 h).2)

end Verif.WeakDict
