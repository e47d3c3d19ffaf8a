import Verif.Model.PyDict
/-
Prototype (class) reflection: /repo/vrml/protofunctions.py.

A Python class is its method resolution order: the list of the `__dict__`s of the class and its
bases, most derived first.  Simplifications: attributes found on the metaclass `type`
(`mro`, `__name__`, ...) are not modelled; names are lists of characters; a class attribute is a
field, an event or something else.  `Field.__get__(None, cls)` returns the field itself
(/repo/vrml/field.py:96-106), so `getattr(cls, name)` gives the raw class attribute.
-/
namespace Verif.Proto
open Verif.PyDict

/-- attribute and field names -/
abbrev Name := List Char

/-- A class attribute. `id` is the identity of the Python object; `storage` is the `name`
attribute of a field/event (/repo/vrml/field.py:206-222). -/
inductive Attr
  | field (id : Nat) (storage : Name)
  | event (id : Nat) (storage : Name)
  | other (id : Nat)
deriving DecidableEq, Repr

/-- A class: dictionaries along the MRO, most derived first. -/
abbrev Cls := List (Dict Name Attr)

/-- `getattr(cls, n)`; none = AttributeError. -/
def getattr : Cls → Name → Option Attr
  | [], _ => none
  | d :: c, n => match get? d n with
    | some a => some a
    | none => getattr c n

/-- `isinstance(value, wanted)`, protofunctions.py:158-161. -/
def isWanted (events : Bool) : Attr → Bool
  | .field _ _ => !events
  | .event _ _ => events
  | .other _ => false

/-- `fieldObject.name` -/
def storage? : Attr → Option Name
  | .field _ s => some s
  | .event _ s => some s
  | .other _ => none

/-- The `items` dictionary built by the loop in protofunctions.py:162-174:
from the last (least derived) class to the first, `items.update` with the wanted values. -/
def itemsOf (c : Cls) (events : Bool) : Dict Name Attr :=
  c.reverse.foldl (fun items d => update items (d.filter (fun p => isWanted events p.2))) []

/-- `getFields`, protofunctions.py:149-175. -/
def getFields (c : Cls) (events : Bool := false) : List Attr := values (itemsOf c events)

/-- Result of `getField`. `str` is the case of protofunctions.py:130-136 where the *name* given
is returned instead of a field object. -/
inductive Res
  | obj (a : Attr)
  | str (n : Name)
  | attributeError
deriving DecidableEq, Repr

def setPrefix : Name := ['s', 'e', 't', '_']
def changedSuffix : Name := ['_', 'c', 'h', 'a', 'n', 'g', 'e', 'd']

/-- `field.startswith("set_")` -/
def startsSet (n : Name) : Bool := setPrefix.isPrefixOf n
/-- `field.endswith("_changed")` -/
def endsChanged (n : Name) : Bool := changedSuffix.isSuffixOf n

/-- some field (or event) of the class has that storage name, protofunctions.py:130-136. -/
def hasStorage (c : Cls) (n : Name) : Bool :=
  (getFields c).any (fun a => decide (storage? a = some n))
    || (getFields c true).any (fun a => decide (storage? a = some n))

theorem prefix_length {n : Name} (h : startsSet n = true) : (n.drop 4).length < n.length := by
  have := (List.isPrefixOf_iff_prefix.1 h).length_le
  simp only [setPrefix, List.length_cons, List.length_nil] at this
  simp only [List.length_drop]
  omega

theorem suffix_length {n : Name} (h : endsChanged n = true) :
    (n.take (n.length - 8)).length < n.length := by
  have := (List.isSuffixOf_iff_suffix.1 h).length_le
  simp only [changedSuffix, List.length_cons, List.length_nil] at this
  simp only [List.length_take]
  omega

/-- `getField`, protofunctions.py:103-146. -/
def getField (c : Cls) (n : Name) : Res :=
  match getattr c n with
  | some a => .obj a
  | none =>
    if hasStorage c n then .str n
    else if h : startsSet n = true then getField c (n.drop 4)
    else if h : endsChanged n = true then getField c (n.take (n.length - 8))
    else .attributeError
termination_by n.length
decreasing_by
  · exact prefix_length h
  · exact suffix_length h

/-- `addField`, protofunctions.py:83-88: `setattr(cls, field.name, field)` on the class itself.
Only fields and events have a name. -/
def addField (c : Cls) (a : Attr) : Cls :=
  match c, storage? a with
  | d :: c, some s => set d s a :: c
  | c, _ => c

/-- `removeField` by name, protofunctions.py:91-100: `delattr(cls, name)`, AttributeError (none)
when the class' own dictionary has no such key. -/
def removeField (c : Cls) (n : Name) : Option Cls :=
  match c with
  | [] => none
  | d :: c => if (get? d n).isSome then some (erase d n :: c) else none

end Verif.Proto
