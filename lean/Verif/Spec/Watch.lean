import Verif.Spec.Animate
import Verif.Model.Watch
/-!
Specification for C94: what listeners to fields should hear, and what matrices should be made of.
-/
namespace Verif.Full
open Verif.TextOut
open Verif.Lin hiding disp dispList dispDecls dispAttrs
variable {F : Type}

/-- The field that sends the signal. -/
def Note.place (n : Note F) : Place := (n.node, n.field)

/-- `now` is what field `q` has after the signals, if it had `old` before: what the last signal of `q` that came with a stored value says, or `old` if
there was none. -/
inductive Told (log : List (Note F)) (q : Place) (old : Option (Val F)) : Option (Val F) → Prop
  | quiet : (∀ n ∈ log, n.place = q → n.stored = none) → Told log q old old
  | told {before n after u} : log = before ++ n :: after → n.place = q → n.stored = some u → (∀ m ∈ after, m.place = q → m.stored = none) → Told log q old (some u)

/-- A declared field of the node. -/
def DeclaredAt (w : World F) (q : Place) : Prop := ∃ n d, w.heap q.1 = some n ∧ d ∈ n.cls.fields ∧ d.name = q.2

/-- The value of the `k`-th field that matrices are made of, as the node has it now. -/
def World.matrixField (w : World F) (i : Nat) : Nat → Option (Val F)
  | 0 => w.at i (chars "translation")
  | 1 => w.at i (chars "center")
  | 2 => w.at i (chars "scale")
  | 3 => w.at i (chars "scaleOrientation")
  | 4 => w.at i (chars "rotation")
  | _ => none

/-- Which of them enter the matrices: the center with scale or rotation. -/
def Uses (fl : TCache.Flags) : Nat → Bool
  | 0 => fl.translate
  | 1 => fl.scale || fl.rotate
  | 2 => fl.scale
  | 3 => fl.scale
  | 4 => fl.rotate
  | _ => false

variable {M : Type}

/-- The matrices of a node, computed from its fields now. -/
def World.matrices (P : TCache.Params (Val F) M) (w : World F) (fl : TCache.Flags) (i : Nat) : M × M :=
  P.loc (fun k => if Uses fl k then w.matrixField i k else none)

/-- The matrix of a path, computed from the fields of its nodes now: forward matrices in order, or inverse matrices in reverse order. -/
def World.pathMatrix (P : TCache.Params (Val F) M) (w : World F) (fl : TCache.Flags) (inverse : Bool) (transforms : List Nat) : M :=
  if inverse then P.compress (transforms.reverse.map (fun n => (w.matrices P fl n).2)) else P.compress (transforms.map (fun n => (w.matrices P fl n).1))

end Verif.Full
