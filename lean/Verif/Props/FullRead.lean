import Verif.Model.FullRead
import Verif.Props.Lineariser
namespace Verif.Full
open Verif.Peg Verif.Grammar Verif.TextOut
open Verif.Lin hiding disp dispList dispDecls dispAttrs disp_node disp_attr
variable {F : Type}

/-- The whole reader, computed. -/
def readWorld (base : Text → Option (Class F)) (fl : Floats F) (fuel : Nat) (text : Text) : Option (World F) :=
  match run gram fuel (gram .vrmlFile) text with
  | some (.ok [_, .node .vrmlScene _ kids, _] _ []) => (dispList base fl kids [0] [] none none (World.init fl)).map Prod.snd
  | _ => none

theorem reads_of_readWorld {base : Text → Option (Class F)} {fl : Floats F} {fuel : Nat} {text : Text} {w : World F}
    (h : readWorld base fl fuel text = some w) : ReadsWorld base fl text w := by
  unfold readWorld at h
  split at h
  · next hd s kids e m hrun =>
    obtain ⟨⟨vs, w'⟩, h1, h2⟩ := Option.map_eq_some_iff.1 h
    cases h2
    exact ⟨_, s, kids, _, m, vs, run_sound _ _ _ _ hrun, h1⟩
  · cases h

theorem reads_unique {base : Text → Option (Class F)} {fl : Floats F} {text : Text} {w w' : World F} (h : ReadsWorld base fl text w)
    (h' : ReadsWorld base fl text w') : w = w' := by
  obtain ⟨hdr, sm, kids, eof, m, vs, hd, hr⟩ := h
  obtain ⟨hdr', sm', kids', eof', m', vs', hd', hr'⟩ := h'
  cases hd.det _ hd'
  rw [hr] at hr'
  cases hr'
  rfl

/-- What every reading of a text looks like, from one computation. -/
theorem world_fact {α : Type} {base : Text → Option (Class F)} {fl : Floats F} {fuel : Nat} {text : Text} {f : World F → α} {x : α}
    (h : (readWorld base fl fuel text).map f = some x) : ∃ w, ReadsWorld base fl text w ∧ f w = x := by
  obtain ⟨w, h1, h2⟩ := Option.map_eq_some_iff.1 h
  exact ⟨w, reads_of_readWorld h1, h2⟩

def ex1 : Text := header ++ chars "PROTO A [ field SFFloat c 7 ] { PROTO B [] { Group { x 1 } } Group { x IS c } B { } } A { c 3 } A { c 4 }"

example : (readWorld exLookup exFloats 100 ex1).map (fun w => ((List.range w.next).map w.inst, (List.range w.next).map (fun i => (w.heap i).bind (fun n => match n.dict (chars "x"), n.dict (chars "c") with | some (.num x), _ => some x | _, some (.num x) => some x | _, _ => none)))) =
  some ([none, none, some 1, some 0, some 0], [some 1, some 4, none, some 4, some 4]) := by decide +kernel
end Verif.Full
