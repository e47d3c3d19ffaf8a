import Verif.Lemmas.Linked
import Verif.Props.Scopes
/-!
C75: values of fields that prototypes map into their bodies.
-/
namespace Verif.Full
open Verif.Peg Verif.Grammar Verif.TextOut Verif.SceneText Verif.Reader Verif.Scopes
open Verif.Lin hiding disp dispList dispDecls dispAttrs disp_node disp_attr
variable {F : Type}

/-- **C75** When a field of a prototype's instance (that does not hold a list of nodes) gets a value, forwarding ends, and the value is stored in
exactly the fields connected with it, directly or through others, by IS and ROUTEs; nothing else changes.  (All these connections lead to
fields, of types that keep the value as it is.) -/
theorem C75_value_reaches_linked_fields {w : World F} {i : Nat} {d : FieldDecl F} {v u : Val F} (hi : (w.inst i).isSome = true) (hk : d.kind ≠ .mfNode)
    (hu : coerce d.kind d.conv v = some u)
    (hL : ∀ x ∈ w.wires, Linked w (i, d.name) (x.src, x.srcField) → ∃ d', Resolves w x.dst x.dstField d' ∧ coerce d'.kind d'.conv u = some u) :
    ∃ w', w.setAttr i d v = some w' ∧
      (∀ j n, w.heap j = some n → ∃ n', w'.heap j = some n' ∧ n'.cls = n.cls ∧ n'.DEF = n.DEF ∧
        ∀ g, (Linked w (i, d.name) (j, g) → n'.dict g = some u) ∧ (¬ Linked w (i, d.name) (j, g) → n'.dict g = n.dict g)) ∧
      (∀ j, w.heap j = none → w'.heap j = none) ∧
      w'.scene = w.scene ∧ w'.cls = w.cls ∧ w'.inst = w.inst ∧ w'.wires = w.wires ∧ w'.next = w.next := by
  classical
  refine ⟨_, setAttr_all hi hk hu hL, fun j n hn => ?_, fun j hj => ?_, rfl, rfl, rfl, rfl, rfl⟩
  · refine ⟨{ n with dict := fun g => if Linked w (i, d.name) (j, g) then some u else n.dict g }, ?_, rfl, rfl, fun g => ⟨fun h => if_pos h, fun h => if_neg h⟩⟩
    simp only [World.store, hn, Option.map_some]
    congr
  · simp only [World.store, hj, Option.map_none]

/-- reading, as steps -/
theorem reads_steps {base : Text → Option (Class F)} {fl : Floats F} (hB : Builtins base fl) {text : Text} {w : World F} (h : ReadsWorld base fl text w) :
    ∃ l, Run base fl false [0] [] l (World.init fl) w := by
  obtain ⟨hdr, sm, kids, eof, m, vs, hd, hr⟩ := h
  have hn := (der_named hd _ _ _ rfl).2.1.2
  obtain ⟨l, -, r, -⟩ := dispList_run hB.plain hB.types false kids _ _ _ _ _ _ _ hr init_inv hn (fun i hi => by cases hi) (by simp)
  exact ⟨l, r⟩

/-- **C75** In every file, all instances of a prototype are connected with each other, through the body: if the prototype's field `nm` is mapped to a field
of a node in the body (not a Script), then that field is connected with the field `nm` of every instance. -/
theorem C75_instances_are_linked {base : Text → Option (Class F)} {fl : Floats F} (hB : Builtins base fl) {text : Text} {w : World F} (h : ReadsWorld base fl text w)
    {k : Nat} {nm : Text} {ends : List (Nat × Text)} (hb : (w.cls k).body.isSome = true) (hm : (nm, ends) ∈ (w.cls k).is)
    {d : FieldDecl F} (hd : (w.cls k).cls.getField nm = some (.inl d)) {t : Nat} {g : Text} (ht : (t, g) ∈ ends) {d2 : FieldDecl F} (hr : Resolves w t g d2)
    (hs : ∀ n, w.heap t = some n → n.cls.proto ≠ scriptName) {i j : Nat} (hi : w.inst i = some k) (hj : w.inst j = some k) :
    Linked w (i, d.name) (t, d2.name) ∧ Linked w (i, d.name) (j, d.name) := by
  obtain ⟨l, r⟩ := reads_steps hB h
  have hl := (r.links hB.plain init_inv init_links).1
  have hinv := (r.inv hB.plain init_inv).1
  have he : (nm, ends) ∈ (w.cls k).isMaps := by simp only [ClassObj.isMaps, hb, if_true]; exact hm
  have h1 : Linked w (i, d.name) (t, d2.name) := .step (x := ⟨i, d.name, t, g⟩) .start ((hl i k hi _ he _ ht).1 (.inl d) hd) rfl hr
  refine ⟨h1, ?_⟩
  obtain ⟨-, -, n, hn, hc⟩ := hinv.inst j k hj
  exact .step (x := ⟨t, d2.name, j, nm⟩) h1 ((hl j k hj _ he _ ht).2 (.inl d2) hr hs) rfl ⟨n, hn, by rw [hc]; exact hd⟩

/-- **C75** Hence in every file read, giving a mapped field of one instance a value gives it to the body and to all other instances as well. -/
theorem C75_instances_share_mapped_fields {base : Text → Option (Class F)} {fl : Floats F} (hB : Builtins base fl) {text : Text} {w : World F} (h : ReadsWorld base fl text w)
    {k : Nat} {nm : Text} {ends : List (Nat × Text)} (hb : (w.cls k).body.isSome = true) (hm : (nm, ends) ∈ (w.cls k).is)
    {d : FieldDecl F} (hd : (w.cls k).cls.getField nm = some (.inl d)) {t : Nat} {g : Text} (ht : (t, g) ∈ ends) {d2 : FieldDecl F} (hr : Resolves w t g d2)
    (hs : ∀ n, w.heap t = some n → n.cls.proto ≠ scriptName) {i : Nat} (hi : w.inst i = some k) {v u : Val F} (hk : d.kind ≠ .mfNode) (hu : coerce d.kind d.conv v = some u)
    (hL : ∀ x ∈ w.wires, Linked w (i, d.name) (x.src, x.srcField) → ∃ d', Resolves w x.dst x.dstField d' ∧ coerce d'.kind d'.conv u = some u) :
    ∃ w', w.setAttr i d v = some w' ∧ (∃ n, w'.heap t = some n ∧ n.dict d2.name = some u) ∧
      ∀ j, w.inst j = some k → ∃ n, w'.heap j = some n ∧ n.dict d.name = some u := by
  obtain ⟨w', h1, h2, -⟩ := C75_value_reaches_linked_fields (by rw [hi]; rfl) hk hu hL
  refine ⟨w', h1, ?_, fun j hj => ?_⟩
  · obtain ⟨n, hn, -⟩ := id hr
    obtain ⟨n', h3, -, -, h4⟩ := h2 t n hn
    exact ⟨n', h3, (h4 _).1 (C75_instances_are_linked hB h hb hm hd ht hr hs hi hi).1⟩
  · obtain ⟨l, r⟩ := reads_steps hB h
    obtain ⟨-, -, n, hn, -⟩ := (r.inv hB.plain init_inv).1.inst j k hj
    obtain ⟨n', h3, -, -, h4⟩ := h2 j n hn
    exact ⟨n', h3, (h4 _).1 (C75_instances_are_linked hB h hb hm hd ht hr hs hi hj).2⟩

/-- **C75** A list of nodes is stored in the instance alone; so is a value of a node that is not an instance of a prototype. -/
theorem C75_lists_and_plain_nodes_not_forwarded {w w' : World F} {i : Nat} {d : FieldDecl F} {v : Val F} (h : d.kind = .mfNode ∨ w.inst i = none) (hw : w.setAttr i d v = some w') :
    ∃ u, coerce d.kind d.conv v = some u ∧ w' = w.setField i d.name u := by
  unfold World.setAttr at hw
  split at hw
  · cases hw
  · next u hu =>
    refine ⟨u, hu, ?_⟩
    simp only at hw
    rw [if_neg] at hw
    · cases hw; rfl
    · rcases h with h | h
      · simp [h]
      · have : (w.setField i d.name u).inst i = none := h
        simp [this]

/-! ### Examples -/

def exShared : Text := file (chars "PROTO A [ field SFFloat c 7 ] { Group { x IS c } } A { } A { c 3 }")

/-- the number in a field -/
def numIn (w : World Int) (i : Nat) (f : Text) : Option Int := match (w.heap i).bind (fun n => n.dict f) with | some (.num x) => some x | _ => none

/-- **C75** (what is not guaranteed) The instances of a prototype do not have values of their own: in `A { } A { c 3 }`, the value given in the second
instance becomes that of the first as well. -/
theorem C75_refuted_independent_instances : ∃ w, ReadsWorld exLookup exFloats exShared w ∧ (w.scene 0).children = [1, 2] ∧ numIn w 1 (chars "c") = some 3 ∧ numIn w 2 (chars "c") = some 3 := by
  obtain ⟨w, h1, h2⟩ := world_fact (base := exLookup) (fl := exFloats) (fuel := 300) (text := exShared)
    (f := fun w => ((w.scene 0).children, numIn w 1 (chars "c"), numIn w 2 (chars "c"))) (x := ([1, 2], some 3, some 3)) (by decide +kernel)
  exact ⟨w, h1, congrArg Prod.fst h2, congrArg (·.2.1) h2, congrArg (·.2.2) h2⟩

/-- the type of the field a name stands for is SFFloat -/
def isFloat (w : World Int) (i : Nat) (f : Text) : Bool :=
  match (w.heap i).bind (fun n => n.cls.getField f) with | some (.inl d) => (match d.kind with | .sfFloat => true | _ => false) | _ => false

/-- The example has all that the theorems ask for: instances 1 and 2 of prototype 0, whose field `c` is mapped to field `x` of node 0, and every
connection leads to a field of type SFFloat. -/
example : ∃ w, ReadsWorld exLookup exFloats exShared w ∧ w.inst 1 = some 0 ∧ w.inst 2 = some 0 ∧ (w.cls 0).body = some 1 ∧ (w.cls 0).is = [(chars "c", [(0, chars "x")])] ∧
    w.wires.length = 4 ∧ (∀ x ∈ w.wires, isFloat w x.dst x.dstField = true) := by
  obtain ⟨w, h1, h2⟩ := world_fact (base := exLookup) (fl := exFloats) (fuel := 300) (text := exShared)
    (f := fun w => decide (w.inst 1 = some 0) && decide (w.inst 2 = some 0) && decide ((w.cls 0).body = some 1) && decide ((w.cls 0).is = [(chars "c", [(0, chars "x")])]) &&
      decide (w.wires.length = 4) && w.wires.all (fun x => isFloat w x.dst x.dstField)) (x := true) (by decide +kernel)
  simp only [Bool.and_eq_true, decide_eq_true_eq, List.all_eq_true] at h2
  obtain ⟨⟨⟨⟨⟨a, b⟩, c⟩, d⟩, e⟩, g⟩ := h2
  exact ⟨w, h1, a, b, c, d, e, g⟩

end Verif.Full
