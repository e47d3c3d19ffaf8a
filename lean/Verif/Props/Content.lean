import Verif.Props.Instances
import Verif.Lemmas.Content5
import Verif.Lemmas.Wires
/-!
C78, C79: what a file says about its nodes is what is read.
-/
namespace Verif.Full
open Verif.Peg Verif.Grammar Verif.TextOut Verif.SceneText Verif.Reader Verif.Scopes Verif.Shape
open Verif.Lin hiding disp dispList dispDecls dispAttrs disp_node disp_attr
variable {F : Type}

/-- reading, as statements -/
theorem reads_content {base : Text → Option (Class F)} {fl : Floats F} (hB : Builtins base fl) {text : Text} {w : World F} (h : ReadsWorld base fl text w)
    {kids : List PTree} (hk : ItemsOf text kids) (names : Bool) (hp : names = true → allPlain kids = true) :
    ∃ log rs st, TellsAll (fun t => (base t).isSome) names none kids Names.start log rs st ∧ SameTypes base st w ∧ (names = true → SameNames st w) ∧ Content fl log w := by
  have h0 := h
  obtain ⟨hdr, sm, kids', eof, m, vs, hd, hr⟩ := h
  have hk0 := hk
  obtain ⟨hdr', sm', eof', m', hd'⟩ := hk
  cases hd.det _ hd'
  have hn := (der_named hd _ _ _ rfl).2.1.2
  have hsh := (der_shape hd _ _ _ rfl).2
  simp only [Shapeds, Shaped] at hsh
  have hs := hsh.2.1
  obtain ⟨log, rs, st, h1, h2, -, -, h5⟩ := dispList_tells hB.plain hB.types hB.name names kids _ _ _ _ _ _ _ hr
    (scene_kids (m := sm) (by simp only [Shaped]; exact hs)) init_inv hn hs.2 (fun i hi => by cases hi)
    ⟨fun _ _ => rfl, fun _ _ => rfl⟩ hp (by simp) Names.start (init_agree names) none (.inl rfl)
  obtain ⟨_, _, _, _, _, hinv⟩ := reads_run hB false h0 hk0 (by simp)
  refine ⟨log, rs, st, h1, h2.types hB hinv, fun hnm => ⟨fun s hs => ?_⟩, ?_⟩
  · obtain ⟨c, hc, hcs⟩ := h2.all s hs
    refine ⟨c, hc, hcs, fun nm => ?_, ?_⟩
    · rw [h2.defs hnm c hc nm, hcs]; rfl
    · rw [← h2.routes hnm c hc, hcs]; rfl
  · refine ⟨fun s => by simpa [World.init, SceneObj.new] using h5.children s, fun k nm => by simpa [World.init] using h5.is k nm, fun i nm g hm => (h5.entries i nm g hm).2.2.2,
      fun i n f hi hc => ?_, fun k f hf => ?_, fun i items hm => ?_⟩
    · have := h5.value i f hc
      have hd : dictAt w i f = n.dict f := by simp [dictAt, hi]
      split
      · next h6 => rw [h6] at this; rw [← hd, this]; rfl
      · next d g h6 => rw [h6] at this; rw [← hd]; exact this
    · have := h5.dflt k f hf
      split
      · next h6 =>
        rw [h6] at this
        rcases this with h7 | h7
        · simpa [World.init, ProtoDef.new] using h7
        · exact h7
      · next g h6 => rw [h6] at this; exact this
    · obtain ⟨-, -, -, c, h6, h7⟩ := h5.script i items hm
      obtain ⟨n, h8, rfl⟩ := Option.map_eq_some_iff.1 h6
      exact ⟨n, h8, h7⟩

/-- **C78, C79** Whatever text is read: the objects are what the file says.  The statements of the file are made with the numbers of its nodes, scenes and
prototypes (which are as in C73; if no defaults of prototype fields are nodes, DEF names are those of C74). -/
theorem C78_content_as_written {base : Text → Option (Class F)} {fl : Floats F} (hB : Builtins base fl) {text : Text} {w : World F} (h : ReadsWorld base fl text w)
    {kids : List PTree} (hk : ItemsOf text kids) (names : Bool) (hp : names = true → allPlain kids = true) :
    ∃ log rs st, TellsAll (fun t => (base t).isSome) names none kids Names.start log rs st ∧ SameTypes base st w ∧ (names = true → SameNames st w) ∧ Content fl log w :=
  reads_content hB h hk names hp

/-- **C78** Every connection along which values are forwarded belongs to a ROUTE of some scene, or to an IS in the body of the prototype of some node: from a
field of that node to what is mapped to it, or back. -/
theorem C78_connections {base : Text → Option (Class F)} {fl : Floats F} (hB : Builtins base fl) {text : Text} {w : World F} (h : ReadsWorld base fl text w)
    {x : Wire} (hx : x ∈ w.wires) :
    (∃ s r, s < w.nscenes ∧ r ∈ (w.scene s).routes ∧ x.src = r.src ∧ x.dst = r.dst ∧ x.dstField = r.dstField) ∨
    ∃ i k nm t g, w.inst i = some k ∧ (t, g) ∈ ((w.cls k).is.lookup nm).getD [] ∧
      ((x.src = i ∧ x.dst = t ∧ x.dstField = g) ∨ (x.src = t ∧ x.dst = i ∧ x.dstField = nm)) := by
  obtain ⟨l, r⟩ := reads_steps hB h
  rcases (r.origins hB.plain init_inv (by simp [World.init]) init_origins).1 x hx with h1 | ⟨i, k, nm, ends, t, g, h1, h2, h3, h4⟩
  · exact .inl h1
  · refine .inr ⟨i, k, nm, t, g, h1, ?_, h4⟩
    have hm : (nm, ends) ∈ (w.cls k).is := by
      simp only [ClassObj.isMaps] at h2
      split at h2
      · exact h2
      · cases h2
    rw [lookup_of_mem (r.keys hB.plain init_inv init_keys k) hm]
    exact h3

/-- **C78** The value of a field: if no ROUTE leads to field `f` of node `i`, the field is not mapped to the interface of the prototype in whose body the node
stands, and nothing is mapped to it in the body of the node's own prototype, then it has the value written last in the file, coerced to its type; and if there is none
in the file, nothing is stored. -/
theorem C78_field_values {base : Text → Option (Class F)} {fl : Floats F} (hB : Builtins base fl) {text : Text} {w : World F} (h : ReadsWorld base fl text w)
    {kids : List PTree} (hk : ItemsOf text kids) (names : Bool) (hp : names = true → allPlain kids = true) :
    ∃ log rs st, TellsAll (fun t => (base t).isSome) names none kids Names.start log rs st ∧ SameTypes base st w ∧ (names = true → SameNames st w) ∧
      ∀ i n f, w.heap i = some n →
        (∀ s r, r ∈ (w.scene s).routes → r.dst = i → ¬ Leads r.dstField f) →
        (∀ k nm g, Leads g f → (i, g) ∉ mappedTo k nm log) →
        (∀ k, w.inst i = some k → ∀ nm, Leads nm f → mappedTo k nm log = []) →
        match (valuesFor w i f log).getLast? with
        | none => n.dict f = none
        | some (d, g) => d.name = f ∧ ∃ v u, meant fl d.kind g = some v ∧ coerce d.kind d.conv v = some u ∧ n.dict f = some u := by
  obtain ⟨log, rs, st, h1, h2, h3, h4⟩ := reads_content hB h hk names hp
  refine ⟨log, rs, st, h1, h2, h3, fun i n f hn hr hm hi => ?_⟩
  have := h4.value i n f hn (fun ⟨_, x, hx, hd, hl⟩ => by
    rcases C78_connections hB h hx with ⟨s, r, -, q1, q2, q3, q4⟩ | ⟨j, k, nm, t, g, q1, q2, q3⟩
    · exact hr s r q1 (q3 ▸ hd) (q4 ▸ hl)
    · rw [h4.is k nm] at q2
      rcases q3 with ⟨-, q3, q4⟩ | ⟨-, q3, q4⟩
      · exact hm k nm g (q4 ▸ hl) (by rw [← hd, q3]; exact q2)
      · have := hi k (by rw [← hd, q3]; exact q1) nm (q4 ▸ hl)
        rw [this] at q2; cases q2)
  split
  · next h6 => rw [h6] at this; exact this
  · next d g h6 =>
    rw [h6] at this
    refine ⟨?_, this⟩
    have hmem := List.mem_of_getLast? h6
    simp only [valuesFor, List.mem_filterMap] at hmem
    obtain ⟨e, -, he⟩ := hmem
    split at he
    · split at he
      · obtain ⟨d', -, hd⟩ := Option.bind_eq_some_iff.1 he
        split at hd
        · next hdf => cases hd; exact hdf
        · cases hd
      · cases he
    · cases he

/-- **C78** In a file in which no node is of a prototyped type, ROUTEs change no values while it is read: every field of every node has the value written last in the
file, coerced to its type; and if there is none in the file, nothing is stored. -/
theorem C78_values_without_instances {base : Text → Option (Class F)} {fl : Floats F} (hB : Builtins base fl) {text : Text} {w : World F} (h : ReadsWorld base fl text w)
    {kids : List PTree} (hk : ItemsOf text kids) (names : Bool) (hp : names = true → allPlain kids = true) (hi : ∀ i, w.inst i = none) :
    ∃ log rs st, TellsAll (fun t => (base t).isSome) names none kids Names.start log rs st ∧ SameTypes base st w ∧ (names = true → SameNames st w) ∧ Content fl log w ∧
      ∀ i n f, w.heap i = some n →
        match (valuesFor w i f log).getLast? with
        | none => n.dict f = none
        | some (d, g) => ∃ v u, meant fl d.kind g = some v ∧ coerce d.kind d.conv v = some u ∧ n.dict f = some u := by
  obtain ⟨log, rs, st, h1, h2, h3, h4⟩ := reads_content hB h hk names hp
  exact ⟨log, rs, st, h1, h2, h3, h4, fun i n f hn => h4.value i n f hn (fun ⟨⟨j, hj⟩, _⟩ => by rw [hi j] at hj; cases hj)⟩

/-- **C79** The structure: the nodes at the top of each scene, the IS mappings and the defaults of each prototype, and the interfaces and values of each Script are those
that the file says, in the order of the file. -/
theorem C79_structure_as_written {base : Text → Option (Class F)} {fl : Floats F} (hB : Builtins base fl) {text : Text} {w : World F} (h : ReadsWorld base fl text w)
    {kids : List PTree} (hk : ItemsOf text kids) (names : Bool) (hp : names = true → allPlain kids = true) :
    ∃ log rs st, TellsAll (fun t => (base t).isSome) names none kids Names.start log rs st ∧ SameTypes base st w ∧ (names = true → SameNames st w) ∧
      (∀ s, (w.scene s).children = childrenIn s log) ∧
      (∀ k nm, ((w.cls k).is.lookup nm).getD [] = mappedTo k nm log) ∧
      (∀ k, ∀ f ∈ (w.cls k).decl.fields, f ≠ externalURL → ∃ g, lastDflt k f.decl.name log = some g ∧ DfltSaid fl f.decl g) ∧
      (∀ i items, .script i items ∈ log → ∃ n, w.heap i = some n ∧ ScriptAs fl items n.cls ∧ OwnSaid fl i log n.cls) := by
  obtain ⟨log, rs, st, h1, h2, h3, h4⟩ := reads_content hB h hk names hp
  refine ⟨log, rs, st, h1, h2, h3, h4.children, h4.is, fun k f hf hne => ?_, h4.script⟩
  have := h4.dflt k f hf
  split at this
  · exact absurd this hne
  · next g hg =>
    rcases this with h5 | h5
    · exact ⟨g, hg, h5⟩
    · exact absurd h5 hne

/-! ### Examples -/

/-- a value that is a number, and an attribute -/
def numTree (t : Text) : PTree := .node .field t [.node .sfNumber t []]
def attrTree (nm : Text) (v : PTree) : PTree := .node .attr [] [.node .name nm [], v]

/-- What `DEF A Group { x 1 children [ Group { x 2 } USE A ] }` says: the field `x` of node 0 is 1, that of node 1 is 2, the children of node 0 are the nodes 1 and 0, and
node 0 stands at the top of the file. -/
example : ∃ log rs st, TellsAll (fun _ => true) true none
      [.node .rootItem [] [.node .node [] [.node .name (chars "A") [], .node .nodegi (chars "Group") [], attrTree (chars "x") (numTree ['1']),
        attrTree (chars "children") (.node .field [] [.node .node [] [.node .nodegi (chars "Group") [], attrTree (chars "x") (numTree ['2'])], .node .use (chars "A") []])]]] Names.start log rs st ∧
      log = [.value 0 (chars "x") (.text [.node .sfNumber ['1'] []]), .value 1 (chars "x") (.text [.node .sfNumber ['2'] []]), .value 0 (chars "children") (.all [some 1, some 0]), .child 0 0] := by
  refine ⟨_, _, _, .cons (.item (.cons (.defNode rfl (.cons (.attr (.text ?_)) (.cons (.attr (.all (os := [some 1, some 0]) rfl
    (.cons (.node rfl (.cons (.attr (.text ?_)) .nil)) (.cons (.use (i := 0) (fun _ => rfl)) .nil)))) .nil))) .nil)) .nil, rfl⟩
  · simp [nodeEntry]
  · simp [nodeEntry]

/-- A file with nodes as values, USE, several values for a field, IS, a default and a Script. -/
def exContent : Text := file (chars "PROTO P [ field SFFloat c 7 ] { Group { x IS c } Group { x 4 } } DEF A Group { x 1 x 2 children [ Group { x 3 } USE A ] } P { } Script { field SFFloat s 5 }")

/-- It can be read, and is of the kind that the theorems are about; and this is what is read. -/
example : ∃ w, ReadsWorld exLookup exFloats exContent w ∧ (∀ kids, ItemsOf exContent kids → allPlain kids = true) ∧ (w.scene 0).children = [2, 4, 5] ∧ (w.scene 1).children = [0, 1] ∧
    numIn w 1 (chars "x") = some 4 ∧ numIn w 2 (chars "x") = some 2 ∧ numIn w 3 (chars "x") = some 3 ∧ (w.cls 0).is = [(chars "c", [(0, chars "x")])] := by
  obtain ⟨w, h1, h2⟩ := world_fact (base := exLookup) (fl := exFloats) (fuel := 400) (text := exContent)
    (f := fun w => decide ((w.scene 0).children = [2, 4, 5]) && decide ((w.scene 1).children = [0, 1]) && decide (numIn w 1 (chars "x") = some 4) && decide (numIn w 2 (chars "x") = some 2) &&
      decide (numIn w 3 (chars "x") = some 3) && decide ((w.cls 0).is = [(chars "c", [(0, chars "x")])])) (x := true) (by decide +kernel)
  simp only [Bool.and_eq_true, decide_eq_true_eq] at h2
  obtain ⟨⟨⟨⟨⟨a, b⟩, c⟩, d⟩, e⟩, g⟩ := h2
  exact ⟨w, h1, fun kids hk => items_fact (fuel := 400) (P := allPlain) (by decide +kernel) hk, a, b, c, d, e, g⟩

/-- The conditions on a field in `C78_field_values` are met: no ROUTE, and no connection at all leads to field `x` of node 2. -/
example : ∃ w, ReadsWorld exLookup exFloats exContent w ∧ w.wires.all (fun x => x.dst != 2) = true ∧ (w.scene 0).routes.isEmpty = true ∧ w.inst 2 = none := by
  obtain ⟨w, h1, h2⟩ := world_fact (base := exLookup) (fl := exFloats) (fuel := 400) (text := exContent)
    (f := fun w => w.wires.all (fun x => x.dst != 2) && (w.scene 0).routes.isEmpty && decide (w.inst 2 = none)) (x := true) (by decide +kernel)
  simp only [Bool.and_eq_true, decide_eq_true_eq] at h2
  exact ⟨w, h1, h2.1.1, h2.1.2, h2.2⟩

end Verif.Full
