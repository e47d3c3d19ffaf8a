import Verif.Lemmas.FullRun5
import Verif.Lemmas.Places
import Verif.Props.FullRead
/-!
C73, C74: the scopes of names; C69 for all files: what is read has no loose ends.
-/
namespace Verif.Full
open Verif.Peg Verif.Grammar Verif.TextOut Verif.SceneText Verif.Reader Verif.Scopes
open Verif.Lin hiding disp dispList dispDecls dispAttrs disp_node disp_attr
variable {F : Type}

/-- The text is a VRML file with these items. -/
def ItemsOf (text : Text) (kids : List PTree) : Prop :=
  ∃ hdr sm eof m, Der gram (gram .vrmlFile) text (.ok [hdr, .node .vrmlScene sm kids, eof] m [])

/-- Facts about the built-in node types and field types: each type is listed under its own name, and no default contains nodes
(`Props/Builtins`). -/
structure Builtins (base : Text → Option (Class F)) (fl : Floats F) : Prop where
  name : ∀ t c, base t = some c → c.proto = t
  plain : ∀ t c, base t = some c → ∀ d ∈ c.fields, d.dfltNodes = []
  types : ∀ ty v, (fl.types.dflt ty).value = some v → v.nodes = []

/-- reading, as steps -/
theorem reads_run {base : Text → Option (Class F)} {fl : Floats F} (hB : Builtins base fl) (plain : Bool) {text : Text} {w : World F} (h : ReadsWorld base fl text w)
    {kids : List PTree} (hk : ItemsOf text kids) (hp : plain = true → allPlain kids = true) :
    ∃ l st, PlacesAll kids l ∧ Names.run (builtinOf base) (follow plain l) Names.start = some st ∧ Agree fl plain [0] [] w st ∧ Inv base w [] := by
  obtain ⟨hdr, sm, kids', eof, m, vs, hd, hr⟩ := h
  obtain ⟨hdr', sm', eof', m', hd'⟩ := hk
  cases hd.det _ hd'
  have hn := (der_named hd _ _ _ rfl).2.1.2
  obtain ⟨l, p, r, -⟩ := dispList_run hB.plain hB.types plain kids _ _ _ _ _ _ _ hr init_inv hn (fun i hi => by cases hi) hp
  obtain ⟨st, h1, h2⟩ := r.names hB.plain hB.name Names.start (by simp) init_inv (init_agree plain)
  exact ⟨l, st, p, h1, h2, (r.inv hB.plain init_inv).1⟩

/-- What the scopes say about the types of nodes and what was read agree: there is one node for each place where a node begins,
of the type that the name denotes there, each scene has the prototypes declared in it, and each PROTO has the scene of its body. -/
structure SameTypes (base : Text → Option (Class F)) (st : Names) (w : World F) : Prop where
  nodes : st.nodes.length = w.next
  protos : st.nprotos = w.nclasses
  scenes : st.nscenes = w.nscenes
  type : ∀ i x, st.nodes[i]? = some x → ∃ n, w.heap i = some n ∧ n.cls.proto = x.gi ∧ n.DEF = x.DEF ∧ w.inst i = x.proto ∧
    (∀ k, x.proto = some k → n.cls = (w.cls k).cls) ∧ (x.proto = none → base x.gi = some n.cls ∨ x.gi = scriptName)
  bodies : ∀ k, (w.cls k).body = st.bodies.lookup k
  declared : ∀ s, s < w.nscenes → ∃ c ∈ st.around ++ st.closed, c.scene = s ∧ (w.scene s).protos = c.protos

theorem Agree.types {base : Text → Option (Class F)} {fl : Floats F} (hB : Builtins base fl) {plain ss ps} {w : World F} {st : Names} (h : Agree fl plain ss ps w st) (hw : Inv base w ps) : SameTypes base st w := by
  refine ⟨h.len, h.np, h.ns, fun i x hx => ?_, h.ifs.body, fun s hs => ?_⟩
  · obtain ⟨h1, n, h2, h3, h4⟩ := h.nodes i x hx
    refine ⟨n, h2, h3, h4, h1, fun k hk => ?_, fun hk => ?_⟩
    · obtain ⟨-, -, n', h5, h6⟩ := hw.inst i k (h1.trans hk)
      rw [h2] at h5; cases h5; exact h6
    · rcases hw.built i n h2 (h1.trans hk) with ⟨t, ht⟩ | hs
      · left; rw [← h3, hB.name t _ ht]; exact ht
      · right; rw [← h3]; exact hs
  · obtain ⟨c, hc, hcs⟩ := h.all s hs
    exact ⟨c, hc, hcs, by rw [h.protos c hc, hcs]⟩

/-- **C73** Prototype names follow the scopes of the file: whatever text is read, every node is of the type that its name denotes at
the place where it stands, namely of the latest prototype of that name declared in the scene around it, or else in the nearest scene further
out that declares one, or else of the built-in type of that name; and there is such a type for every node in the file. -/
theorem C73_prototype_scopes {base : Text → Option (Class F)} {fl : Floats F} (hB : Builtins base fl) {text : Text} {w : World F} (h : ReadsWorld base fl text w)
    {kids : List PTree} (hk : ItemsOf text kids) :
    ∃ l st, PlacesAll kids l ∧ Names.run (fun t => (base t).isSome) (typeMarks l) Names.start = some st ∧ SameTypes base st w := by
  obtain ⟨l, st, h1, h2, h3, h4⟩ := reads_run hB false h hk (by simp)
  exact ⟨l, st, h1, h2, h3.types hB h4⟩

/-- DEF tables and ROUTEs of all scenes are as the scopes say. -/
structure SameNames (st : Names) (w : World F) : Prop where
  defs : ∀ s, s < w.nscenes → ∃ c ∈ st.around ++ st.closed, c.scene = s ∧ (∀ nm, w.getDEF s nm = c.defs.lookup nm) ∧
    (w.scene s).routes.map (fun r => (⟨r.src, r.srcField, r.dst, r.dstField⟩ : Link)) = c.routes

/-- **C74** DEF names follow the scopes of the file, if no node stands in the default value of a PROTO's field: every name in a USE or ROUTE
is the name of an earlier node of the same scene, ROUTEs connect the latest such nodes, and in the end `getDEF` of each scene finds the
last node of each name in that scene. -/
theorem C74_def_scopes {base : Text → Option (Class F)} {fl : Floats F} (hB : Builtins base fl) {text : Text} {w : World F} (h : ReadsWorld base fl text w)
    {kids : List PTree} (hk : ItemsOf text kids) (hp : allPlain kids = true) :
    ∃ l st, PlacesAll kids l ∧ Names.run (fun t => (base t).isSome) l Names.start = some st ∧ SameTypes base st w ∧ SameNames st w := by
  obtain ⟨l, st, h1, h2, h3, h4⟩ := reads_run hB true h hk (fun _ => hp)
  refine ⟨l, st, h1, h2, h3.types hB h4, ⟨fun s hs => ?_⟩⟩
  obtain ⟨c, hc, hcs⟩ := h3.all s hs
  refine ⟨c, hc, hcs, fun nm => ?_, ?_⟩
  · rw [h3.defs rfl c hc nm, hcs]; rfl
  · rw [← h3.routes rfl c hc, hcs]; rfl

/-! ### Files that are refused -/

/-- The whole reader refuses a text. -/
def refuses (base : Text → Option (Class F)) (fl : Floats F) (fuel : Nat) (text : Text) : Bool :=
  match run gram fuel (gram .vrmlFile) text with
  | some (.ok [_, .node .vrmlScene _ kids, _] _ []) => (dispList base fl kids [0] [] none none (World.init fl)).isNone
  | some _ => true
  | none => false

theorem not_reads {base : Text → Option (Class F)} {fl : Floats F} {fuel : Nat} {text : Text} (h : refuses base fl fuel text = true) (w : World F) : ¬ ReadsWorld base fl text w := by
  rintro ⟨hdr, sm, kids, eof, m, vs, hd, hr⟩
  unfold refuses at h
  split at h
  · next hrun =>
    cases (run_sound _ _ _ _ hrun).det _ hd
    rw [hr] at h; cases h
  · next o hne hrun =>
    cases (run_sound _ _ _ _ hrun).det _ hd
    exact hne _ _ _ _ _ rfl
  · cases h

/-- what holds for the items of a text, from one computation -/
theorem items_fact {fuel : Nat} {text : Text} {P : List PTree → Bool}
    (h : (match run gram fuel (gram .vrmlFile) text with | some (.ok [_, .node .vrmlScene _ kids, _] _ []) => P kids | _ => false) = true) {kids} (hk : ItemsOf text kids) : P kids = true := by
  obtain ⟨hdr, sm, eof, m, hd⟩ := hk
  split at h
  · next hrun => cases (run_sound _ _ _ _ hrun).det _ hd; exact h
  · cases h

/-- An example text. -/
def file (s : Text) : Text := header ++ s

theorem exBuiltins : Builtins exLookup exFloats := by
  refine ⟨fun t c h => ?_, fun t c h d hd => ?_, fun ty v h => ?_⟩
  rotate_left 2
  · simp only [exFloats, exTypes] at h
    split at h
    · cases h; rfl
    split at h <;> cases h
    rfl
  · simp only [exLookup] at h; split at h <;> cases h; subst_vars; rfl
  · simp only [exLookup] at h; split at h <;> cases h
    simp only [exClass, List.mem_cons, List.not_mem_nil, or_false] at hd
    rcases hd with rfl | rfl | rfl <;> rfl

/-- Two prototypes named A: the inner one is declared in the body of B after a node of the outer type. -/
def exScopes : Text := file (chars "PROTO A [] { Group { } } PROTO B [] { A { } PROTO A [] { DEF N Group { } ROUTE N.x TO N.x } DEF N A { } } A { } DEF N B { } ROUTE N.x TO N.x")

/-- the types that the nodes are read as, and the nodes named N in each scene -/
example : (readWorld exLookup exFloats 300 exScopes).map (fun w => ((List.range w.next).map w.inst, (List.range w.nscenes).map (fun s => w.getDEF s (chars "N")))) =
    some ([none, some 0, none, some 2, some 0, some 1], [some 5, none, some 3, some 2]) := by decide +kernel

/-- it is a file of the kind that C74 is about -/
example : ∃ w, ReadsWorld exLookup exFloats exScopes w ∧ ∀ kids, ItemsOf exScopes kids → allPlain kids = true := by
  obtain ⟨w, h1, -⟩ := world_fact (base := exLookup) (fl := exFloats) (fuel := 300) (text := exScopes) (f := fun w => w.next) (x := 6) (by decide +kernel)
  exact ⟨w, h1, fun kids hk => items_fact (fuel := 300) (P := allPlain) (by decide +kernel) hk⟩

/-- **C73** A prototype declared in the body of another is not known outside. -/
theorem C73_inner_prototype_not_known_outside (w : World Int) :
    ¬ ReadsWorld exLookup exFloats (file (chars "PROTO A [] { PROTO B [] { Group { } } B { } } B { }")) w := not_reads (fuel := 300) (by decide +kernel) w

/-- **C73** A prototype is not known in its own body. -/
theorem C73_prototype_not_known_in_own_body (w : World Int) :
    ¬ ReadsWorld exLookup exFloats (file (chars "PROTO A [] { A { } }")) w := not_reads (fuel := 300) (by decide +kernel) w

/-- **C74** DEF names of the file are not known in the body of a prototype, nor those of the body in the file. -/
theorem C74_names_not_known_inside (w : World Int) :
    ¬ ReadsWorld exLookup exFloats (file (chars "DEF N Group { } PROTO A [] { USE N }")) w := not_reads (fuel := 300) (by decide +kernel) w
theorem C74_names_not_known_outside (w : World Int) :
    ¬ ReadsWorld exLookup exFloats (file (chars "PROTO A [] { DEF N Group { } } A { } USE N")) w := not_reads (fuel := 300) (by decide +kernel) w

/-- A node in the default value of a field of B, which is declared inside A. -/
def exLeak : Text := file (chars "PROTO A [] { PROTO B [ field SFNode f DEF N Group { } ] { } B { } } USE N")

/-- **C74** (what is not guaranteed) With nodes in default values, a DEF name of the body of a prototype can be used in the file outside:
creating an instance registers the nodes of its defaults with the file's scene. -/
theorem C74_refuted_default_nodes : ∃ w, ReadsWorld exLookup exFloats exLeak w ∧ (w.scene 0).children = [0] ∧ w.getDEF 0 (chars "N") = some 0 ∧
    ∀ kids, ItemsOf exLeak kids → ∀ l, PlacesAll kids l → Names.run (fun t => (exLookup t).isSome) l Names.start = none := by
  obtain ⟨w, h1, h2⟩ := world_fact (base := exLookup) (fl := exFloats) (fuel := 300) (text := exLeak) (f := fun w => ((w.scene 0).children, w.getDEF 0 (chars "N")))
    (x := ([0], some 0)) (by decide +kernel)
  refine ⟨w, h1, congrArg Prod.fst h2, congrArg Prod.snd h2, fun kids hk l hl => ?_⟩
  have := items_fact (fuel := 300) (P := fun kids => (placesAll kids).all (fun l => (Names.run (fun t => (exLookup t).isSome) l Names.start).isNone)) (by decide +kernel) hk
  simpa using List.all_eq_true.1 this l (mem_placesAll hl)

/-! ### No loose ends -/

/-- **C69** The objects read from any file have no loose ends: scenes, nodes and prototypes are numbered consecutively, all values stored in nodes,
defaults, children, ROUTEs, DEF tables and connections refer to nodes that exist, stored values have the types of their fields (outside Scripts,
whose fields may be redeclared), the nodes in DEF tables have the name they are listed under, prototypes have the name they are registered under, and the
nodes of prototypes have the fields of the finished prototype. -/
theorem C69_world_well_formed {base : Text → Option (Class F)} {fl : Floats F} (hB : Builtins base fl) {text : Text} {w : World F} (h : ReadsWorld base fl text w) :
    (∀ i, (w.heap i).isSome ↔ i < w.next) ∧
    (∀ i n f v, w.heap i = some n → n.dict f = some v → ∀ j ∈ v.nodes, j < w.next) ∧
    (∀ i n f v, w.heap i = some n → n.cls.proto ≠ scriptName → n.dict f = some v → ∃ d ∈ n.cls.fields, d.name = f ∧ HasType d.kind v) ∧
    (∀ i n, w.heap i = some n → ∀ d ∈ n.cls.fields, ∀ j ∈ d.dfltNodes, j < w.next) ∧
    (∀ s nm i, w.getDEF s nm = some i → nm ≠ [] ∧ ∃ n, w.heap i = some n ∧ n.DEF = nm) ∧
    (∀ s, ∀ i ∈ (w.scene s).children, i < w.next) ∧
    (∀ s, ∀ r ∈ (w.scene s).routes, r.src < w.next ∧ r.dst < w.next) ∧
    (∀ x ∈ w.wires, x.src < w.next ∧ x.dst < w.next) ∧
    (∀ s nm c, (nm, c) ∈ (w.scene s).protos → c < w.nclasses ∧ (w.cls c).decl.name = nm) ∧
    (∀ c s, (w.cls c).body = some s → s < w.nscenes) ∧
    (∀ i k, w.inst i = some k → k < w.nclasses ∧ ∃ n, w.heap i = some n ∧ n.cls = (w.cls k).cls) := by
  obtain ⟨hdr, sm, kids, eof, m, vs, hd, hr⟩ := id h
  obtain ⟨l, st, -, -, -, hi⟩ := reads_run hB false h ⟨hdr, sm, eof, m, hd⟩ (by simp)
  exact ⟨hi.ids, hi.value, hi.typed, hi.dflts, hi.table, hi.children, hi.routes, hi.wires, fun s nm c hc => ⟨(hi.protos s nm c hc).1, (hi.protos s nm c hc).2.2⟩, hi.body,
    fun i k hk => ⟨(hi.inst i k hk).1, (hi.inst i k hk).2.2⟩⟩

/-- **C69** A file, with all its prototypes, is read in one way only. -/
theorem C69_one_world {base : Text → Option (Class F)} {fl : Floats F} {text : Text} {w w' : World F} (h : ReadsWorld base fl text w) (h' : ReadsWorld base fl text w') :
    w = w' := reads_unique h h'

end Verif.Full
