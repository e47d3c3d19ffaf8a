import Verif.Props.Scopes
/-!
C77: prototypes have the interfaces that the file declares.
-/
namespace Verif.Full
open Verif.Peg Verif.Grammar Verif.TextOut Verif.SceneText Verif.Reader Verif.Scopes
open Verif.Lin hiding disp dispList dispDecls dispAttrs disp_node disp_attr
variable {F : Type}

/-- **C77** Whatever text is read, every prototype has the interface that its declaration in the file says: for each name, the field (with type, exposure and
default) or the event (with type and direction) of the last declaration of that name, nothing under names that are not declared (but `externalURL`), and the
addresses of an EXTERNPROTO.  Prototypes are numbered by the places where their declarations begin, as in C73, which also says which nodes are of which
prototype. -/
theorem C77_interfaces_as_declared {base : Text → Option (Class F)} {fl : Floats F} (hB : Builtins base fl) {text : Text} {w : World F} (h : ReadsWorld base fl text w)
    {kids : List PTree} (hk : ItemsOf text kids) :
    ∃ l st, PlacesAll kids l ∧ Names.run (fun t => (base t).isSome) (typeMarks l) Names.start = some st ∧ SameTypes base st w ∧
      st.ifaces.length = w.nclasses ∧ ∀ k iface, st.ifaces[k]? = some iface → AsDeclared fl iface (w.cls k).decl := by
  obtain ⟨l, st, h1, h2, h3, h4⟩ := reads_run hB false h hk (by simp)
  exact ⟨l, st, h1, h2, h3.types hB h4, h3.ifs.len, fun k iface hi => h3.ifs.iface k iface hi (by simp)⟩

/-- **C77** So a node of a prototype has exactly the declared fields, besides `externalURL`. -/
theorem C77_fields_of_instances {base : Text → Option (Class F)} {fl : Floats F} (hB : Builtins base fl) {text : Text} {w : World F} (h : ReadsWorld base fl text w)
    {kids : List PTree} (hk : ItemsOf text kids) :
    ∃ l st, PlacesAll kids l ∧ Names.run (fun t => (base t).isSome) (typeMarks l) Names.start = some st ∧
      ∀ i x k iface, st.nodes[i]? = some x → x.proto = some k → st.ifaces[k]? = some iface → ∃ n, w.heap i = some n ∧
        ∀ nm, nm ≠ chars "externalURL" → ∀ ty, (∃ d ∈ n.cls.fields, d.name = nm ∧ d.cls = ty) ↔ ∃ word value, lastDecl iface nm = some (.field word ty nm value) := by
  obtain ⟨l, st, h1, h2, h3, -, h5⟩ := C77_interfaces_as_declared hB h hk
  refine ⟨l, st, h1, h2, fun i x k iface hx hp hi => ?_⟩
  obtain ⟨n, n1, -, -, -, n2, -⟩ := h3.type i x hx
  refine ⟨n, n1, fun nm hnm ty => ?_⟩
  have hfields : (∃ d ∈ n.cls.fields, d.name = nm ∧ d.cls = ty) ↔ ∃ f ∈ (w.cls k).decl.fields, f.decl.name = nm ∧ f.decl.cls = ty := by
    rw [n2 k hp]
    simp only [ClassObj.cls]
    split
    · constructor
      · rintro ⟨d, hd, e⟩
        obtain ⟨f, hf, rfl⟩ := List.mem_map.1 (List.mem_filter.1 hd).1
        exact ⟨f, hf, e⟩
      · rintro ⟨f, hf, e⟩
        exact ⟨f.decl, List.mem_filter.2 ⟨List.mem_map.2 ⟨f, hf, rfl⟩, by simpa [e.1] using hnm⟩, e⟩
    · constructor
      · rintro ⟨d, hd, e⟩
        obtain ⟨f, hf, rfl⟩ := List.mem_map.1 hd
        exact ⟨f, hf, e⟩
      · rintro ⟨f, hf, e⟩
        exact ⟨f.decl, List.mem_map.2 ⟨f, hf, rfl⟩, e⟩
  rw [hfields]
  have ha := (h5 k iface hi).name nm hnm
  have hname : ∀ d, lastDecl iface nm = some d → d.name = nm := fun d hd => by
    have := List.mem_of_getLast? hd
    simpa using (List.mem_filter.1 this).2
  split at ha
  · next hn =>
    rw [hn]
    exact ⟨fun ⟨f, hf, e⟩ => absurd e.1 (ha.1 f hf), fun ⟨_, _, e⟩ => by cases e⟩
  · next word ty' nm' value hn =>
    obtain ⟨⟨f, hf, h6⟩, -⟩ := ha
    have hnm' : nm' = nm := hname _ hn
    subst hnm'
    rw [hn]
    constructor
    · rintro ⟨g, hg, e⟩
      have : g ∈ (w.cls k).decl.fields.filter (fun g => g.decl.name == nm') := List.mem_filter.2 ⟨hg, by simp [e.1]⟩
      rw [hf, List.mem_singleton] at this
      subst this
      refine ⟨word, value, ?_⟩
      rw [← e.2, h6.2.1]
    · rintro ⟨word', value', e⟩
      cases e
      have : f ∈ (w.cls k).decl.fields.filter (fun g => g.decl.name == nm') := by rw [hf]; simp
      exact ⟨f, (List.mem_filter.1 this).1, h6.1, h6.2.1⟩
  · next word ty' nm' hn =>
    rw [hn]
    exact ⟨fun ⟨f, hf, e⟩ => absurd e.1 (ha.1 f hf), fun ⟨_, _, e⟩ => by cases e⟩

/-- Declarations of all kinds; `a` and `b` are declared twice. -/
def exIface : Text := file (chars "PROTO A [ field SFFloat a 1 exposedField SFFloat b 2 eventIn SFTime c field SFFloat d 3 eventOut SFTime a exposedField SFFloat b 5 ] { PROTO B [ exposedField SFFloat a 4 ] { } B { a 7 } } EXTERNPROTO E [ exposedField SFFloat a eventIn SFTime b ] [ \"x\" \"y\" ] A { b 9 } E { a 6 }")

/-- names, exposure and defaults of the fields -/
def fieldsOf (p : ProtoDef Int) : List (Text × Bool × Option Int) :=
  p.fields.map (fun f => (f.decl.name, f.exposed, match f.decl.dflt with | .scalar (.num x) => some x | _ => none))

def urlsOf (p : ProtoDef Int) : List Text := match p.url with | .urls l => l | _ => []

/-- what is read: fields, -/
example : (readWorld exLookup exFloats 400 exIface).map (fun w => (List.range w.nclasses).map (fun k => fieldsOf (w.cls k).decl)) =
    some [[(chars "externalURL", true, none), (chars "d", false, some 3), (chars "b", true, some 5)],
      [(chars "externalURL", true, none), (chars "a", true, some 4)], [(chars "externalURL", true, none), (chars "a", true, none)]] := by decide +kernel

/-- events, -/
example : (readWorld exLookup exFloats 400 exIface).map (fun w => (List.range w.nclasses).map (fun k => (w.cls k).decl.events.map (fun e => (e.name, e.out)))) =
    some [[(chars "c", false), (chars "a", true)], [], [(chars "b", false)]] := by decide +kernel

/-- and addresses -/
example : (readWorld exLookup exFloats 400 exIface).map (fun w => (List.range w.nclasses).map (fun k => urlsOf (w.cls k).decl)) = some [[], [], [chars "x", chars "y"]] := by decide +kernel

/-- it is a file that the theorems are about, with three prototypes -/
example : ∃ w, ReadsWorld exLookup exFloats exIface w ∧ w.nclasses = 3 :=
  world_fact (base := exLookup) (fl := exFloats) (fuel := 400) (text := exIface) (f := fun w => w.nclasses) (x := 3) (by decide +kernel)

end Verif.Full
