import Verif.Lemmas.Reader
import Verif.Props.ProtoText
/-!
C69: scenes read from files have no loose ends.
-/
namespace Verif.Reader
open Verif.TextOut Verif.SceneText Verif.Peg Verif.Grammar
open Verif.Lin hiding disp_node disp_attr
variable {F : Type}

/-- **C69** Whatever text is read, the scene has no loose ends: the classes of its nodes are known, stored values have
the types of their fields and refer to nodes of the scene, children and routes are nodes of the scene, and the DEF
table finds the last node of each name.  (The defaults of built-in classes and field types contain no nodes.) -/
theorem C69_scene_well_formed {lk : Text → Option (Class F)} {fl : Floats F} (hlk : ∀ t c, lk t = some c → ∀ d ∈ c.fields, d.dfltNodes = [])
    (hty : ∀ ty v, (fl.types.dflt ty).value = some v → v.nodes = []) {text : Text} {sc : Scene F} (h : Reads lk fl text sc) :
    WellFormed (fun c => (∃ t, lk t = some c) ∨ ScriptClass fl c) sc ∧ sc.is = none := by
  obtain ⟨hdr, scene, eof, m, n, hd, hr⟩ := h
  have hn := (der_named hd _ _ _ rfl).2.1
  obtain ⟨⟨h1, h2⟩, -⟩ := (disp_inv lk (known := fun c => (∃ t, lk t = some c) ∨ ScriptClass fl c) (fun t c h => ⟨.inl ⟨t, h⟩, hlk t c h⟩) (fun _ => .inr) hty (sizeOf scene + 1)).1 scene (by omega) hn _ _ _ _ _
    (empty_inv _ none (.inl rfl)) hr
  exact ⟨h1.wf, h2.is rfl⟩

/-- **C69** The same for files with prototypes, for the scene and for the bodies of all prototypes; a prototype has the
name it is registered under. -/
theorem C69_file_well_formed {base : Text → Option (Class F)} {fl : Floats F} (hbase : ∀ t c, base t = some c → ∀ d ∈ c.fields, d.dfltNodes = [])
    (hty : ∀ ty v, (fl.types.dflt ty).value = some v → v.nodes = []) {text : Text} {f : FSt F} (h : ReadsFile base fl text f) :
    (WellFormed (fun c => (∃ t, base t = some c) ∨ ScriptClass fl c ∨ ∃ x ∈ f.protos, x.2.cls = c) f.rs.sc ∧ f.rs.sc.is = none) ∧
    ∀ x ∈ f.protos, x.2.name = x.1 ∧ ∃ b, x.2.body = some b ∧ WellFormed (fun c => (∃ t, base t = some c) ∨ ScriptClass fl c ∨ ∃ x ∈ f.protos, x.2.cls = c) b := by
  obtain ⟨hdr, sm, kids, eof, m, hd, hr⟩ := h
  have hn := (der_named hd _ _ _ rfl).2.1.2
  have := readItems_inv hbase hty hn (f := ⟨[], ⟨Scene.empty, 0⟩⟩) ⟨empty_inv _ none (.inl rfl), rfl, fun x hx => by cases hx⟩ hr
  exact ⟨⟨this.rs.wf, this.is⟩, fun x hx => ⟨(this.protos x hx).1, (this.protos x hx).2.2⟩⟩

/-- **C69** A text is read as one scene only. -/
theorem C69_one_scene {lk : Text → Option (Class F)} {fl : Floats F} {text : Text} {sc sc' : Scene F} (h : Reads lk fl text sc) (h' : Reads lk fl text sc') : sc = sc' := by
  obtain ⟨hdr, scene, eof, m, n, hd, hr⟩ := h
  obtain ⟨hdr', scene', eof', m', n', hd', hr'⟩ := h'
  cases hd.det _ hd'
  rw [hr] at hr'
  cases hr'
  rfl

/-- **C69** A file is read as one scene with one set of prototypes. -/
theorem C69_one_file {base : Text → Option (Class F)} {fl : Floats F} {text : Text} {f f' : FSt F} (h : ReadsFile base fl text f) (h' : ReadsFile base fl text f') : f = f' := by
  obtain ⟨hdr, sm, kids, eof, m, hd, hr⟩ := h
  obtain ⟨hdr', sm', kids', eof', m', hd', hr'⟩ := h'
  cases hd.det _ hd'
  rw [hr] at hr'
  cases hr'
  rfl

/-- A file in which a node is its own child. -/
def exCycle : Text := chars "#VRML V2.0 utf8\nDEF A Group { children USE A }"

/-- **C69** (what is not guaranteed) A scene may contain a node that is its own child: the reader accepts it. -/
theorem C69_refuted_no_cycles : ∃ sc, Reads exLookup exFloats exCycle sc ∧ sc.children = [0] ∧
    ∃ n, sc.heap 0 = some n ∧ (n.dict (chars "children")).map Val.nodes = some [0] := by
  have h := reads_fact (lk := exLookup) (fl := exFloats) (fuel := 300) (text := exCycle)
    (f := fun s => (s.children, (s.heap 0).map (fun n => (n.dict (chars "children")).map Val.nodes))) (x := ([0], some (some [0]))) (by decide +kernel)
  obtain ⟨sc, hr⟩ := h.1
  have := h.2 sc hr
  simp only [Prod.mk.injEq, Option.map_eq_some_iff] at this
  obtain ⟨h1, n, h2, h3⟩ := this
  exact ⟨sc, hr, h1, n, h2, by simpa using h3⟩

end Verif.Reader
