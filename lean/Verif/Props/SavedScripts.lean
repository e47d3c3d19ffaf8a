import Verif.Lemmas.SameText3
import Verif.Props.SavedAgain
import Verif.Props.Script
/-!
C88 for scenes with Scripts: saving what was loaded gives the same text.
-/
namespace Verif.Full
open Verif.TextOut Verif.Text
open Verif.Lin hiding disp dispList dispDecls dispAttrs disp_node disp_attr
variable {F : Type} {base : Text → Option (Class F)} {fl : Floats F}

/-- A Script: the fields common to all Scripts are those of the library; the others are its own. -/
structure LibraryScript (n : Node F) : Prop where
  script : n.cls.proto = chars "Script"
  common : ∀ d ∈ n.cls.fields, d.name ∈ [chars "url", chars "mustEvaluate", chars "directOutput"] → d ∈ (scriptProto : ProtoDef F).cls.fields

/-- A node of a built-in type, or a Script. -/
def BuiltinOrScript (base : Text → Option (Class F)) (n : Node F) : Prop := (base n.cls.proto = some n.cls ∧ n.cls.proto ≠ chars "Script") ∨ LibraryScript n

/-- the scene that is read corresponds to the one that was written -/
theorem read_rel_scripts (hB : Builtins base fl) (hS : base (chars "Script") = none) (hT : StandardDefaults fl) {lv : LinValues} {sc : Scene F} {all : List Nat} {fuel : Nat} (hlv : GoodOptions lv) (h : GoodScene base fl sc all)
    (hsl : ScriptLines lv sc) (hc : ∀ i n, Reach sc i → sc.heap i = some n → BuiltinOrScript base n) (hf : all.length < fuel) :
    ∃ text named w φ, linearise lv fl sc fuel = .ok (text, named) ∧ ReadsWorld base fl text w ∧ SceneRel fl φ (Reach named) named w.file ∧ named = preroute sc := by
  obtain ⟨text, named, w, φ, h1, h2, h3, h4, h5⟩ := C76_scene_round_trip hB hlv h hsl hf
  have hp : ∀ s, (w.scene s).protos = [] := by
    obtain ⟨text', named', read, φ', g1, g2, g3, g4⟩ := C09_round_trip hlv h hsl hf
    rw [h1] at g1
    cases g1
    obtain ⟨n, hn⟩ := ((C67_without_prototypes (lv := lv) (fl := fl) (fuel := fuel) (depth := 0) (base := base) (f := ⟨sc, fun _ => none, []⟩) (fun _ => rfl)).2 text read).1 g3
    obtain ⟨w', ρ, P, R, own, k1, k2⟩ := reads_fsim hB hn
    cases reads_unique h3 k1
    intro s
    by_cases hs : s = 0
    · rw [hs]; exact h5
    · exact k2.only s hs
  have hinst := reads_no_instances hB h3 hp
  have his : named.is = none := by rw [h2.is]; exact h.file
  refine ⟨text, named, w, φ, h1, h3, ⟨fun i hi => ?_, ⟨his, rfl⟩, h4.inj, h4.children, fun i hi => .child hi, h4.routes, fun r hr => ?_⟩, ?_⟩
  · obtain ⟨n, m, e1, e2, e3, e4, e5⟩ := h4.nodes i hi
    refine ⟨n, m, e1, e2, ?_⟩
    obtain ⟨n0, k1, k2, k3⟩ : ∃ n0, sc.heap i = some n0 ∧ n.cls = n0.cls ∧ n.dict = n0.dict := by
      rcases h2.node i with ⟨-, k⟩ | ⟨n0, n1, k1, k2, k3, k4, -⟩
      · rw [e1] at k; cases k
      · rw [e1] at k2; cases k2; exact ⟨n0, k1, k3, k4⟩
    have hi0 := h2.reach_iff.1 hi
    have hsh : ∀ d : FieldDecl F, Visible d → Shown named i d := fun d hv => ⟨hv, fun nm ⟨_, _, k, _⟩ => by rw [his] at k; cases k⟩
    have hreach : ∀ d ∈ n.cls.fields, Visible d → ∀ v, d.read n = some v → ∀ j ∈ v.nodes, Reach named j := fun d hd hv v hr j hj => .field hi e1 hd (hsh d hv) hr hj
    rcases hc i n0 hi0 k1 with ⟨c1, c2⟩ | hsc
    · rw [← k2] at c1 c2
      have hcls : m.cls = n.cls := by
        rcases reads_builtin hB h3 hp e2 with k | k
        · rw [e3.proto, c1] at k
          exact (Option.some.inj k).symm
        · rw [e3.proto] at k; exact absurd k c2
      exact plain_rel hcls e4 c2 (hB.plain _ _ c1) (fun d hd hv => (e5 d hd (hsh d hv) d (by rw [hcls]; exact hd) rfl).1) hreach
    · have hs : n.cls.proto = scriptName := by rw [k2]; exact hsc.script
      obtain ⟨items, log, q1, q2, q3⟩ := script_read hB hS h3 hinst e2 (e3.proto.trans hs)
      have gn := h.nodes i n0 hi0 k1
      have gs : GoodScript fl n0 := by
        rcases gn.cls with ⟨-, c, k, -⟩ | k
        · rw [hsc.script, hS] at k; cases k
        · exact k
      have hread : ∀ d : FieldDecl F, d.read n = d.read n0 := fun d => by simp only [FieldDecl.read, k3]
      refine script_rel hT e3 e4 hs (by rw [k2]; exact gn.distinct) (by rw [k2]; exact gs.events_distinct) (by rw [k2]; exact hsc.common) q1 q2 q3
        (fun d hd hv d' hd' he => e5 d hd (hsh d hv) d' hd' he) hreach (fun d hd hv hdec => ?_)
      rw [k2] at hd hdec
      obtain ⟨v, r1, r2, -⟩ := (gs.decls d hd hv hdec).value
      exact ⟨v, r1, by rw [hread]; exact r2⟩
  · rw [h2.routes] at hr
    exact ⟨h2.reach (h.routes r hr).1, h2.reach (h.routes r hr).2.1⟩
  · unfold linearise at h1
    dsimp only at h1
    split at h1
    · cases h1
    · cases h1; rfl

/-- **C88** With Scripts: a scene of built-in nodes and Scripts (that can be written and read back) is saved as a text; that text can be loaded, and saving what was
loaded gives the same text, and leaves the scene graph as it is. -/
theorem C88_scripts_saved_again (hB : Builtins base fl) (hS : base (chars "Script") = none) (hT : StandardDefaults fl) {lv : LinValues} {sc : Scene F} {all : List Nat} {fuel : Nat} (hlv : GoodOptions lv) (h : GoodScene base fl sc all)
    (hsl : ScriptLines lv sc) (hc : ∀ i n, Reach sc i → sc.heap i = some n → BuiltinOrScript base n) (hf : all.length < fuel) :
    ∃ text named, linearise lv fl sc fuel = .ok (text, named) ∧ (∃ w, ReadsWorld base fl text w) ∧
      ∀ w, ReadsWorld base fl text w → linearise lv fl w.file fuel = .ok (text, w.file) := by
  obtain ⟨text, named, w, φ, h1, h2, h3, h4⟩ := read_rel_scripts hB hS hT hlv h hsl hc hf
  refine ⟨text, named, h1, ⟨w, h2⟩, fun w' hw' => ?_⟩
  cases reads_unique h2 hw'
  exact linearise_rel h3 (by rw [h4, (C11_only_names_added sc).routes]; exact C11_ends_named sc) (C11_text_repeats h1)

/-- **C88** With Scripts, and other options for the second text. -/
theorem C88_scripts_other_options (hB : Builtins base fl) (hS : base (chars "Script") = none) (hT : StandardDefaults fl) {lv : LinValues} {sc : Scene F} {all : List Nat} {fuel : Nat} (hlv : GoodOptions lv) (h : GoodScene base fl sc all)
    (hsl : ScriptLines lv sc) (hc : ∀ i n, Reach sc i → sc.heap i = some n → BuiltinOrScript base n) (hf : all.length < fuel)
    {text : Text} {named : Scene F} (h1 : linearise lv fl sc fuel = .ok (text, named)) {w : World F} (h2 : ReadsWorld base fl text w)
    {lv' : LinValues} {fuel' : Nat} {text' : Text} {x : Scene F} (h' : linearise lv' fl sc fuel' = .ok (text', x)) :
    linearise lv' fl w.file fuel' = .ok (text', w.file) := by
  obtain ⟨text, named, w, φ, k1, k2, k3, k4⟩ := read_rel_scripts hB hS hT hlv h hsl hc hf
  rw [h1] at k1
  cases k1
  cases reads_unique h2 k2
  have hx : linearise lv' fl named fuel' = .ok (text', x) := by
    have hx : x = named := by
      have h' := h'
      unfold linearise at h'
      dsimp only at h'
      split at h'
      · cases h'
      · cases h'; exact k4.symm
    have := C11_text_repeats h'
    rwa [hx] at this ⊢
  exact linearise_rel k3 (by rw [k4, (C11_only_names_added sc).routes]; exact C11_ends_named sc) hx

/-- **C88** The library's field types have the defaults that the theorems with Scripts ask for, and `Script` is not one of the types in the table. -/
theorem C88_library_standard (N : Library.Num F) : StandardDefaults (Library.floats N) ∧ Library.library N (chars "Script") = none := by
  refine ⟨⟨?_, ?_⟩, ?_⟩
  · show Library.typeDflt N "MFString" = _
    rfl
  · show Library.typeDflt N "SFBool" = _
    rfl
  · cases h : Library.library N (chars "Script") with
    | none => rfl
    | some c =>
      exact absurd (Library.library_of h).1 (by decide)

/-! ### A scene the theorems apply to -/

theorem exStandard : StandardDefaults exFloats := ⟨rfl, rfl⟩

theorem exScript_kinds : ∀ i n, Reach exScript i → exScript.heap i = some n → BuiltinOrScript exLookup n := by
  intro i n hi hn
  rcases exScript_reach hi with rfl | rfl <;> cases hn
  · refine .inr ⟨rfl, fun d hd hm => ?_⟩
    simp only [exScriptClass, scriptProto, externalURL, List.map_cons, List.map_nil, List.cons_append, List.nil_append, List.mem_cons, List.not_mem_nil, or_false] at hd ⊢
    rcases hd with rfl | rfl | rfl | rfl | rfl | rfl | rfl <;> first | (exact absurd hm (by decide)) | (simp [PField.decl]) | simp | tauto
  · exact .inl ⟨rfl, by decide⟩

/-- A Script that holds itself and a Group, with a route between them: the text is the same when it is loaded and saved again. -/
example : ∃ text named, linearise defaults exFloats exScript 3 = .ok (text, named) ∧ (∃ w, ReadsWorld exLookup exFloats text w) ∧
    ∀ w, ReadsWorld exLookup exFloats text w → linearise defaults exFloats w.file 3 = .ok (text, w.file) :=
  C88_scripts_saved_again exBuiltins (by decide) exStandard goodDefaults exScript_good (fun _ _ _ _ _ => by decide) exScript_kinds (by decide)

end Verif.Full
