import Verif.Lemmas.SameText2
import Verif.Props.Library
/-!
C88: saving what was loaded gives the same text.
-/
namespace Verif.Full
open Verif.TextOut Verif.Text
open Verif.Lin hiding disp dispList dispDecls dispAttrs disp_node disp_attr
variable {F : Type} {base : Text → Option (Class F)} {fl : Floats F}

/-- the scene that is read corresponds to the one that was written -/
theorem read_rel (hB : Builtins base fl) {lv : LinValues} {sc : Scene F} {all : List Nat} {fuel : Nat} (hlv : GoodOptions lv) (h : GoodScene base fl sc all)
    (hc : ∀ i n, Reach sc i → sc.heap i = some n → base n.cls.proto = some n.cls ∧ n.cls.proto ≠ chars "Script") (hf : all.length < fuel) :
    ∃ text named w φ, linearise lv fl sc fuel = .ok (text, named) ∧ ReadsWorld base fl text w ∧ SceneRel fl φ (Reach named) named w.file ∧ named = preroute sc := by
  have hsl : ScriptLines lv sc := fun i n hi hn hs => absurd hs (hc i n hi hn).2
  obtain ⟨text, named, w, φ, h1, h2, h3, h4, h5⟩ := C76_scene_round_trip hB hlv h hsl hf
  have hp : ∀ s, (w.scene s).protos = [] := by
    obtain ⟨text', named', read, φ', g1, g2, g3, g4⟩ := C09_round_trip hlv h hsl hf
    rw [h1] at g1
    cases g1
    obtain ⟨n, hn⟩ := ((C67_without_prototypes (lv := lv) (fl := fl) (fuel := fuel) (depth := 0) (base := base) (f := ⟨sc, fun _ => none, []⟩) (fun _ => rfl)).2 text read).1 g3
    obtain ⟨w', ρ, P, R, own, k1, k2⟩ := reads_fsim hB hn
    cases reads_unique h3 k1
    intro s
    by_cases hs : s = 0
    · rw [hs]; exact h5
    · exact k2.only s hs
  have his : named.is = none := by rw [h2.is]; exact h.file
  refine ⟨text, named, w, φ, h1, h3, ⟨fun i hi => ?_, ⟨his, rfl⟩, h4.inj, h4.children, fun i hi => .child hi, h4.routes, fun r hr => ?_⟩, ?_⟩
  · obtain ⟨n, m, e1, e2, e3, e4, e5⟩ := h4.nodes i hi
    refine ⟨n, m, e1, e2, ?_⟩
    obtain ⟨n0, k1, k2⟩ : ∃ n0, sc.heap i = some n0 ∧ n.cls = n0.cls := by
      rcases h2.node i with ⟨-, k⟩ | ⟨n0, n1, k1, k2, k3, -⟩
      · rw [e1] at k; cases k
      · rw [e1] at k2; cases k2; exact ⟨n0, k1, k3⟩
    obtain ⟨c1, c2⟩ := hc i n0 (h2.reach_iff.1 hi) k1
    rw [← k2] at c1 c2
    have hcls : m.cls = n.cls := by
      rcases reads_builtin hB h3 hp e2 with k | k
      · rw [e3.proto, c1] at k
        exact (Option.some.inj k).symm
      · rw [e3.proto] at k; exact absurd k c2
    have hsh : ∀ d : FieldDecl F, Visible d → Shown named i d := fun d hv => ⟨hv, fun nm ⟨_, _, k, _⟩ => by rw [his] at k; cases k⟩
    exact plain_rel hcls e4 c2 (hB.plain _ _ c1) (fun d hd hv => (e5 d hd (hsh d hv) d (by rw [hcls]; exact hd) rfl).1)
      (fun d hd hv v hr j hj => .field hi e1 hd (hsh d hv) hr hj)
  · rw [h2.routes] at hr
    exact ⟨h2.reach (h.routes r hr).1, h2.reach (h.routes r hr).2.1⟩
  · unfold linearise at h1
    dsimp only at h1
    split at h1
    · cases h1
    · cases h1; rfl

/-- **C88** Load and save again: a scene of built-in nodes (that can be written and read back, and has no Scripts or prototypes) is saved as a
text; that text can be loaded, and saving what was loaded gives the same text, and leaves the scene graph as it is. -/
theorem C88_saved_again (hB : Builtins base fl) {lv : LinValues} {sc : Scene F} {all : List Nat} {fuel : Nat} (hlv : GoodOptions lv) (h : GoodScene base fl sc all)
    (hc : ∀ i n, Reach sc i → sc.heap i = some n → base n.cls.proto = some n.cls ∧ n.cls.proto ≠ chars "Script") (hf : all.length < fuel) :
    ∃ text named, linearise lv fl sc fuel = .ok (text, named) ∧ (∃ w, ReadsWorld base fl text w) ∧
      ∀ w, ReadsWorld base fl text w → linearise lv fl w.file fuel = .ok (text, w.file) := by
  obtain ⟨text, named, w, φ, h1, h2, h3, h4⟩ := read_rel hB hlv h hc hf
  refine ⟨text, named, h1, ⟨w, h2⟩, fun w' hw' => ?_⟩
  cases reads_unique h2 hw'
  exact linearise_rel h3 (by rw [h4, (C11_only_names_added sc).routes]; exact C11_ends_named sc) (C11_text_repeats h1)

/-- **C88** The formatting may change in between: with other options, the scene that was loaded is saved as the same text as the one that was
saved first. -/
theorem C88_other_options (hB : Builtins base fl) {lv : LinValues} {sc : Scene F} {all : List Nat} {fuel : Nat} (hlv : GoodOptions lv) (h : GoodScene base fl sc all)
    (hc : ∀ i n, Reach sc i → sc.heap i = some n → base n.cls.proto = some n.cls ∧ n.cls.proto ≠ chars "Script") (hf : all.length < fuel)
    {text : Text} {named : Scene F} (h1 : linearise lv fl sc fuel = .ok (text, named)) {w : World F} (h2 : ReadsWorld base fl text w)
    {lv' : LinValues} {fuel' : Nat} {text' : Text} {x : Scene F} (h' : linearise lv' fl sc fuel' = .ok (text', x)) :
    linearise lv' fl w.file fuel' = .ok (text', w.file) := by
  obtain ⟨text, named, w, φ, k1, k2, k3, k4⟩ := read_rel hB hlv h hc hf
  rw [h1] at k1
  cases k1
  cases reads_unique h2 k2
  have hx : linearise lv' fl named fuel' = .ok (text', x) := by
    have hx : x = named := by
      have h' := h'
      unfold linearise at h'
      dsimp only at h'
      split at h'
      · cases h'
      · cases h'; exact k4.symm
    have := C11_text_repeats h'
    rwa [hx] at this ⊢
  exact linearise_rel k3 (by rw [k4, (C11_only_names_added sc).routes]; exact C11_ends_named sc) hx

end Verif.Full

namespace Verif.Library
open Verif.TextOut Verif.Text Verif.SceneText Verif.Lin Verif.Full
variable {F : Type}

/-- **C88** For the node types of the library: every scene of built-in nodes is saved as a text that can be loaded, and what is loaded is saved as
the same text again. -/
theorem C88_library {N : Num F} (hN : GoodNum N) {lv : LinValues} (hlv : GoodOptions lv) {sc : Scene F} {all : List Nat} (h : LibraryScene N sc all) {fuel : Nat} (hf : all.length < fuel) :
    ∃ text named, linearise lv (floats N) sc fuel = .ok (text, named) ∧ (∃ w, ReadsWorld (library N) (floats N) text w) ∧
      ∀ w, ReadsWorld (library N) (floats N) text w → linearise lv (floats N) w.file fuel = .ok (text, w.file) :=
  C88_saved_again (C81_builtins N) hlv (good_scene hN h) (fun i n hi hn => by
    obtain ⟨m, hm, hl⟩ := h.nodes i hi
    rw [hn] at hm; cases hm
    exact ⟨hl.cls, (class_names hl.cls).2.1⟩) hf

/-! ### The theorems apply -/

/-- the transformed box, standing twice -/
example : ∃ text named, linearise defaults (floats exNum) exBox 4 = .ok (text, named) ∧ (∃ w, ReadsWorld (library exNum) (floats exNum) text w) ∧
    ∀ w, ReadsWorld (library exNum) (floats exNum) text w → linearise defaults (floats exNum) w.file 4 = .ok (text, w.file) :=
  C88_library exGoodNum goodDefaults exBoxGood (by decide)

example : ∀ i n, Reach exBox i → exBox.heap i = some n → library exNum n.cls.proto = some n.cls ∧ n.cls.proto ≠ chars "Script" := fun i n hi hn => by
  obtain ⟨m, hm, hl⟩ := exBoxGood.nodes i hi
  rw [hn] at hm; cases hm
  exact ⟨hl.cls, (class_names hl.cls).2.1⟩

end Verif.Library
