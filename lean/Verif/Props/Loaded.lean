import Verif.Lemmas.Loaded
import Verif.Spec.Loaded
/-!
C91: a file that was loaded can be saved and loaded again.
-/
namespace Verif.Full
open Verif.Peg Verif.Grammar Verif.TextOut Verif.SceneText Verif.Reader Verif.Scopes
open Verif.Lin hiding disp dispList dispDecls dispAttrs disp_node disp_attr
variable {F : Type} {base : Text → Option (Class F)} {fl : Floats F}

/-- **C69** In a loaded file, DEF names and the field names in ROUTEs are names of the grammar, and ROUTEs are between nodes with DEF names. -/
theorem C69_legal_names (hB : Builtins base fl) {text : Text} {w : World F} (h : ReadsWorld base fl text w) :
    (∀ i n, w.heap i = some n → n.DEF = [] ∨ LegalName n.DEF) ∧
    ∀ s, ∀ r ∈ (w.scene s).routes, LegalName r.srcField ∧ LegalName r.dstField ∧ (∃ n, w.heap r.src = some n ∧ n.DEF ≠ []) ∧ ∃ n, w.heap r.dst = some n ∧ n.DEF ≠ [] :=
  reads_legal hB h

end Verif.Full

namespace Verif.Library
open Verif.Peg Verif.Grammar Verif.TextOut Verif.Text Verif.SceneText Verif.Reader Verif.Full
open Verif.Lin hiding disp dispList dispDecls dispAttrs disp_node disp_attr
variable {F : Type}

theorem no_script_class (N : Num F) : library N scriptName = none := by
  cases h : library N scriptName with
  | none => rfl
  | some c =>
    have h1 := (C81_builtins N).name _ _ h
    exact absurd h1 (class_names h).2.1

theorem fits_of_storable {N : Num F} {d : FieldDecl F} {v : Val F} (ht : HasType d.kind v) (hs : Storable N d v) : Fits N d v := by
  cases v <;> cases hk : d.kind <;> rw [hk] at ht <;> simp only [HasType] at ht <;> simp only [Storable] at hs <;> simp only [Fits, hk]
  all_goals first | exact hs | exact ⟨trivial, hs⟩ | exact ⟨_, rfl, ht⟩ | exact ⟨.inr (by rw [ht]), hs⟩ | exact ⟨.inl trivial, hs⟩ | exact ⟨_, rfl, fun r hr => ⟨ht r hr, hs r hr⟩⟩ | skip

/-- What is loaded from a file without prototypes is a scene of built-in nodes. -/
theorem loaded_scene {N : Num F} {text : Text} {w : World F} (h : ReadsWorld (library N) (floats N) text w) {kids : List PTree} (hk : ItemsOf text kids) (hp : noProtosAll kids = true)
    (hs : Savable N w) : LibraryScene N w.file (List.range w.next) := by
  have hB := C81_builtins N
  obtain ⟨f1, f2, f3, f4⟩ := reads_flat hB h hk hp
  obtain ⟨l1, l2⟩ := C69_legal_names hB h
  obtain ⟨g1, g2, g3, g4, g5, g6, g7, -⟩ := C69_world_well_formed hB h
  have hex : ∀ i, Reach w.file i → i < w.next := by
    intro i hi
    induction hi with
    | child h => exact g6 0 _ h
    | @field i j n d v h1 h2 h3 h4 h5 h6 ih =>
      have h2 : w.heap i = some n := h2
      cases hd : n.dict d.name with
      | some v' =>
        simp only [FieldDecl.read, hd, Option.some.injEq] at h5
        subst h5
        exact g2 i n _ _ h2 hd j h6
      | none =>
        simp only [FieldDecl.read, hd] at h5
        cases hdv : d.dflt.value with
        | none => rw [hdv] at h5; cases h5
        | some v0 =>
          rw [hdv] at h5
          simp only at h5
          have := g4 i n h2 d h3
          simp only [FieldDecl.dfltNodes, hdv, Option.map_some, Option.getD_some] at this
          rcases coerce_keeps h5 with h' | h'
          · rw [h'] at h6; exact this j h6
          · rw [h'] at h6; cases h6
  refine ⟨fun i hi => List.mem_range.2 (hex i hi), fun i hi => ?_, fun j n l l' hl hl' hn hD _ => ?_, fun i n hi hn hD => ?_, fun r hr => ?_, hs.children, rfl⟩
  · obtain ⟨n, hn⟩ := Option.isSome_iff_exists.1 ((g1 i).2 (hex i hi))
    refine ⟨n, hn, ⟨(f4 i n hn).resolve_right (hs.scripts i n hi hn), l1 i n hn, fun d hd v hv => ?_, hs.fonts i n hi hn⟩⟩
    have hcls := (f4 i n hn).resolve_right (hs.scripts i n hi hn)
    obtain ⟨d', hd', hname, ht⟩ := g3 i n d.name v hn (hs.scripts i n hi hn) hv
    have : d' = d := List.inj_on_of_nodup_map (List.nodup_append.1 (class_names hcls).2.2.1).1 hd' hd hname
    subst this
    exact fits_of_storable ht (hs.values i n hi hn _ hd v hv)
  · exact C91_shared_only_by_name hB (no_script_class N) h hk (items_plain hk hp) f1 hl hl' hn hD
  · obtain ⟨j, hj⟩ := f3 i n hn hD
    obtain ⟨-, m, hm, hmD⟩ := g5 0 _ _ hj
    have := hs.names i j n m hn hm hD hmD.symm
    rw [this]
    exact hj
  · obtain ⟨h1, h2, -⟩ := l2 0 r hr
    exact ⟨(hs.routes r hr).1, (hs.routes r hr).2, h1, h2⟩

/-- **C91** Load, save, load: a file without prototypes, of the node types of the library, that was loaded, and whose scene can be saved (`Savable`), is saved as a text, and saving changes nothing in the scene;
loading that text gives the same scene, and saving that gives the same text again. -/
theorem C91_loaded_file_saved {N : Num F} (hN : GoodNum N) {lv : LinValues} (hlv : GoodOptions lv) {text : Text} {w : World F} (h : ReadsWorld (library N) (floats N) text w)
    {kids : List PTree} (hk : ItemsOf text kids) (hp : noProtosAll kids = true) (hs : Savable N w) {fuel : Nat} (hf : w.next < fuel) :
    ∃ saved w' φ, linearise lv (floats N) w.file fuel = .ok (saved, w.file) ∧ ReadsWorld (library N) (floats N) saved w' ∧ SameScene w.file w'.file φ ∧
      linearise lv (floats N) w'.file fuel = .ok (saved, w'.file) := by
  have hls := loaded_scene h hk hp hs
  have hfu : (List.range w.next).length < fuel := by rw [List.length_range]; exact hf
  obtain ⟨saved, named, w', φ, h1, h2, h3, h4, -⟩ := C81_round_trip hN hlv hls hfu
  have hnm : named = w.file := by
    have hpre : preroute w.file = w.file := preroute_named (fun r hr m hm => by
      obtain ⟨-, -, ⟨n, k1, k2⟩, n', k3, k4⟩ := (C69_legal_names (C81_builtins N) h).2 0 r hr
      rcases hm with hm | hm
      · have hm : w.heap r.src = some m := hm
        rw [k1] at hm; cases hm; exact k2
      · have hm : w.heap r.dst = some m := hm
        rw [k3] at hm; cases hm; exact k4)
    have h1 := h1
    unfold linearise at h1
    dsimp only at h1
    split at h1
    · cases h1
    · cases h1; exact hpre
  subst hnm
  obtain ⟨saved', named', k1, -, k3⟩ := C88_library hN hlv hls hfu
  rw [h1] at k1
  cases k1
  exact ⟨saved, w', φ, h1, h3, h4, k3 w' h3⟩

/-! ### The theorems apply -/

theorem storable_of_fits {N : Num F} {d : FieldDecl F} {v : Val F} (h : Fits N d v) : Storable N d v := by
  cases v <;> simp only [Fits] at h <;> simp only [Storable]
  case num => exact h.2
  case nums => exact h.2
  case rows => obtain ⟨n, -, h⟩ := h; exact fun r hr => (h r hr).2
  case strs => exact h.2
  case refs => exact h.2

/-- `Savable`, computed, for integers -/
def savableB (w : World Int) : Bool :=
  w.file.children ≠ [] && w.file.routes.all (fun r => w.file.children.contains r.src && w.file.children.contains r.dst) &&
  (List.range w.next).all (fun i => match w.heap i with
    | none => true
    | some n => n.cls.proto ≠ chars "Script" && n.cls.proto ≠ chars "FontStyle" && n.cls.fields.all (fun d => match n.dict d.name with
        | none => true
        | some v => fitsB d v) &&
      (List.range w.next).all (fun j => match w.heap j with
        | none => true
        | some m => n.DEF = [] || n.DEF ≠ m.DEF || i = j))

theorem savable_of {text : Text} {w : World Int} (h : ReadsWorld (library exNum) (floats exNum) text w) {kids : List PTree} (hk : ItemsOf text kids) (hp : noProtosAll kids = true)
    (hs : savableB w = true) : Savable exNum w := by
  obtain ⟨-, -, -, f4⟩ := reads_flat (C81_builtins exNum) h hk hp
  obtain ⟨g1, -⟩ := C69_world_well_formed (C81_builtins exNum) h
  simp only [savableB, Bool.and_eq_true, List.all_eq_true, decide_eq_true_eq, List.mem_range, List.contains_eq_mem] at hs
  obtain ⟨⟨h1, h2⟩, h3⟩ := hs
  have hn : ∀ i n, w.heap i = some n → n.cls.proto ≠ chars "Script" ∧ n.cls.proto ≠ chars "FontStyle" ∧ (∀ d ∈ n.cls.fields, ∀ v, n.dict d.name = some v → fitsB d v = true) ∧
      ∀ j m, w.heap j = some m → n.DEF ≠ [] → n.DEF = m.DEF → i = j := by
    intro i n hi
    have := h3 i ((g1 i).1 (by rw [hi]; rfl))
    rw [hi] at this
    simp only [Bool.and_eq_true, List.all_eq_true, decide_eq_true_eq, List.mem_range] at this
    obtain ⟨⟨⟨k1, k2⟩, k3⟩, k4⟩ := this
    refine ⟨k1, k2, fun d hd v hv => ?_, fun j m hj hD he => ?_⟩
    · have := k3 d hd
      rw [hv] at this
      exact this
    · have := k4 j ((g1 j).1 (by rw [hj]; rfl))
      rw [hj] at this
      simp only [Bool.or_eq_true, decide_eq_true_eq] at this
      rcases this with (h | h) | h
      · exact absurd h hD
      · exact absurd he h
      · exact h
  exact ⟨h1, fun i j n m hi hj => (hn i n hi).2.2.2 j m hj, fun i n _ hi => (hn i n hi).1,
    fun i n _ hi d hd v hv => storable_of_fits (fits_of ((f4 i n hi).resolve_right (hn i n hi).1) hd ((hn i n hi).2.2.1 d hd v hv)), fun i n _ hi hf => absurd hf (hn i n hi).2.1,
    fun r hr => ⟨.child (h2 r hr).1, .child (h2 r hr).2⟩⟩

/-- a file with a named node standing twice, nodes inside nodes, and a ROUTE -/
def exSaved : Text := file (chars "DEF T Transform { translation 1 2 3 children [ Shape { geometry Box { size 2 3 4 } } Shape { } ] } USE T ROUTE T.translation TO T.scale")

example : ∃ w, ReadsWorld (library exNum) (floats exNum) exSaved w ∧ w.next = 4 ∧ (∀ kids, ItemsOf exSaved kids → noProtosAll kids = true ∧ Savable exNum w) ∧
    ∃ saved w' φ, linearise defaults (floats exNum) w.file 5 = .ok (saved, w.file) ∧ ReadsWorld (library exNum) (floats exNum) saved w' ∧ SameScene w.file w'.file φ ∧
      linearise defaults (floats exNum) w'.file 5 = .ok (saved, w'.file) := by
  obtain ⟨w, h1, h2⟩ := world_fact (base := library exNum) (fl := floats exNum) (fuel := 400) (text := exSaved) (f := fun w => (w.next, savableB w)) (x := (4, true)) (by decide +kernel)
  simp only [Prod.mk.injEq] at h2
  have hp : ∀ kids, ItemsOf exSaved kids → noProtosAll kids = true := fun kids hk => items_fact (fuel := 400) (P := noProtosAll) (by decide +kernel) hk
  have hk : ∃ kids, ItemsOf exSaved kids := by
    obtain ⟨hdr, sm, kids, eof, m, vs, hd, hr⟩ := id h1
    exact ⟨kids, hdr, sm, eof, m, hd⟩
  refine ⟨w, h1, h2.1, fun kids hk => ⟨hp kids hk, savable_of h1 hk (hp kids hk) h2.2⟩, ?_⟩
  obtain ⟨kids, hk⟩ := hk
  exact C91_loaded_file_saved exGoodNum goodDefaults h1 hk (hp kids hk) (savable_of h1 hk (hp kids hk) h2.2) (by omega)

/-- the hypotheses of `C91_shared_only_by_name` -/
example : ∃ w kids, ReadsWorld (library exNum) (floats exNum) exSaved w ∧ ItemsOf exSaved kids ∧ Scopes.allPlain kids = true ∧ (∀ i, w.inst i = none) ∧ library exNum scriptName = none ∧
    ∃ j n, w.heap j = some n ∧ n.DEF = [] ∧ Reach w.file j := by
  obtain ⟨w, h1, h2⟩ := world_fact (base := library exNum) (fl := floats exNum) (fuel := 400) (text := exSaved)
    (f := fun w => ((w.heap 0).map (fun n => (n.cls.fields.filter (fun d => d.name = chars "children" && d.kind == .mfNode && ((n.dict d.name).map Val.nodes).any (fun l => l.contains 1))).length),
      (w.heap 1).map Node.DEF, w.file.children)) (x := (some 1, some [], [0, 0])) (by decide +kernel)
  have hp : ∀ kids, ItemsOf exSaved kids → noProtosAll kids = true := fun kids hk => items_fact (fuel := 400) (P := noProtosAll) (by decide +kernel) hk
  obtain ⟨hdr, sm, kids, eof, m, vs, hd, hr⟩ := id h1
  have hk : ItemsOf exSaved kids := ⟨hdr, sm, eof, m, hd⟩
  simp only [Prod.mk.injEq] at h2
  obtain ⟨h3, h4, h5⟩ := h2
  obtain ⟨n, hn, hl⟩ := Option.map_eq_some_iff.1 h3
  obtain ⟨n1, hn1, hD⟩ := Option.map_eq_some_iff.1 h4
  have hpos : 0 < (n.cls.fields.filter (fun d => d.name = chars "children" && d.kind == .mfNode && ((n.dict d.name).map Val.nodes).any (fun l => l.contains 1))).length := by rw [hl]; decide
  obtain ⟨d, hd⟩ := List.exists_mem_of_length_pos hpos
  simp only [List.mem_filter, Bool.and_eq_true, decide_eq_true_eq] at hd
  obtain ⟨hd1, ⟨hd2, -⟩, hd3⟩ := hd
  cases hv : n.dict d.name with
  | none => rw [hv] at hd3; cases hd3
  | some v =>
    rw [hv] at hd3
    refine ⟨w, kids, h1, hk, items_plain hk (hp kids hk), (reads_flat (C81_builtins exNum) h1 hk (hp kids hk)).1, no_script_class exNum, 1, n1, hn1, hD,
      .field (i := 0) (n := n) (d := d) (v := v) (.child (by rw [h5]; simp)) hn hd1 ⟨?_, fun nm ⟨_, _, k, _⟩ => by cases k⟩ (by simp only [FieldDecl.read, hv]) (by simpa using hd3)⟩
    rw [Visible, hd2]
    exact ⟨by decide, fun s h => by cases h⟩

end Verif.Library
