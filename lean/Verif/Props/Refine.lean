import Verif.Lemmas.Refine7
import Verif.Props.Scopes
import Verif.Props.ExternText
namespace Verif.Full
open Verif.Peg Verif.Grammar Verif.TextOut Verif.SceneText Verif.Reader
open Verif.Lin hiding disp dispList dispDecls dispAttrs disp_node disp_attr
variable {F : Type} {base : Text → Option (Class F)} {fl : Floats F}

/-- the two readers, run side by side -/
theorem reads_fsim (hB : Builtins base fl) {text : Text} {f : FSt F} (h : ReadsFile base fl text f) :
    ∃ w ρ P R own, ReadsWorld base fl text w ∧ FSim base ρ P R own f w := by
  obtain ⟨hdr, sm, kids, eof, m, hd, hr⟩ := h
  have hn : Nameds kids := by
    have := der_named hd _ _ _ rfl
    simp only [Nameds, Named] at this
    exact this.2.1.2
  obtain ⟨hsh, -⟩ := der_shaped hd (by decide) _ _ _ rfl
  simp only [Shapeds, Shaped] at hsh
  obtain ⟨vs, w, ρ, P, R, own, h1, h2⟩ := readItems_sim hB.plain hB.types kids init_fsim hr hsh.2.1.2.2 hn (fun t ht => by
    have := hsh.2.1.2.1 t ht
    revert this; cases ParseVal.Tree.tag t <;> decide)
  exact ⟨w, ρ, P, R, own, ⟨hdr, sm, kids, eof, m, vs, hd, h1⟩, h2⟩

theorem mem_lookup_map {α β γ : Type} [BEq α] {l : List (α × β)} {g : β → γ} (x : α) : (l.map (fun e => (e.1, g e.2))).lookup x = (l.lookup x).map g := by
  induction l with
  | nil => rfl
  | cons e l ih =>
    obtain ⟨a, b⟩ := e
    simp only [List.map_cons, List.lookup_cons]
    cases x == a <;> simp [ih]

/-- C76: the reader with one store for all objects of the file gives what the reader of single scenes gives: the file's scene graph, the
prototypes under the same names in the same order, each with its interface, body and IS mappings. -/
theorem C76_one_store (hB : Builtins base fl) {text : Text} {f : FSt F} (h : ReadsFile base fl text f) :
    ∃ w ρ, ReadsWorld base fl text w ∧ Holds w 0 ρ (fun _ _ => False) f.rs.sc ∧
      (w.scene 0).protos.map Prod.fst = f.protos.map Prod.fst ∧
      ∀ x p, f.protos.lookup x = some p → ∃ k, (w.scene 0).protos.lookup x = some k ∧ HoldsProto w k p := by
  obtain ⟨w, ρ, P, R, own, h1, h2⟩ := reads_fsim hB h
  refine ⟨w, ρ, h1, ⟨fun _ _ => h2.sim.inj, fun j n hn => ?_, h2.sim.children, h2.sim.routes, h2.sim.defs⟩, by rw [h2.protos, List.map_map]; rfl, fun x p hp => ?_⟩
  · obtain ⟨n', e1, e2, e3, e4⟩ := h2.sim.node j n hn
    exact ⟨n', e1, e2, e3, fun g _ => e4 g⟩
  · rw [h2.protos, mem_lookup_map] at hp
    obtain ⟨k, hk, rfl⟩ := Option.map_eq_some_iff.1 hp
    exact ⟨k, hk, (h2.known x k (lookup_mem hk)).holds⟩

/-- the defaults of the types that a file uses have no nodes -/
theorem known_plain (hB : Builtins base fl) {protos : Text → Option (ProtoDef F)} {fuel} {x : Text} (hg : ∀ p, protos x = some p → ∃ lk, GoodProto lk fl fuel x p)
    {c : Class F} (hc : Lin.Known protos base x = some c) {d} (hd : d ∈ c.fields) (hv : Visible d) : ∀ v, d.default = some v → v.nodes = [] := by
  intro v hdv
  unfold Lin.Known at hc
  split at hc
  · next p hp =>
    cases hc
    obtain ⟨lk, hg⟩ := hg p hp
    obtain ⟨f, hf, rfl⟩ := List.mem_map.1 hd
    obtain ⟨u, h1, h2⟩ := (hg.fields f hf hv).2.2.2.2
    rw [hdv] at h1; cases h1
    cases v with
    | ref o => rw [h2.1]; rfl
    | refs l => rw [h2.1]; rfl
    | _ => rfl
  · have := hB.plain x c hc d hd
    simp only [FieldDecl.default] at hdv
    simp only [FieldDecl.dfltNodes] at this
    cases hq : d.dflt.value with
    | none => rw [hq] at hdv; cases hdv
    | some u =>
      rw [hq] at hdv this
      refine List.eq_nil_iff_forall_not_mem.2 (fun j hj => ?_)
      have hm := coerce_nodes (v := u) hdv j hj
      have hu : u.nodes = [] := this
      rw [hu] at hm; cases hm

/-- C67 for the reader with one store: a file with prototypes survives writing and reading. -/
theorem C76_round_trip (hB : Builtins base fl) {lv : LinValues} {fuel depth : Nat} {f : File F} {all : List Nat} (hlv : GoodOptions lv) (h : GoodFile base fl f all fuel depth) (hsl : FileLines lv f) :
    ∃ text named w φ, lineariseFile lv fl f fuel depth = .ok (text, named) ∧ Renamed f.scene named ∧
      ReadsWorld base fl text w ∧ SameScene named w.file φ ∧
      (∀ x, Needed f x → ∃ p k, f.protos x = some p ∧ (w.scene 0).protos.lookup x = some k ∧ SameProto p (w.proto k)) ∧
      ∀ x, ¬ Needed f x → (w.scene 0).protos.lookup x = none := by
  obtain ⟨text, named, read, φ, h1, h2, h3, h4, h5, h6⟩ := C67_round_trip hlv h hsl
  obtain ⟨w, ρ, P, R, own, g1, g2⟩ := reads_fsim hB h3
  have hlk : ∀ sc : Scene F, (∀ x p, Uses sc x → f.protos x = some p → Needed f x) → ∀ x, Uses sc x → ∀ c, Lin.Known f.protos base x = some c → ∀ d ∈ c.fields, Visible d → ∀ v, d.default = some v → v.nodes = [] := by
    intro sc hsc x hx c hc d hd hv
    exact known_plain hB (fun p hp => ⟨_, h.protos x p (hsc x p hx hp) hp⟩) hc hd hv
  have hmap : ∀ x, read.protos.lookup x = ((w.scene 0).protos.lookup x).map P := fun x => by rw [g2.protos, mem_lookup_map]
  refine ⟨text, named, w, ρ ∘ φ, h1, h2, g1, ?_, fun x hx => ?_, fun x hx => ?_⟩
  · have his : read.rs.sc.is = none := by
      rcases g2.sim.is with ⟨-, h⟩ | ⟨c, l, h, -⟩
      · exact h
      · cases h
    refine same_in_store (free := fun _ _ => False) h4 ⟨fun _ _ => g2.sim.inj, fun j n hn => ?_, g2.sim.children, g2.sim.routes, g2.sim.defs⟩ (by rw [his]; rfl)
      (plainScene_of h.scene h2 (hlk _ (fun x p hx hp => .used hx hp))) (fun _ _ _ _ _ _ _ h => h)
    obtain ⟨n', e1, e2, e3, e4⟩ := g2.sim.node j n hn
    exact ⟨n', e1, e2, e3, fun g _ => e4 g⟩
  · obtain ⟨p, p', e1, e2, e3, -⟩ := h5 x hx
    rw [hmap] at e2
    obtain ⟨k, hk, rfl⟩ := Option.map_eq_some_iff.1 e2
    refine ⟨p, k, e1, hk, proto_in_store e3 (g2.known x k (lookup_mem hk)).holds (h.protos x p hx e1) (fun b hb => hlk b (fun y q hy hq => .dep hx ⟨p, q, e1, hq, .inr ⟨b, hb, hy⟩⟩))⟩
  · have := h6 x hx
    rw [hmap] at this
    simpa using this

/-- C09 for the reader with one store: a scene survives writing and reading, and no prototypes appear. -/
theorem C76_scene_round_trip (hB : Builtins base fl) {lv : LinValues} {sc : Scene F} {all : List Nat} {fuel : Nat} (hlv : GoodOptions lv) (h : GoodScene base fl sc all) (hsl : ScriptLines lv sc) (hf : all.length < fuel) :
    ∃ text named w φ, linearise lv fl sc fuel = .ok (text, named) ∧ Renamed sc named ∧ ReadsWorld base fl text w ∧ SameScene named w.file φ ∧ (w.scene 0).protos = [] := by
  obtain ⟨text, named, read, φ, h1, h2, h3, h4⟩ := C09_round_trip hlv h hsl hf
  obtain ⟨n, hn⟩ := ((C67_without_prototypes (lv := lv) (fl := fl) (fuel := fuel) (depth := 0) (base := base) (f := ⟨sc, fun _ => none, []⟩) (fun _ => rfl)).2 text read).1 h3
  obtain ⟨w, ρ, P, R, own, g1, g2⟩ := reads_fsim hB hn
  have his : read.is = none := by
    rcases g2.sim.is with ⟨-, h⟩ | ⟨c, l, h, -⟩
    · exact h
    · cases h
  refine ⟨text, named, w, ρ ∘ φ, h1, h2, g1, ?_, by have := g2.protos; simpa using this⟩
  refine same_in_store (free := fun _ _ => False) h4 ⟨fun _ _ => g2.sim.inj, fun j n hn => ?_, g2.sim.children, g2.sim.routes, g2.sim.defs⟩ (by rw [his]; rfl)
    (plainScene_of h.toGoodBody h2 (fun x _ c hc d hd hv => known_plain (protos := fun _ => none) (fuel := 0) hB (fun p hp => by cases hp) hc hd hv)) (fun _ _ _ _ _ _ _ h => h)
  obtain ⟨n', e1, e2, e3, e4⟩ := g2.sim.node j n hn
  exact ⟨n', e1, e2, e3, fun g _ => e4 g⟩

/-! ### The theorems apply -/

example : ∃ text named w φ, linearise defaults exFloats exScene 3 = .ok (text, named) ∧ Renamed exScene named ∧ ReadsWorld exLookup exFloats text w ∧ SameScene named w.file φ ∧ (w.scene 0).protos = [] :=
  C76_scene_round_trip exBuiltins goodDefaults exGoodScene (fun _ _ _ _ _ => by decide) (by decide)

example : ∃ text named w φ, lineariseFile defaults exFloats exFile 2 2 = .ok (text, named) ∧ Renamed exFile.scene named ∧ ReadsWorld exLookup exFloats text w ∧ SameScene named w.file φ ∧
    (∀ x, Needed exFile x → ∃ p k, exFile.protos x = some p ∧ (w.scene 0).protos.lookup x = some k ∧ SameProto p (w.proto k)) ∧
    ∀ x, ¬ Needed exFile x → (w.scene 0).protos.lookup x = none := C76_round_trip exBuiltins goodDefaults exFile_good exFile_lines

end Verif.Full
