import Verif.Lemmas.Refine6
import Verif.Props.ProtoText
/-!
Scenes and prototypes read back, in the store of the whole reader.
-/
namespace Verif.Full
open Verif.Peg Verif.Grammar Verif.TextOut Verif.SceneText Verif.Reader
open Verif.Lin hiding disp dispList dispDecls dispAttrs disp_node disp_attr
variable {F : Type} {base : Text → Option (Class F)} {fl : Floats F}

theorem mapRef_rename (ρ : Nat → Nat) (v : Val F) : v.mapRef ρ = v.rename ρ := by cases v <;> rfl

theorem mapRef_comp (ρ φ : Nat → Nat) (v : Val F) : (v.mapRef φ).rename ρ = v.mapRef (ρ ∘ φ) := by
  cases v with
  | ref o => cases o <;> rfl
  | refs l =>
    simp only [Val.mapRef, Val.rename, List.map_map, Val.refs.injEq]
    refine List.map_congr_left (fun o _ => ?_)
    cases o <;> rfl
  | _ => rfl

theorem default_rename (ρ : Nat → Nat) (d : FieldDecl F) : (d.rename ρ).default = d.default.map (Val.rename ρ) := by
  simp only [FieldDecl.default, FieldDecl.rename, value_rename]
  cases d.dflt.value with
  | none => rfl
  | some v => simp [coerce_rename]

theorem read_rename {ρ : Nat → Nat} {d : FieldDecl F} {n n' : Node F} (h : n'.dict d.name = (n.dict d.name).map (Val.rename ρ)) :
    (d.rename ρ).read n' = (d.read n).map (Val.rename ρ) := by
  simp only [FieldDecl.read, show (d.rename ρ).name = d.name from rfl, h]
  cases n.dict d.name with
  | some v => rfl
  | none =>
    simp only [Option.map_none]
    have := default_rename ρ d
    simp only [FieldDecl.default] at this
    cases h1 : (d.rename ρ).dflt.value <;> cases h2 : d.dflt.value <;> simp_all

/-- fields that are not declared by Scripts have no nodes in their defaults -/
def PlainScene (sc : Scene F) : Prop :=
  ∀ i n, Reach sc i → sc.heap i = some n → ∀ d ∈ n.cls.fields, Visible d → ¬ Declared n.cls d.name → ∀ v, d.default = some v → v.nodes = []

theorem sameType_rename {d d' : FieldDecl F} (ρ : Nat → Nat) (h : SameType d d') : SameType d (d'.rename ρ) := ⟨h.name, h.cls, h.kind, h.str, h.conv⟩

theorem sameField_rename {d d' : FieldDecl F} (ρ : Nat → Nat) (h : SameField d d') (hp : ∀ v, d.default = some v → v.nodes = []) : SameField d (d'.rename ρ) := by
  refine ⟨sameType_rename ρ h.toSameType, ?_⟩
  rw [default_rename, h.dflt]
  cases hd : d.default with
  | none => rfl
  | some v => simp [val_plain ρ (hp v hd)]

theorem visible_of_name {d d' : FieldDecl F} (h : d'.name = d.name) (hv : Visible d') : Visible d := by
  unfold Visible at *; rw [← h]; exact hv

theorem sameClass_rename {c c' : Class F} (ρ : Nat → Nat) (h : SameClass c c') (hp : ∀ d ∈ c.fields, Visible d → ¬ Declared c d.name → ∀ v, d.default = some v → v.nodes = []) :
    SameClass c (c'.rename ρ) := by
  refine ⟨h.proto, fun d hd hv => ?_, fun d' hd' hv => ?_, h.mapped, h.exposed, h.events⟩
  · obtain ⟨d', h1, h2, h3⟩ := h.fields d hd hv
    exact ⟨d'.rename ρ, List.mem_map_of_mem h1, sameType_rename ρ h2, fun hn => sameField_rename ρ (h3 hn) (hp d hd hv hn)⟩
  · obtain ⟨d0, h0, rfl⟩ := List.mem_map.1 hd'
    obtain ⟨d, h1, h2, h3⟩ := h.back d0 h0 hv
    exact ⟨d, h1, sameType_rename ρ h2, fun hn => sameField_rename ρ (h3 hn) (hp d h1 (visible_of_name h2.name hv) hn)⟩

theorem isMapped_rename {a b : Scene F} {ρ : Nat → Nat} (hinj : ∀ i j, ρ i = ρ j → i = j) (h : b.is = a.is.map (renameIs ρ)) (i : Nat) (f nm : Text) : IsMapped b (ρ i) f nm ↔ IsMapped a i f nm := by
  unfold IsMapped
  rw [h]
  constructor
  · rintro ⟨dict, l, h1, h2, h3⟩
    obtain ⟨d0, e0, rfl⟩ := Option.map_eq_some_iff.1 h1
    obtain ⟨⟨nm', l'⟩, e1, e2⟩ := List.mem_map.1 h2
    cases e2
    obtain ⟨⟨i', f'⟩, e3, e4⟩ := List.mem_map.1 h3
    simp only [Prod.mk.injEq] at e4
    obtain ⟨e5, rfl⟩ := e4
    rw [← hinj _ _ e5]
    exact ⟨d0, l', e0, e1, e3⟩
  · rintro ⟨dict, l, h1, h2, h3⟩
    exact ⟨renameIs ρ dict, l.map (fun x => (ρ x.1, x.2)), by rw [h1]; rfl, List.mem_map.2 ⟨_, h2, rfl⟩, List.mem_map.2 ⟨_, h3, rfl⟩⟩

/-- the scene read back, in the store -/
theorem same_in_store {a b : Scene F} {φ ρ : Nat → Nat} {free : Nat → Text → Prop} {w : World F} {s : Nat} {is} (h : SameScene a b φ) (hh : Holds w s ρ free b) (his : is = b.is.map (renameIs ρ))
    (hp : PlainScene a) (hfree : ∀ i n, Reach a i → a.heap i = some n → ∀ d ∈ n.cls.fields, Shown a i d → ¬ free (φ i) d.name) : SameScene a (w.view s is) (ρ ∘ φ) := by
  refine ⟨fun i hi => ?_, fun i hi f nm => ?_, fun i j hi hj he => h.inj i j hi hj (hh.inj _ _ he), ?_, ?_⟩
  · obtain ⟨n, m, h1, h2, h3, h4, h5⟩ := h.nodes i hi
    obtain ⟨m', g1, g2, g3, g4⟩ := hh.nodes _ m h2
    refine ⟨n, m', h1, g1, by rw [g2]; exact sameClass_rename ρ h3 (hp i n hi h1), g3.trans h4, fun d hd hs d' hd' hn => ?_⟩
    rw [g2] at hd'
    obtain ⟨d0, h0, rfl⟩ := List.mem_map.1 hd'
    obtain ⟨r1, r2⟩ := h5 d hd hs d0 h0 hn
    have hn' : d0.name = d.name := hn
    constructor
    · rw [read_rename (g4 _ (by rw [hn']; exact hfree i n hi h1 d hd hs)), r1, Option.map_map]
      congr 1; funext v; exact mapRef_comp ρ φ v
    · intro hdec
      rw [default_rename, r2 hdec, Option.map_map]
      congr 1; funext v; exact mapRef_comp ρ φ v
  · exact (isMapped_rename (b := w.view s is) hh.inj his (φ i) f nm).trans (h.is i hi f nm)
  · simp only [World.view, hh.children, h.children, List.map_map]
  · simp only [World.view, hh.routes, h.routes, List.map_map]; rfl

/-- good nodes have plain defaults -/
theorem goodNode_plain {lk : Text → Option (Class F)} {sc : Scene F} {i n} (h : GoodNode lk fl sc i n) (hlk : n.cls.proto ≠ chars "Script" → ∀ c, lk n.cls.proto = some c → ∀ d ∈ c.fields, Visible d → ∀ v, d.default = some v → v.nodes = [])
    {d} (hd : d ∈ n.cls.fields) (hv : Visible d) (hn : ¬ Declared n.cls d.name) : ∀ v, d.default = some v → v.nodes = [] := by
  intro v hdv
  rcases h.cls with ⟨h0, c, h1, h2, -⟩ | hs
  · obtain ⟨d', e1, e2, e3⟩ := h2.fields d hd hv
    have h' := e3 hn
    exact hlk (fun e => by rw [e] at h0; revert h0; decide) c h1 d' e1 (by unfold Visible at *; rw [h'.name]; exact hv) v (by rw [h'.dflt]; exact hdv)
  · have : d.name = chars "url" ∨ d.name = chars "directOutput" ∨ d.name = chars "mustEvaluate" := by
      by_contra hc
      simp only [not_or] at hc
      exact hn ⟨hs.proto, hc.1, hc.2.1, hc.2.2⟩
    have key : ∀ g ∈ (scriptProto : ProtoDef F).fields, g.decl.name = d.name → g.decl.name ≠ chars "externalURL" → (∀ v, g.decl.default = some v → v.nodes = []) → v.nodes = [] := by
      intro g hg hgn hne hpl
      obtain ⟨d1, e1, e2, e3⟩ := hs.common g hg
      have : d1 = d := List.inj_on_of_nodup_map h.distinct e1 hd (e2.trans hgn)
      subst this
      refine hpl v ?_
      rw [(e3 hne).1.dflt, hdv]
    rcases this with e | e | e
    · exact key ⟨⟨chars "url", chars "MFString", .mfString, fun _ => [], id, .list (.strs [])⟩, true⟩ (by simp [scriptProto]) e.symm (by simp) (fun v hv => by cases hv; rfl)
    · exact key ⟨⟨chars "directOutput", chars "SFBool", .sfBool, fun _ => [], id, .scalar (.bool false)⟩, false⟩ (by simp [scriptProto]) e.symm (by simp) (fun v hv => by cases hv; rfl)
    · exact key ⟨⟨chars "mustEvaluate", chars "SFBool", .sfBool, fun _ => [], id, .scalar (.bool false)⟩, false⟩ (by simp [scriptProto]) e.symm (by simp) (fun v hv => by cases hv; rfl)

theorem mapped_rename {p q : ProtoDef F} {ρ : Nat → Nat} (h1 : q.port = p.port) (h2 : q.isMaps = renameIs ρ p.isMaps) : q.mapped = p.mapped := by
  simp only [ProtoDef.mapped, h1, h2]
  generalize p.isMaps = l
  induction l with
  | nil => rfl
  | cons e l ih =>
    have he : (e.2.map (fun x => (ρ x.1, x.2)) = []) ↔ e.2 = [] := by simp
    simp only [renameIs, List.map_cons, List.filterMap_cons] at ih ⊢
    cases resolveName p.port e.1 with
    | none => simp only; exact ih
    | some q =>
      cases q with
      | inr _ => simp only; exact ih
      | inl d =>
        simp only [he]
        by_cases h0 : e.2 = []
        · simp only [if_pos h0]; exact ih
        · simp only [if_neg h0]; rw [ih]

theorem HoldK.holds {w : World F} {own k p r} (h : HoldK w own k p r) : HoldsProto w k p := by
  obtain ⟨s, sc, l, h1, -, h3, h4, h5, h6, -⟩ := h.body
  exact ⟨h.decl, s, r, sc, l, h1, h3, h4, h5, h6⟩

/-- the nodes of the read scene are plain if its types are -/
theorem plainScene_of {lk : Text → Option (Class F)} {sc named : Scene F} {all} (h : GoodBody lk fl sc all) (hr : Renamed sc named)
    (hlk : ∀ x, Uses sc x → ∀ c, lk x = some c → ∀ d ∈ c.fields, Visible d → ∀ v, d.default = some v → v.nodes = []) : PlainScene named := by
  intro i n hi hn d hd hv hnd
  have hi' := hr.reach_iff.1 hi
  rcases hr.node i with ⟨-, h2⟩ | ⟨n0, m, h1, h2, h3, -⟩
  · rw [hn] at h2; cases h2
  · rw [hn] at h2; cases h2
    rw [h3] at hd hnd
    exact goodNode_plain (h.nodes i n0 hi' h1) (fun hs => hlk _ ⟨hs, i, n0, hi', h1, rfl⟩) hd hv hnd

/-- the prototype read back, in the store -/
theorem proto_in_store {lk : Text → Option (Class F)} {fuel x} {p p' : ProtoDef F} {w : World F} {k : Nat} (h : SameProto p p') (hh : HoldsProto w k p') (hg : GoodProto lk fl fuel x p)
    (hlk : ∀ b, p.body = some b → ∀ x, Uses b x → ∀ c, lk x = some c → ∀ d ∈ c.fields, Visible d → ∀ v, d.default = some v → v.nodes = []) : SameProto p (w.proto k) := by
  obtain ⟨s, ρ, sc, l, h1, h2, h3, h4, h5⟩ := hh.body
  have e1 : (w.proto k).name = p'.name := by simp [World.proto, hh.decl]
  have e2 : (w.proto k).fields = p'.fields := by simp [World.proto, hh.decl]
  have e3 : (w.proto k).events = p'.events := by simp [World.proto, hh.decl]
  have e4 : (w.proto k).body = some (w.view s (some (w.cls k).is)) := by simp [World.proto, h1]
  have e5 : (w.proto k).cls = p'.cls := by
    have hm : (w.proto k).mapped = p'.mapped := mapped_rename (ρ := ρ) (by funext nm; simp only [ProtoDef.port, e2, e3]) (by
      simp only [ProtoDef.isMaps, e4, h2, World.view, Option.getD_some, h3, h4])
    simp only [ProtoDef.cls, e1, e2, e3, hm]
  refine ⟨e1.trans h.name, by rw [e5]; exact h.cls, by rw [e2]; exact h.exposed, by rw [e3]; exact h.events, ?_⟩
  obtain ⟨b, b', named, φ, g1, g2, g3, g4⟩ := h.body
  rw [h2] at g2; cases g2
  obtain ⟨b0, all, f1, -, f3, -⟩ := hg.body
  rw [g1] at f1; cases f1
  refine ⟨b, _, named, ρ ∘ φ, g1, e4, g3, same_in_store g4 h5 (by rw [h3, h4]; rfl) (plainScene_of f3 g3 (hlk b g1)) (fun i n hi hn d hd hs hm => ?_)⟩
  obtain ⟨l', nm, ends, f, m, d', m1, m2, m3, m4, m5, m6⟩ := hm
  have hmap : IsMapped named i f nm := (g4.is i hi f nm).1 ⟨l', ends, m1, m2, m3⟩
  have hmap' : IsMapped b i f nm := by unfold IsMapped at *; rw [← g3.is]; exact hmap
  obtain ⟨n0, m0, q1, q2, q3, -⟩ := g4.nodes i hi
  rw [m4] at q2; cases q2
  rw [hn] at q1; cases q1
  have hi' := g3.reach_iff.1 hi
  have : ∃ n1, b.heap i = some n1 ∧ n.cls = n1.cls := by
    rcases g3.node i with ⟨-, h2⟩ | ⟨n1, m1, r1, r2, r3, -⟩
    · rw [hn] at h2; cases h2
    · rw [hn] at r2; cases r2; exact ⟨n1, r1, r3⟩
  obtain ⟨n1, r1, r3⟩ := this
  obtain ⟨-, d0, s1, s2, -, s4⟩ := (f3.nodes i n1 hi' r1).isField f nm hmap'
  obtain ⟨d1, t1, t2, -⟩ := q3.fields d0 (by rw [r3]; exact s1) s2
  have hf : d'.name = f := by
    have hport : m.cls.port f ≠ none := by
      simp only [Class.port]
      split
      · simp
      · intro hc
        simp only [Option.map_eq_none_iff, List.find?_eq_none] at hc
        exact hc d1 t1 (by simp [t2.name, s4])
    have hgf : m.cls.port f = some (.inl d') := by
      unfold Class.getField resolveName at m5
      split at m5
      · next hq => rw [hq]; exact m5
      · next hq => exact absurd hq hport
    simp only [Class.port] at hgf
    split at hgf
    · cases hgf
    · obtain ⟨d2, u1, u2⟩ := Option.map_eq_some_iff.1 hgf
      cases u2
      simpa using List.find?_some u1
  exact hs.2 nm (by rw [← m6, hf]; exact hmap)

end Verif.Full
