import Verif.Spec.CopyText
import Verif.Lemmas.SameText2
import Verif.Props.Copy
/-!
Scenes that look alike to the writer, for C89.
-/
namespace Verif.Lin
open Verif.TextOut
variable {F : Type} {φ : Nat → Nat} {R : Nat → Prop}

theorem mem_insertBy {α : Type} {le : α → α → Bool} {a x : α} : ∀ {l : List α}, x ∈ insertBy le a l ↔ x = a ∨ x ∈ l
  | [] => by simp [insertBy]
  | b :: l => by
    simp only [insertBy]
    split
    · simp
    · simp only [List.mem_cons, mem_insertBy (l := l)]
      tauto

theorem mem_sortBy' {α : Type} {le : α → α → Bool} {x : α} : ∀ {l : List α}, x ∈ sortBy le l ↔ x ∈ l
  | [] => by simp [sortBy]
  | b :: l => by
    have := mem_sortBy' (le := le) (x := x) (l := l)
    simp only [sortBy, List.foldr_cons, mem_insertBy, List.mem_cons] at this ⊢
    rw [this]

theorem attr_shown {c : Class F} {d : FieldDecl F} (h : d ∈ attrFields c) : d ∈ c.fields ∧ shownName d.name = true := by
  have h := mem_sortBy'.1 h
  simp only [List.mem_filter] at h
  refine ⟨h.1, ?_⟩
  have h2 := h.2
  split at h2
  · simp only [scriptAttrs, List.contains_iff_mem, List.mem_cons, List.not_mem_nil, or_false] at h2
    rcases h2 with h2 | h2 | h2 <;> rw [h2] <;> rfl
  · exact h2

theorem decl_shown {c : Class F} {f : PField F} (h : f ∈ scriptFields c) : f.decl ∈ c.fields ∧ shownName f.decl.name = true := by
  simp only [scriptFields, List.mem_map] at h
  obtain ⟨d, hd, rfl⟩ := h
  have h := mem_sortBy'.1 hd
  simp only [List.mem_filter, Bool.and_eq_true] at h
  exact ⟨h.1, h.2.2⟩

theorem mapRef_fix {v : Val F} (h : ∀ j ∈ v.nodes, φ j = j) : v.mapRef φ = v := by
  cases v with
  | ref o => cases o with
    | none => rfl
    | some i => simp [Val.mapRef, h i (by simp [Val.nodes])]
  | refs l =>
    simp only [Val.mapRef]
    congr 1
    conv_rhs => rw [← List.map_id l]
    refine List.map_congr_left (fun o ho => ?_)
    cases o with
    | none => rfl
    | some i => simp [h i (by simpa [Val.nodes] using ho)]
  | _ => rfl

theorem forall₂_self {α : Type} {P : α → α → Prop} : ∀ {l : List α}, (∀ a ∈ l, P a a) → List.Forall₂ P l l
  | [], _ => .nil
  | a :: l, h => .cons (h a (by simp)) (forall₂_self (fun b hb => h b (by simp [hb])))

/-- a node of the same class that shows the same is written alike -/
theorem nodeRel_same {fl : Floats F} {n m : Node F} (hc : m.cls = n.cls) (hD : m.DEF = n.DEF) (hd : ∀ d ∈ n.cls.fields, m.dict d.name = n.dict d.name)
    (hR : ∀ j, Refs n j → R j ∧ φ j = j) : NodeRel fl φ R n m := by
  have hread : ∀ d ∈ n.cls.fields, d.read m = d.read n := fun d h => by simp only [FieldDecl.read, hd d h]
  refine ⟨by rw [hc], hD, ?_, fun _ => by rw [hc], fun _ => ?_⟩
  · rw [hc]
    refine forall₂_self (fun d h => ?_)
    obtain ⟨h1, h2⟩ := attr_shown h
    refine ⟨⟨rfl, rfl, rfl, rfl, rfl⟩, ?_, fun v hv => ?_, fun v hv j hj => (hR j ⟨d, h1, h2, v, .inl hv, hj⟩).1⟩
    · rw [hread d h1]
      cases hv : d.read n with
      | none => rfl
      | some v => rw [Option.map_some, mapRef_fix (fun j hj => (hR j ⟨d, h1, h2, v, .inl hv, hj⟩).2)]
    · rw [mapRef_fix (fun j hj => (hR j ⟨d, h1, h2, v, .inl hv, hj⟩).2)]
  · rw [hc]
    refine forall₂_self (fun f h => ?_)
    obtain ⟨h1, h2⟩ := decl_shown h
    refine ⟨rfl, ⟨rfl, rfl, rfl, rfl, rfl⟩, ?_, fun v hv j hj => (hR j ⟨f.decl, h1, h2, v, .inr hv, hj⟩).1⟩
    cases hv : f.decl.default with
    | none => rfl
    | some v => rw [Option.map_some, mapRef_fix (fun j hj => (hR j ⟨f.decl, h1, h2, v, .inr hv, hj⟩).2)]

/-- scenes with the same children and routes and the same nodes, as far as the writer gets to see, and the same names in use -/
structure Alike (R : Nat → Prop) (a b : Scene F) : Prop where
  node : ∀ i, R i → ∃ n, a.heap i = some n ∧ b.heap i = some n ∧ ∀ j, Refs n j → R j
  is : a.is = none ∧ b.is = none
  children : b.children = a.children
  reach : ∀ i ∈ a.children, R i
  routes : b.routes = a.routes
  ends : ∀ r ∈ a.routes, R r.src ∧ R r.dst
  names : ∀ nm, nm ≠ [] → (a.getDEF nm = none ↔ b.getDEF nm = none)

theorem Alike.free {a b : Scene F} (h : Alike R a b) (proto : Text) :
    freeName b proto (b.defs.length + 1) 0 = freeName a proto (a.defs.length + 1) 0 := by
  obtain ⟨x, hx⟩ := Option.ne_none_iff_exists'.1 (freeName_found a proto)
  obtain ⟨y, hy⟩ := Option.ne_none_iff_exists'.1 (freeName_found b proto)
  rw [hx, hy]
  obtain ⟨x1, i, -, rfl, x2⟩ := freeName_some _ _ hx
  obtain ⟨y1, j, -, rfl, y2⟩ := freeName_some _ _ hy
  have hne : ∀ k, cand proto k ≠ [] := fun k => by simp [cand]
  have : i = j := by
    rcases Nat.lt_trichotomy i j with hl | hl | hl
    · exact absurd ((h.names _ (hne i)).1 x1) (y2 i (by omega) hl)
    · exact hl
    · exact absurd ((h.names _ (hne j)).2 y1) (x2 j (by omega) hl)
  rw [this]

theorem getDEF_reg {a : Scene F} {x nm : Text} {i : Nat} (hi : a.defOf i = []) (hn : nm ≠ []) :
    (a.regDefName x i).getDEF nm = if nm = x then some i else a.getDEF nm := by
  simp only [Scene.getDEF, Scene.regDefName, hi]
  by_cases h : nm = x
  · subst h; rw [if_pos rfl]; simp [List.lookup_cons]
  · rw [List.lookup_cons]
    have : (nm == x) = false := by simpa using h
    simp only [this]
    rw [if_neg h, lookup_filter_ne h]
    by_cases hc : a.defs.lookup [] = some i
    · rw [if_pos hc]; exact lookup_filter_ne hn
    · rw [if_neg hc]

theorem Alike.nameEnd {a b : Scene F} (h : Alike R a b) {i : Nat} (hi : R i) : Alike R (nameEnd a i) (nameEnd b i) := by
  obtain ⟨n, h1, h2, h3⟩ := h.node i hi
  unfold Lin.nameEnd
  simp only [h1, h2, h.free]
  split
  · exact h
  · rename_i hD
    have hD : n.DEF = [] := by simpa using hD
    cases hf : freeName a n.cls.proto (a.defs.length + 1) 0 with
    | none => exact h
    | some x =>
      have e1 : a.defOf i = [] := by simp only [Scene.defOf, h1, hD]
      have e2 : b.defOf i = [] := by simp only [Scene.defOf, h2, hD]
      refine ⟨fun j hj => ?_, h.is, h.children, h.reach, h.routes, h.ends, fun nm hn => ?_⟩
      · by_cases hji : j = i
        · subst hji
          exact ⟨{ n with DEF := x }, by simp [Scene.regDefName, h1], by simp [Scene.regDefName, h2], h3⟩
        · obtain ⟨m, m1, m2, m3⟩ := h.node j hj
          exact ⟨m, by simp [Scene.regDefName, hji, m1], by simp [Scene.regDefName, hji, m2], m3⟩
      · rw [getDEF_reg e1 hn, getDEF_reg e2 hn]
        split
        · simp
        · exact h.names nm hn

theorem foldl_alike {l : List Rt} : ∀ {a b : Scene F}, Alike R a b → (∀ r ∈ l, R r.src ∧ R r.dst) →
    Alike R (l.foldl (fun sc r => nameEnd (nameEnd sc r.src) r.dst) a) (l.foldl (fun sc r => nameEnd (nameEnd sc r.src) r.dst) b) := by
  induction l with
  | nil => intro a b h _; exact h
  | cons r l ih =>
    intro a b h hl
    obtain ⟨h1, h2⟩ := hl r (by simp)
    exact ih ((h.nameEnd h1).nameEnd h2) (fun x hx => hl x (by simp [hx]))

theorem Alike.preroute {a b : Scene F} (h : Alike R a b) : Alike R (preroute a) (preroute b) := by
  unfold Lin.preroute
  rw [h.routes]
  exact foldl_alike h h.ends

theorem Alike.rel {fl : Floats F} {a b : Scene F} (h : Alike R a b) : SceneRel fl id R a b := by
  refine ⟨fun i hi => ?_, h.is, fun i j _ _ e => e, by simp [h.children], h.reach, by simp [h.routes], h.ends⟩
  obtain ⟨n, h1, h2, h3⟩ := h.node i hi
  exact ⟨n, n, h1, h2, nodeRel_same rfl rfl (fun _ _ => rfl) (fun j hj => ⟨h3 j hj, rfl⟩)⟩

theorem Alike.text {lv : LinValues} {fl : Floats F} {a b : Scene F} (h : Alike R a b) (fuel : Nat) :
    CopyText.sceneText lv fl b fuel = CopyText.sceneText lv fl a fuel := by
  have hp := h.preroute
  have hs := hp.rel (fl := fl)
  unfold CopyText.sceneText linearise linBody
  dsimp only
  rw [hp.children]
  have h0 : StRel id R (⟨[], [], 0, false⟩ : St) ⟨[], [], 0, false⟩ := ⟨rfl, rfl, rfl, rfl, fun _ h => by cases h⟩
  have hc := children_rel (lv := lv) (node_rel (lv := lv) hs fuel) (Lin.preroute a).children _ _ h0 hs.reach
  rw [List.map_id] at hc
  rcases hc.split with ⟨e, e1, e2⟩ | ⟨s, s', e1, e2, hss⟩
  · simp only [e1, e2]
  · simp only [e1, e2]
    have hd : ∀ i, R i → (Lin.preroute b).defOf (id i) = (Lin.preroute a).defOf i := by
      intro i hi
      obtain ⟨n, h1, h2, -⟩ := hp.node i hi
      simp only [Scene.defOf, id, h1, h2]
    have := routes_rel (lv := lv) (a := Lin.preroute a) (b := Lin.preroute b) (φ := id) (Lin.preroute a).routes s s' (fun r hr => ⟨hd _ (hs.ends r hr).1, hd _ (hs.ends r hr).2⟩) hss
    rw [hs.routes, this.out, rename_textOf]

end Verif.Lin
