import Verif.Lemmas.SameText
import Verif.Props.Lineariser
import Verif.Props.Refine
import Verif.Props.Instances
/-!
Writing what was read: the scene that is read corresponds to the one that was written.
-/
namespace Verif.Lin
open Verif.TextOut Verif.Text Verif.SceneText
variable {F : Type} {φ : Nat → Nat} {R : Nat → Prop}

theorem preroute_named {sc : Scene F} (h : ∀ r ∈ sc.routes, ∀ m, (sc.heap r.src = some m ∨ sc.heap r.dst = some m) → m.DEF ≠ []) : preroute sc = sc := by
  have key : ∀ (l : List Rt) (s : Scene F), (∀ r ∈ l, ∀ m, (s.heap r.src = some m ∨ s.heap r.dst = some m) → m.DEF ≠ []) →
      l.foldl (fun sc r => nameEnd (nameEnd sc r.src) r.dst) s = s := by
    intro l
    induction l with
    | nil => intro s _; rfl
    | cons r l ih =>
      intro s h
      have one : ∀ i, (∀ m, s.heap i = some m → m.DEF ≠ []) → nameEnd s i = s := by
        intro i hi
        rcases nameEnd_cases s i with ⟨h, -⟩ | ⟨n, k, hn, hD, -⟩
        · exact h
        · exact absurd hD (hi n hn)
      rw [List.foldl_cons, one r.src (fun m hm => h r (by simp) m (.inl hm)), one r.dst (fun m hm => h r (by simp) m (.inr hm))]
      exact ih s (fun x hx => h x (by simp [hx]))
  exact key _ _ h

theorem routes_rel {lv : LinValues} {a b : Scene F} : ∀ (l : List Rt) (st st' : St), (∀ r ∈ l, b.defOf (φ r.src) = a.defOf r.src ∧ b.defOf (φ r.dst) = a.defOf r.dst) → StRel φ R st st' →
    StRel φ R (l.foldl (fun st r => st.write (routeText lv a.defOf r)) st)
      ((l.map (fun r => (⟨φ r.src, r.srcField, φ r.dst, r.dstField⟩ : Rt))).foldl (fun st r => st.write (routeText lv b.defOf r)) st')
  | [], _, _, _, h => h
  | r :: l, st, st', hr, h => by
    simp only [List.foldl_cons, List.map_cons]
    have : routeText lv b.defOf ⟨φ r.src, r.srcField, φ r.dst, r.dstField⟩ = routeText lv a.defOf r := by
      simp only [routeText, (hr r (by simp)).1, (hr r (by simp)).2]
    rw [this]
    exact routes_rel l _ _ (fun x hx => hr x (by simp [hx])) (h.write _)

/-- corresponding scenes whose routed nodes have names are written as the same text -/
theorem linearise_rel {lv : LinValues} {fl : Floats F} {a b : Scene F} (hs : SceneRel fl φ R a b) (hn : ∀ r ∈ a.routes, ∀ m, (a.heap r.src = some m ∨ a.heap r.dst = some m) → m.DEF ≠ [])
    {fuel : Nat} {text : Text} {x : Scene F} (h : linearise lv fl a fuel = .ok (text, x)) : linearise lv fl b fuel = .ok (text, b) := by
  have hd : ∀ i, R i → b.defOf (φ i) = a.defOf i := by
    intro i hi
    obtain ⟨n, m, h1, h2, h3⟩ := hs.node i hi
    simp only [Scene.defOf, h1, h2, h3.DEF]
  have hb : ∀ r ∈ b.routes, ∀ m, (b.heap r.src = some m ∨ b.heap r.dst = some m) → m.DEF ≠ [] := by
    intro r hr m hm
    rw [hs.routes] at hr
    obtain ⟨r0, hr0, rfl⟩ := List.mem_map.1 hr
    obtain ⟨e1, e2⟩ := hs.ends r0 hr0
    rcases hm with hm | hm
    · obtain ⟨n, m', h1, h2, h3⟩ := hs.node _ e1
      simp only at hm
      rw [h2] at hm
      cases hm
      rw [h3.DEF]
      exact hn r0 hr0 n (.inl h1)
    · obtain ⟨n, m', h1, h2, h3⟩ := hs.node _ e2
      simp only at hm
      rw [h2] at hm
      cases hm
      rw [h3.DEF]
      exact hn r0 hr0 n (.inr h1)
  unfold linearise at h ⊢
  rw [preroute_named hn] at h
  rw [preroute_named hb]
  dsimp only at h ⊢
  unfold linBody at h ⊢
  rw [hs.children]
  have h0 : StRel φ R (⟨[], [], 0, false⟩ : St) ⟨[], [], 0, false⟩ := ⟨rfl, rfl, rfl, rfl, fun _ h => by cases h⟩
  rcases (children_rel (lv := lv) (node_rel (lv := lv) hs fuel) a.children _ _ h0 hs.reach).split with ⟨e, e1, e2⟩ | ⟨s, s', e1, e2, hss⟩
  · simp only [e1] at h; cases h
  · simp only [e1, e2] at h ⊢
    cases h
    have := routes_rel (lv := lv) (a := a) (b := b) a.routes s s' (fun r hr => ⟨hd _ (hs.ends r hr).1, hd _ (hs.ends r hr).2⟩) hss
    rw [hs.routes, this.out, rename_textOf]

/-- equality with a value without nodes does not see the identity of nodes -/
theorem eq_mapRef {fl : Floats F} {d v : Val F} (h : d.nodes = []) : Val.eq fl d (v.mapRef φ) = Val.eq fl d v := by
  cases v with
  | ref o =>
    cases d with
    | ref o' =>
      cases o' with
      | none => cases o <;> rfl
      | some j => simp [Val.nodes] at h
    | _ => rfl
  | refs l =>
    cases d with
    | refs l' =>
      have h' : ∀ x ∈ l', x = none := by
        intro x hx
        cases x with
        | none => rfl
        | some j =>
          exfalso
          have : j ∈ (Val.refs l' : Val F).nodes := by simpa [Val.nodes] using hx
          rw [h] at this; cases this
      show (l' == l.map (Option.map φ)) = (l' == l)
      rw [Bool.eq_iff_iff, beq_iff_eq, beq_iff_eq]
      constructor
      · rintro rfl
        refine (List.map_congr_left (g := id) (fun x hx => ?_)).trans (List.map_id _)
        have := h' (x.map φ) (List.mem_map_of_mem hx)
        cases x with
        | none => rfl
        | some _ => cases this
      · rintro rfl
        exact ((List.map_congr_left (g := id) (fun x hx => by rw [h' x hx]; rfl)).trans (List.map_id _)).symm
    | _ => rfl
  | _ => rfl

theorem omitted_mapRef {fl : Floats F} {d : FieldDecl F} (h : d.dfltNodes = []) (v : Val F) : Lin.omitted fl d.dflt (v.mapRef φ) = Lin.omitted fl d.dflt v := by
  unfold FieldDecl.dfltNodes at h
  cases hd : d.dflt with
  | none => rfl
  | scalar u => rw [hd] at h; simp only [omitted]; rw [eq_mapRef h]
  | array xs => cases v <;> rfl
  | other u => rfl
  | list u => rw [hd] at h; simp only [omitted]; rw [eq_mapRef h]
  | null => rfl

/-- A node class without declarations of its own is written alike. -/
theorem plain_rel {fl : Floats F} {n m : Node F} (hc : m.cls = n.cls) (hD : m.DEF = n.DEF) (hs : n.cls.proto ≠ scriptName) (hp : ∀ d ∈ n.cls.fields, d.dfltNodes = [])
    (hr : ∀ d ∈ n.cls.fields, Visible d → d.read m = (d.read n).map (Val.mapRef φ)) (hR : ∀ d ∈ n.cls.fields, Visible d → ∀ v, d.read n = some v → ∀ j ∈ v.nodes, R j) :
    NodeRel fl φ R n m := by
  refine ⟨by rw [hc], hD, ?_, fun h => absurd h hs, fun h => absurd h hs⟩
  rw [hc]
  have : ∀ l : List (FieldDecl F), (∀ d ∈ l, d ∈ n.cls.fields ∧ Visible d) → List.Forall₂ (AttrRel fl φ R n m) l l := by
    intro l
    induction l with
    | nil => exact fun _ => .nil
    | cons d l ih =>
      intro h
      obtain ⟨h1, h2⟩ := h d (by simp)
      exact .cons ⟨⟨rfl, rfl, rfl, rfl, rfl⟩, hr d h1 h2, fun v _ => omitted_mapRef (hp d h1) v, hR d h1 h2⟩ (ih (fun x hx => h x (by simp [hx])))
  refine this _ (fun d hd => ?_)
  exact ⟨(attrFields_mem.1 hd).1, (attrFields_mem.1 hd).2.1⟩

end Verif.Lin

namespace Verif.Full
open Verif.TextOut
open Verif.Lin hiding disp dispList dispDecls dispAttrs disp_node disp_attr
variable {F : Type} {base : Text → Option (Class F)} {fl : Floats F}

/-- some scene graph has a prototype -/
def HasProto (w : World F) : Prop := ∃ s, s < w.nscenes ∧ (w.scene s).protos ≠ []

theorem HasProto.same {w w' : World F} (h : HasProto w) (hn : w'.nscenes = w.nscenes) (hp : ∀ s, (w'.scene s).protos = (w.scene s).protos) : HasProto w' := by
  obtain ⟨s, h1, h2⟩ := h
  exact ⟨s, by rw [hn]; exact h1, by rw [hp]; exact h2⟩

theorem Run.hasProto (hb : PlainBase base) {plain : Bool} {ss ps l} {w w' : World F} (hr : Run base fl plain ss ps l w w') :
    Inv base w ps → ss.headD 0 < w.nscenes → (HasProto w → HasProto w') ∧ (w'.nclasses ≠ w.nclasses → HasProto w') := by
  have quiet : ∀ {w w' : World F}, w'.nscenes = w.nscenes → w'.nclasses = w.nclasses → (∀ s, (w'.scene s).protos = (w.scene s).protos) →
      (HasProto w → HasProto w') ∧ (w'.nclasses ≠ w.nclasses → HasProto w') :=
    fun h1 h2 h3 => ⟨fun h => h.same h1 h3, fun h => absurd h2 h⟩
  induction hr with
  | nil => exact fun _ _ => quiet rfl rfl (fun _ => rfl)
  | @trans ss ps l l' a b c r1 r2 ih1 ih2 =>
    intro hw hs
    obtain ⟨hw2, e⟩ := r1.inv hb hw
    obtain ⟨a1, b1⟩ := ih1 hw hs
    obtain ⟨a2, b2⟩ := ih2 hw2 (lt_of_lt_of_le hs e.nscenes)
    refine ⟨fun h => a2 (a1 h), fun h => ?_⟩
    by_cases h' : b.nclasses = a.nclasses
    · exact b2 (by rw [h']; exact h)
    · exact a2 (b1 h')
  | create _ hc =>
    intro hw _
    obtain ⟨-, c, k, hn, -⟩ := create_inv hb hw hc
    exact quiet hn.nscenes hn.nclasses (fun s => (hn.same s).1)
  | script _ hc =>
    intro hw _
    have hn := (script_inv hw hc).2
    exact quiet hn.nscenes hn.nclasses (fun s => (hn.same s).1)
  | setClass => exact fun _ _ => quiet rfl rfl (fun _ => rfl)
  | use => exact fun _ _ => quiet rfl rfl (fun _ => rfl)
  | @route ss ps s sf d df si di w h1 h2 h3 h4 =>
    intro _ _
    have hq := bind_quiet w si sf di df
    refine quiet hq.nscenes hq.nclasses (fun t => ?_)
    simp only [World.addRoute, upd, hq.scene]
    split <;> simp_all
  | @is ss ps m i n nm w w' h1 h2 =>
    intro _ _
    unfold World.addIs at h2
    split at h2
    · cases h2
    · cases h2; exact quiet rfl rfl (fun _ => rfl)
  | attr _ _ _ h4 =>
    intro _ _
    have hq := setAttr_quiet h4
    exact quiet hq.nscenes hq.nclasses (fun s => by rw [hq.scene])
  | children =>
    intro _ _
    refine quiet rfl rfl (fun t => ?_)
    simp only [upd]
    split <;> simp_all
  | decl => exact fun _ _ => quiet rfl rfl (fun _ => rfl)
  | @body ss ps c l w w' hr ih =>
    intro hw hs
    obtain ⟨h1, e1⟩ := hw.newScene (some (ss.headD 0))
    obtain ⟨a, b⟩ := ih h1 (by simp [World.newScene])
    refine ⟨fun h => ?_, fun h => ?_⟩
    · obtain ⟨s, g1, g2⟩ := h
      obtain ⟨s', g3, g4⟩ := a ⟨s, by simp only [World.newScene]; omega, by simp only [World.newScene, upd]; rw [if_neg (by omega)]; exact g2⟩
      exact ⟨s', g3, g4⟩
    · obtain ⟨s', g3, g4⟩ := b h
      exact ⟨s', g3, g4⟩
  | @proto ss ps nm rest l w w' hr hI ih =>
    intro hw hs
    obtain ⟨h1, e1⟩ := hw.newClass nm
    obtain ⟨-, e2⟩ := hr.inv hb h1
    have : HasProto (w'.addProto (ss.headD 0) nm w.nclasses) := ⟨ss.headD 0, lt_of_lt_of_le hs e2.nscenes, by simp [World.addProto, upd]⟩
    exact ⟨fun _ => this, fun _ => this⟩

/-- the nodes of a file without prototypes are of built-in types or Scripts -/
theorem reads_builtin (hB : Builtins base fl) {text : Text} {w : World F} (h : ReadsWorld base fl text w) (hp : ∀ s, (w.scene s).protos = []) {i : Nat} {n : Node F}
    (hn : w.heap i = some n) : base n.cls.proto = some n.cls ∨ n.cls.proto = scriptName := by
  obtain ⟨l, r⟩ := reads_steps hB h
  have hinv := (r.inv hB.plain init_inv).1
  have hnp : ¬ HasProto w := fun ⟨s, _, h⟩ => h (hp s)
  have hc : w.nclasses = 0 := by
    by_contra hc
    exact hnp ((r.hasProto hB.plain init_inv (by simp [World.init])).2 (by simpa [World.init] using hc))
  have hi : w.inst i = none := by
    cases hi : w.inst i with
    | none => rfl
    | some k => have := (hinv.inst i k hi).1; omega
  rcases hinv.built i n hn hi with ⟨t, ht⟩ | h
  · left; rw [hB.name t _ ht]; exact ht
  · exact .inr h

end Verif.Full
