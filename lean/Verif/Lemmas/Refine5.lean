import Verif.Lemmas.Refine4
/-!
The two readers side by side: the prototypes of a file.
-/
namespace Verif.Full
open Verif.Peg Verif.Grammar Verif.TextOut Verif.SceneText Verif.Reader
open Verif.Lin hiding disp dispList dispDecls dispAttrs disp_node disp_attr
variable {F : Type} {base : Text → Option (Class F)}

/-- class `k` is the prototype `p`, with body nodes renumbered by `r`; `own` tells which prototype's body a node is in -/
structure HoldK (w : World F) (own : Nat → Option Nat) (k : Nat) (p : ProtoDef F) (r : Nat → Nat) : Prop where
  decl : (w.cls k).decl = { p with body := none }
  plain : ∀ f ∈ p.fields, f.decl.dfltNodes = []
  url : ∀ l, p.url ≠ .urls l
  body : ∃ s sc l, (w.cls k).body = some s ∧ s ≠ 0 ∧ p.body = some sc ∧ sc.is = some l ∧ (w.cls k).is = renameIs r l ∧ Holds w s r (MappedField sc) sc ∧
    (∀ j, (sc.heap j).isSome → own (r j) = some k) ∧ (∀ e ∈ l, ∀ x ∈ e.2, (sc.heap x.1).isSome)

/-- the readers of files agree -/
structure FSim (base : Text → Option (Class F)) (ρ : Nat → Nat) (P : Nat → ProtoDef F) (R : Nat → Nat → Nat) (own : Nat → Option Nat) (f : FSt F) (w : World F) : Prop where
  sim : Sim ρ (fun _ => none) 0 [] f.rs w
  inv : Inv base w []
  scenes : 0 < w.nscenes
  only : ∀ t, t ≠ 0 → (w.scene t).protos = []
  protos : f.protos = (w.scene 0).protos.map (fun e => (e.1, P e.2))
  file : ∀ j, own (ρ j) = none
  bound : ∀ i, (own i).isSome → i < w.next
  known : ∀ nm k, (nm, k) ∈ (w.scene 0).protos → HoldK w own k (P k) (R k)

theorem HoldK.isMaps {w : World F} {own k p r} (h : HoldK w own k p r) : (w.cls k).isMaps = renameIs r p.isMaps := by
  obtain ⟨s, sc, l, h1, h2, h3, h4, h5, -⟩ := h.body
  simp only [ClassObj.isMaps, h1, Option.isSome_some, if_true, h5, ProtoDef.isMaps, h3, h4, Option.getD_some]

theorem port_cls (p : ProtoDef F) : p.cls.port = p.port := by funext nm; rfl

theorem HoldK.cls {w : World F} {own k p r} (h : HoldK w own k p r) : (w.cls k).cls = p.cls := by
  have hp : (w.cls k).decl.port = p.port := by rw [h.decl]; rfl
  have hm : (w.cls k).isMaps.filterMap (fun e => match resolveName (w.cls k).decl.port e.1 with
      | some (.inl d) => if e.2 = [] then none else some d.name
      | _ => none) = p.mapped := by
    rw [h.isMaps, hp, ProtoDef.mapped]
    generalize p.isMaps = l
    induction l with
    | nil => rfl
    | cons e l ih =>
      have he : (e.2.map (fun x => (r x.1, x.2)) = []) ↔ e.2 = [] := by simp
      simp only [renameIs, List.map_cons, List.filterMap_cons] at ih ⊢
      cases resolveName p.port e.1 with
      | none => simp only; exact ih
      | some q =>
        cases q with
        | inr _ => simp only; exact ih
        | inl d =>
          simp only [he]
          by_cases h0 : e.2 = []
          · simp only [if_pos h0]; exact ih
          · simp only [if_neg h0]; rw [ih]
  have hu : (w.cls k).cls = ⟨(w.cls k).decl.name, match (w.cls k).decl.url with
      | .urls _ => ((w.cls k).decl.fields.map PField.decl).filter (fun d => d.name != chars "externalURL")
      | _ => (w.cls k).decl.fields.map PField.decl, p.mapped, ((w.cls k).decl.fields.filter PField.exposed).map (fun f => f.decl.name), (w.cls k).decl.events⟩ := by
    rw [← hm]; rfl
  rw [hu, h.decl]
  unfold ProtoDef.cls
  cases hu : p.url with
  | urls l => exact absurd hu (h.url l)
  | _ => rfl

/-- what is known of classes that are mapped -/
theorem FSim.target {ρ P R own f} {w : World F} (h : FSim base ρ P R own f w) {i g} (ht : Target w i g) : ∃ nm k sc j, (nm, k) ∈ (w.scene 0).protos ∧ (P k).body = some sc ∧
    own i = some k ∧ i = R k j ∧ MappedField sc j g := by
  obtain ⟨k, e, fd, d, ⟨t, nm, hk⟩, he, hx, hr, hd⟩ := ht
  have ht0 : t = 0 := by
    by_contra hne
    rw [h.only t hne] at hk; cases hk
  subst ht0
  have hK := h.known nm k hk
  obtain ⟨s, sc, l, h1, h2, h3, h4, h5, h6, h7, h8⟩ := hK.body
  rw [hK.isMaps] at he
  have hl : (P k).isMaps = l := by simp only [ProtoDef.isMaps, h3, h4, Option.getD_some]
  rw [hl] at he
  obtain ⟨e0, he0, rfl⟩ := List.mem_map.1 he
  obtain ⟨x, hx0, hx1⟩ := List.mem_map.1 hx
  cases hx1
  have hsome := h8 e0 he0 x hx0
  obtain ⟨n, hn⟩ := Option.isSome_iff_exists.1 hsome
  obtain ⟨n', a1, a2, -⟩ := h6.nodes _ n hn
  obtain ⟨m, b1, b2⟩ := hr
  rw [a1] at b1; cases b1
  rw [a2, getField_rename] at b2
  obtain ⟨q, hq, hq'⟩ := Option.map_eq_some_iff.1 b2
  cases q with
  | inr _ => cases hq'
  | inl d0 =>
    cases hq'
    exact ⟨nm, k, sc, x.1, hk, h3, h7 _ hsome, rfl, l, e0.1, e0.2, x.2, n, d0, h4, he0, hx0, hn, hq, hd⟩

/-- prototypes stay when other things are read -/
theorem HoldK.stay {w w' : World F} {own own' k p r} (h : HoldK w own k p r) (hc : w'.cls k = w.cls k)
    (hs : ∀ s, s ≠ 0 → (w.cls k).body = some s → (w'.scene s).children = (w.scene s).children ∧ (w'.scene s).routes = (w.scene s).routes ∧ (w'.scene s).defs = (w.scene s).defs)
    (hh : ∀ i n, own i = some k → w.heap i = some n → ∃ n', w'.heap i = some n' ∧ n'.cls = n.cls ∧ n'.DEF = n.DEF ∧
      ∀ sc j g, p.body = some sc → i = r j → ¬ MappedField sc j g → n'.dict g = n.dict g)
    (ho : ∀ i, own i = some k → own' i = some k) : HoldK w' own' k p r := by
  obtain ⟨s, sc, l, h1, h2, h3, h4, h5, h6, h7, h8⟩ := h.body
  obtain ⟨e1, e2, e3⟩ := hs s h2 h1
  refine ⟨by rw [hc]; exact h.decl, h.plain, h.url, s, sc, l, by rw [hc]; exact h1, h2, h3, h4, by rw [hc]; exact h5, ?_, fun j hj => ho _ (h7 j hj), h8⟩
  refine ⟨h6.inj, fun j n hn => ?_, by rw [e1]; exact h6.children, by rw [e2]; exact h6.routes, fun nm hnm => by rw [e3]; exact h6.defs nm hnm⟩
  obtain ⟨n', a1, a2, a3, a4⟩ := h6.nodes j n hn
  obtain ⟨m, b1, b2, b3, b4⟩ := hh (r j) n' (h7 j (by rw [hn]; rfl)) a1
  exact ⟨m, b1, b2.trans a2, b3.trans a3, fun g hg => (b4 sc j g h3 rfl hg).trans (a4 g hg)⟩

/-- what reading part of another scene leaves alone -/
theorem FSim.frameHeap {ρ P R own f} {w w1 w' : World F} (h : FSim base ρ P R own f w) {ρ' s' ps} (hhe : w1.heap = w.heap) (hcl : ∀ k, Known w1 k → Known w k ∧ w1.cls k = w.cls k)
    (hf : Frame ρ' s' ps w1 w') (hown : ∀ i, (own i).isSome → ∀ j, i ≠ ρ' j) {k} (hinj : HoldK w own k (P k) (R k)) :
    ∀ i n, own i = some k → w.heap i = some n → ∃ n', w'.heap i = some n' ∧ n'.cls = n.cls ∧ n'.DEF = n.DEF ∧
      ∀ sc j g, (P k).body = some sc → i = R k j → ¬ MappedField sc j g → n'.dict g = n.dict g := by
  intro i n hi hn
  obtain ⟨n', a1, a2, a3, a4⟩ := hf.heap i n (by rw [hhe]; exact hn) (hown i (by rw [hi]; rfl))
  refine ⟨n', a1, a2, a3, fun sc j g hsc hij hm => a4 g (fun ht => hm ?_)⟩
  have ht' : Target w i g := by
    obtain ⟨k', e, fd, d, t1, t2, t3, t4, t5⟩ := ht
    obtain ⟨u1, u2⟩ := hcl k' t1
    exact ⟨k', e, fd, d, u1, u2 ▸ t2, t3, by simp only [Resolves, hhe] at t4; exact t4, t5⟩
  obtain ⟨nm, k', sc', j', b1, b2, b3, b4, b5⟩ := h.target ht'
  rw [hi] at b3; cases b3
  rw [hsc] at b2; cases b2
  obtain ⟨s, sc0, l, h1, h2, h3, h4, h5, h6, -⟩ := hinj.body
  have : j = j' := h6.inj _ _ (hij.symm.trans b4)
  subst this
  exact b5

theorem FSim.frameFile {ρ P R own f} {w w1 w' : World F} (h : FSim base ρ P R own f w) {ρ' s' ps} (hhe : w1.heap = w.heap) (hcl : ∀ k, Known w1 k → Known w k ∧ w1.cls k = w.cls k)
    (hf : Frame ρ' s' ps w1 w') {i n} (hi : own i = none) (hj : ∀ j, i ≠ ρ' j) (hn : w.heap i = some n) : ∃ n', w'.heap i = some n' ∧ n'.cls = n.cls ∧ n'.DEF = n.DEF ∧ ∀ g, n'.dict g = n.dict g := by
  obtain ⟨n', a1, a2, a3, a4⟩ := hf.heap i n (by rw [hhe]; exact hn) hj
  refine ⟨n', a1, a2, a3, fun g => a4 g (fun ht => ?_)⟩
  have ht' : Target w i g := by
    obtain ⟨k', e, fd, d, t1, t2, t3, t4, t5⟩ := ht
    obtain ⟨u1, u2⟩ := hcl k' t1
    exact ⟨k', e, fd, d, u1, u2 ▸ t2, t3, by simp only [Resolves, hhe] at t4; exact t4, t5⟩
  obtain ⟨nm, k', sc', j', b1, b2, b3, b4, b5⟩ := h.target ht'
  rw [hi] at b3; cases b3

theorem lookup_map {α β γ : Type} [BEq α] (g : β → γ) (a : α) : ∀ l : List (α × β), (l.map (fun e => (e.1, g e.2))).lookup a = (l.lookup a).map g
  | [] => rfl
  | (x, y) :: l => by
    simp only [List.map_cons, List.lookup_cons]
    cases a == x
    · simp only [lookup_map g a l]
    · rfl

theorem lookup_mem {α β : Type} [BEq α] [LawfulBEq α] {a : α} {b : β} : ∀ {l : List (α × β)}, l.lookup a = some b → (a, b) ∈ l
  | [], h => by cases h
  | (x, y) :: l, h => by
    rw [List.lookup_cons] at h
    cases hx : a == x with
    | true =>
      rw [hx] at h
      simp only [Option.some.injEq] at h
      subst h
      simp [beq_iff_eq.1 hx]
    | false => rw [hx] at h; simp only at h; exact List.mem_cons_of_mem _ (lookup_mem h)

/-- an entry that can be connected -/
theorem HoldK.okEntry {w : World F} {own k p r} (h : HoldK w own k p r) (hu : p.usable = true) {e} (he : e ∈ (w.cls k).isMaps) : OkEntry w p.cls e := by
  rw [h.isMaps] at he
  obtain ⟨e0, he0, rfl⟩ := List.mem_map.1 he
  have hu0 := List.all_eq_true.1 hu e0 he0
  obtain ⟨s, sc, l, h1, h2, h3, h4, h5, h6, h7, h8⟩ := h.body
  have hl : p.isMaps = l := by simp only [ProtoDef.isMaps, h3, h4, Option.getD_some]
  have hg : p.cls.getField e0.1 = resolveName p.port e0.1 := by rw [Class.getField, port_cls]
  simp only [OkEntry, hg]
  cases hq : resolveName p.port e0.1 with
  | none => rw [hq] at hu0; cases hu0
  | some q =>
    rw [hq] at hu0
    cases q with
    | inr _ => trivial
    | inl d =>
      simp only at hu0 ⊢
      intro j fd d2 hlast hres
      rw [List.getLast?_map] at hlast
      obtain ⟨x, hx, hxe⟩ := Option.map_eq_some_iff.1 hlast
      cases hxe
      rw [hx, h3] at hu0
      simp only at hu0
      rw [hl] at he0
      obtain ⟨n, hn⟩ := Option.isSome_iff_exists.1 (h8 e0 he0 x (List.mem_of_getLast? hx))
      obtain ⟨n', a1, a2, -⟩ := h6.nodes _ n hn
      obtain ⟨m, b1, b2⟩ := hres
      rw [a1] at b1; cases b1
      rw [a2, getField_rename] at b2
      obtain ⟨q2, hq2, hq2'⟩ := Option.map_eq_some_iff.1 b2
      cases q2 with
      | inr _ => cases hq2'
      | inl d0 =>
        cases hq2'
        rw [hn] at hu0
        simp only [hq2] at hu0
        cases hv : d.dflt.value with
        | none => rw [hv] at hu0; cases hu0
        | some v =>
          rw [hv] at hu0
          obtain ⟨u, hu1⟩ := Option.isSome_iff_exists.1 hu0
          exact ⟨v, u, rfl, hu1⟩

/-- the classes the simple reader finds are in the store -/
theorem FSim.look {ρ P R own f} {w w1 : World F} (hb : PlainBase base) (h : FSim base ρ P R own f w) {ρ' : Nat → Nat} {ss : List Nat} (hhe : w1.heap = w.heap)
    (hpr : ∀ gi, w1.getProto ss gi = (w.scene 0).protos.lookup gi) (hcl : ∀ nm k, (nm, k) ∈ (w.scene 0).protos → w1.cls k = w.cls k)
    (hown : ∀ i, (own i).isSome → ∀ j, i ≠ ρ' j) : Look base ρ' w1 ss (FSt.lookup base f.protos) := by
  intro gi c hc
  simp only [FSt.lookup, h.protos, lookup_map] at hc
  cases hlk : (w.scene 0).protos.lookup gi with
  | none =>
    rw [hlk] at hc
    simp only [Option.map_none] at hc
    exact ⟨none, hb gi c hc, by rw [hpr, hlk], fun _ h => (by cases h), fun _ => hc, fun e he => (by cases he), fun e he => (by cases he), fun e he => (by cases he)⟩
  | some k =>
    rw [hlk] at hc
    simp only [Option.map_some] at hc
    split at hc
    · next hu =>
      cases hc
      have hmem := lookup_mem hlk
      have hK := h.known gi k hmem
      have hck := hcl gi k hmem
      have hmaps : mapsOf w1 (some k) = (w.cls k).isMaps := by simp only [mapsOf, hck]
      refine ⟨some k, fun d hd => ?_, by rw [hpr, hlk], fun k' hk' => by cases hk'; rw [hck]; exact hK.cls, fun h => (by cases h), fun e he => ?_, fun e he x hx j => ?_, fun e he hne d hd => ?_⟩
      · obtain ⟨fd, h1, rfl⟩ := cls_fields hd
        exact hK.plain fd h1
      · rw [hmaps] at he
        have := hK.okEntry hu he
        simp only [OkEntry, Resolves, hhe] at this ⊢
        exact this
      · rw [hmaps, hK.isMaps] at he
        obtain ⟨e0, he0, rfl⟩ := List.mem_map.1 he
        obtain ⟨x0, hx0, rfl⟩ := List.mem_map.1 hx
        obtain ⟨s, sc, l, h1, h2, h3, h4, h5, h6, h7, h8⟩ := hK.body
        have hl : (P k).isMaps = l := by simp only [ProtoDef.isMaps, h3, h4, Option.getD_some]
        rw [hl] at he0
        exact hown _ (by rw [h7 _ (h8 e0 he0 x0 hx0)]; rfl) j
      · rw [hmaps, hK.isMaps] at he
        obtain ⟨e0, he0, rfl⟩ := List.mem_map.1 he
        simp only [ProtoDef.cls, ProtoDef.mapped]
        refine List.mem_filterMap.2 ⟨e0, he0, ?_⟩
        simp only [Class.getField, port_cls] at hd
        rw [hd]
        simp only
        rw [if_neg]
        intro h0; exact hne (by simp [h0])
    · cases hc

end Verif.Full
