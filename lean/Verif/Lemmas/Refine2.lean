import Verif.Lemmas.Refine
import Verif.Lemmas.Linked
/-!
The two readers side by side: new nodes.
-/
namespace Verif.Full
open Verif.Peg Verif.Grammar Verif.TextOut Verif.SceneText Verif.Reader
open Verif.Lin hiding disp dispList dispDecls dispAttrs disp_node disp_attr
variable {F : Type} {base : Text → Option (Class F)}

/-- the IS mappings of an instance of `k` -/
def mapsOf (w : World F) : Option Nat → List (Text × List (Nat × Text))
  | some k => (w.cls k).isMaps
  | none => []

theorem newNode_eq (w : World F) (s : Nat) (ss : List Nat) (c : Class F) (k : Option Nat) (DEF : Text) : w.newNode (s :: ss) c k DEF =
    match (mapsOf w k).foldlM (fun w' e => w'.bindIs w.next c e) (w.alloc c k) with
    | none => none
    | some w1 => match rootSet ((s :: ss).getLastD 0) (w1.next + 1) w1 w.next with
      | none => none
      | some w2 => some (if DEF = [] then w2 else w2.regDef s DEF w.next) := by
  cases k <;> rfl

theorem mapsOf_lt {w : World F} {ps} (h : Inv base w ps) {k e x} (he : e ∈ mapsOf w k) (hx : x ∈ e.2) : x.1 < w.next := by
  cases k with
  | none => cases he
  | some k => exact isMaps_lt h he hx

theorem alloc_resolves {w : World F} {c : Class F} {k : Option Nat} {j f d} (hj : j < w.next) : Resolves (w.alloc c k) j f d ↔ Resolves w j f d := by
  have : (w.alloc c k).heap j = w.heap j := by simp only [World.alloc]; rw [if_neg (by omega)]
  simp only [Resolves, this]

/-- What a new node changes. -/
structure Made (c : Class F) (k : Option Nat) (DEF : Text) (w w' : World F) : Prop where
  new : w'.heap w.next = some ⟨c, DEF, fun _ => none⟩
  heap : ∀ j, j ≠ w.next → (∀ e ∈ mapsOf w k, ∀ y ∈ e.2, y.1 ≠ j) → w'.heap j = w.heap j
  dict : ∀ j n, w.heap j = some n → ∃ n', w'.heap j = some n' ∧ n'.cls = n.cls ∧ n'.DEF = n.DEF ∧
    ∀ g, n'.dict g = n.dict g ∨ ∃ e ∈ mapsOf w k, ∃ f d, (j, f) ∈ e.2 ∧ Resolves w j f d ∧ d.name = g
  wires : ∀ x ∈ w'.wires, x ∈ w.wires ∨ (x.src = w.next ∧ ∃ e ∈ mapsOf w k, e.2 ≠ [] ∧ ∃ p, c.getField e.1 = some p ∧ x.srcField = portName p) ∨ ∃ e ∈ mapsOf w k, ∃ y ∈ e.2, x.src = y.1
  scene : ∀ t s ss, t ≠ s → w.newNode (s :: ss) c k DEF = some w' → w'.scene t = w.scene t

theorem newNode_made {w : World F} {ps ss : List Nat} {s : Nat} (h : Inv base w ps) {c : Class F} {k : Option Nat} {DEF : Text}
    (hp : ∀ d ∈ c.fields, d.dfltNodes = []) (hok : ∀ e ∈ mapsOf w k, OkEntry w c e) :
    ∃ w', w.newNode (s :: ss) c k DEF = some w' ∧ Made c k DEF w w' := by
  have hlt : ∀ e ∈ mapsOf w k, ∀ x ∈ e.2, x.1 < w.next := fun e he x hx => mapsOf_lt h he hx
  have hok' : ∀ e ∈ mapsOf w k, OkEntry (w.alloc c k) c e := by
    intro e he
    have := hok e he
    simp only [OkEntry] at this ⊢
    cases hg : c.getField e.1 with
    | none => rw [hg] at this; exact this
    | some p =>
      rw [hg] at this
      cases p with
      | inr _ => trivial
      | inl d => exact fun j f d2 h1 h2 => this j f d2 h1 ((alloc_resolves (hlt e he _ (List.mem_of_getLast? h1))).1 h2)
  obtain ⟨w1, h1, b1⟩ := bindList_bound (c := c) (i := w.next) (mapsOf w k) (w.alloc c k) ⟨_, by simp only [World.alloc, if_true]; rfl, rfl⟩ hok'
  have hnew : w1.heap w.next = some ⟨c, [], fun _ => none⟩ := by
    rw [b1.heap w.next (fun e he y hy => by have := hlt e he y hy; omega)]
    simp [World.alloc]
  have hroot : ∀ r, rootSet r (w1.next + 1) w1 w.next = some w1 := by
    intro r
    simp only [rootSet, hnew, if_true, nodeRefs_dflt hp, List.foldlM_nil]; rfl
  have hmk : w.newNode (s :: ss) c k DEF = some (if DEF = [] then w1 else w1.regDef s DEF w.next) := by
    rw [newNode_eq]
    simp only [h1, hroot]
  have hdict1 : ∀ j n, w.heap j = some n → ∃ n', w1.heap j = some n' ∧ n'.cls = n.cls ∧ n'.DEF = n.DEF ∧
      ∀ g, n'.dict g = n.dict g ∨ ∃ e ∈ mapsOf w k, ∃ f d, (j, f) ∈ e.2 ∧ Resolves w j f d ∧ d.name = g := by
    intro j n hn
    have hj : j < w.next := (h.ids j).1 (by rw [hn]; rfl)
    obtain ⟨n', a1, a2, a3, a4⟩ := b1.dict j n (by simp only [World.alloc]; rw [if_neg (by omega)]; exact hn)
    refine ⟨n', a1, a2, a3, fun g => (a4 g).imp id ?_⟩
    rintro ⟨e, he, f, d, b1, b2, b3⟩
    exact ⟨e, he, f, d, b1, (alloc_resolves hj).1 b2, b3⟩
  have hheap1 : ∀ j, j ≠ w.next → (∀ e ∈ mapsOf w k, ∀ y ∈ e.2, y.1 ≠ j) → w1.heap j = w.heap j := by
    intro j hj hy
    rw [b1.heap j hy]
    simp only [World.alloc, if_neg hj]
  have hscene : ∀ t, w1.scene t = w.scene t := fun t => by rw [b1.quiet.scene]; rfl
  refine ⟨_, hmk, ?_⟩
  by_cases hD : DEF = []
  · subst hD
    simp only [if_true] at hmk ⊢
    refine ⟨hnew, hheap1, hdict1, b1.wires, fun t s' ss' ht hs' => ?_⟩
    rw [hscene]
  · simp only [if_neg hD] at hmk ⊢
    refine ⟨by rw [regDef_node, if_pos rfl, hnew]; rfl, fun j hj hy => by rw [regDef_node, if_neg hj]; exact hheap1 j hj hy, fun j n hn => ?_, b1.wires, fun t s' ss' ht hs' => ?_⟩
    · have hj : j < w.next := (h.ids j).1 (by rw [hn]; rfl)
      rw [regDef_node, if_neg (by omega)]
      exact hdict1 j n hn
    · have hmk' : w.newNode (s' :: ss') c k DEF = some (w1.regDef s' DEF w.next) := by
        rw [newNode_eq]
        simp only [h1, hroot, if_neg hD]
      rw [hmk'] at hs'
      have := Option.some.inj hs'
      rw [← this]
      simp only [World.regDef, upd, if_neg ht, hscene]

/-- What is needed of a class by name, for the two readers to agree. -/
structure Fits (base : Text → Option (Class F)) (ρ : Nat → Nat) (w : World F) (ss : List Nat) (gi : Text) (c : Class F) (k : Option Nat) : Prop where
  plain : ∀ d ∈ c.fields, d.dfltNodes = []
  proto : w.getProto ss gi = k
  cls : ∀ k', k = some k' → (w.cls k').cls = c
  builtin : k = none → base gi = some c
  ok : ∀ e ∈ mapsOf w k, OkEntry w c e
  foreign : ∀ e ∈ mapsOf w k, ∀ x ∈ e.2, ∀ j, x.1 ≠ ρ j
  mapped : ∀ e ∈ mapsOf w k, e.2 ≠ [] → ∀ d, c.getField e.1 = some (.inl d) → d.name ∈ c.mapped

/-- `lk` finds the classes that the store has -/
def Look (base : Text → Option (Class F)) (ρ : Nat → Nat) (w : World F) (ss : List Nat) (lk : Text → Option (Class F)) : Prop :=
  ∀ gi c, lk gi = some c → ∃ k, Fits base ρ w ss gi c k

theorem Fits.frame {ρ s ps ss gi c k} {w w' : World F} (hw : Inv base w ps) (hf : Frame ρ s ps w w') (h : Fits base ρ w ss gi c k) : Fits base ρ w' ss gi c k := by
  have hg : w'.getProto ss gi = w.getProto ss gi := by simp only [World.getProto, hf.allProtos]
  have hkn : ∀ k', k = some k' → w'.cls k' = w.cls k' := fun k' hk => by
    obtain ⟨t, ht⟩ := getProto_mem (h.proto.trans hk)
    exact hf.cls k' (Known.notOpen hw ⟨t, gi, ht⟩)
  have hm : mapsOf w' k = mapsOf w k := by
    cases k with
    | none => rfl
    | some k' => simp only [mapsOf, hkn k' rfl]
  refine ⟨h.plain, hg.trans h.proto, fun k' hk => by rw [hkn k' hk]; exact h.cls k' hk, h.builtin, ?_, ?_, ?_⟩
  · rw [hm]
    intro e he
    have := h.ok e he
    simp only [OkEntry] at this ⊢
    cases hgf : c.getField e.1 with
    | none => rw [hgf] at this; exact this
    | some p =>
      rw [hgf] at this
      cases p with
      | inr _ => trivial
      | inl d =>
        intro j f d2 h1 h2
        have hmem := List.mem_of_getLast? h1
        exact this j f d2 h1 ((hf.resolves hw (mapsOf_lt hw he hmem) (h.foreign e he _ hmem)).1 h2)
  · rw [hm]; exact h.foreign
  · rw [hm]; exact h.mapped

theorem Look.frame {ρ s ps ss lk} {w w' : World F} (hw : Inv base w ps) (hf : Frame ρ s ps w w') (h : Look base ρ w ss lk) : Look base ρ w' ss lk := fun gi c hc => by
  obtain ⟨k, hk⟩ := h gi c hc
  exact ⟨k, hk.frame hw hf⟩

/-- node `i` is being read: its unmapped fields have no connections -/
structure Quiets (ρ : Nat → Nat) (w : World F) (i : Nat) : Prop where
  node : ∃ n, w.heap (ρ i) = some n
  out : ∀ k, w.inst (ρ i) = some k → ∀ nm d, (w.cls k).cls.getField nm = some (.inl d) → d.name ∉ (w.cls k).cls.mapped → w.out (ρ i) d.name = []

/-- Reading part of scene `s`. -/
structure Step (base : Text → Option (Class F)) (ρ : Nat → Nat) (X : Nat → Option (Class F)) (s : Nat) (ps : List Nat) (rs' : RSt F) (w w' : World F) : Prop where
  sim : Sim ρ X s ps rs' w'
  frame : Frame ρ s ps w w'
  inv : Inv base w' ps
  ext : Ext ps w w'

theorem Step.trans {ρ X X' s ps} {rs1 rs2 : RSt F} {a b c : World F} (ha : Inv base a ps) (h : Step base ρ X s ps rs1 a b) (h' : Step base ρ X' s ps rs2 b c) : Step base ρ X' s ps rs2 a c :=
  ⟨h'.sim, h.frame.trans ha h'.frame, h'.inv, h.ext.trans h'.ext⟩

theorem Step.refl {ρ X s ps} {rs : RSt F} {w : World F} (h : Sim ρ X s ps rs w) (hw : Inv base w ps) : Step base ρ X s ps rs w w := ⟨h, .refl _ _ _ _, hw, .refl _ _⟩

theorem Quiets.step {ρ X s ps i} {rs rs' : RSt F} {w w' : World F} (hw : Inv base w ps) (h : Quiets ρ w i) (hs : Step base ρ X s ps rs' w w') (hn : NoWires ρ w w') : Quiets ρ w' i := by
  obtain ⟨n, hn1⟩ := h.node
  have hi : ρ i < w.next := (hw.ids _).1 (by rw [hn1]; rfl)
  obtain ⟨n', h1, -⟩ := hs.ext.node _ n hn1
  refine ⟨⟨n', h1⟩, fun k hk nm d hd hm => ?_⟩
  rw [hs.frame.inst _ hi] at hk
  have hcl : w'.cls k = w.cls k := hs.frame.cls k (hw.inst _ k hk).2.1
  rw [hcl] at hd hm
  have ho := h.out k hk nm d hd hm
  refine List.eq_nil_iff_forall_not_mem.2 (fun x hx => ?_)
  obtain ⟨hx1, hx2⟩ := mem_out.1 hx
  have hsrc : x.src = ρ i := congrArg Prod.fst hx2
  rcases hn x hx1 with h2 | h2 | h2
  · have : x ∈ w.out (ρ i) d.name := mem_out.2 ⟨h2, hx2⟩
    rw [ho] at this; cases this
  · omega
  · exact h2 i hsrc

/-- a new node, for the two readers -/
theorem newNode_sim {ρ X s ss ps} {rs : RSt F} {w : World F} (hw : Inv base w ps) (hs : Sim ρ X s ps rs w) {c : Class F} {k : Option Nat} {DEF : Text}
    (hp : ∀ d ∈ c.fields, d.dfltNodes = []) (hok : ∀ e ∈ mapsOf w k, OkEntry w c e) (hfo : ∀ e ∈ mapsOf w k, ∀ x ∈ e.2, ∀ j, x.1 ≠ ρ j)
    (hk : ∀ k', k = some k' → Known w k' ∧ c = (w.cls k').cls) (hb : k = none → (∃ t, base t = some c) ∨ c.proto = scriptName)
    (hma : ∀ e ∈ mapsOf w k, e.2 ≠ [] → ∀ d, c.getField e.1 = some (.inl d) → d.name ∈ c.mapped) :
    ∃ w', w.newNode (s :: ss) c k DEF = some w' ∧ Step base ρ X s ps (rs.newNode c DEF) w w' ∧ NoWires ρ w w' ∧ Quiets ρ w' rs.next ∧
      (∃ n, w'.heap w.next = some n ∧ n.cls = c) ∧ w'.inst w.next = k := by
  obtain ⟨w', h1, m⟩ := newNode_made (DEF := DEF) (s := s) (ss := ss) hw hp hok
  obtain ⟨i1, n1⟩ := newNode_inv hw (fun d hd j hj => by rw [hp d hd] at hj; cases hj)
    (fun k' hk' => by
      obtain ⟨⟨t, nm, ht⟩, h2⟩ := hk k' hk'
      obtain ⟨a, b, -⟩ := hw.protos t nm k' ht
      exact ⟨a, b, h2⟩) hb h1
  obtain ⟨e1, e2, e3, e4, e5, e6, e7⟩ := newNode_spec rs c DEF
  have hn0 := hs.next0
  have hlt : ∀ e ∈ mapsOf w k, ∀ x ∈ e.2, x.1 < w.next := fun e he x hx => mapsOf_lt hw he hx
  have hno : NoWires ρ w w' := by
    intro x hx
    rcases m.wires x hx with h | ⟨h, -⟩ | ⟨e, he, y, hy, h⟩
    · exact .inl h
    · exact .inr (.inl h.ge)
    · exact .inr (.inr (fun j => by rw [h]; exact hfo e he y hy j))
  refine ⟨w', h1, ⟨?_, ?_, i1, n1.ext hw⟩, hno, ?_, ⟨_, m.new, rfl⟩, by rw [n1.inst, if_pos rfl]⟩
  · refine ⟨hs.mono, fun j => ?_, fun j => ?_, fun j n hn => ?_, fun j hj => hs.fresh j (by rw [e1] at hj; omega), ?_, ?_, fun nm hnm => ?_, ?_⟩
    · rw [e1, n1.next, show rs.next + 1 + j = rs.next + (1 + j) by omega, hs.next]; omega
    · rw [e2 j, e1]
      split
      · subst_vars; simp
      · rw [hs.ids j]; omega
    · rw [e2 j] at hn
      split at hn
      · next hj =>
        cases hn
        rw [hj, hn0]
        exact ⟨_, m.new, by rw [hs.fresh _ le_rfl]; exact (class_plain ρ hp).symm, rfl, fun g => rfl⟩
      · next hj =>
        obtain ⟨n', a1, a2, a3, a4⟩ := hs.node j n hn
        have hjl : j < rs.next := (hs.ids j).1 (by rw [hn]; rfl)
        have hlt' : ρ j < w.next := hs.lt.1 hjl
        exact ⟨n', by rw [m.heap (ρ j) (by omega) (fun e he y hy => hfo e he y hy j)]; exact a1, a2, a3, a4⟩
    · rw [(n1.same s).2.1, e3]; exact hs.children
    · rw [(n1.same s).2.2.1, e4]; exact hs.routes
    · rw [n1.defs hp s nm]
      simp only [List.headD_cons, true_and]
      have hget : ∀ e, (rs.newNode c DEF).sc.defs.lookup e = (rs.newNode c DEF).sc.getDEF e := fun _ => rfl
      rw [hget]
      by_cases hD : nm = DEF
      · subst hD
        rw [if_pos ⟨rfl, hnm⟩, e6 hnm, Option.map_some, hn0]
      · rw [if_neg (fun h => hD h.1), e7 nm hnm hD]; exact hs.defs nm hnm
    · rw [e5, n1.cls]; exact hs.is
  · refine ⟨by rw [n1.next]; omega, n1.nclasses, n1.nscenes, fun k _ => by rw [n1.cls], fun k => by rw [n1.cls]; exact ⟨rfl, rfl⟩, fun t ht => m.scene t s ss ht h1, (n1.same s).1, fun i n hn hi => ?_, fun i hi => ?_⟩
    · obtain ⟨n', a1, a2, a3, a4⟩ := m.dict i n hn
      refine ⟨n', a1, a2, a3, fun g hg => (a4 g).resolve_right ?_⟩
      rintro ⟨e, he, f, d, b1, b2, b3⟩
      cases k with
      | none => cases he
      | some k' => exact hg ⟨k', e, f, d, (hk k' rfl).1, he, b1, b2, b3⟩
    · rw [n1.inst, if_neg (by omega)]
  · rw [show rs.next = rs.next + 0 from rfl] 
    refine ⟨⟨_, by rw [hs.next 0]; exact m.new⟩, fun k' hk' nm d hd hm => ?_⟩
    rw [hs.next 0] at hk' ⊢
    simp only [Nat.add_zero] at hk' ⊢
    rw [n1.inst, if_pos rfl] at hk'
    rw [n1.cls, ← (hk k' hk').2] at hd hm
    refine List.eq_nil_iff_forall_not_mem.2 (fun x hx => ?_)
    obtain ⟨hx1, hx2⟩ := mem_out.1 hx
    have hsrc : x.src = w.next := congrArg Prod.fst hx2
    have hfld : x.srcField = d.name := congrArg Prod.snd hx2
    rcases m.wires x hx1 with h | ⟨-, e, he, hne, p, hp', hsf⟩ | ⟨e, he, y, hy, h⟩
    · have := (hw.wires x h).1; omega
    · cases p with
      | inl d' =>
        simp only [portName] at hsf
        exact hm (by rw [← hfld, hsf]; exact hma e he hne d' hp')
      | inr ev =>
        simp only [portName] at hsf
        have h3 := getField_event hp'
        have h4 := getField_name hd
        rw [← hsf, hfld, h4] at h3
        cases h3
    · have := hlt e he y hy; omega

end Verif.Full
