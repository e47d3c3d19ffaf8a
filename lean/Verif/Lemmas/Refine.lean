import Verif.Lemmas.Rename
import Verif.Spec.Links
/-!
The reader of single scenes (`Model/SceneRead`) and the reader of whole files (`Model/FullRead`) side by side: new nodes.
-/
namespace Verif.Full
open Verif.Peg Verif.Grammar Verif.TextOut Verif.SceneText Verif.Reader
open Verif.Lin hiding disp dispList dispDecls dispAttrs disp_node disp_attr
variable {F : Type} {base : Text → Option (Class F)}

/-- the two readers agree: scene `s` of the store is the scene under construction; `X` are the classes, in the store, of Scripts whose declarations
are being read -/
structure Sim (ρ : Nat → Nat) (X : Nat → Option (Class F)) (s : Nat) (ps : List Nat) (rs : RSt F) (w : World F) : Prop where
  mono : ∀ i j, i < j → ρ i < ρ j
  next : ∀ j, ρ (rs.next + j) = w.next + j
  ids : ∀ j, (rs.sc.heap j).isSome ↔ j < rs.next
  node : ∀ j n, rs.sc.heap j = some n → ∃ n', w.heap (ρ j) = some n' ∧ n'.cls = (X j).getD (n.cls.rename ρ) ∧ n'.DEF = n.DEF ∧
    ∀ g, n'.dict g = (n.dict g).map (Val.rename ρ)
  fresh : ∀ j, rs.next ≤ j → X j = none
  children : (w.scene s).children = rs.sc.children.map ρ
  routes : (w.scene s).routes = rs.sc.routes.map (Rt.rename ρ)
  defs : ∀ nm, nm ≠ [] → (w.scene s).defs.lookup nm = (rs.sc.defs.lookup nm).map ρ
  is : (ps = [] ∧ rs.sc.is = none) ∨ ∃ c l, ps = [c] ∧ rs.sc.is = some l ∧ (w.cls c).is = renameIs ρ l

theorem Sim.inj {ρ X s ps} {rs : RSt F} {w : World F} (h : Sim ρ X s ps rs w) {i j : Nat} (he : ρ i = ρ j) : i = j := by
  rcases Nat.lt_trichotomy i j with hl | hl | hl
  · have := h.mono _ _ hl; omega
  · exact hl
  · have := h.mono _ _ hl; omega

theorem Sim.next0 {ρ X s ps} {rs : RSt F} {w : World F} (h : Sim ρ X s ps rs w) : ρ rs.next = w.next := h.next 0

theorem Sim.lt {ρ X s ps} {rs : RSt F} {w : World F} (h : Sim ρ X s ps rs w) {j : Nat} : j < rs.next ↔ ρ j < w.next := by
  rw [← h.next0]
  constructor
  · exact h.mono _ _
  · intro hl
    by_contra hn
    rcases Nat.eq_or_lt_of_le (Nat.not_lt.1 hn) with he | hlt
    · rw [he] at hl; omega
    · have := h.mono _ _ hlt; omega

/-- the class is registered with some scene -/
def Known (w : World F) (k : Nat) : Prop := ∃ t nm, (nm, k) ∈ (w.scene t).protos

/-- field `g` of node `i` is mapped to the interface of a known prototype -/
def Target (w : World F) (i : Nat) (g : Text) : Prop :=
  ∃ k e f d, Known w k ∧ e ∈ (w.cls k).isMaps ∧ (i, f) ∈ e.2 ∧ Resolves w i f d ∧ d.name = g

/-- what reading part of scene `s` leaves alone -/
structure Frame (ρ : Nat → Nat) (s : Nat) (ps : List Nat) (w w' : World F) : Prop where
  next : w.next ≤ w'.next
  nclasses : w'.nclasses = w.nclasses
  nscenes : w'.nscenes = w.nscenes
  cls : ∀ k, k ∉ ps → w'.cls k = w.cls k
  decl : ∀ k, (w'.cls k).decl = (w.cls k).decl ∧ (w'.cls k).body = (w.cls k).body
  scene : ∀ t, t ≠ s → w'.scene t = w.scene t
  protos : (w'.scene s).protos = (w.scene s).protos
  heap : ∀ i n, w.heap i = some n → (∀ j, i ≠ ρ j) → ∃ n', w'.heap i = some n' ∧ n'.cls = n.cls ∧ n'.DEF = n.DEF ∧ ∀ g, ¬ Target w i g → n'.dict g = n.dict g
  inst : ∀ i, i < w.next → w'.inst i = w.inst i

/-- no new connections from nodes of the scene that were there -/
def NoWires (ρ : Nat → Nat) (w w' : World F) : Prop := ∀ x ∈ w'.wires, x ∈ w.wires ∨ w.next ≤ x.src ∨ ∀ j, x.src ≠ ρ j

theorem Frame.allProtos {ρ s ps} {w w' : World F} (h : Frame ρ s ps w w') (t : Nat) : (w'.scene t).protos = (w.scene t).protos := by
  by_cases ht : t = s
  · subst ht; exact h.protos
  · rw [h.scene t ht]

theorem Frame.known {ρ s ps} {w w' : World F} (h : Frame ρ s ps w w') {k} : Known w' k ↔ Known w k := by
  simp only [Known, h.allProtos]

theorem Known.notOpen {w : World F} {ps k} (hw : Inv base w ps) (h : Known w k) : k ∉ ps := by
  obtain ⟨t, nm, hm⟩ := h
  exact (hw.protos t nm k hm).2.1

theorem Frame.resolves {ρ s ps} {w w' : World F} (h : Frame ρ s ps w w') (hw : Inv base w ps) {i f d} (hi : i < w.next) (hj : ∀ j, i ≠ ρ j) : Resolves w' i f d ↔ Resolves w i f d := by
  obtain ⟨n, hn⟩ := Option.isSome_iff_exists.1 ((hw.ids i).2 hi)
  obtain ⟨n', h1, h2, -⟩ := h.heap i n hn hj
  constructor
  · rintro ⟨m, hm, hf⟩
    rw [h1] at hm; cases hm
    exact ⟨n, hn, h2 ▸ hf⟩
  · rintro ⟨m, hm, hf⟩
    rw [hn] at hm; cases hm
    exact ⟨n', h1, by rw [h2]; exact hf⟩

theorem Frame.target {ρ s ps} {w w' : World F} (h : Frame ρ s ps w w') (hw : Inv base w ps) {i g} (hi : i < w.next) (hj : ∀ j, i ≠ ρ j) : Target w' i g ↔ Target w i g := by
  simp only [Target]
  constructor
  · rintro ⟨k, e, f, d, h1, h2, h3, h4, h5⟩
    have hk := h.known.1 h1
    exact ⟨k, e, f, d, hk, by rw [← h.cls k (hk.notOpen hw)]; exact h2, h3, (h.resolves hw hi hj).1 h4, h5⟩
  · rintro ⟨k, e, f, d, h1, h2, h3, h4, h5⟩
    exact ⟨k, e, f, d, h.known.2 h1, by rw [h.cls k (h1.notOpen hw)]; exact h2, h3, (h.resolves hw hi hj).2 h4, h5⟩

theorem Frame.refl (ρ s ps) (w : World F) : Frame ρ s ps w w :=
  ⟨le_rfl, rfl, rfl, fun _ _ => rfl, fun _ => ⟨rfl, rfl⟩, fun _ _ => rfl, rfl, fun i n h _ => ⟨n, h, rfl, rfl, fun _ _ => rfl⟩, fun _ _ => rfl⟩

theorem Frame.trans {ρ s ps} {a b c : World F} (hw : Inv base a ps) (h : Frame ρ s ps a b) (h' : Frame ρ s ps b c) : Frame ρ s ps a c := by
  refine ⟨h.next.trans h'.next, h'.nclasses.trans h.nclasses, h'.nscenes.trans h.nscenes, fun k hk => (h'.cls k hk).trans (h.cls k hk), fun k => ?_,
    fun t ht => (h'.scene t ht).trans (h.scene t ht), h'.protos.trans h.protos, fun i n hn hj => ?_, fun i hi => ?_⟩
  · exact ⟨(h'.decl k).1.trans (h.decl k).1, (h'.decl k).2.trans (h.decl k).2⟩
  · obtain ⟨n1, a1, a2, a3, a4⟩ := h.heap i n hn hj
    obtain ⟨n2, b1, b2, b3, b4⟩ := h'.heap i n1 a1 hj
    have hi : i < a.next := (hw.ids i).1 (by rw [hn]; rfl)
    exact ⟨n2, b1, b2.trans a2, b3.trans a3, fun g hg => (b4 g (fun ht => hg ((h.target hw hi hj).1 ht))).trans (a4 g hg)⟩
  · exact (h'.inst i (lt_of_lt_of_le hi h.next)).trans (h.inst i hi)

theorem NoWires.refl (ρ) (w : World F) : NoWires ρ w w := fun _ h => .inl h
theorem NoWires.trans {ρ} {a b c : World F} (hl : a.next ≤ b.next) (h : NoWires ρ a b) (h' : NoWires ρ b c) : NoWires ρ a c := fun x hx => by
  rcases h' x hx with h1 | h1 | h1
  · exact h x h1
  · exact .inr (.inl (hl.trans h1))
  · exact .inr (.inr h1)

/-! ### Connecting a new instance -/

/-- an IS mapping that can be connected -/
def OkEntry (w : World F) (c : Class F) (e : Text × List (Nat × Text)) : Prop :=
  match c.getField e.1 with
  | none => False
  | some (.inr _) => True
  | some (.inl d) => ∀ j f d2, e.2.getLast? = some (j, f) → Resolves w j f d2 → ∃ v u, d.dflt.value = some v ∧ coerce d2.kind d2.conv v = some u

/-- what connecting does -/
structure Bound (i : Nat) (c : Class F) (l : List (Text × List (Nat × Text))) (w w' : World F) : Prop where
  quiet : Quiet w w'
  wires : ∀ x ∈ w'.wires, x ∈ w.wires ∨ (x.src = i ∧ ∃ e ∈ l, e.2 ≠ [] ∧ ∃ p, c.getField e.1 = some p ∧ x.srcField = portName p) ∨ ∃ e ∈ l, ∃ y ∈ e.2, x.src = y.1
  heap : ∀ j, (∀ e ∈ l, ∀ y ∈ e.2, y.1 ≠ j) → w'.heap j = w.heap j
  dict : ∀ j n, w.heap j = some n → ∃ n', w'.heap j = some n' ∧ n'.cls = n.cls ∧ n'.DEF = n.DEF ∧
    ∀ g, n'.dict g = n.dict g ∨ ∃ e ∈ l, ∃ f d, (j, f) ∈ e.2 ∧ Resolves w j f d ∧ d.name = g

theorem quiet_resolves {w w' : World F} (h : Quiet w w') {j f d} : Resolves w' j f d ↔ Resolves w j f d := by
  have hq := h.node j
  constructor
  · rintro ⟨n', hn', hf⟩
    obtain ⟨n, h1, h2, -⟩ := pair_node hq.symm hn'
    exact ⟨n, h1, h2 ▸ hf⟩
  · rintro ⟨n, hn, hf⟩
    obtain ⟨n', h1, h2, -⟩ := pair_node hq hn
    exact ⟨n', h1, by rw [h2]; exact hf⟩

theorem quiet_ok {w w' : World F} (h : Quiet w w') {c : Class F} {e} (ho : OkEntry w c e) : OkEntry w' c e := by
  simp only [OkEntry] at ho ⊢
  cases hg : c.getField e.1 with
  | none => rw [hg] at ho; exact ho
  | some p =>
    rw [hg] at ho
    cases p with
    | inr e => trivial
    | inl d => exact fun j f d2 h1 h2 => ho j f d2 h1 ((quiet_resolves h).1 h2)

theorem bind_srcs (w : World F) (i f d g) : ∀ x ∈ (w.bind i f d g).wires, x ∈ w.wires ∨ (x.src = i ∧ ∃ n p, w.heap i = some n ∧ n.cls.getField f = some p ∧ x.srcField = portName p) := by
  intro x hx
  unfold World.bind at hx
  cases hn : w.heap i with
  | none => simp only [hn, Option.bind_none] at hx; exact .inl hx
  | some n =>
    simp only [hn, Option.bind_some] at hx
    split at hx
    · exact .inl hx
    · rcases List.mem_append.1 hx with hx | hx
      · exact .inl hx
      · simp at hx; subst hx; exact .inr ⟨rfl, n, _, rfl, ‹_›, rfl⟩
    · rcases List.mem_append.1 hx with hx | hx
      · exact .inl hx
      · simp at hx; subst hx; exact .inr ⟨rfl, n, _, rfl, ‹_›, rfl⟩

theorem bind_heap (w : World F) (i f d g) : (w.bind i f d g).heap = w.heap := by
  unfold World.bind; split <;> rfl

theorem bindAll_srcs {i : Nat} {nm : Text} : ∀ (l : List (Nat × Text)) (w : World F), ∀ x ∈ (l.foldl (fun w x => (w.bind i nm x.1 x.2).bind x.1 x.2 i nm) w).wires,
    x ∈ w.wires ∨ (x.src = i ∧ l ≠ [] ∧ ∃ n p, w.heap i = some n ∧ n.cls.getField nm = some p ∧ x.srcField = portName p) ∨ ∃ y ∈ l, x.src = y.1
  | [], w, x, hx => .inl hx
  | y :: l, w, x, hx => by
    rw [List.foldl_cons] at hx
    rcases bindAll_srcs l _ x hx with h | ⟨h1, -, n, p, h2, h3, h4⟩ | ⟨z, hz, h⟩
    · rcases bind_srcs _ _ _ _ _ x h with h | ⟨h, -⟩
      · rcases bind_srcs _ _ _ _ _ x h with h | ⟨h, h2⟩
        · exact .inl h
        · exact .inr (.inl ⟨h, by simp, h2⟩)
      · exact .inr (.inr ⟨y, by simp, h⟩)
    · rw [bind_heap, bind_heap] at h2
      exact .inr (.inl ⟨h1, by simp, n, p, h2, h3, h4⟩)
    · exact .inr (.inr ⟨z, by simp [hz], h⟩)

theorem bindIs_bound {w : World F} {i : Nat} {c : Class F} {e} (hi : ∃ n, w.heap i = some n ∧ n.cls = c) (ho : OkEntry w c e) :
    ∃ w', w.bindIs i c e = some w' ∧ Bound i c [e] w w' := by
  obtain ⟨n, hn, rfl⟩ := hi
  unfold World.bindIs
  simp only [OkEntry] at ho
  generalize hw2 : e.2.foldl (fun w x => (w.bind i e.1 x.1 x.2).bind x.1 x.2 i e.1) w = w2
  have hq : Quiet w w2 := hw2 ▸ bindAll_quiet i e.1 e.2 w
  have hh : w2.heap = w.heap := hw2 ▸ bindAll_heap i e.1 e.2 w
  have hwires : ∀ x ∈ w2.wires, x ∈ w.wires ∨ (x.src = i ∧ ∃ e' ∈ [e], e'.2 ≠ [] ∧ ∃ p, n.cls.getField e'.1 = some p ∧ x.srcField = portName p) ∨ ∃ e' ∈ [e], ∃ y ∈ e'.2, x.src = y.1 := by
    intro x hx
    rcases bindAll_srcs e.2 w x (by rw [hw2]; exact hx) with h | ⟨h1, h5, n', p, h2, h3, h4⟩ | ⟨y, hy, h⟩
    · exact .inl h
    · rw [hn] at h2; cases h2; exact .inr (.inl ⟨h1, e, by simp, h5, p, h3, h4⟩)
    · exact .inr (.inr ⟨e, by simp, y, hy, h⟩)
  have hsame : Bound i n.cls [e] w w2 := ⟨hq, hwires, fun j _ => by rw [hh], fun j m hm => ⟨m, by rw [hh]; exact hm, rfl, rfl, fun _ => .inl rfl⟩⟩
  cases hg : n.cls.getField e.1 with
  | none => rw [hg] at ho; exact ho.elim
  | some p =>
    simp only [hw2]
    rw [hg] at ho
    cases p with
    | inr ev => exact ⟨w2, rfl, hsame⟩
    | inl d =>
      cases hl : e.2.getLast? with
      | none => exact ⟨w2, rfl, hsame⟩
      | some y =>
        obtain ⟨j, f⟩ := y
        simp only
        cases hp : (w2.heap j).bind (fun n => n.cls.getField f) with
        | none => exact ⟨w2, by cases d.dflt.value <;> rfl, hsame⟩
        | some q =>
          cases q with
          | inr ev => exact ⟨w2, by cases d.dflt.value <;> rfl, hsame⟩
          | inl d2 =>
            have hr : Resolves w j f d2 := by
              obtain ⟨m, h1, h2, -⟩ := port_mem hp
              exact ⟨m, by rw [← hh]; exact h1, h2⟩
            obtain ⟨v, u, hv, hu⟩ := ho j f d2 hl hr
            simp only [hv, World.take, Option.bind_some, hu]
            have hmem : (j, f) ∈ e.2 := List.mem_of_getLast? hl
            refine ⟨_, rfl, hq.trans (setField_quiet _ _ _ _), hwires, fun j' hj' => ?_, fun j' m hm => ?_⟩
            · have : j' ≠ j := fun h => hj' e (by simp) _ hmem h.symm
              simp only [World.setField, if_neg this, hh]
            · by_cases hj : j' = j
              · subst hj
                refine ⟨m.set d2.name u, by simp [World.setField, hh, hm], rfl, rfl, fun g => ?_⟩
                by_cases hgn : g = d2.name
                · subst hgn; exact .inr ⟨e, by simp, f, d2, hmem, hr, rfl⟩
                · left; simp [Node.set, hgn]
              · exact ⟨m, by simp only [World.setField, if_neg hj, hh]; exact hm, rfl, rfl, fun _ => .inl rfl⟩

theorem bindList_bound {i : Nat} {c : Class F} : ∀ (l : List (Text × List (Nat × Text))) (w : World F), (∃ n, w.heap i = some n ∧ n.cls = c) → (∀ e ∈ l, OkEntry w c e) →
    ∃ w', l.foldlM (fun w' e => w'.bindIs i c e) w = some w' ∧ Bound i c l w w'
  | [], w, _, _ => ⟨w, rfl, Quiet.refl _, fun _ h => .inl h, fun _ _ => rfl, fun j n h => ⟨n, h, rfl, rfl, fun _ => .inl rfl⟩⟩
  | e :: l, w, hi, ho => by
    obtain ⟨w1, h1, b1⟩ := bindIs_bound hi (ho e (by simp))
    obtain ⟨n, hn, hc⟩ := hi
    obtain ⟨n1, a1, a2, -⟩ := b1.dict i n hn
    obtain ⟨w2, h2, b2⟩ := bindList_bound l w1 ⟨n1, a1, a2.trans hc⟩ (fun e' he' => quiet_ok b1.quiet (ho e' (by simp [he'])))
    refine ⟨w2, by rw [List.foldlM_cons, h1]; exact h2, b1.quiet.trans b2.quiet, fun x hx => ?_, fun j hj => ?_, fun j m hm => ?_⟩
    · rcases b2.wires x hx with h | ⟨h, e', he', h'⟩ | ⟨e', he', h'⟩
      · rcases b1.wires x h with h | ⟨h, e', he', h'⟩ | ⟨e', he', h'⟩
        · exact .inl h
        · exact .inr (.inl ⟨h, e', by simp at he'; simp [he'], h'⟩)
        · exact .inr (.inr ⟨e', by simp at he'; simp [he'], h'⟩)
      · exact .inr (.inl ⟨h, e', by simp [he'], h'⟩)
      · exact .inr (.inr ⟨e', by simp [he'], h'⟩)
    · rw [b2.heap j (fun e' he' => hj e' (by simp [he'])), b1.heap j (fun e' he' => hj e' (by simp at he'; simp [he']))]
    · obtain ⟨m1, c1, c2, c3, c4⟩ := b1.dict j m hm
      obtain ⟨m2, d1, d2, d3, d4⟩ := b2.dict j m1 c1
      refine ⟨m2, d1, d2.trans c2, d3.trans c3, fun g => ?_⟩
      rcases d4 g with h | ⟨e', he', f, d, h3, h4, h5⟩
      · rcases c4 g with h' | ⟨e', he', h'⟩
        · exact .inl (h.trans h')
        · exact .inr ⟨e', by simp at he'; simp [he'], h'⟩
      · exact .inr ⟨e', by simp [he'], f, d, h3, (quiet_resolves b1.quiet).1 h4, h5⟩

end Verif.Full
