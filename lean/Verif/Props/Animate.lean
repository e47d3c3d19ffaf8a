import Verif.Lemmas.Animate
import Verif.Lemmas.RouteWires
import Verif.Props.Edit
/-!
C93: assigning fields and events of loaded nodes.
-/
namespace Verif.Full
open Verif.Peg Verif.Grammar Verif.TextOut Verif.Text Verif.SceneText Verif.Library Verif.Editing
open Verif.Lin hiding disp dispList dispDecls dispAttrs disp_node disp_attr
variable {F : Type}

theorem SameApartFromValues.refl (w : World F) : SameApartFromValues w w := ⟨fun _ => rfl, rfl, rfl, rfl, rfl, rfl⟩

theorem SameApartFromValues.trans {a b c : World F} (h : SameApartFromValues a b) (k : SameApartFromValues b c) : SameApartFromValues a c :=
  ⟨fun j => (k.nodes j).trans (h.nodes j), k.scene.trans h.scene, k.cls.trans h.cls, k.inst.trans h.inst, k.wires.trans h.wires, k.next.trans h.next⟩

theorem SameApartFromValues.node {w w' : World F} (h : SameApartFromValues w w') {j : Nat} {n' : Node F} (hn : w'.heap j = some n') : ∃ n, w.heap j = some n ∧ n.cls = n'.cls ∧ n.DEF = n'.DEF := by
  have := h.nodes j
  rw [hn] at this
  cases hw : w.heap j with
  | none => rw [hw] at this; cases this
  | some n =>
    rw [hw] at this
    simp only [Option.map_some, Option.some.injEq, Prod.mk.injEq] at this
    exact ⟨n, rfl, this.1.symm, this.2.symm⟩

theorem SameApartFromValues.symm {w w' : World F} (h : SameApartFromValues w w') : SameApartFromValues w' w :=
  ⟨fun j => (h.nodes j).symm, h.scene.symm, h.cls.symm, h.inst.symm, h.wires.symm, h.next.symm⟩

theorem SameApartFromValues.portAt {w w' : World F} (h : SameApartFromValues w w') {i f p} (hp : PortAt w i f p) : PortAt w' i f p := by
  obtain ⟨n, h1, h2⟩ := hp
  obtain ⟨m, k1, k2, -⟩ := h.symm.node h1
  exact ⟨m, k1, by rw [k2]; exact h2⟩

theorem SameApartFromValues.linked {w w' : World F} (h : SameApartFromValues w w') {p q} (hl : Linked w p q) : Linked w' p q := by
  induction hl with
  | start => exact .start
  | step _ h1 h2 h3 ih => exact .step ih (by rw [h.wires]; exact h1) h2 (h.portAt (p := .inl _) h3)

theorem SameApartFromValues.good {w w' : World F} (h : SameApartFromValues w w') {a : Asg F} (hg : a.Good w) : a.Good w' := by
  obtain ⟨⟨n, h1, h2⟩, hK⟩ := hg
  obtain ⟨m, k1, k2, -⟩ := h.symm.node h1
  refine ⟨⟨m, k1, by rw [k2]; exact h2⟩, fun x hx hl => ?_⟩
  rw [h.wires] at hx
  rcases hK x hx (h.symm.linked hl) with ⟨d, e1, e2⟩ | ⟨e, e1, e2⟩
  · exact .inl ⟨d, h.portAt (p := .inl d) e1, e2⟩
  · exact .inr ⟨e, h.portAt e1, fun y hy => e2 y (by rw [← h.wires]; exact hy)⟩

theorem SameApartFromValues.fieldAt {w w' : World F} (h : SameApartFromValues w w') {q} (hf : FieldAt w q) : FieldAt w' q := by
  obtain ⟨n, d, h1, h2⟩ := hf
  obtain ⟨m, k1, k2, -⟩ := h.symm.node h1
  exact ⟨m, d, k1, by rw [k2]; exact h2⟩

theorem port_is_field {c : Class F} {f : Text} {d : FieldDecl F} (h : c.port f = some (.inl d)) : d.name = f ∧ d ∈ c.fields ∧ ∀ e ∈ c.events, e.name ≠ f := by
  unfold Class.port at h
  split at h
  · cases h
  · rename_i he
    cases hx : c.fields.find? (fun d => d.name == f) with
    | none => rw [hx] at h; cases h
    | some x =>
      rw [hx] at h
      simp only [Option.map_some, Option.some.injEq, Sum.inl.injEq] at h
      subst h
      exact ⟨by simpa using List.find?_some hx, List.mem_of_find?_eq_some hx, fun e hm => by simpa using List.find?_eq_none.1 he e hm⟩

theorem port_is_event {c : Class F} {f : Text} {e : EventDecl} (h : c.port f = some (.inr e)) : e.name = f ∧ e ∈ c.events := by
  unfold Class.port at h
  split at h
  · rename_i e' he
    cases h
    exact ⟨by simpa using List.find?_some he, List.mem_of_find?_eq_some he⟩
  · cases hx : c.fields.find? (fun d => d.name == f) <;> rw [hx] at h <;> cases h

theorem store_same (w : World F) (S : Set Place) (u : Val F) : SameApartFromValues w (w.store S u) :=
  ⟨fun j => by simp only [World.store]; cases w.heap j <;> rfl, rfl, rfl, rfl, rfl, rfl⟩

theorem store_at (w : World F) (S : Set Place) (u : Val F) (j : Nat) (g : Text) (hj : (w.heap j).isSome) : ((j, g) ∈ S → (w.store S u).at j g = some u) ∧ ((j, g) ∉ S → (w.store S u).at j g = w.at j g) := by
  obtain ⟨n, hn⟩ := Option.isSome_iff_exists.1 hj
  simp only [World.at, World.store, hn, Option.map_some, Option.bind_some]
  exact ⟨fun h => if_pos h, fun h => if_neg h⟩

/-- **C93** Assigning a field or an event of a node spreads along the connections (ROUTEs, and IS in prototypes; cycles of fields or not): the assignment ends, and the value is stored in exactly the fields
to which connections lead, directly or through other fields; no other field changes, nor anything else. -/
theorem C93_assignment_spreads {w : World F} {i : Nat} {f : Text} {v u : Val F} (hs : Starts w i f v u) (hK : KeepsValue w (i, f) v u) :
    ∃ w', w.assign i f v = some w' ∧ SameApartFromValues w w' ∧
      ∀ j g, FieldAt w (j, g) → (Linked w (i, f) (j, g) → w'.at j g = some u) ∧ (¬ Linked w (i, f) (j, g) → w'.at j g = w.at j g) := by
  obtain ⟨n, hn, ⟨d, hp, hc⟩ | ⟨e, hp⟩⟩ := hs
  · obtain ⟨rfl, -, -⟩ := port_is_field hp
    have h0 : w.setField i d.name u = w.store {(i, d.name)} u := by
      have := store_set w ∅ u i d.name
      rw [store_empty] at this
      rw [this]; simp
    obtain ⟨S, e1, e2, -, e4⟩ := spread_carry hK (y := u) (.inr rfl) (S0 := {(i, d.name)}) (fun q hq => hq)
    refine ⟨w.store S u, ?_, store_same w S u, fun j g ⟨m, d', hm, _⟩ => ?_⟩
    · simp only [World.assign, hn, Option.bind_some, hp, World.take, hc, h0]
      exact e1
    · have hat := store_at w S u j g (by rw [show w.heap j = some m from hm]; rfl)
      by_cases hq : (j, g) = (i, d.name)
      · have hin : (j, g) ∈ S := by rw [hq]; exact e2 _ rfl
        exact ⟨fun _ => hat.1 hin, fun h => absurd (by rw [hq]; exact .start) h⟩
      · exact ⟨fun h => hat.1 ((e4 _ hq).2 h), fun h => hat.2 (fun hc => h ((e4 _ hq).1 hc))⟩
  · obtain ⟨rfl, he⟩ := port_is_event hp
    obtain ⟨S, e1, -, e3, e4⟩ := spread_carry hK (y := v) (.inl rfl) (S0 := ∅) (fun q hq => by cases hq)
    rw [store_empty] at e1
    refine ⟨w.store S u, ?_, store_same w S u, fun j g ⟨m, d', hm, hd'⟩ => ?_⟩
    · simp only [World.assign, hn, Option.bind_some, hp]
      exact e1
    · have hat := store_at w S u j g (by rw [show w.heap j = some m from hm]; rfl)
      have hq : (j, g) ≠ (i, e.name) := by
        rintro h
        cases h
        rw [show w.heap i = some m from hm] at hn; cases hn
        exact (port_is_field hd').2.2 e he rfl
      exact ⟨fun h => hat.1 ((e4 _ hq).2 h), fun h => hat.2 (fun hc => h ((e4 _ hq).1 hc))⟩

/-- **C93** The last assignment that leads to a field counts: after any sequence of assignments every field has the value of the last one from which connections lead to it, or the value it had. -/
theorem C93_last_assignment {l : List (Asg F)} : ∀ {w : World F}, (∀ a ∈ l, a.Good w) →
    ∃ w', w.assignAll (l.map Asg.given) = some w' ∧ SameApartFromValues w w' ∧ ∀ q, FieldAt w q → LastAt w q l (w'.at q.1 q.2) := by
  induction l using List.reverseRecOn with
  | nil => intro w _; exact ⟨w, rfl, .refl w, fun q _ => .none (by simp)⟩
  | append_singleton l a ih =>
    intro w h
    obtain ⟨w1, h1, h2, h3⟩ := ih (fun b hb => h b (List.mem_append_left _ hb))
    obtain ⟨hs, hK⟩ := h2.good (h a (by simp))
    obtain ⟨w2, k1, k2, k3⟩ := C93_assignment_spreads hs hK
    refine ⟨w2, ?_, h2.trans k2, fun q hq => ?_⟩
    · simp only [World.assignAll, List.map_append, List.foldlM_append] at h1 ⊢
      rw [h1]
      simp [Asg.given, k1]
    · obtain ⟨g1, g2⟩ := k3 q.1 q.2 (h2.fieldAt hq)
      by_cases hl : Linked w a.place q
      · rw [g1 (h2.linked hl)]
        exact .last hl (by simp)
      · rw [g2 (fun hc => hl (h2.symm.linked hc))]
        have := h3 q hq
        generalize w1.at q.1 q.2 = x at this
        cases this with
        | none hno => exact .none (fun b hb => by
            rcases List.mem_append.1 hb with hb | hb
            · exact hno b hb
            · rw [List.mem_singleton.1 hb]; exact hl)
        | @last before b after hb hno =>
          rw [List.append_assoc, List.cons_append]
          exact .last hb (fun c hc => by
            rcases List.mem_append.1 hc with hc | hc
            · exact hno c hc
            · rw [List.mem_singleton.1 hc]; exact hl)

/-- **C93** A list of nodes that is set with `fset` is stored and goes nowhere, whatever ROUTEs start at the field; assigned as an attribute it spreads like every other
value (`C93_assignment_spreads`). -/
theorem C93_node_lists_fset {w : World F} {i : Nat} {n : Node F} {f : Text} {d : FieldDecl F} {v u : Val F} (hn : w.heap i = some n) (hd : n.cls.port f = some (.inl d)) (hk : d.kind = .mfNode)
    (hc : coerce d.kind d.conv v = some u) :
    ∃ w', w.fset i f v = some w' ∧ SameApartFromValues w w' ∧ ∀ j g, w'.at j g = if (j, g) = (i, f) then some u else w.at j g := by
  obtain ⟨rfl, -, -⟩ := port_is_field hd
  have h0 : w.setField i d.name u = w.store {(i, d.name)} u := by
    have := store_set w ∅ u i d.name
    rw [store_empty] at this
    rw [this]; simp
  refine ⟨w.store {(i, d.name)} u, ?_, store_same w _ u, fun j g => ?_⟩
  · simp only [World.fset, hn, Option.bind_some, hd, World.take, hc, if_pos hk, h0]
  · cases hj : w.heap j with
    | none =>
      have hne : (j, g) ≠ (i, d.name) := fun h => by
        have := congrArg Prod.fst h
        simp only at this
        rw [this, hn] at hj; cases hj
      rw [if_neg hne]
      simp [World.at, World.store, hj]
    | some m =>
      obtain ⟨h1, h2⟩ := store_at w {(i, d.name)} u j g (by rw [hj]; rfl)
      by_cases hq : (j, g) = (i, d.name)
      · rw [if_pos hq]; exact h1 hq
      · rw [if_neg hq]; exact h2 hq

/-! ### Connections are ROUTEs -/

/-- **C93** What connects the fields of a loaded file: every ROUTE, whose source (not a Script) has the field or event it names, forwards from it; and whatever forwards from a node (not a Script) is a ROUTE, from
the field or event it names, or is between an instance of a prototype and the body (C78). -/
theorem C93_routes_connect {base : Text → Option (Class F)} {fl : Floats F} (hB : Builtins base fl) {text : Text} {w : World F} (h : ReadsWorld base fl text w) :
    (∀ s r p, r ∈ (w.scene s).routes → PortAt w r.src r.srcField p → (∀ n, w.heap r.src = some n → n.cls.proto ≠ chars "Script") → (⟨r.src, portName p, r.dst, r.dstField⟩ : Wire) ∈ w.wires) ∧
    ∀ x ∈ w.wires, (∀ n, w.heap x.src = some n → n.cls.proto ≠ chars "Script") →
      (∃ s r p, s < w.nscenes ∧ r ∈ (w.scene s).routes ∧ PortAt w r.src r.srcField p ∧ x = ⟨r.src, portName p, r.dst, r.dstField⟩) ∨ ∃ i k, w.inst i = some k ∧ (x.src = i ∨ x.dst = i) := by
  obtain ⟨l, r⟩ := reads_steps hB h
  exact r.routeWires hB.plain init_inv (by simp [World.init]) init_routeWires.1 init_routeWires.2

theorem one_scene {base : Text → Option (Class F)} {fl : Floats F} (hB : Builtins base fl) {text : Text} {w : World F} (h : ReadsWorld base fl text w) {kids : List PTree} (hk : ItemsOf text kids)
    (hp : noProtosAll kids = true) : w.nscenes = 1 := by
  obtain ⟨l, st, h1, h2, h3, h4⟩ := C74_def_scopes hB h hk (items_plain hk hp)
  rw [← h3.scenes]
  exact (run_flat (placesAll_ordinary h1 hp) h2 start_flat).scenes

/-- **C93** In a file without prototypes whose ROUTEs do not start at Scripts, values spread along the ROUTEs of the file and nothing else. -/
theorem C93_linked_by_routes {base : Text → Option (Class F)} {fl : Floats F} (hB : Builtins base fl) {text : Text} {w : World F} (h : ReadsWorld base fl text w)
    {kids : List PTree} (hk : ItemsOf text kids) (hp : noProtosAll kids = true) (hsc : ∀ r ∈ w.file.routes, ∀ n, w.heap r.src = some n → n.cls.proto ≠ chars "Script") {p q : Place} :
    Linked w p q ↔ Relation.ReflTransGen (Routed w) p q := by
  obtain ⟨c1, c2⟩ := C93_routes_connect hB h
  obtain ⟨f1, -⟩ := reads_flat hB h hk hp
  have hone := one_scene hB h hk hp
  constructor
  · intro hl
    induction hl with
    | start => exact .refl
    | @step q x d h1 h2 h3 h4 ih =>
      have hns : ∀ n, w.heap x.src = some n → n.cls.proto ≠ chars "Script" := by
        rcases C78_connections hB h h2 with ⟨s, r, k1, k2, k3, -⟩ | ⟨i, k, -, -, -, k1, -⟩
        · have : s = 0 := by omega
          subst this
          rw [k3]; exact hsc r k2
        · rw [f1] at k1; cases k1
      rcases c2 x h2 hns with ⟨s, r, a, k1, k2, k3, rfl⟩ | ⟨i, k, k1, -⟩
      · have : s = 0 := by omega
        subst this
        rw [← h3] at ih
        exact ih.tail (.route k2 k3 h4)
      · rw [f1] at k1; cases k1
  · intro hl
    induction hl with
    | refl => exact .start
    | tail _ h2 ih =>
      cases h2 with
      | @route r a d k1 k2 k3 => exact .step ih (c1 0 r a k1 k2 (hsc r k1)) rfl k3

/-! ### Saving after assignments -/

theorem nodes_of_plain {v : Val F} (h : Plain v) : v.nodes = [] := by
  cases v <;> first | rfl | exact absurd h (by simp [Plain])

theorem fits_nodes {N : Num F} {d : FieldDecl F} {u v : Val F} (hu : Plain u) (h1 : Library.Fits N d u) (h2 : Library.Fits N d v) : v.nodes = [] := by
  cases v with
  | ref o => cases u <;> simp only [Plain] at hu <;> simp only [Library.Fits] at h1 h2 <;> simp [h2] at h1
  | refs l => cases u <;> simp only [Plain] at hu <;> simp only [Library.Fits] at h1 h2 <;> simp [h2.1] at h1
  | _ => rfl

/-- The values of `b` are those of `a`, or values without nodes that fit. -/
structure NewValues (N : Num F) (a b : Scene F) : Prop where
  children : b.children = a.children
  routes : b.routes = a.routes
  is : b.is = a.is
  getDEF : ∀ nm, b.getDEF nm = a.getDEF nm
  nodes : ∀ j, (b.heap j).map (fun n => (n.cls, n.DEF)) = (a.heap j).map (fun n => (n.cls, n.DEF))
  values : ∀ j n m, Reach a j → a.heap j = some n → b.heap j = some m → ∀ d ∈ n.cls.fields, m.dict d.name = n.dict d.name ∨ ∃ u, m.dict d.name = some u ∧ Library.Fits N d u ∧ Plain u

theorem NewValues.node {N : Num F} {a b : Scene F} (h : NewValues N a b) {j : Nat} {n : Node F} (hn : a.heap j = some n) : ∃ m, b.heap j = some m ∧ m.cls = n.cls ∧ m.DEF = n.DEF := by
  have := h.nodes j
  rw [hn] at this
  cases hw : b.heap j with
  | none => rw [hw] at this; cases this
  | some m =>
    rw [hw] at this
    simp only [Option.map_some, Option.some.injEq, Prod.mk.injEq] at this
    exact ⟨m, rfl, this.1, this.2⟩

theorem NewValues.back {N : Num F} {a b : Scene F} (h : NewValues N a b) {j : Nat} {m : Node F} (hm : b.heap j = some m) : ∃ n, a.heap j = some n ∧ m.cls = n.cls ∧ m.DEF = n.DEF := by
  have := h.nodes j
  rw [hm] at this
  cases hw : a.heap j with
  | none => rw [hw] at this; cases this
  | some n =>
    rw [hw] at this
    simp only [Option.map_some, Option.some.injEq, Prod.mk.injEq] at this
    exact ⟨n, rfl, this.1, this.2⟩

theorem NewValues.read {N : Num F} {a b : Scene F} (h : NewValues N a b) {j : Nat} {n m : Node F} (hr : Reach a j) (hl : LibraryNode N n) (hn : a.heap j = some n) (hm : b.heap j = some m)
    {d : FieldDecl F} (hd : d ∈ n.cls.fields) :
    (∀ v, d.read m = some v → v.nodes = [] ∨ d.read n = some v) ∧ ∀ v, d.read n = some v → v.nodes = [] ∨ d.read m = some v := by
  rcases h.values j n m hr hn hm d hd with he | ⟨u, h1, h2, h3⟩
  · have : d.read m = d.read n := by simp only [FieldDecl.read, he]
    rw [this]
    exact ⟨fun v hv => .inr hv, fun v hv => .inr hv⟩
  · have hmr : d.read m = some u := by simp only [FieldDecl.read, h1]
    refine ⟨fun v hv => .inl ?_, fun v hv => .inl ?_⟩
    · rw [hmr] at hv; cases hv; exact nodes_of_plain h3
    · cases hdv : n.dict d.name with
      | some v' =>
        have : d.read n = some v' := by simp only [FieldDecl.read, hdv]
        rw [this] at hv; cases hv
        exact fits_nodes h3 h2 (hl.values d hd _ hdv)
      | none => exact fresh_read (DEF := []) hl.cls hd (by simpa only [FieldDecl.read, hdv] using hv)

theorem NewValues.shown {N : Num F} {a b : Scene F} (h : NewValues N a b) (i : Nat) (d : FieldDecl F) (hf : a.is = none) : (Shown a i d → Shown b i d) ∧ (Shown b i d → Shown a i d) := by
  have hno : ∀ (s : Scene F), s.is = none → Visible d → Shown s i d := fun s hs hv => ⟨hv, fun nm hm => by
    obtain ⟨dict, _, h0, -⟩ := hm
    rw [hs] at h0; cases h0⟩
  exact ⟨fun k => hno b (by rw [h.is, hf]) k.1, fun k => hno a hf k.1⟩

theorem NewValues.reach {N : Num F} {a b : Scene F} (h : NewValues N a b) {all : List Nat} (hs : LibraryScene N a all) {i : Nat} (hi : Reach a i) : Reach b i := by
  induction hi with
  | child hc => exact .child (by rw [h.children]; exact hc)
  | @field i j n d v h1 h2 h3 h4 h5 h6 ih =>
    obtain ⟨n', e1, hl⟩ := hs.nodes i h1
    rw [h2] at e1; cases e1
    obtain ⟨m, k1, k2, -⟩ := h.node h2
    rcases (h.read h1 hl h2 k1 h3).2 v h5 with hv | hv
    · rw [hv] at h6; cases h6
    · exact .field ih k1 (by rw [k2]; exact h3) ((h.shown i d hs.file).1 h4) hv h6

theorem NewValues.unreach {N : Num F} {a b : Scene F} (h : NewValues N a b) {all : List Nat} (hs : LibraryScene N a all) {i : Nat} (hi : Reach b i) : Reach a i := by
  induction hi with
  | child hc => exact .child (by rw [← h.children]; exact hc)
  | @field i j m d v h1 h2 h3 h4 h5 h6 ih =>
    obtain ⟨n, k1, k2, -⟩ := h.back h2
    obtain ⟨n', e1, hl⟩ := hs.nodes i ih
    rw [k1] at e1; cases e1
    rw [k2] at h3
    rcases (h.read ih hl k1 h2 h3).1 v h5 with hv | hv
    · rw [hv] at h6; cases h6
    · exact .field ih k1 h3 ((h.shown i d hs.file).2 h4) hv h6

theorem NewValues.refers {N : Num F} {a b : Scene F} (h : NewValues N a b) {all : List Nat} (hs : LibraryScene N a all) {l : Loc} {j : Nat} (hi : Refers b l j) : Refers a l j := by
  cases hi with
  | child hc => exact .child (by rw [← h.children]; exact hc)
  | @field i m d v p _ h1 h2 h3 h4 h5 h6 =>
    have ih := h.unreach hs h1
    obtain ⟨n, k1, k2, -⟩ := h.back h2
    obtain ⟨n', e1, hl⟩ := hs.nodes i ih
    rw [k1] at e1; cases e1
    rw [k2] at h3
    rcases (h.read ih hl k1 h2 h3).1 v h5 with hv | hv
    · rw [hv] at h6; cases h6
    · exact .field ih k1 h3 ((h.shown i d hs.file).2 h4) hv h6

theorem family_field {N : Num F} {c : Class F} (h : library N c.proto = some c) (hp : c.proto = chars "FontStyle") : ∃ d ∈ c.fields, d.name = chars "family" := by
  obtain ⟨h1, -⟩ := library_of h
  have h1 : "FontStyle" ∈ Builtin.baseNames := by
    rw [hp] at h1
    have : String.ofList (chars "FontStyle") = "FontStyle" := String.ofList_toList (s := "FontStyle")
    rwa [this] at h1
  obtain ⟨cl, k1, k2, -⟩ := C81_all_fields N "FontStyle" h1
  have : cl = c := by
    have : library N ("FontStyle" : String).toList = some c := by rw [hp] at h; exact h
    rw [this] at k1; cases k1; rfl
  subst this
  have hm : (chars "family", chars "MFString") ∈ cl.fields.map (fun d => (d.name, d.cls)) := by
    rw [k2]
    refine List.mem_cons_of_mem _ (List.mem_map.2 ⟨⟨"FontStyle", "family", "MFString", false, .str "SERIF"⟩, List.mem_filter.2 ⟨by decide +kernel, by decide⟩, rfl⟩)
  obtain ⟨d, hd, he⟩ := List.mem_map.1 hm
  exact ⟨d, hd, congrArg Prod.fst he⟩

theorem NewValues.scene {N : Num F} {a b : Scene F} (h : NewValues N a b) {all : List Nat} (hs : LibraryScene N a all) : LibraryScene N b all where
  finite i hi := hs.finite i (h.unreach hs hi)
  nodes i hi := by
    have hr := h.unreach hs hi
    obtain ⟨n, h1, hl⟩ := hs.nodes i hr
    obtain ⟨m, k1, k2, k3⟩ := h.node h1
    refine ⟨m, k1, ⟨by rw [k2]; exact hl.cls, by rw [k3]; exact hl.DEF, fun d hd v hv => ?_, fun hp => ?_⟩⟩
    · rw [k2] at hd
      rcases h.values i n m hr h1 k1 d hd with he | ⟨u, e1, e2, -⟩
      · rw [he] at hv; exact hl.values d hd v hv
      · rw [e1] at hv; cases hv; exact e2
    · rw [k2] at hp
      have hf := hl.fonts hp
      obtain ⟨v, hv⟩ := Option.isSome_iff_exists.1 hf
      by_cases hx : ∃ d ∈ n.cls.fields, d.name = chars "family"
      · obtain ⟨d, hd, hnm⟩ := hx
        rcases h.values i n m hr h1 k1 d hd with he | ⟨u, e1, -, -⟩
        · rw [hnm] at he; rw [he]; exact hf
        · rw [hnm] at e1; rw [e1]; rfl
      · exact absurd (family_field hl.cls hp) hx
  shared j m l l' h1 h2 h3 h4 h5 := by
    obtain ⟨n, k1, -, k3⟩ := h.back h3
    exact hs.shared j n l l' (h.refers hs h1) (h.refers hs h2) k1 (k3 ▸ h4) (by rw [← h.routes]; exact h5)
  registered i m hi hm hD := by
    obtain ⟨n, k1, -, k3⟩ := h.back hm
    rw [h.getDEF, k3]
    exact hs.registered i n (h.unreach hs hi) k1 (k3 ▸ hD)
  routes r hr := by
    rw [h.routes] at hr
    obtain ⟨h1, h2, h3⟩ := hs.routes r hr
    exact ⟨h.reach hs h1, h.reach hs h2, h3⟩
  children := by rw [h.children]; exact hs.children
  file := by rw [h.is]; exact hs.file

theorem LastAt.unique {w : World F} {q : Place} {l : List (Asg F)} {x y : Option (Val F)} (h : LastAt w q l x) (k : LastAt w q l y) : x = y := by
  cases h with
  | none h1 =>
    generalize hl : l = l' at k
    cases k with
    | none => rfl
    | @last b a c k1 k2 => exact absurd k1 (h1 a (by rw [hl]; simp))
  | @last b a c h1 h2 =>
    generalize hl : b ++ a :: c = l' at k
    cases k with
    | none k1 => exact absurd h1 (k1 a (by rw [← hl]; simp))
    | @last b' a' c' k1 k2 =>
      rcases List.append_eq_append_iff.1 hl with ⟨t, e1, e2⟩ | ⟨t, e1, e2⟩
      · cases t with
        | nil => simp only [List.nil_append, List.cons.injEq] at e2; rw [e2.1]
        | cons z t =>
          simp only [List.cons_append, List.cons.injEq] at e2
          exact absurd k1 (h2 a' (by rw [e2.2]; simp))
      · cases t with
        | nil => simp only [List.nil_append, List.cons.injEq] at e2; rw [e2.1]
        | cons z t =>
          simp only [List.cons_append, List.cons.injEq] at e2
          exact absurd h1 (k2 a (by rw [e2.2]; simp))

theorem library_port {N : Num F} {c : Class F} (h : library N c.proto = some c) {d : FieldDecl F} (hd : d ∈ c.fields) : c.port d.name = some (.inl d) := by
  obtain ⟨-, -, hdis, -⟩ := class_names h
  obtain ⟨h1, -, h3⟩ := List.nodup_append.1 hdis
  unfold Class.port
  have hev : c.events.find? (fun e => e.name == d.name) = none := List.find?_eq_none.2 (fun e he => by
    simp only [beq_iff_eq]
    exact fun hne => h3 d.name (List.mem_map.2 ⟨d, hd, rfl⟩) e.name (List.mem_map.2 ⟨e, he, rfl⟩) hne.symm)
  rw [hev]
  cases hf : c.fields.find? (fun x => x.name == d.name) with
  | none => exact absurd (List.find?_eq_none.1 hf d hd) (by simp)
  | some x =>
    have hx : x = d := List.inj_on_of_nodup_map h1 (List.mem_of_find?_eq_some hf) hd (by simpa using List.find?_some hf)
    rw [hx]; rfl

/-- **C93** A file without prototypes is loaded, fields and events of its nodes are assigned, and the scene is saved: if the values fit wherever they spread, it is saved, and loading the text gives a scene
in which every field of every node has the value of the last assignment that led to it, or, if none did, the value that was loaded at first. -/
theorem C93_saved {N : Num F} (hN : GoodNum N) {lv : LinValues} (hlv : GoodOptions lv) {text : Text} {w : World F} (h : ReadsWorld (library N) (floats N) text w)
    {kids : List PTree} (hk : ItemsOf text kids) (hp : noProtosAll kids = true) (hs : Savable N w) {l : List (Asg F)} (hl : ∀ a ∈ l, a.Good w ∧ Plain a.u)
    (hfit : ∀ a ∈ l, ∀ j n d, Linked w a.place (j, d.name) → w.heap j = some n → d ∈ n.cls.fields → Library.Fits N d a.u) {fuel : Nat} (hf : w.next < fuel) :
    ∃ w1 saved w2 φ, w.assignAll (l.map Asg.given) = some w1 ∧ linearise lv (floats N) w1.file fuel = .ok (saved, w1.file) ∧ ReadsWorld (library N) (floats N) saved w2 ∧
      SameScene w1.file w2.file φ ∧ w2.file.children = w.file.children.map φ ∧ ∀ j n, Reach w.file j → w.heap j = some n → ∃ m, w2.heap (φ j) = some m ∧ m.cls.proto = n.cls.proto ∧ m.DEF = n.DEF ∧
        ∀ d ∈ n.cls.fields, ∃ d' ∈ m.cls.fields, d'.name = d.name ∧
          (∀ before a after, l = before ++ a :: after → Linked w a.place (j, d.name) → (∀ b ∈ after, ¬ Linked w b.place (j, d.name)) → d'.read m = some a.u) ∧
          ((∀ a ∈ l, ¬ Linked w a.place (j, d.name)) → d'.read m = (d.read n).map (Val.mapRef φ)) := by
  obtain ⟨w1, h1, h2, h3⟩ := C93_last_assignment (fun a ha => (hl a ha).1)
  have hls := loaded_scene h hk hp hs
  have hfa : ∀ j n, Reach w.file j → w.heap j = some n → library N n.cls.proto = some n.cls := fun j n hr hn => by
    obtain ⟨n', e1, e2⟩ := hls.nodes j hr
    have e1 : w.heap j = some n' := e1
    rw [hn] at e1; cases e1; exact e2.cls
  have hat : ∀ j n m, Reach w.file j → w.heap j = some n → w1.heap j = some m → ∀ d ∈ n.cls.fields, LastAt w (j, d.name) l (m.dict d.name) := fun j n m hr hn hm d hd => by
    have := h3 (j, d.name) ⟨n, d, hn, library_port (hfa j n hr hn) hd⟩
    simpa only [World.at, hm, Option.bind_some] using this
  have hnv : NewValues N w.file w1.file := by
    refine ⟨?_, ?_, ?_, fun nm => ?_, h2.nodes, fun j n m hr hn hm d hd => ?_⟩
    · show (w1.scene 0).children = (w.scene 0).children; rw [h2.scene]
    · show (w1.scene 0).routes = (w.scene 0).routes; rw [h2.scene]
    · rfl
    · show w1.getDEF 0 nm = w.getDEF 0 nm
      simp only [World.getDEF, World.view, Scene.getDEF, h2.scene]
    · have := hat j n m hr hn hm d hd
      generalize hx : m.dict d.name = x at this
      cases this with
      | none _ => left; simp only [World.at]; rw [show w.heap j = some n from hn]; rfl
      | @last b a c k1 _ => exact .inr ⟨a.u, rfl, hfit a (by simp) j n d k1 hn hd, (hl a (by simp)).2⟩
  have hls1 := hnv.scene hls
  have hfu : (List.range w.next).length < fuel := by rw [List.length_range]; exact hf
  obtain ⟨saved, named, w2, φ, g1, g2, g3, g4, -⟩ := C81_round_trip hN hlv hls1 hfu
  have hnm : named = w1.file := by
    have hpre : preroute w1.file = w1.file := preroute_named (fun r hr m hm => by
      have hr : r ∈ w.file.routes := by rw [← hnv.routes]; exact hr
      obtain ⟨-, -, ⟨n, k1, k2⟩, n', k3, k4⟩ := (C69_legal_names (C81_builtins N) h).2 0 r hr
      rcases hm with hm | hm
      · obtain ⟨n0, e1, -, e3⟩ := hnv.back hm
        have e1 : w.heap r.src = some n0 := e1
        rw [k1] at e1; cases e1; rw [e3]; exact k2
      · obtain ⟨n0, e1, -, e3⟩ := hnv.back hm
        have e1 : w.heap r.dst = some n0 := e1
        rw [k3] at e1; cases e1; rw [e3]; exact k4)
    have g1 := g1
    unfold linearise at g1
    dsimp only at g1
    split at g1
    · cases g1
    · cases g1; exact hpre
  subst hnm
  refine ⟨w1, saved, w2, φ, h1, g1, g3, g4, by rw [g4.children, hnv.children], fun j n hr hn => ?_⟩
  obtain ⟨m1, e1, e2, e3⟩ := hnv.node hn
  obtain ⟨n1, m, k1, k2, k3, k4, k5⟩ := g4.nodes j (hnv.reach hls hr)
  rw [e1] at k1; cases k1
  refine ⟨m, k2, by rw [k3.proto, e2], by rw [k4, e3], fun d hd => ?_⟩
  have hd1 : d ∈ m1.cls.fields := by rw [e2]; exact hd
  have hvis : Visible d := visible_of_safe ((class_names (hfa j n hr hn)).2.2.2 d hd)
  obtain ⟨d', q1, q2, -⟩ := k3.fields d hd1 hvis
  have hrd : d'.read m = (d.read m1).map (Val.mapRef φ) := (k5 d hd1 ⟨hvis, fun nm hm => by
    obtain ⟨dict, _, h0, -⟩ := hm
    cases h0⟩ d' q1 q2.name).1
  have hla := hat j n m1 hr hn e1 d hd
  refine ⟨d', q1, q2.name, fun b a c hsplit hla1 hla2 => ?_, fun hno => ?_⟩
  · have : m1.dict d.name = some a.u := (hsplit ▸ hla).unique (.last hla1 hla2)
    rw [hrd]
    simp only [FieldDecl.read, this, Option.map_some]
    have hpl := (hl a (by rw [hsplit]; simp)).2
    cases hu : a.u <;> rw [hu] at hpl <;> first | rfl | exact absurd hpl (by simp [Plain])
  · have : m1.dict d.name = n.dict d.name := by
      rw [hla.unique (.none hno)]
      simp only [World.at, hn, Option.bind_some]
    rw [hrd]
    simp only [FieldDecl.read, this]

/-! ### The theorems apply -/

deriving instance DecidableEq for Verif.Lin.Val

/-- three nodes, connected in a circle -/
def exRouted : Text := file (chars "DEF A Transform { } DEF B Transform { scale 7 8 9 } DEF C Transform { } ROUTE A.translation_changed TO B.set_translation ROUTE B.translation TO C.scale ROUTE C.scale_changed TO A.translation")

/-- the fields in the circle -/
def exNames : List Text := [chars "translation", chars "scale"]

def exVal (l : List Int) : Val Int := .nums l

/-- the name resolves to a field of the circle, which keeps the value -/
def exKeeps (f : Text) (u : Val Int) : Bool := match (nodeClass exNum "Transform").getField f with
  | some (.inl d) => coerce d.kind d.conv u == some u && exNames.contains d.name
  | _ => false

theorem exKeeps_of {f : Text} {u : Val Int} (h : exKeeps f u = true) : ∃ d, (nodeClass exNum "Transform").getField f = some (.inl d) ∧ coerce d.kind d.conv u = some u ∧ d.name ∈ exNames := by
  unfold exKeeps at h
  split at h
  · next d hd =>
    simp only [Bool.and_eq_true, beq_iff_eq, List.contains_eq_mem, decide_eq_true_eq] at h
    exact ⟨d, hd, h.1, h.2⟩
  · cases h

theorem exWorld : ∃ w kids, ReadsWorld (library exNum) (floats exNum) exRouted w ∧ ItemsOf exRouted kids ∧ noProtosAll kids = true ∧ Savable exNum w ∧ w.next = 3 ∧
    w.wires = [⟨0, chars "translation", 1, chars "set_translation"⟩, ⟨1, chars "translation", 2, chars "scale"⟩, ⟨2, chars "scale", 0, chars "translation"⟩] ∧ w.file.children = [0, 1, 2] ∧
    ∀ j n, w.heap j = some n → n.cls = nodeClass exNum "Transform" := by
  obtain ⟨w, h1, h2⟩ := world_fact (base := library exNum) (fl := floats exNum) (fuel := 600) (text := exRouted)
    (f := fun w => (w.next, savableB w, w.wires, w.file.children, (List.range 3).all (fun j => (w.heap j).map (fun n => n.cls.proto) == some (chars "Transform"))))
    (x := (3, true, [⟨0, chars "translation", 1, chars "set_translation"⟩, ⟨1, chars "translation", 2, chars "scale"⟩, ⟨2, chars "scale", 0, chars "translation"⟩], [0, 1, 2], true)) (by decide +kernel)
  simp only [Prod.mk.injEq] at h2
  obtain ⟨g1, g2, g3, g4, g5⟩ := h2
  obtain ⟨hdr, sm, kids, eof, m, vs, hd, hr⟩ := id h1
  have hk : ItemsOf exRouted kids := ⟨hdr, sm, eof, m, hd⟩
  have hp : noProtosAll kids = true := items_fact (fuel := 600) (P := noProtosAll) (by decide +kernel) hk
  refine ⟨w, kids, h1, hk, hp, savable_of h1 hk hp g2, g1, g3, g4, fun j n hn => ?_⟩
  have hj : j < 3 := by rw [← g1]; exact ((C69_world_well_formed (C81_builtins exNum) h1).1 j).1 (by rw [hn]; rfl)
  have hpr : n.cls.proto = chars "Transform" := by
    have := List.all_eq_true.1 g5 j (List.mem_range.2 hj)
    rw [hn] at this
    simpa using this
  obtain ⟨-, -, -, f4⟩ := reads_flat (C81_builtins exNum) h1 hk hp
  have hl := (f4 j n hn).resolve_right (by rw [hpr]; decide)
  rw [hpr] at hl
  have h' : library exNum (chars "Transform") = some (nodeClass exNum "Transform") := by
    obtain ⟨a, b⟩ := library_of hl
    rw [show String.ofList (chars "Transform") = "Transform" from String.ofList_toList (s := "Transform")] at b
    rw [hl, b]
  rw [h'] at hl; exact (Option.some.inj hl).symm

/-- two assignments -/
def exAsgs : List (Asg Int) := [⟨0, chars "translation", exVal [1, 2, 3], exVal [1, 2, 3]⟩, ⟨2, chars "scale", exVal [4, 5, 6], exVal [4, 5, 6]⟩]

theorem exGood {w : World Int} (hw : w.wires = [⟨0, chars "translation", 1, chars "set_translation"⟩, ⟨1, chars "translation", 2, chars "scale"⟩, ⟨2, chars "scale", 0, chars "translation"⟩])
    (hn : w.next = 3) (hid : ∀ i, (w.heap i).isSome ↔ i < w.next) (hc : ∀ j n, w.heap j = some n → n.cls = nodeClass exNum "Transform") {a : Asg Int} (ha : a ∈ exAsgs) :
    a.Good w ∧ Plain a.u ∧ ∀ j n d, Linked w a.place (j, d.name) → w.heap j = some n → d ∈ n.cls.fields → Library.Fits exNum d a.u := by
  have hv : a.v = a.u ∧ a.f ∈ exNames ∧ a.i < 3 ∧ (a.u = exVal [1, 2, 3] ∨ a.u = exVal [4, 5, 6]) := by
    simp only [exAsgs, List.mem_cons, List.not_mem_nil, or_false] at ha
    rcases ha with rfl | rfl <;> simp [exNames]
  obtain ⟨h1, h2, h3, h4⟩ := hv
  have hx : ∀ x ∈ w.wires, exKeeps x.dstField a.u = true ∧ x.dst < 3 := by
    rw [hw]
    rcases h4 with h4 | h4 <;> rw [h4] <;> decide +kernel
  have hpl : Plain a.u := by rcases h4 with h4 | h4 <;> rw [h4] <;> trivial
  have hlink : ∀ q, Linked w a.place q → q.2 ∈ exNames := by
    intro q hq
    cases hq with
    | start => exact h2
    | @step _ x d _ hx' _ hr =>
      obtain ⟨n, e1, e2⟩ := hr
      obtain ⟨d', k1, -, k3⟩ := exKeeps_of (hx x hx').1
      rw [hc _ n e1, k1] at e2
      cases e2; exact k3
  refine ⟨⟨?_, fun x hx' _ => .inl ?_⟩, hpl, fun j n d hl hj hd => ?_⟩
  · obtain ⟨n, e⟩ := Option.isSome_iff_exists.1 ((hid a.i).2 (by rw [hn]; exact h3))
    refine ⟨n, e, .inl ?_⟩
    rw [hc _ n e, h1]
    have : ∀ f ∈ exNames, (match (nodeClass exNum "Transform").port f with
        | some (.inl d) => coerce d.kind d.conv a.u == some a.u
        | _ => false) = true := by rcases h4 with h4 | h4 <;> rw [h4] <;> decide +kernel
    have := this a.f h2
    split at this
    · next d hd =>
      simp only [beq_iff_eq] at this
      exact ⟨d, hd, this⟩
    · cases this
  · obtain ⟨k, k'⟩ := hx x hx'
    obtain ⟨d, k1, k2, -⟩ := exKeeps_of k
    obtain ⟨n, e⟩ := Option.isSome_iff_exists.1 ((hid x.dst).2 (by rw [hn]; exact k'))
    exact ⟨d, ⟨n, e, by rw [hc _ n e]; exact k1⟩, h1 ▸ k2, k2⟩
  · have hcn := hc j n hj
    have hl := hlink _ hl
    rw [hcn] at hd
    have h' : library exNum (chars "Transform") = some (nodeClass exNum "Transform") := by
      have hm : "Transform" ∈ Builtin.baseNames := by decide +kernel
      simp only [library]
      rw [show String.ofList (chars "Transform") = "Transform" from String.ofList_toList (s := "Transform")]
      simp [hm]
    refine fits_of h' hd ?_
    have : (nodeClass exNum "Transform").fields.all (fun d => !(exNames.contains d.name) || fitsB d a.u) = true := by rcases h4 with h4 | h4 <;> rw [h4] <;> decide +kernel
    have := List.all_eq_true.1 this d hd
    simp only [Bool.or_eq_true, Bool.not_eq_true', List.contains_eq_mem, decide_eq_false_iff_not] at this
    exact this.resolve_left (fun h => h hl)

/-- Assigning `A.translation` changes all three fields of the circle, and the scale of `B` stays. -/
example : ∃ w w', ReadsWorld (library exNum) (floats exNum) exRouted w ∧ w.assign 0 (chars "translation") (exVal [1, 2, 3]) = some w' ∧ w'.at 0 (chars "translation") = some (exVal [1, 2, 3]) ∧
    w'.at 1 (chars "translation") = some (exVal [1, 2, 3]) ∧ w'.at 2 (chars "scale") = some (exVal [1, 2, 3]) ∧ w'.at 1 (chars "scale") = some (exVal [7, 8, 9]) := by
  obtain ⟨w, h1, h2⟩ := world_fact (base := library exNum) (fl := floats exNum) (fuel := 600) (text := exRouted)
    (f := fun w => (w.assign 0 (chars "translation") (exVal [1, 2, 3])).map (fun w' => [w'.at 0 (chars "translation"), w'.at 1 (chars "translation"), w'.at 2 (chars "scale"), w'.at 1 (chars "scale")]))
    (x := some [some (exVal [1, 2, 3]), some (exVal [1, 2, 3]), some (exVal [1, 2, 3]), some (exVal [7, 8, 9])]) (by decide +kernel)
  obtain ⟨w', h3, h4⟩ := Option.map_eq_some_iff.1 h2
  simp only [List.cons.injEq, and_true] at h4
  exact ⟨w, w', h1, h3, h4.1, h4.2.1, h4.2.2.1, h4.2.2.2⟩

/-- Both assignments are made and the scene is saved: all the hypotheses of `C93_saved` hold. -/
example : ∃ w w1 saved w2 φ, ReadsWorld (library exNum) (floats exNum) exRouted w ∧ w.assignAll (exAsgs.map Asg.given) = some w1 ∧ linearise defaults (floats exNum) w1.file 4 = .ok (saved, w1.file) ∧
    ReadsWorld (library exNum) (floats exNum) saved w2 ∧ SameScene w1.file w2.file φ ∧ w2.file.children = [0, 1, 2].map φ := by
  obtain ⟨w, kids, h1, h2, h3, h4, h5, h6, h7, h8⟩ := exWorld
  have hid := (C69_world_well_formed (C81_builtins exNum) h1).1
  obtain ⟨w1, saved, w2, φ, k1, k2, k3, k4, k5, -⟩ := C93_saved exGoodNum goodDefaults h1 h2 h3 h4 (l := exAsgs) (fun a ha => ⟨(exGood h6 h5 hid h8 ha).1, (exGood h6 h5 hid h8 ha).2.1⟩)
    (fun a ha => (exGood h6 h5 hid h8 ha).2.2) (fuel := 4) (by omega)
  exact ⟨w, w1, saved, w2, φ, h1, k1, k2, k3, k4, by rw [← h7]; exact k5⟩

def exLists : Text := file (chars "DEF A Group { } DEF B Group { } DEF C Group { } ROUTE A.children_changed TO B.set_children")

/-- a list of nodes goes along the ROUTE if it is assigned and not if it is set with `fset`; a text is refused -/
example : ∃ w w1 w2, ReadsWorld (library exNum) (floats exNum) exLists w ∧
    w.assign 0 (chars "children") (.refs [some 2]) = some w1 ∧ w1.at 1 (chars "children") = some (.refs [some 2]) ∧
    w.fset 0 (chars "children") (.refs [some 2]) = some w2 ∧ w2.at 0 (chars "children") = some (.refs [some 2]) ∧ w2.at 1 (chars "children") = w.at 1 (chars "children") ∧
    w.assign 0 (chars "children") (.str (chars "x")) = none := by
  obtain ⟨w, h1, h2⟩ := world_fact (base := library exNum) (fl := floats exNum) (fuel := 600) (text := exLists)
    (f := fun (w : World Int) => (((w.assign 0 (chars "children") (.refs [some 2])).map (fun (w' : World Int) => w'.at 1 (chars "children"))),
      ((w.fset 0 (chars "children") (.refs [some 2])).map (fun (w' : World Int) => (w'.at 0 (chars "children"), decide (w'.at 1 (chars "children") = w.at 1 (chars "children"))))),
      (w.assign 0 (chars "children") (.str (chars "x"))).isNone))
    (x := ((some (some (.refs [some 2])), some (some (.refs [some 2]), true), true) : Option (Option (Val Int)) × Option (Option (Val Int) × Bool) × Bool)) (by decide +kernel)
  simp only [Prod.mk.injEq, Option.isNone_iff_eq_none] at h2
  obtain ⟨h2, h3, h4⟩ := h2
  obtain ⟨w1, k1, k2⟩ := Option.map_eq_some_iff.1 h2
  obtain ⟨w2, k3, k4⟩ := Option.map_eq_some_iff.1 h3
  simp only [Prod.mk.injEq, decide_eq_true_eq] at k4
  exact ⟨w, w1, w2, h1, k1, k2, k3, k4.1, k4.2, h4⟩

/-- the fields of the circle are linked by the ROUTEs -/
example : ∃ w, ReadsWorld (library exNum) (floats exNum) exRouted w ∧ Relation.ReflTransGen (Routed w) (0, chars "translation") (0, chars "translation") ∧
    ∀ q, Linked w (0, chars "translation") q ↔ Relation.ReflTransGen (Routed w) (0, chars "translation") q := by
  obtain ⟨w, kids, h1, h2, h3, h4, h5, h6, h7, h8⟩ := exWorld
  refine ⟨w, h1, .refl, fun q => C93_linked_by_routes (C81_builtins exNum) h1 h2 h3 (fun r _ n hi => ?_)⟩
  rw [h8 r.src n hi]
  decide +kernel

end Verif.Full
