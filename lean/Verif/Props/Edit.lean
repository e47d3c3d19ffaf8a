import Verif.Props.Loaded
import Verif.Props.SavedAgain
import Verif.Spec.Edit
/-!
C92: a scene that a program builds or edits can be saved and loaded, and what is loaded is what the last edits left.
-/
namespace Verif.Editing
open Verif.TextOut Verif.Text Verif.SceneText Verif.Full Verif.Library
open Verif.Lin hiding disp dispList dispDecls dispAttrs disp_node disp_attr
variable {F : Type}

/-! ### Root scene graphs -/

/-- The same, apart from what the DEF table says about the empty name. -/
structure Like (a b : Scene F) : Prop where
  heap : b.heap = a.heap
  children : b.children = a.children
  routes : b.routes = a.routes
  is : b.is = a.is
  getDEF : ∀ nm, nm ≠ [] → b.getDEF nm = a.getDEF nm

theorem Like.refl (a : Scene F) : Like a a := ⟨rfl, rfl, rfl, rfl, fun _ _ => rfl⟩
theorem Like.trans {a b c : Scene F} (h : Like a b) (k : Like b c) : Like a c :=
  ⟨k.heap.trans h.heap, k.children.trans h.children, k.routes.trans h.routes, k.is.trans h.is, fun nm hn => (k.getDEF nm hn).trans (h.getDEF nm hn)⟩

theorem root_like {sc : Scene F} {j : Nat} (h : sc.defOf j ≠ [] → sc.getDEF (sc.defOf j) = some j) : Like sc (root sc j) := by
  refine ⟨?_, rfl, rfl, rfl, fun nm hn => ?_⟩
  · funext k
    show (if k = j then (sc.heap j).map (fun nd => { nd with DEF := sc.defOf j }) else sc.heap k) = sc.heap k
    by_cases hk : k = j
    · subst hk
      rw [if_pos rfl]
      unfold Scene.defOf
      cases hh : sc.heap k <;> rfl
    · rw [if_neg hk]
  · unfold root Scene.regDefName Scene.getDEF
    by_cases he : nm = sc.defOf j
    · subst he
      simp only [List.lookup_cons_self]
      exact (h hn).symm
    · have : (nm == sc.defOf j) = false := by simpa using he
      simp only [List.lookup_cons, this]
      rw [Lin.lookup_filter_ne he]
      split
      · exact Lin.lookup_filter_ne he
      · rfl

theorem roots_like {live : List Nat} : ∀ (rooted : List Nat) {sc : Scene F}, (∀ j ∈ rooted, j ∈ live) →
    (∀ j ∈ live, ∀ n, sc.heap j = some n → n.DEF ≠ [] → sc.getDEF n.DEF = some j) → Like sc (rooted.foldl root sc)
  | [], sc, _, _ => Like.refl sc
  | j :: l, sc, hl, hr => by
    have h1 : Like sc (root sc j) := root_like (fun hD => by
      unfold Scene.defOf at hD ⊢
      cases hh : sc.heap j with
      | none => rw [hh] at hD; exact absurd rfl hD
      | some n => rw [hh] at hD; exact hr j (hl j (List.mem_cons_self ..)) n hh hD)
    refine h1.trans (roots_like l (fun k hk => hl k (List.mem_cons_of_mem _ hk)) fun k hk n hn hD => ?_)
    rw [h1.getDEF _ hD]
    rw [h1.heap] at hn
    exact hr k hk n hn hD

theorem holds_like {live : List Nat} {a b : Scene F} (h : Like a b) {l : Loc} {j : Nat} (hh : Holds ⟨b, live⟩ l j) : Holds ⟨a, live⟩ l j := by
  cases hh with
  | child hc => exact .child (by rw [← h.children]; exact hc)
  | field h1 h2 h3 h4 h5 => exact .field h1 (by rw [← h.heap]; exact h2) h3 h4 h5

theorem inorder_like {N : Num F} {live : List Nat} {a b : Scene F} (h : Like a b) (ho : InOrder N ⟨a, live⟩) : InOrder N ⟨b, live⟩ where
  cls i hi := by show ∃ n, b.heap i = some n ∧ _; rw [h.heap]; exact ho.cls i hi
  DEF i hi n hn := ho.DEF i hi n (by show a.heap i = _; rw [← h.heap]; exact hn)
  values i hi n hn := ho.values i hi n (by show a.heap i = _; rw [← h.heap]; exact hn)
  closed l j hh := ho.closed l j (holds_like h hh)
  once j n l l' hn hD h1 h2 := ho.once j n l l' (by show a.heap j = _; rw [← h.heap]; exact hn) hD (holds_like h h1) (holds_like h h2)
  registered i hi n hn hD := by
    show b.getDEF _ = _
    rw [h.getDEF _ hD]
    exact ho.registered i hi n (by show a.heap i = _; rw [← h.heap]; exact hn) hD
  routes r hr := ho.routes r (by show r ∈ a.routes; rw [← h.routes]; exact hr)
  file := by show b.is = none; rw [h.is]; exact ho.file

/-! ### Each edit -/

theorem fresh_read {N : Num F} {t : Text} {c : Class F} (h : library N t = some c) {d : FieldDecl F} (hd : d ∈ c.fields) {DEF : Text} {v : Val F}
    (hv : d.read ⟨c, DEF, fun _ => none⟩ = some v) : v.nodes = [] := by
  have hp := (C81_builtins N).plain t c h d hd
  simp only [FieldDecl.read] at hv
  cases hdv : d.dflt.value with
  | none => rw [hdv] at hv; cases hv
  | some v0 =>
    rw [hdv] at hv
    simp only [FieldDecl.dfltNodes, hdv, Option.map_some, Option.getD_some] at hp
    rcases coerce_keeps hv with h' | h'
    · rw [h']; exact hp
    · exact h'

theorem new_inorder {N : Num F} {w : Work F} (ho : InOrder N w) {t : Text} {c : Class F} (hc : library N t = some c) {j : Nat} (hj : w.scene.heap j = none) :
    InOrder N ⟨{ w.scene with heap := fun k => if k = j then some ⟨c, [], fun _ => none⟩ else w.scene.heap k }, j :: w.live⟩ := by
  have hne : ∀ i ∈ w.live, i ≠ j := fun i hi he => by
    obtain ⟨n, hn, -⟩ := ho.cls i hi
    rw [he, hj] at hn; cases hn
  have hold : ∀ l k, Holds ⟨{ w.scene with heap := fun k => if k = j then some ⟨c, [], fun _ => none⟩ else w.scene.heap k }, j :: w.live⟩ l k → Holds w l k := by
    intro l k h
    cases h with
    | child h => exact .child h
    | @field i n d v p _ h1 h2 h3 h4 h5 =>
      simp only at h2
      by_cases hi : i = j
      · rw [if_pos hi] at h2
        cases h2
        rw [fresh_read hc h3 h4] at h5
        cases h5
      · rw [if_neg hi] at h2
        exact .field ((List.mem_cons.1 h1).resolve_left hi) h2 h3 h4 h5
  have hheap : ∀ i n, (if i = j then some ⟨c, [], fun _ => none⟩ else w.scene.heap i) = some n → (i = j ∧ n = ⟨c, [], fun _ => none⟩) ∨ (i ≠ j ∧ w.scene.heap i = some n) := by
    intro i n h
    by_cases hi : i = j
    · rw [if_pos hi] at h; cases h; exact .inl ⟨hi, rfl⟩
    · rw [if_neg hi] at h; exact .inr ⟨hi, h⟩
  refine ⟨fun i hi => ?_, fun i hi n hn => ?_, fun i hi n hn d hd v hv => ?_, fun l k h => List.mem_cons_of_mem _ (ho.closed l k (hold l k h)),
    fun k n l l' hn hD h1 h2 => ?_, fun i hi n hn hD => ?_, ho.routes, ho.file⟩
  · show ∃ n, (if i = j then some ⟨c, [], fun _ => none⟩ else w.scene.heap i) = some n ∧ _
    by_cases hij : i = j
    · rw [if_pos hij]
      exact ⟨_, rfl, by rw [(C81_builtins N).name t c hc]; exact hc⟩
    · rw [if_neg hij]
      exact ho.cls i ((List.mem_cons.1 hi).resolve_left hij)
  · rcases hheap i n hn with ⟨-, rfl⟩ | ⟨h1, h2⟩
    · exact .inl rfl
    · exact ho.DEF i ((List.mem_cons.1 hi).resolve_left h1) n h2
  · rcases hheap i n hn with ⟨-, rfl⟩ | ⟨h1, h2⟩
    · cases hv
    · exact ho.values i ((List.mem_cons.1 hi).resolve_left h1) n h2 d hd v hv
  · have hk : k ∈ w.live := ho.closed l k (hold l k h1)
    rcases hheap k n hn with ⟨h', -⟩ | ⟨-, h'⟩
    · exact absurd h' (hne k hk)
    · exact ho.once k n l l' h' hD (hold _ _ h1) (hold _ _ h2)
  · rcases hheap i n hn with ⟨-, rfl⟩ | ⟨h1, h2⟩
    · exact absurd rfl hD
    · exact ho.registered i ((List.mem_cons.1 hi).resolve_left h1) n h2 hD

theorem set_inorder {N : Num F} {w : Work F} (ho : InOrder N w) {i : Nat} {n : Node F} (hi : i ∈ w.live) (hn : w.scene.heap i = some n) {d : FieldDecl F} (hd : d ∈ n.cls.fields) {u : Val F}
    (hf : Fits N d u) (hp : OnePlace w (fun l => ∃ p, l = .field i d.name p) u.nodes) :
    InOrder N ⟨{ w.scene with heap := fun k => if k = i then some (n.set d.name u) else w.scene.heap k }, w.live⟩ := by
  have hheap : ∀ k m, (if k = i then some (n.set d.name u) else w.scene.heap k) = some m → ∃ m0, w.scene.heap k = some m0 ∧ m.cls = m0.cls ∧ m.DEF = m0.DEF ∧ ((k = i ∧ m = n.set d.name u) ∨ (k ≠ i ∧ m = m0)) := by
    intro k m h
    by_cases hk : k = i
    · rw [if_pos hk] at h; cases h; exact ⟨n, hk ▸ hn, rfl, rfl, .inl ⟨hk, rfl⟩⟩
    · rw [if_neg hk] at h; exact ⟨m, h, rfl, rfl, .inr ⟨hk, rfl⟩⟩
  have hold : ∀ l j, Holds ⟨{ w.scene with heap := fun k => if k = i then some (n.set d.name u) else w.scene.heap k }, w.live⟩ l j →
      (Holds w l j ∧ ∀ p, l ≠ .field i d.name p) ∨ ∃ p, l = .field i d.name p ∧ u.nodes[p]? = some j := by
    intro l j h
    cases h with
    | child h => exact .inl ⟨.child h, fun p hp => by cases hp⟩
    | @field k m d' v p _ h1 h2 h3 h4 h5 =>
      obtain ⟨m0, g1, g2, -, ⟨rfl, rfl⟩ | ⟨g3, rfl⟩⟩ := hheap k m h2
      · rw [hn] at g1; cases g1
        by_cases hnm : d'.name = d.name
        · right
          have : d'.read (n.set d.name u) = some u := by simp [FieldDecl.read, Node.set, hnm]
          rw [this] at h4; cases h4
          exact ⟨p, by rw [hnm], h5⟩
        · left
          have : d'.read (n.set d.name u) = d'.read n := by simp [FieldDecl.read, Node.set, hnm]
          rw [this] at h4
          exact ⟨.field h1 hn h3 h4 h5, fun p hp => by injection hp with _ e _; exact hnm e⟩
      · exact .inl ⟨.field h1 g1 h3 h4 h5, fun p hp => by injection hp with e _ _; exact g3 e⟩
  refine ⟨fun k hk => ?_, fun k hk m hm => ?_, fun k hk m hm d' hd' v hv => ?_, fun l j h => ?_, fun j m l l' hm hD h1 h2 => ?_, fun k hk m hm hD => ?_, ho.routes, ho.file⟩
  · show ∃ m, (if k = i then some (n.set d.name u) else w.scene.heap k) = some m ∧ _
    obtain ⟨m, h1, h2⟩ := ho.cls k hk
    by_cases hki : k = i
    · rw [if_pos hki]
      rw [hki, hn] at h1; cases h1
      exact ⟨_, rfl, h2⟩
    · rw [if_neg hki]; exact ⟨m, h1, h2⟩
  · obtain ⟨m0, g1, -, g3, -⟩ := hheap k m hm
    rw [g3]; exact ho.DEF k hk m0 g1
  · obtain ⟨m0, g1, -, -, ⟨rfl, rfl⟩ | ⟨g3, rfl⟩⟩ := hheap k m hm
    · rw [hn] at g1; cases g1
      by_cases hnm : d'.name = d.name
      · obtain ⟨n1, e1, e2⟩ := ho.cls k hk
        rw [hn] at e1; cases e1
        have : d' = d := List.inj_on_of_nodup_map (List.nodup_append.1 (class_names e2).2.2.1).1 hd' hd hnm
        subst this
        simp only [Node.set, if_true, Option.some.injEq] at hv
        rw [← hv]; exact hf
      · simp only [Node.set, hnm, if_false] at hv
        exact ho.values k hk n hn d' hd' v hv
    · exact ho.values k hk m g1 d' hd' v hv
  · rcases hold l j h with ⟨h, -⟩ | ⟨p, -, h⟩
    · exact ho.closed l j h
    · exact (hp j (List.mem_of_getElem? h)).1
  · obtain ⟨m0, g1, -, g3, -⟩ := hheap j m hm
    rw [g3] at hD
    rcases hold l j h1 with ⟨h1, k1⟩ | ⟨p, k1, h1⟩ <;> rcases hold l' j h2 with ⟨h2, k2⟩ | ⟨q, k2, h2⟩
    · exact ho.once j m0 l l' g1 hD h1 h2
    · obtain ⟨p, hp'⟩ := ((hp j (List.mem_of_getElem? h2)).2 m0 g1 hD).1 l h1
      exact absurd hp' (k1 p)
    · obtain ⟨p, hp'⟩ := ((hp j (List.mem_of_getElem? h1)).2 m0 g1 hD).1 l' h2
      exact absurd hp' (k2 p)
    · rw [k1, k2, ((hp j (List.mem_of_getElem? h1)).2 m0 g1 hD).2 p q h1 h2]
  · obtain ⟨m0, g1, -, g3, -⟩ := hheap k m hm
    rw [g3] at hD ⊢
    exact ho.registered k hk m0 g1 hD

theorem children_inorder {N : Num F} {w : Work F} (ho : InOrder N w) {l : List Nat} (hp : OnePlace w (fun l => ∃ k, l = .child k) l) : InOrder N ⟨{ w.scene with children := l }, w.live⟩ := by
  have hold : ∀ x j, Holds ⟨{ w.scene with children := l }, w.live⟩ x j → (Holds w x j ∧ ∀ k, x ≠ .child k) ∨ ∃ k, x = .child k ∧ l[k]? = some j := by
    intro x j h
    cases h with
    | @child k _ h => exact .inr ⟨k, rfl, h⟩
    | field h1 h2 h3 h4 h5 => exact .inl ⟨.field h1 h2 h3 h4 h5, fun k hk => by cases hk⟩
  refine ⟨ho.cls, ho.DEF, ho.values, fun x j h => ?_, fun j m x x' hm hD h1 h2 => ?_, ho.registered, ho.routes, ho.file⟩
  · rcases hold x j h with ⟨h, -⟩ | ⟨p, -, h⟩
    · exact ho.closed x j h
    · exact (hp j (List.mem_of_getElem? h)).1
  · rcases hold x j h1 with ⟨h1, k1⟩ | ⟨p, k1, h1⟩ <;> rcases hold x' j h2 with ⟨h2, k2⟩ | ⟨q, k2, h2⟩
    · exact ho.once j m x x' hm hD h1 h2
    · obtain ⟨p, hp'⟩ := ((hp j (List.mem_of_getElem? h2)).2 m hm hD).1 x h1
      exact absurd hp' (k1 p)
    · obtain ⟨p, hp'⟩ := ((hp j (List.mem_of_getElem? h1)).2 m hm hD).1 x' h2
      exact absurd hp' (k2 p)
    · rw [k1, k2, ((hp j (List.mem_of_getElem? h1)).2 m hm hD).2 p q h1 h2]

theorem name_inorder {N : Num F} {w : Work F} (ho : InOrder N w) {i : Nat} {nm : Text} (hi : i ∈ w.live) (hl : LegalName nm) (hu : ∀ j ∈ w.live, ∀ n, w.scene.heap j = some n → n.DEF = nm → j = i) :
    InOrder N ⟨w.scene.regDefName nm i, w.live⟩ := by
  have hne : nm ≠ [] := by rintro rfl; obtain ⟨c, s, h, -⟩ := hl; cases h
  obtain ⟨n, hn, hc⟩ := ho.cls i hi
  have hheap : ∀ k m, (w.scene.regDefName nm i).heap k = some m → ∃ m0, w.scene.heap k = some m0 ∧ m.cls = m0.cls ∧ m.dict = m0.dict ∧ ((k = i ∧ m.DEF = nm) ∨ (k ≠ i ∧ m = m0)) := by
    intro k m h
    simp only [Scene.regDefName] at h
    by_cases hk : k = i
    · rw [if_pos hk, hn] at h
      simp only [Option.map_some, Option.some.injEq] at h
      subst h
      exact ⟨n, hk ▸ hn, rfl, rfl, .inl ⟨hk, rfl⟩⟩
    · rw [if_neg hk] at h; exact ⟨m, h, rfl, rfl, .inr ⟨hk, rfl⟩⟩
  have hold : ∀ l j, Holds ⟨w.scene.regDefName nm i, w.live⟩ l j → Holds w l j := by
    intro l j h
    cases h with
    | child h => exact .child h
    | @field k m d v p _ h1 h2 h3 h4 h5 =>
      obtain ⟨m0, g1, g2, g3, -⟩ := hheap k m h2
      exact .field h1 g1 (g2 ▸ h3) (by simpa [FieldDecl.read, g3] using h4) h5
  refine ⟨fun k hk => ?_, fun k hk m hm => ?_, fun k hk m hm d hd v hv => ?_, fun l j h => ho.closed l j (hold l j h), fun j m l l' hm hD h1 h2 => ?_, fun k hk m hm hD => ?_, ho.routes, ho.file⟩
  · obtain ⟨m, h1, h2⟩ := ho.cls k hk
    show ∃ m, (if k = i then (w.scene.heap i).map (fun nd => { nd with DEF := nm }) else w.scene.heap k) = some m ∧ _
    by_cases hki : k = i
    · rw [if_pos hki, hn]
      exact ⟨_, rfl, hc⟩
    · rw [if_neg hki]; exact ⟨m, h1, h2⟩
  · obtain ⟨m0, g1, -, -, ⟨-, g⟩ | ⟨-, rfl⟩⟩ := hheap k m hm
    · exact .inr (g ▸ hl)
    · exact ho.DEF k hk m g1
  · obtain ⟨m0, g1, g2, g3, -⟩ := hheap k m hm
    exact ho.values k hk m0 g1 d (g2 ▸ hd) v (g3 ▸ hv)
  · obtain ⟨m0, g1, -, -, ⟨-, g⟩ | ⟨-, rfl⟩⟩ := hheap j m hm
    · exact absurd (g.symm.trans hD) hne
    · exact ho.once j m l l' g1 hD (hold l j h1) (hold l' j h2)
  · obtain ⟨m0, g1, -, -, ⟨rfl, g⟩ | ⟨hki, rfl⟩⟩ := hheap k m hm
    · rw [g]; simp [Scene.getDEF, Scene.regDefName]
    · have hr := ho.registered k hk m g1 hD
      have h1 : m.DEF ≠ nm := fun h => hki (hu k hk m g1 h)
      have h2 : (m.DEF == nm) = false := by simpa using h1
      simp only [Scene.getDEF, Scene.regDefName, List.lookup_cons, h2]
      rw [Lin.lookup_filter_ne h1]
      split
      · rename_i hcur
        have h3 : m.DEF ≠ w.scene.defOf i := fun h => hki (by
          simp only [Scene.getDEF] at hr
          rw [← h, hr] at hcur
          cases hcur; rfl)
        rw [Lin.lookup_filter_ne h3]; exact hr
      · exact hr

theorem apply_inorder {N : Num F} {w : Work F} (ho : InOrder N w) {e : Edit F} (ha : Allowed N w e) : InOrder N (apply N w e) := by
  cases e with
  | new t j =>
    simp only [apply]
    split
    · rename_i c hc hj; exact new_inorder ho hc hj
    · exact ho
  | set i f v rooted =>
    obtain ⟨hi, hr, h⟩ := ha
    simp only [apply]
    split
    · exact ho
    rename_i n hn
    split
    · exact ho
    rename_i d hd
    split
    · exact ho
    rename_i u hu
    have hnm : d.name = f := by simpa using List.find?_some hd
    obtain ⟨h1, h2⟩ := h n d u hn (List.mem_of_find?_eq_some hd) hnm hu
    have := set_inorder ho hi hn (List.mem_of_find?_eq_some hd) h1 (hnm ▸ h2)
    exact inorder_like (roots_like rooted hr this.registered) this
  | children l rooted =>
    have := children_inorder ho ha.2
    exact inorder_like (roots_like rooted ha.1 this.registered) this
  | name i nm => exact name_inorder ho ha.1 ha.2.1 ha.2.2
  | route r =>
    refine ⟨ho.cls, ho.DEF, ho.values, ?_, ?_, ho.registered, fun x hx => ?_, ho.file⟩
    · intro l j h; exact ho.closed l j (by cases h with | child h => exact .child h | field h1 h2 h3 h4 h5 => exact .field h1 h2 h3 h4 h5)
    · intro j m l l' hm hD h1 h2
      exact ho.once j m l l' hm hD (by cases h1 with | child h => exact .child h | field h1 h2 h3 h4 h5 => exact .field h1 h2 h3 h4 h5)
        (by cases h2 with | child h => exact .child h | field h1 h2 h3 h4 h5 => exact .field h1 h2 h3 h4 h5)
    · rcases List.mem_append.1 hx with hx | hx
      · exact ho.routes x hx
      · rw [List.mem_singleton] at hx; subst hx; exact ha
  | unroute k =>
    refine ⟨ho.cls, ho.DEF, ho.values, ?_, ?_, ho.registered, fun x hx => ho.routes x (List.mem_of_mem_eraseIdx hx), ho.file⟩
    · intro l j h; exact ho.closed l j (by cases h with | child h => exact .child h | field h1 h2 h3 h4 h5 => exact .field h1 h2 h3 h4 h5)
    · intro j m l l' hm hD h1 h2
      exact ho.once j m l l' hm hD (by cases h1 with | child h => exact .child h | field h1 h2 h3 h4 h5 => exact .field h1 h2 h3 h4 h5)
        (by cases h2 with | child h => exact .child h | field h1 h2 h3 h4 h5 => exact .field h1 h2 h3 h4 h5)

theorem applyAll_inorder {N : Num F} {es : List (Edit F)} : ∀ {w : Work F}, InOrder N w → AllowedAll N w es → InOrder N (applyAll N w es) := by
  induction es with
  | nil => intro w h _; exact h
  | cons e es ih =>
    intro w h ha
    cases ha with
    | cons h1 h2 => exact ih (apply_inorder h h1) h2

/-! ### Saving -/

theorem reach_live {N : Num F} {w : Work F} (ho : InOrder N w) {i : Nat} (h : Reach w.scene i) : i ∈ w.live := by
  induction h with
  | child h =>
    obtain ⟨k, hk⟩ := List.getElem?_of_mem h
    exact ho.closed _ _ (.child hk)
  | field h1 h2 h3 h4 h5 h6 ih =>
    obtain ⟨p, hp⟩ := List.getElem?_of_mem h6
    exact ho.closed _ _ (.field ih h2 h3 h5 hp)

theorem refers_holds {N : Num F} {w : Work F} (ho : InOrder N w) {l : Loc} {j : Nat} (h : Refers w.scene l j) : Holds w l j := by
  cases h with
  | child h => exact .child h
  | field h1 h2 h3 h4 h5 h6 => exact .field (reach_live ho h1) h2 h3 h5 h6

theorem inorder_scene {N : Num F} {w : Work F} (ho : InOrder N w) (hf : Finished w) : LibraryScene N w.scene w.live where
  finite i hi := reach_live ho hi
  nodes i hi := by
    obtain ⟨n, h1, h2⟩ := ho.cls i (reach_live ho hi)
    exact ⟨n, h1, h2, ho.DEF i (reach_live ho hi) n h1, ho.values i (reach_live ho hi) n h1, hf.fonts i n hi h1⟩
  shared j n l l' h1 h2 h3 h4 _ := ho.once j n l l' h3 h4 (refers_holds ho h1) (refers_holds ho h2)
  registered i n hi hn hD := ho.registered i (reach_live ho hi) n hn hD
  routes r hr := ⟨(hf.routes r hr).1, (hf.routes r hr).2, ho.routes r hr⟩
  children := hf.children
  file := ho.file

/-- **C92** Whatever allowed edits a program makes, if in the end the scene is finished, it can be saved; loading the text gives the same
scene (nodes that routes mention get names, C11), and saving that gives the same text again. -/
theorem C92_edited_scene_saved {N : Num F} (hN : GoodNum N) {lv : LinValues} (hlv : GoodOptions lv) {w : Work F} (ho : InOrder N w) {es : List (Edit F)} (ha : AllowedAll N w es)
    (hf : Finished (applyAll N w es)) {fuel : Nat} (hfu : (applyAll N w es).live.length < fuel) :
    ∃ text named w' φ, linearise lv (floats N) (applyAll N w es).scene fuel = .ok (text, named) ∧ Renamed (applyAll N w es).scene named ∧
      ReadsWorld (library N) (floats N) text w' ∧ SameScene named w'.file φ ∧ linearise lv (floats N) w'.file fuel = .ok (text, w'.file) := by
  have hs := inorder_scene (applyAll_inorder ho ha) hf
  obtain ⟨text, named, w', φ, h1, h2, h3, h4, -⟩ := C81_round_trip hN hlv hs hfu
  obtain ⟨text', named', k1, -, k3⟩ := C88_library hN hlv hs hfu
  rw [h1] at k1; cases k1
  exact ⟨text, named, w', φ, h1, h2, h3, h4, k3 w' h3⟩

/-! ### The last edits win -/

theorem apply_keeps {N : Num F} {w : Work F} (ho : InOrder N w) {e : Edit F} (ha : Allowed N w e) {i : Nat} (hi : i ∈ w.live) {n : Node F} (hn : w.scene.heap i = some n) :
    i ∈ (apply N w e).live ∧ ∃ m, (apply N w e).scene.heap i = some m ∧ m.cls = n.cls ∧ (∀ f, ¬ e.Sets i f → m.dict f = n.dict f) ∧ (¬ e.Names i → m.DEF = n.DEF) := by
  cases e with
  | new t j =>
    simp only [apply]
    split
    · rename_i c hc hj
      refine ⟨List.mem_cons_of_mem _ hi, n, ?_, rfl, fun _ _ => rfl, fun _ => rfl⟩
      show (if i = j then _ else w.scene.heap i) = some n
      rw [if_neg (fun h => by rw [h, hj] at hn; cases hn)]; exact hn
    · exact ⟨hi, n, hn, rfl, fun _ _ => rfl, fun _ => rfl⟩
  | set k f v rooted =>
    obtain ⟨hk, hr, h⟩ := ha
    simp only [apply]
    split
    · exact ⟨hi, n, hn, rfl, fun _ _ => rfl, fun _ => rfl⟩
    rename_i m hm
    split
    · exact ⟨hi, n, hn, rfl, fun _ _ => rfl, fun _ => rfl⟩
    rename_i d hd
    split
    · exact ⟨hi, n, hn, rfl, fun _ _ => rfl, fun _ => rfl⟩
    rename_i u hu
    have hnm : d.name = f := by simpa using List.find?_some hd
    obtain ⟨h1, h2⟩ := h m d u hm (List.mem_of_find?_eq_some hd) hnm hu
    have ho' := set_inorder ho hk hm (List.mem_of_find?_eq_some hd) h1 (hnm ▸ h2)
    have hl := roots_like rooted hr ho'.registered
    refine ⟨hi, ?_⟩
    show ∃ m', (rooted.foldl root _).heap i = some m' ∧ _
    rw [hl.heap]
    by_cases hki : i = k
    · subst hki
      rw [hn] at hm; cases hm
      refine ⟨n.set d.name u, if_pos rfl, rfl, fun g hg => ?_, fun _ => rfl⟩
      have : g ≠ d.name := fun h => hg ⟨rfl, by rw [h, hnm]⟩
      simp [Node.set, this]
    · exact ⟨n, by show (if i = k then _ else w.scene.heap i) = some n; rw [if_neg hki]; exact hn, rfl, fun _ _ => rfl, fun _ => rfl⟩
  | children l rooted =>
    have ho' := children_inorder ho ha.2
    have hl := roots_like rooted ha.1 ho'.registered
    refine ⟨hi, n, ?_, rfl, fun _ _ => rfl, fun _ => rfl⟩
    show (rooted.foldl root _).heap i = some n
    rw [hl.heap]; exact hn
  | name k nm =>
    refine ⟨hi, ?_⟩
    show ∃ m, (if i = k then (w.scene.heap k).map (fun nd => { nd with DEF := nm }) else w.scene.heap i) = some m ∧ _
    by_cases hki : i = k
    · subst hki
      rw [if_pos rfl, hn]
      exact ⟨_, rfl, rfl, fun _ _ => rfl, fun h => absurd rfl h⟩
    · rw [if_neg hki]
      exact ⟨n, hn, rfl, fun _ _ => rfl, fun _ => rfl⟩
  | route r => exact ⟨hi, n, hn, rfl, fun _ _ => rfl, fun _ => rfl⟩
  | unroute k => exact ⟨hi, n, hn, rfl, fun _ _ => rfl, fun _ => rfl⟩

theorem applyAll_keeps {N : Num F} {es : List (Edit F)} : ∀ {w : Work F}, InOrder N w → AllowedAll N w es → ∀ {i : Nat}, i ∈ w.live → ∀ {n : Node F}, w.scene.heap i = some n →
    ∃ m, (applyAll N w es).scene.heap i = some m ∧ m.cls = n.cls ∧ (∀ f, (∀ e ∈ es, ¬ e.Sets i f) → m.dict f = n.dict f) ∧ ((∀ e ∈ es, ¬ e.Names i) → m.DEF = n.DEF) := by
  induction es with
  | nil => intro w _ _ i _ n hn; exact ⟨n, hn, rfl, fun _ _ => rfl, fun _ => rfl⟩
  | cons e es ih =>
    intro w ho ha i hi n hn
    cases ha with
    | cons h1 h2 =>
      obtain ⟨hi', m, k1, k2, k3, k4⟩ := apply_keeps ho h1 hi hn
      obtain ⟨m', g1, g2, g3, g4⟩ := ih (apply_inorder ho h1) h2 hi' k1
      exact ⟨m', g1, g2.trans k2, fun f hf => (g3 f fun e' he' => hf e' (List.mem_cons_of_mem _ he')).trans (k3 f (hf e (List.mem_cons_self ..))),
        fun hf => (g4 fun e' he' => hf e' (List.mem_cons_of_mem _ he')).trans (k4 (hf e (List.mem_cons_self ..)))⟩

theorem allowed_split {N : Num F} {a : List (Edit F)} : ∀ {w : Work F} {e : Edit F} {b : List (Edit F)}, AllowedAll N w (a ++ e :: b) →
    AllowedAll N w a ∧ Allowed N (applyAll N w a) e ∧ AllowedAll N (apply N (applyAll N w a) e) b := by
  induction a with
  | nil => intro w e b h; cases h with | cons h1 h2 => exact ⟨.nil, h1, h2⟩
  | cons x a ih =>
    intro w e b h
    cases h with
    | cons h1 h2 =>
      obtain ⟨k1, k2, k3⟩ := ih h2
      exact ⟨.cons h1 k1, k2, k3⟩

theorem applyAll_split (N : Num F) (w : Work F) (a b : List (Edit F)) (e : Edit F) : applyAll N w (a ++ e :: b) = applyAll N (apply N (applyAll N w a) e) b := by
  simp [applyAll, List.foldl_append]

/-- what the nodes of the scene are like after saving and loading -/
theorem loaded_node {a named b : Scene F} {φ : Nat → Nat} (hr : Renamed a named) (hs : SameScene named b φ) (hi : a.is = none) {i : Nat} (h : Reach a i) {n : Node F} (hn : a.heap i = some n) :
    ∃ m, b.heap (φ i) = some m ∧ m.cls.proto = n.cls.proto ∧ (n.DEF ≠ [] → m.DEF = n.DEF) ∧
      ∀ d ∈ n.cls.fields, Visible d → ∃ d' ∈ m.cls.fields, d'.name = d.name ∧ d'.read m = (d.read n).map (Val.mapRef φ) := by
  obtain ⟨n', m, h1, h2, h3, h4, h5⟩ := hs.nodes i (hr.reach h)
  rcases hr.node i with ⟨h0, -⟩ | ⟨n0, n1, e1, e2, e3, e4, e5⟩
  · rw [hn] at h0; cases h0
  rw [hn] at e1; cases e1
  rw [h1] at e2; cases e2
  refine ⟨m, h2, by rw [h3.proto, e3], fun hD => by rw [h4, e5 hD], fun d hd hv => ?_⟩
  have hd' : d ∈ n'.cls.fields := e3 ▸ hd
  obtain ⟨d', k1, k2, -⟩ := h3.fields d hd' hv
  refine ⟨d', k1, k2.name, ?_⟩
  have hsh : Shown named i d := ⟨hv, fun nm hm => by
    obtain ⟨dict, _, h0, -⟩ := hm
    rw [hr.is, hi] at h0; cases h0⟩
  rw [(h5 d hd' hsh d' k1 k2.name).1]
  simp [FieldDecl.read, e4]

theorem visible_of_safe {d : FieldDecl F} (h : SafeName d.name) : Visible d := by
  obtain ⟨⟨c, s, h1, h2, -⟩, -⟩ := h
  rw [Visible, h1]
  refine ⟨List.cons_ne_nil _ _, fun s' h' => ?_⟩
  cases h'
  revert h2; decide

/-- **C92** The last value counts: a field that was assigned, and not assigned again, has after saving and loading the value that was stored then (with nodes for nodes), also if
the default was put back. -/
theorem C92_last_value {N : Num F} (hN : GoodNum N) {lv : LinValues} (hlv : GoodOptions lv) {w : Work F} (ho : InOrder N w) {before after : List (Edit F)} {i : Nat} {f : Text} {v : Val F}
    {rooted : List Nat} (ha : AllowedAll N w (before ++ .set i f v rooted :: after)) (hno : ∀ e ∈ after, ¬ e.Sets i f)
    {n : Node F} (hn : (applyAll N w before).scene.heap i = some n) {d : FieldDecl F} (hd : d ∈ n.cls.fields) (hdf : d.name = f) {u : Val F} (hu : coerce d.kind d.conv v = some u)
    (hreach : Reach (applyAll N w (before ++ .set i f v rooted :: after)).scene i) (hf : Finished (applyAll N w (before ++ .set i f v rooted :: after))) {fuel : Nat} (hfu : (applyAll N w (before ++ .set i f v rooted :: after)).live.length < fuel) :
    ∃ text named w' φ, linearise lv (floats N) (applyAll N w (before ++ .set i f v rooted :: after)).scene fuel = .ok (text, named) ∧ ReadsWorld (library N) (floats N) text w' ∧ SameScene named w'.file φ ∧
      ∃ m, w'.heap (φ i) = some m ∧ m.cls.proto = n.cls.proto ∧ ∃ d' ∈ m.cls.fields, d'.name = f ∧ d'.read m = some (u.mapRef φ) := by
  obtain ⟨text, named, w', φ, hw, hr, hrd, hs, -⟩ := C92_edited_scene_saved hN hlv ho ha hf hfu
  refine ⟨text, named, w', φ, hw, hrd, hs, ?_⟩
  have hend := (applyAll_inorder ho ha).file
  obtain ⟨h1, h2, h3⟩ := allowed_split ha
  have ho1 := applyAll_inorder ho h1
  have ho2 := apply_inorder ho1 h2
  obtain ⟨hi, hroot, hset⟩ := h2
  obtain ⟨n0, e0, e1⟩ := ho1.cls i hi
  rw [hn] at e0; cases e0
  have hfind : n.cls.fields.find? (fun d => d.name == f) = some d := by
    cases hx : n.cls.fields.find? (fun d => d.name == f) with
    | none => exact absurd hdf (by simpa using List.find?_eq_none.1 hx d hd)
    | some x =>
      have : x = d := List.inj_on_of_nodup_map (List.nodup_append.1 (class_names e1).2.2.1).1 (List.mem_of_find?_eq_some hx) hd
        ((by simpa using List.find?_some hx : x.name = f).trans hdf.symm)
      rw [this]
  have hstep : (apply N (applyAll N w before) (.set i f v rooted)).scene.heap i = some (n.set d.name u) := by
    simp only [apply, hn, hfind, hu]
    have ho' := set_inorder ho1 hi hn hd (hset n d u hn hd hdf hu).1 (hdf ▸ (hset n d u hn hd hdf hu).2)
    rw [(roots_like rooted hroot ho'.registered).heap]
    exact if_pos rfl
  have hlive : i ∈ (apply N (applyAll N w before) (.set i f v rooted)).live := (apply_keeps (e := .set i f v rooted) ho1 ⟨hi, hroot, hset⟩ hi hn).1
  obtain ⟨m, k1, k2, k3, -⟩ := applyAll_keeps ho2 h3 hlive hstep
  rw [← applyAll_split] at k1
  obtain ⟨m', g1, g2, -, g4⟩ := loaded_node hr hs hend hreach k1
  obtain ⟨d', q1, q2, q3⟩ := g4 d (by rw [k2]; exact hd) (visible_of_safe ((class_names e1).2.2.2 d hd))
  refine ⟨m', g1, by rw [g2, k2]; rfl, d', q1, q2.trans hdf, ?_⟩
  rw [q3]
  have : m.dict d.name = some u := by
    rw [hdf, k3 f hno, ← hdf]; simp [Node.set]
  simp [FieldDecl.read, this]

/-- **C92** The last name counts: a node that was named, and not named again, has that name after saving and loading. -/
theorem C92_last_name {N : Num F} (hN : GoodNum N) {lv : LinValues} (hlv : GoodOptions lv) {w : Work F} (ho : InOrder N w) {before after : List (Edit F)} {i : Nat} {nm : Text}
    (ha : AllowedAll N w (before ++ .name i nm :: after)) (hno : ∀ e ∈ after, ¬ e.Names i)
    (hreach : Reach (applyAll N w (before ++ .name i nm :: after)).scene i) (hf : Finished (applyAll N w (before ++ .name i nm :: after))) {fuel : Nat} (hfu : (applyAll N w (before ++ .name i nm :: after)).live.length < fuel) :
    ∃ text named w' φ, linearise lv (floats N) (applyAll N w (before ++ .name i nm :: after)).scene fuel = .ok (text, named) ∧ ReadsWorld (library N) (floats N) text w' ∧ SameScene named w'.file φ ∧
      ∃ m, w'.heap (φ i) = some m ∧ m.DEF = nm := by
  obtain ⟨text, named, w', φ, hw, hr, hrd, hs, -⟩ := C92_edited_scene_saved hN hlv ho ha hf hfu
  refine ⟨text, named, w', φ, hw, hrd, hs, ?_⟩
  have hend := (applyAll_inorder ho ha).file
  obtain ⟨h1, h2, h3⟩ := allowed_split ha
  have ho1 := applyAll_inorder ho h1
  have ho2 := apply_inorder ho1 h2
  obtain ⟨n, hn, -⟩ := ho1.cls i h2.1
  have hstep : (apply N (applyAll N w before) (.name i nm)).scene.heap i = some { n with DEF := nm } := by
    simp [apply, Scene.regDefName, hn]
  obtain ⟨m, k1, -, -, k4⟩ := applyAll_keeps ho2 h3 (show i ∈ (apply N (applyAll N w before) (.name i nm)).live from h2.1) hstep
  rw [← applyAll_split] at k1
  obtain ⟨m', g1, -, g3, -⟩ := loaded_node hr hs hend hreach k1
  have hm : m.DEF = nm := k4 hno
  have hne : nm ≠ [] := by
    rintro rfl
    obtain ⟨c, s, h, -⟩ := h2.2.1
    cases h
  exact ⟨m', g1, (g3 (by rw [hm]; exact hne)).trans hm⟩

theorem children_kept {N : Num F} {es : List (Edit F)} : ∀ {w : Work F}, InOrder N w → AllowedAll N w es → (∀ e ∈ es, ¬ e.Children) → (applyAll N w es).scene.children = w.scene.children := by
  induction es with
  | nil => intro w _ _ _; rfl
  | cons e es ih =>
    intro w ho ha hno
    cases ha with
    | cons h1 h2 =>
      refine (ih (apply_inorder ho h1) h2 fun e' he' => hno e' (List.mem_cons_of_mem _ he')).trans ?_
      have hx := hno e (List.mem_cons_self ..)
      cases e with
      | new t j => simp only [apply]; split <;> rfl
      | set i f v rooted =>
        obtain ⟨hi, hr, h⟩ := h1
        simp only [apply]
        split
        · rfl
        rename_i n hn
        split
        · rfl
        rename_i d hd
        split
        · rfl
        rename_i u hu
        have hnm : d.name = f := by simpa using List.find?_some hd
        obtain ⟨h1, h2⟩ := h n d u hn (List.mem_of_find?_eq_some hd) hnm hu
        have ho' := set_inorder ho hi hn (List.mem_of_find?_eq_some hd) h1 (hnm ▸ h2)
        exact (roots_like rooted hr ho'.registered).children
      | children l rooted => exact absurd trivial hx
      | name i nm => rfl
      | route r => rfl
      | unroute k => rfl

/-- **C92** The children of the loaded scene are, in order, the ones the scene was given last. -/
theorem C92_last_children {N : Num F} (hN : GoodNum N) {lv : LinValues} (hlv : GoodOptions lv) {w : Work F} (ho : InOrder N w) {before after : List (Edit F)} {l rooted : List Nat}
    (ha : AllowedAll N w (before ++ .children l rooted :: after)) (hno : ∀ e ∈ after, ¬ e.Children)
    (hf : Finished (applyAll N w (before ++ .children l rooted :: after))) {fuel : Nat} (hfu : (applyAll N w (before ++ .children l rooted :: after)).live.length < fuel) :
    ∃ text named w' φ, linearise lv (floats N) (applyAll N w (before ++ .children l rooted :: after)).scene fuel = .ok (text, named) ∧ ReadsWorld (library N) (floats N) text w' ∧ SameScene named w'.file φ ∧
      w'.file.children = l.map φ := by
  obtain ⟨text, named, w', φ, hw, hr, hrd, hs, -⟩ := C92_edited_scene_saved hN hlv ho ha hf hfu
  refine ⟨text, named, w', φ, hw, hrd, hs, ?_⟩
  obtain ⟨h1, h2, h3⟩ := allowed_split ha
  have ho1 := applyAll_inorder ho h1
  rw [hs.children, hr.children, applyAll_split, children_kept (apply_inorder ho1 h2) h3 hno]
  have ho' := children_inorder ho1 h2.2
  exact congrArg _ (roots_like rooted h2.1 ho'.registered).children

theorem routes_left {N : Num F} {es : List (Edit F)} : ∀ {w : Work F}, InOrder N w → AllowedAll N w es → (applyAll N w es).scene.routes = routesLeft w.scene.routes es := by
  induction es with
  | nil => intro w _ _; rfl
  | cons e es ih =>
    intro w ho ha
    cases ha with
    | cons h1 h2 =>
      refine (ih (apply_inorder ho h1) h2).trans ?_
      cases e with
      | new t j => simp only [apply, routesLeft]; split <;> rfl
      | set i f v rooted =>
        obtain ⟨hi, hr, h⟩ := h1
        simp only [apply, routesLeft]
        split
        · rfl
        rename_i n hn
        split
        · rfl
        rename_i d hd
        split
        · rfl
        rename_i u hu
        have hnm : d.name = f := by simpa using List.find?_some hd
        obtain ⟨h1, h2⟩ := h n d u hn (List.mem_of_find?_eq_some hd) hnm hu
        have ho' := set_inorder ho hi hn (List.mem_of_find?_eq_some hd) h1 (hnm ▸ h2)
        exact congrArg (fun l => routesLeft l es) (roots_like rooted hr ho'.registered).routes
      | children l rooted =>
        have ho' := children_inorder ho h1.2
        exact congrArg (fun l => routesLeft l es) (roots_like rooted h1.1 ho'.registered).routes
      | name i nm => rfl
      | route r => rfl
      | unroute k => simp only [apply, routesLeft, List.eraseIdx_eq_take_drop_succ]

/-- **C92** The ROUTEs of the loaded scene are, in order, the ones that were added and not removed. -/
theorem C92_routes_left {N : Num F} (hN : GoodNum N) {lv : LinValues} (hlv : GoodOptions lv) {w : Work F} (ho : InOrder N w) {es : List (Edit F)} (ha : AllowedAll N w es)
    (hf : Finished (applyAll N w es)) {fuel : Nat} (hfu : (applyAll N w es).live.length < fuel) :
    ∃ text named w' φ, linearise lv (floats N) (applyAll N w es).scene fuel = .ok (text, named) ∧ ReadsWorld (library N) (floats N) text w' ∧ SameScene named w'.file φ ∧
      w'.file.routes = (routesLeft w.scene.routes es).map (fun r => ⟨φ r.src, r.srcField, φ r.dst, r.dstField⟩) := by
  obtain ⟨text, named, w', φ, hw, hr, hrd, hs, -⟩ := C92_edited_scene_saved hN hlv ho ha hf hfu
  refine ⟨text, named, w', φ, hw, hrd, hs, ?_⟩
  rw [hs.routes, hr.routes, routes_left ho ha]

/-- **C92** A node keeps the type it was created with: after creating a node of type `t` and any further edits, if the node is in the scene, the loaded scene has a node of type `t` for it. -/
theorem C92_type_kept {N : Num F} (hN : GoodNum N) {lv : LinValues} (hlv : GoodOptions lv) {w : Work F} (ho : InOrder N w) {before after : List (Edit F)} {t : Text} {j : Nat}
    (ha : AllowedAll N w (before ++ .new t j :: after)) (hj : (applyAll N w before).scene.heap j = none)
    (hreach : Reach (applyAll N w (before ++ .new t j :: after)).scene j)
    (hf : Finished (applyAll N w (before ++ .new t j :: after))) {fuel : Nat} (hfu : (applyAll N w (before ++ .new t j :: after)).live.length < fuel) :
    ∃ text named w' φ, linearise lv (floats N) (applyAll N w (before ++ .new t j :: after)).scene fuel = .ok (text, named) ∧ ReadsWorld (library N) (floats N) text w' ∧ SameScene named w'.file φ ∧
      ((∃ c, library N t = some c) → ∃ m, w'.heap (φ j) = some m ∧ m.cls.proto = t) := by
  obtain ⟨text, named, w', φ, hw, hr, hrd, hs, -⟩ := C92_edited_scene_saved hN hlv ho ha hf hfu
  refine ⟨text, named, w', φ, hw, hrd, hs, ?_⟩
  rintro ⟨c, hc⟩
  have hend := (applyAll_inorder ho ha).file
  obtain ⟨h1, h2, h3⟩ := allowed_split ha
  have ho1 := applyAll_inorder ho h1
  have hstep : (apply N (applyAll N w before) (.new t j)).scene.heap j = some ⟨c, [], fun _ => none⟩ ∧ j ∈ (apply N (applyAll N w before) (.new t j)).live := by
    simp [apply, hc, hj]
  obtain ⟨m, k1, k2, -⟩ := applyAll_keeps (apply_inorder ho1 h2) h3 hstep.2 hstep.1
  rw [← applyAll_split] at k1
  obtain ⟨m', g1, g2, -⟩ := loaded_node hr hs hend hreach k1
  exact ⟨m', g1, by rw [g2, k2]; exact (C81_builtins N).name t c hc⟩

/-- **C92** A refused value changes nothing at all. -/
theorem C92_refused {N : Num F} (w : Work F) {i : Nat} {f : Text} {v : Val F} {rooted : List Nat}
    (h : ∀ n d, w.scene.heap i = some n → d ∈ n.cls.fields → d.name = f → coerce d.kind d.conv v = none) : apply N w (.set i f v rooted) = w := by
  simp only [apply]
  split
  · rfl
  rename_i n hn
  split
  · rfl
  rename_i d hd
  rw [h n d hn (List.mem_of_find?_eq_some hd) (by simpa using List.find?_some hd)]

/-! ### Where to start -/

/-- A program that has nothing yet but an empty scene. -/
def empty : Work F := ⟨⟨fun _ => none, [], [], [], none⟩, []⟩

theorem empty_inorder (N : Num F) : InOrder N empty where
  cls i hi := by cases hi
  DEF i hi := by cases hi
  values i hi := by cases hi
  closed l j h := by
    cases h with
    | child h => cases h
    | field h => cases h
  once j n l l' h := by cases h
  registered i hi := by cases hi
  routes r hr := by cases hr
  file := rfl

open Classical in
/-- A program that has loaded a file. -/
noncomputable def opened (w : World F) : Work F := ⟨w.file, (List.range w.next).filter (fun i => Reach w.file i)⟩

theorem opened_inorder {N : Num F} {text : Text} {w : World F} (h : ReadsWorld (library N) (floats N) text w) {kids : List PTree} (hk : ItemsOf text kids)
    (hp : noProtosAll kids = true) (hs : Savable N w) : InOrder N (opened w) := by
  have hl := loaded_scene h hk hp hs
  obtain ⟨f1, -, -, f4⟩ := reads_flat (C81_builtins N) h hk hp
  have hlive : ∀ i, i ∈ (opened w).live ↔ Reach w.file i := fun i => by
    simp only [opened, List.mem_filter, decide_eq_true_eq]
    exact ⟨fun h => h.2, fun h => ⟨hl.finite i h, h⟩⟩
  have hrefers : ∀ l j, Holds (opened w) l j → Refers w.file l j := by
    intro l j h
    cases h with
    | child h => exact .child h
    | @field i n d v p _ h1 h2 h3 h4 h5 =>
      have hi := (hlive i).1 h1
      obtain ⟨m, k1, k2⟩ := hl.nodes i hi
      have h2 : w.file.heap i = some n := h2
      rw [h2] at k1; cases k1
      exact .field hi h2 h3 ⟨visible_of_safe ((class_names k2.cls).2.2.2 d h3), fun nm hm => by obtain ⟨_, _, h0, -⟩ := hm; cases h0⟩ h4 h5
  refine ⟨fun i hi => ?_, fun i hi n hn => ?_, fun i hi n hn => ?_, fun l j h => (hlive j).2 ?_, fun j n l l' hn hD h1 h2 => ?_, fun i hi n hn hD => ?_, fun r hr => (hl.routes r hr).2.2, rfl⟩
  · obtain ⟨n, h1, h2⟩ := hl.nodes i ((hlive i).1 hi)
    exact ⟨n, h1, h2.cls⟩
  · obtain ⟨m, h1, h2⟩ := hl.nodes i ((hlive i).1 hi)
    rw [show w.file.heap i = some n from hn] at h1; cases h1
    exact h2.DEF
  · obtain ⟨m, h1, h2⟩ := hl.nodes i ((hlive i).1 hi)
    rw [show w.file.heap i = some n from hn] at h1; cases h1
    exact h2.values
  · cases hrefers l j h with
    | child h => exact .child (List.mem_of_getElem? h)
    | field h1 h2 h3 h4 h5 h6 => exact .field h1 h2 h3 h4 h5 (List.mem_of_getElem? h6)
  · exact C91_shared_only_by_name (C81_builtins N) (no_script_class N) h hk (items_plain hk hp) f1 (hrefers l j h1) (hrefers l' j h2) hn hD
  · exact hl.registered i n ((hlive i).1 hi) hn hD

/-- **C92** Load, edit, save, load: a file without prototypes of the node types of the library is loaded, a program makes any allowed edits, and saves: loading that gives the edited scene. -/
theorem C92_load_edit_save {N : Num F} (hN : GoodNum N) {lv : LinValues} (hlv : GoodOptions lv) {text : Text} {w : World F} (h : ReadsWorld (library N) (floats N) text w)
    {kids : List PTree} (hk : ItemsOf text kids) (hp : noProtosAll kids = true) (hs : Savable N w) {es : List (Edit F)} (ha : AllowedAll N (opened w) es)
    (hf : Finished (applyAll N (opened w) es)) {fuel : Nat} (hfu : (applyAll N (opened w) es).live.length < fuel) :
    ∃ saved named w' φ, linearise lv (floats N) (applyAll N (opened w) es).scene fuel = .ok (saved, named) ∧ Renamed (applyAll N (opened w) es).scene named ∧
      ReadsWorld (library N) (floats N) saved w' ∧ SameScene named w'.file φ ∧ linearise lv (floats N) w'.file fuel = .ok (saved, w'.file) :=
  C92_edited_scene_saved hN hlv (opened_inorder h hk hp hs) ha hf hfu

/-- **C92** A scene built from nothing. -/
theorem C92_built_scene_saved {N : Num F} (hN : GoodNum N) {lv : LinValues} (hlv : GoodOptions lv) {es : List (Edit F)} (ha : AllowedAll N empty es)
    (hf : Finished (applyAll N empty es)) {fuel : Nat} (hfu : (applyAll N empty es).live.length < fuel) :
    ∃ saved named w' φ, linearise lv (floats N) (applyAll N empty es).scene fuel = .ok (saved, named) ∧ Renamed (applyAll N empty es).scene named ∧
      ReadsWorld (library N) (floats N) saved w' ∧ SameScene named w'.file φ ∧ linearise lv (floats N) w'.file fuel = .ok (saved, w'.file) :=
  C92_edited_scene_saved hN hlv (empty_inorder N) ha hf hfu

/-! ### The theorems apply -/

/-- all places that hold nodes -/
def places (w : Work Int) : List (Loc × Nat) :=
  w.scene.children.mapIdx (fun k j => (.child k, j)) ++
  w.live.flatMap (fun i => match w.scene.heap i with
    | none => []
    | some n => n.cls.fields.flatMap (fun d => match d.read n with
      | none => []
      | some v => v.nodes.mapIdx (fun p j => (.field i d.name p, j))))

theorem mem_places {w : Work Int} {l : Loc} {j : Nat} (h : Holds w l j) : (l, j) ∈ places w := by
  cases h with
  | @child k _ h => exact List.mem_append_left _ (List.mem_mapIdx.2 ⟨k, (List.getElem?_eq_some_iff.1 h).1, by rw [(List.getElem?_eq_some_iff.1 h).2]⟩)
  | @field i n d v p _ h1 h2 h3 h4 h5 =>
    refine List.mem_append_right _ (List.mem_flatMap.2 ⟨i, h1, ?_⟩)
    rw [h2]
    refine List.mem_flatMap.2 ⟨d, h3, ?_⟩
    rw [h4]
    exact List.mem_mapIdx.2 ⟨p, (List.getElem?_eq_some_iff.1 h5).1, by rw [(List.getElem?_eq_some_iff.1 h5).2]⟩

def onePlaceB (w : Work Int) (old : Loc → Bool) (js : List Nat) : Bool :=
  js.all (fun j => w.live.contains j && match w.scene.heap j with
    | none => true
    | some n => !n.DEF.isEmpty || ((places w).all (fun x => x.2 != j || old x.1) && decide js.Nodup))

theorem onePlace_of {w : Work Int} {old : Loc → Bool} {js : List Nat} (h : onePlaceB w old js = true) {P : Loc → Prop} (hP : ∀ l, old l = true → P l) : OnePlace w P js := by
  intro j hj
  have := List.all_eq_true.1 h j hj
  simp only [Bool.and_eq_true, List.contains_eq_mem, decide_eq_true_eq] at this
  refine ⟨this.1, fun n hn hD => ?_⟩
  have h2 := this.2
  rw [hn] at h2
  simp only [hD, List.isEmpty_nil, Bool.not_true, Bool.false_or, Bool.and_eq_true, decide_eq_true_eq] at h2
  refine ⟨fun l hl => hP l ?_, fun p q hp hq => ?_⟩
  · simpa using List.all_eq_true.1 h2.1 _ (mem_places hl)
  · exact (List.getElem?_inj (List.getElem?_eq_some_iff.1 hp).1 h2.2).1 (hp.trans hq.symm)

def allowedB (w : Work Int) : Edit Int → Bool
  | .new _ _ => true
  | .set i f v rooted => w.live.contains i && rooted.all w.live.contains && match w.scene.heap i with
    | none => true
    | some n => n.cls.fields.all (fun d => d.name != f || match coerce d.kind d.conv v with
      | none => true
      | some u => fitsB d u && onePlaceB w (fun l => match l with | .field j g _ => j == i && g == f | _ => false) u.nodes)
  | .children l rooted => rooted.all w.live.contains && onePlaceB w (fun l => match l with | .child _ => true | _ => false) l
  | .name i nm => w.live.contains i && decide (LegalName nm) && w.live.all (fun j => match w.scene.heap j with | none => true | some n => n.DEF != nm || j == i)
  | .route r => decide (LegalName r.srcField) && decide (LegalName r.dstField)
  | .unroute _ => true

theorem allowed_of {w : Work Int} (ho : InOrder exNum w) {e : Edit Int} (h : allowedB w e = true) : Allowed exNum w e := by
  cases e with
  | new t j => trivial
  | set i f v rooted =>
    simp only [allowedB, Bool.and_eq_true, List.contains_eq_mem, decide_eq_true_eq, List.all_eq_true] at h
    refine ⟨h.1.1, fun j hj => h.1.2 j hj, fun n d u hn hd hdf hu => ?_⟩
    have h2 := h.2
    rw [hn] at h2
    have h3 := List.all_eq_true.1 h2 d hd
    simp only [hdf, bne_self_eq_false, Bool.false_or, hu, Bool.and_eq_true] at h3
    obtain ⟨m, e1, e2⟩ := ho.cls i h.1.1
    rw [hn] at e1; cases e1
    refine ⟨fits_of e2 hd h3.1, onePlace_of h3.2 fun l hl => ?_⟩
    cases l with
    | child k => cases hl
    | field j g p =>
      simp only [Bool.and_eq_true, beq_iff_eq] at hl
      exact ⟨p, by rw [hl.1, hl.2]⟩
  | children l rooted =>
    simp only [allowedB, Bool.and_eq_true, List.contains_eq_mem, decide_eq_true_eq, List.all_eq_true] at h
    refine ⟨h.1, onePlace_of h.2 fun l hl => ?_⟩
    cases l with
    | child k => exact ⟨k, rfl⟩
    | field j g p => cases hl
  | name i nm =>
    simp only [allowedB, Bool.and_eq_true, List.contains_eq_mem, decide_eq_true_eq, List.all_eq_true] at h
    refine ⟨h.1.1, h.1.2, fun j hj n hn hD => ?_⟩
    have := h.2 j hj
    rw [hn] at this
    simpa [hD] using this
  | route r =>
    simp only [allowedB, Bool.and_eq_true, decide_eq_true_eq] at h
    exact h
  | unroute k => trivial

def allowedAllB (w : Work Int) : List (Edit Int) → Bool
  | [] => true
  | e :: es => allowedB w e && allowedAllB (apply exNum w e) es

theorem allowedAll_of {es : List (Edit Int)} : ∀ {w : Work Int}, InOrder exNum w → allowedAllB w es = true → AllowedAll exNum w es := by
  induction es with
  | nil => intro w _ _; exact .nil
  | cons e es ih =>
    intro w ho h
    simp only [allowedAllB, Bool.and_eq_true] at h
    exact .cons (allowed_of ho h.1) (ih (apply_inorder ho (allowed_of ho h.1)) h.2)

/-- A Transform with a Box, built after the fact: the box is put in, sized twice, the Transform is named and used twice, and a ROUTE is added and removed. -/
def exEdits : List (Edit Int) :=
  [.new (chars "Transform") 0, .children [0] [0], .new (chars "Shape") 1, .new (chars "Box") 2, .set 2 (chars "size") (.nums [9, 9, 9]) [],
   .set 1 (chars "geometry") (.ref (some 2)) [], .set 0 (chars "children") (.refs [some 1]) [1, 2], .name 0 (chars "T"), .children [0, 0] [0, 0],
   .route ⟨0, chars "translation", 1, chars "geometry"⟩, .set 2 (chars "size") (.nums [2, 3, 4]) [], .unroute 0, .set 0 (chars "translation") (.str (chars "no")) []]

theorem exEdits_allowed : AllowedAll exNum empty exEdits := allowedAll_of (empty_inorder exNum) (by decide +kernel)

theorem exEdits_finished : Finished (applyAll exNum empty exEdits) where
  children := by decide +kernel
  routes r hr := by
    have : (applyAll exNum empty exEdits).scene.routes = [] := by decide +kernel
    rw [this] at hr; cases hr
  fonts i n hi hn hp := by
    have hl : i ∈ (applyAll exNum empty exEdits).live := reach_live (applyAll_inorder (empty_inorder exNum) exEdits_allowed) hi
    have h2 : ∀ i ∈ (applyAll exNum empty exEdits).live, ((applyAll exNum empty exEdits).scene.heap i).map (fun n => n.cls.proto) ≠ some (chars "FontStyle") := by decide +kernel
    exact absurd (by rw [hn, Option.map_some, hp]) (h2 i hl)

example : ∃ text named w' φ, linearise defaults (floats exNum) (applyAll exNum empty exEdits).scene 4 = .ok (text, named) ∧ ReadsWorld (library exNum) (floats exNum) text w' ∧
    SameScene named w'.file φ ∧ w'.file.children = [φ 0, φ 0] := by
  obtain ⟨text, named, w', φ, h1, h2, h3, h4⟩ := C92_last_children (before := exEdits.take 8) (after := exEdits.drop 9) (l := [0, 0]) (rooted := [0, 0]) exGoodNum goodDefaults (empty_inorder exNum)
    exEdits_allowed (by simp [exEdits, Edit.Children]) exEdits_finished (fuel := 4) (by decide +kernel)
  exact ⟨text, named, w', φ, h1, h2, h3, h4⟩

/-- the size given last -/
example : ∃ text named w' φ, linearise defaults (floats exNum) (applyAll exNum empty exEdits).scene 4 = .ok (text, named) ∧ ReadsWorld (library exNum) (floats exNum) text w' ∧
    SameScene named w'.file φ ∧ ∃ m, w'.heap (φ 2) = some m ∧ m.cls.proto = chars "Box" ∧ ∃ d ∈ m.cls.fields, d.name = chars "size" ∧ d.read m = some (.nums [2, 3, 4]) := by
  have hn : ∃ n, (applyAll exNum empty (exEdits.take 10)).scene.heap 2 = some n := Option.isSome_iff_exists.1 (by decide +kernel)
  obtain ⟨n, hn⟩ := hn
  have hc : n.cls = nodeClass exNum "Box" := by
    obtain ⟨m, e1, e2⟩ := (applyAll_inorder (es := exEdits.take 10) (empty_inorder exNum) (allowedAll_of (empty_inorder exNum) (by decide +kernel))).cls 2 (by decide +kernel)
    rw [hn] at e1; cases e1
    have hp : ((applyAll exNum empty (exEdits.take 10)).scene.heap 2).map (fun n => n.cls.proto) = some (chars "Box") := by decide +kernel
    rw [hn, Option.map_some, Option.some.injEq] at hp
    rw [hp] at e2
    exact (library_of e2).2
  have hd : ∃ d ∈ (nodeClass exNum "Box").fields, d.name = chars "size" ∧ coerce d.kind d.conv (.nums [2, 3, 4]) = some (.nums [2, 3, 4]) := by
    have h : (nodeClass exNum "Box").fields.any (fun d => d.name == chars "size" && match coerce d.kind d.conv (.nums [2, 3, 4]) with
      | some (.nums l) => l == [2, 3, 4]
      | _ => false) = true := by decide +kernel
    obtain ⟨d, hd, h⟩ := List.any_eq_true.1 h
    simp only [Bool.and_eq_true, beq_iff_eq] at h
    refine ⟨d, hd, h.1, ?_⟩
    have h2 := h.2
    split at h2
    · rename_i l hl
      rw [hl, beq_iff_eq.1 h2]
    · cases h2
  obtain ⟨d, hd, hdn, hdc⟩ := hd
  have hreach : Reach (applyAll exNum empty exEdits).scene 2 := by
    have hs : ∀ i d, Visible d → Shown (applyAll exNum empty exEdits).scene i d := fun i d hv => ⟨hv, fun nm hm => by
      obtain ⟨_, _, h0, -⟩ := hm
      rw [(applyAll_inorder (empty_inorder exNum) exEdits_allowed).file] at h0; cases h0⟩
    have step : ∀ i j f, Reach (applyAll exNum empty exEdits).scene i → (match (applyAll exNum empty exEdits).scene.heap i with
        | none => false
        | some n => n.cls.fields.any (fun d => d.name == f && decide (SafeName d.name) && match d.read n with | none => false | some v => v.nodes.contains j)) = true → Reach (applyAll exNum empty exEdits).scene j := by
      intro i j f hi h
      split at h
      · cases h
      rename_i n hn
      obtain ⟨d, hd, h⟩ := List.any_eq_true.1 h
      simp only [Bool.and_eq_true, decide_eq_true_eq] at h
      split at h
      · cases h.2
      rename_i v hv
      exact .field hi hn hd (hs i d (visible_of_safe h.1.2)) hv (by simpa using h.2)
    have h0 : Reach (applyAll exNum empty exEdits).scene 0 := .child (by decide +kernel)
    have h1 := step 0 1 (chars "children") h0 (by decide +kernel)
    exact step 1 2 (chars "geometry") h1 (by decide +kernel)
  obtain ⟨text, named, w', φ, h1, h2, h3, m, h4, h5, d', h6, h7, h8⟩ := C92_last_value (before := exEdits.take 10) (after := exEdits.drop 11) (i := 2) (f := chars "size") (v := .nums [2, 3, 4]) (rooted := [])
    exGoodNum goodDefaults (empty_inorder exNum) exEdits_allowed (by simp [exEdits, Edit.Sets]) hn (d := d) (by rw [hc]; exact hd) hdn hdc hreach exEdits_finished (fuel := 4) (by decide +kernel)
  exact ⟨text, named, w', φ, h1, h2, h3, m, h4, by rw [h5, hc]; decide +kernel, d', h6, h7, h8⟩

end Verif.Editing
