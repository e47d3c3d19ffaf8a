import Verif.Props.Edit
import Verif.Props.LibraryScripts
import Verif.Spec.EditScripts
/-!
C92 with Scripts.
-/
namespace Verif.Editing
open Verif.Peg Verif.Grammar Verif.TextOut Verif.Text Verif.SceneText Verif.Reader Verif.Full Verif.Library
open Verif.Lin hiding disp dispList dispDecls dispAttrs disp_node disp_attr
variable {F : Type}

theorem scripts_like {N : Num F} {live : List Nat} {a b : Scene F} (h : Like a b) (ho : ScriptsInOrder N ⟨a, live⟩) : ScriptsInOrder N ⟨b, live⟩ where
  nodes i hi := by show ∃ n, b.heap i = some n ∧ _; rw [h.heap]; exact ho.nodes i hi
  DEF i hi n hn := ho.DEF i hi n (by show a.heap i = _; rw [← h.heap]; exact hn)
  closed l j hh := ho.closed l j (holds_like h hh)
  once j n l l' hn hD h1 h2 := ho.once j n l l' (by show a.heap j = _; rw [← h.heap]; exact hn) hD (holds_like h h1) (holds_like h h2)
  registered i hi n hn hD := by
    show b.getDEF _ = _
    rw [h.getDEF _ hD]
    exact ho.registered i hi n (by show a.heap i = _; rw [← h.heap]; exact hn) hD
  routes r hr := ho.routes r (by show r ∈ a.routes; rw [← h.routes]; exact hr)
  file := by show b.is = none; rw [h.is]; exact ho.file

/-- a name that a Script does not declare -/
theorem script_field {N : Num F} {n : Node F} (h : LibraryScriptNode N n) {f : Text} (hf : f = chars "url" ∨ f = chars "directOutput" ∨ f = chars "mustEvaluate") {d : FieldDecl F} (hd : d ∈ n.cls.fields)
    (hn : d.name = f) : (f = chars "url" ∧ d.kind = .mfString) ∨ (f ≠ chars "url" ∧ d.kind = .sfBool) := by
  have huniq : ∀ e ∈ n.cls.fields, e.name = d.name → d = e := fun e he hx => List.inj_on_of_nodup_map (List.nodup_append.1 h.distinct).1 hd he hx.symm
  rcases hf with rfl | rfl | rfl
  · have := huniq _ (h.common ⟨⟨chars "url", chars "MFString", .mfString, fun _ => [], id, .list (.strs [])⟩, true⟩ (by simp [scriptProto]) (show chars "url" ≠ chars "externalURL" by decide)).1 hn.symm
    subst this
    exact .inl ⟨rfl, rfl⟩
  · have := huniq _ (h.common ⟨⟨chars "directOutput", chars "SFBool", .sfBool, fun _ => [], id, .scalar (.bool false)⟩, false⟩ (by simp [scriptProto]) (show chars "directOutput" ≠ chars "externalURL" by decide)).1 hn.symm
    subst this
    exact .inr ⟨by decide, rfl⟩
  · have := huniq _ (h.common ⟨⟨chars "mustEvaluate", chars "SFBool", .sfBool, fun _ => [], id, .scalar (.bool false)⟩, false⟩ (by simp [scriptProto]) (show chars "mustEvaluate" ≠ chars "externalURL" by decide)).1 hn.symm
    subst this
    exact .inr ⟨by decide, rfl⟩

theorem script_set {N : Num F} {n : Node F} (h : LibraryScriptNode N { n with DEF := [] }) {d : FieldDecl F} (hd : d ∈ n.cls.fields) {v u : Val F} (hu : coerce d.kind d.conv v = some u) (hm : ScriptMay d.name u) :
    LibraryScriptNode N { n.set d.name u with DEF := [] } := by
  have hnd : ∀ x, Declared n.cls x → x ≠ d.name := by
    rintro x hx rfl
    rcases hm with h | h | h
    · exact hx.2.2.1 h
    · exact hx.2.2.2 h
    · exact hx.2.1 h.1
  refine { proto := h.proto, DEF := .inl rfl, mapped := h.mapped, external := h.external, distinct := h.distinct, fields := h.fields, events := h.events, common := h.common, url := fun v' hv => ?_, flags := fun f hf v' hv => ?_, declared := fun e he hdec => ?_ }
  · simp only [Node.set] at hv
    split at hv
    · next e =>
      cases hv
      rcases hm with h | h | h
      · exact absurd (e.trans h) (by decide)
      · exact absurd (e.trans h) (by decide)
      · exact h.2
    · exact h.url v' hv
  · simp only [Node.set] at hv
    split at hv
    · next e =>
      cases hv
      have hf' : d.name = chars "url" ∨ d.name = chars "directOutput" ∨ d.name = chars "mustEvaluate" := by
        rw [← e]; simp only [List.mem_cons, List.not_mem_nil, or_false] at hf; exact .inr hf
      rcases script_field h hf' hd rfl with ⟨k, -⟩ | ⟨-, k⟩
      · exfalso
        rw [← e] at k
        simp only [List.mem_cons, List.not_mem_nil, or_false] at hf
        rcases hf with rfl | rfl <;> revert k <;> decide
      · rw [k] at hu
        have ht := coerce_type hu
        cases u <;> first | exact ⟨_, rfl⟩ | cases ht
    · exact h.flags f hf v' hv
  · obtain ⟨v', k1, k2, k3⟩ := h.declared e he hdec
    refine ⟨v', k1, ?_, k3⟩
    rw [← k2]
    simp [FieldDecl.read, Node.set, hnd _ hdec]

theorem set_node {N : Num F} {w : Work F} (ho : ScriptsInOrder N w) {i : Nat} {n : Node F} (hi : i ∈ w.live) (hn : w.scene.heap i = some n) {d : FieldDecl F} (hd : d ∈ n.cls.fields) {v u : Val F}
    (hu : coerce d.kind d.conv v = some u) (h1 : if n.cls.proto = chars "Script" then ScriptMay d.name u else Fits N d u) : NodeInOrder N (n.set d.name u) := by
  obtain ⟨n', e1, e2⟩ := ho.nodes i hi
  rw [hn] at e1; cases e1
  rcases e2 with ⟨e2, e3⟩ | e2
  · rw [if_neg (fun hs => by rw [hs] at e2; rw [show chars "Script" = scriptName from rfl, no_script_class] at e2; cases e2)] at h1
    refine .inl ⟨e2, fun d' hd' v' hv' => ?_⟩
    by_cases hx : d'.name = d.name
    · have : d' = d := List.inj_on_of_nodup_map (List.nodup_append.1 (class_names e2).2.2.1).1 hd' hd hx
      subst this
      simp only [Node.set, if_true, Option.some.injEq] at hv'
      rw [← hv']; exact h1
    · simp only [Node.set, hx, if_false] at hv'
      exact e3 d' hd' v' hv'
  · rw [if_pos e2.proto] at h1
    exact .inr (script_set e2 hd hu h1)

theorem new_scripts {N : Num F} {w : Work F} (ho : ScriptsInOrder N w) {t : Text} {c : Class F} (hc : library N t = some c) {j : Nat} (hj : w.scene.heap j = none) :
    ScriptsInOrder N ⟨{ w.scene with heap := fun k => if k = j then some ⟨c, [], fun _ => none⟩ else w.scene.heap k }, j :: w.live⟩ := by
  have hne : ∀ i ∈ w.live, i ≠ j := fun i hi he => by
    obtain ⟨n, hn, -⟩ := ho.nodes i hi
    rw [he, hj] at hn; cases hn
  have hold : ∀ l k, Holds ⟨{ w.scene with heap := fun k => if k = j then some ⟨c, [], fun _ => none⟩ else w.scene.heap k }, j :: w.live⟩ l k → Holds w l k := by
    intro l k h
    cases h with
    | child h => exact .child h
    | @field i n d v p _ h1 h2 h3 h4 h5 =>
      simp only at h2
      by_cases hi : i = j
      · rw [if_pos hi] at h2
        cases h2
        rw [fresh_read hc h3 h4] at h5
        cases h5
      · rw [if_neg hi] at h2
        exact .field ((List.mem_cons.1 h1).resolve_left hi) h2 h3 h4 h5
  have hheap : ∀ i n, (if i = j then some ⟨c, [], fun _ => none⟩ else w.scene.heap i) = some n → (i = j ∧ n = ⟨c, [], fun _ => none⟩) ∨ (i ≠ j ∧ w.scene.heap i = some n) := by
    intro i n h
    by_cases hi : i = j
    · rw [if_pos hi] at h; cases h; exact .inl ⟨hi, rfl⟩
    · rw [if_neg hi] at h; exact .inr ⟨hi, h⟩
  refine ⟨fun i hi => ?_, fun i hi n hn => ?_, fun l k h => List.mem_cons_of_mem _ (ho.closed l k (hold l k h)),
    fun k n l l' hn hD h1 h2 => ?_, fun i hi n hn hD => ?_, ho.routes, ho.file⟩
  · show ∃ n, (if i = j then some ⟨c, [], fun _ => none⟩ else w.scene.heap i) = some n ∧ _
    by_cases hij : i = j
    · rw [if_pos hij]
      exact ⟨_, rfl, .inl ⟨by show library N c.proto = _; rw [(C81_builtins N).name t c hc]; exact hc, fun d _ v hv => by cases hv⟩⟩
    · rw [if_neg hij]
      exact ho.nodes i ((List.mem_cons.1 hi).resolve_left hij)
  · rcases hheap i n hn with ⟨-, rfl⟩ | ⟨h1, h2⟩
    · exact .inl rfl
    · exact ho.DEF i ((List.mem_cons.1 hi).resolve_left h1) n h2
  · have hk : k ∈ w.live := ho.closed l k (hold l k h1)
    rcases hheap k n hn with ⟨h', -⟩ | ⟨-, h'⟩
    · exact absurd h' (hne k hk)
    · exact ho.once k n l l' h' hD (hold _ _ h1) (hold _ _ h2)
  · rcases hheap i n hn with ⟨-, rfl⟩ | ⟨h1, h2⟩
    · exact absurd rfl hD
    · exact ho.registered i ((List.mem_cons.1 hi).resolve_left h1) n h2 hD

theorem set_scripts {N : Num F} {w : Work F} (ho : ScriptsInOrder N w) {i : Nat} {n : Node F} (hi : i ∈ w.live) (hn : w.scene.heap i = some n) {d : FieldDecl F} (hd : d ∈ n.cls.fields) {u : Val F}
    (hf : NodeInOrder N (n.set d.name u)) (hp : OnePlace w (fun l => ∃ p, l = .field i d.name p) u.nodes) :
    ScriptsInOrder N ⟨{ w.scene with heap := fun k => if k = i then some (n.set d.name u) else w.scene.heap k }, w.live⟩ := by
  have hheap : ∀ k m, (if k = i then some (n.set d.name u) else w.scene.heap k) = some m → ∃ m0, w.scene.heap k = some m0 ∧ m.cls = m0.cls ∧ m.DEF = m0.DEF ∧ ((k = i ∧ m = n.set d.name u) ∨ (k ≠ i ∧ m = m0)) := by
    intro k m h
    by_cases hk : k = i
    · rw [if_pos hk] at h; cases h; exact ⟨n, hk ▸ hn, rfl, rfl, .inl ⟨hk, rfl⟩⟩
    · rw [if_neg hk] at h; exact ⟨m, h, rfl, rfl, .inr ⟨hk, rfl⟩⟩
  have hold : ∀ l j, Holds ⟨{ w.scene with heap := fun k => if k = i then some (n.set d.name u) else w.scene.heap k }, w.live⟩ l j →
      (Holds w l j ∧ ∀ p, l ≠ .field i d.name p) ∨ ∃ p, l = .field i d.name p ∧ u.nodes[p]? = some j := by
    intro l j h
    cases h with
    | child h => exact .inl ⟨.child h, fun p hp => by cases hp⟩
    | @field k m d' v p _ h1 h2 h3 h4 h5 =>
      obtain ⟨m0, g1, g2, -, ⟨rfl, rfl⟩ | ⟨g3, rfl⟩⟩ := hheap k m h2
      · rw [hn] at g1; cases g1
        by_cases hnm : d'.name = d.name
        · right
          have : d'.read (n.set d.name u) = some u := by simp [FieldDecl.read, Node.set, hnm]
          rw [this] at h4; cases h4
          exact ⟨p, by rw [hnm], h5⟩
        · left
          have : d'.read (n.set d.name u) = d'.read n := by simp [FieldDecl.read, Node.set, hnm]
          rw [this] at h4
          exact ⟨.field h1 hn h3 h4 h5, fun p hp => by injection hp with _ e _; exact hnm e⟩
      · exact .inl ⟨.field h1 g1 h3 h4 h5, fun p hp => by injection hp with e _ _; exact g3 e⟩
  refine ⟨fun k hk => ?_, fun k hk m hm => ?_, fun l j h => ?_, fun j m l l' hm hD h1 h2 => ?_, fun k hk m hm hD => ?_, ho.routes, ho.file⟩
  · show ∃ m, (if k = i then some (n.set d.name u) else w.scene.heap k) = some m ∧ _
    obtain ⟨m, h1, h2⟩ := ho.nodes k hk
    by_cases hki : k = i
    · rw [if_pos hki]
      exact ⟨_, rfl, hf⟩
    · rw [if_neg hki]; exact ⟨m, h1, h2⟩
  · obtain ⟨m0, g1, -, g3, -⟩ := hheap k m hm
    rw [g3]; exact ho.DEF k hk m0 g1
  · rcases hold l j h with ⟨h, -⟩ | ⟨p, -, h⟩
    · exact ho.closed l j h
    · exact (hp j (List.mem_of_getElem? h)).1
  · obtain ⟨m0, g1, -, g3, -⟩ := hheap j m hm
    rw [g3] at hD
    rcases hold l j h1 with ⟨h1, k1⟩ | ⟨p, k1, h1⟩ <;> rcases hold l' j h2 with ⟨h2, k2⟩ | ⟨q, k2, h2⟩
    · exact ho.once j m0 l l' g1 hD h1 h2
    · obtain ⟨p, hp'⟩ := ((hp j (List.mem_of_getElem? h2)).2 m0 g1 hD).1 l h1
      exact absurd hp' (k1 p)
    · obtain ⟨p, hp'⟩ := ((hp j (List.mem_of_getElem? h1)).2 m0 g1 hD).1 l' h2
      exact absurd hp' (k2 p)
    · rw [k1, k2, ((hp j (List.mem_of_getElem? h1)).2 m0 g1 hD).2 p q h1 h2]
  · obtain ⟨m0, g1, -, g3, -⟩ := hheap k m hm
    rw [g3] at hD ⊢
    exact ho.registered k hk m0 g1 hD

theorem children_scripts {N : Num F} {w : Work F} (ho : ScriptsInOrder N w) {l : List Nat} (hp : OnePlace w (fun l => ∃ k, l = .child k) l) : ScriptsInOrder N ⟨{ w.scene with children := l }, w.live⟩ := by
  have hold : ∀ x j, Holds ⟨{ w.scene with children := l }, w.live⟩ x j → (Holds w x j ∧ ∀ k, x ≠ .child k) ∨ ∃ k, x = .child k ∧ l[k]? = some j := by
    intro x j h
    cases h with
    | @child k _ h => exact .inr ⟨k, rfl, h⟩
    | field h1 h2 h3 h4 h5 => exact .inl ⟨.field h1 h2 h3 h4 h5, fun k hk => by cases hk⟩
  refine ⟨ho.nodes, ho.DEF, fun x j h => ?_, fun j m x x' hm hD h1 h2 => ?_, ho.registered, ho.routes, ho.file⟩
  · rcases hold x j h with ⟨h, -⟩ | ⟨p, -, h⟩
    · exact ho.closed x j h
    · exact (hp j (List.mem_of_getElem? h)).1
  · rcases hold x j h1 with ⟨h1, k1⟩ | ⟨p, k1, h1⟩ <;> rcases hold x' j h2 with ⟨h2, k2⟩ | ⟨q, k2, h2⟩
    · exact ho.once j m x x' hm hD h1 h2
    · obtain ⟨p, hp'⟩ := ((hp j (List.mem_of_getElem? h2)).2 m hm hD).1 x h1
      exact absurd hp' (k1 p)
    · obtain ⟨p, hp'⟩ := ((hp j (List.mem_of_getElem? h1)).2 m hm hD).1 x' h2
      exact absurd hp' (k2 p)
    · rw [k1, k2, ((hp j (List.mem_of_getElem? h1)).2 m hm hD).2 p q h1 h2]

theorem name_scripts {N : Num F} {w : Work F} (ho : ScriptsInOrder N w) {i : Nat} {nm : Text} (hi : i ∈ w.live) (hl : LegalName nm) (hu : ∀ j ∈ w.live, ∀ n, w.scene.heap j = some n → n.DEF = nm → j = i) :
    ScriptsInOrder N ⟨w.scene.regDefName nm i, w.live⟩ := by
  have hne : nm ≠ [] := by rintro rfl; obtain ⟨c, s, h, -⟩ := hl; cases h
  obtain ⟨n, hn, hc⟩ := ho.nodes i hi
  have hheap : ∀ k m, (w.scene.regDefName nm i).heap k = some m → ∃ m0, w.scene.heap k = some m0 ∧ m.cls = m0.cls ∧ m.dict = m0.dict ∧ ((k = i ∧ m.DEF = nm) ∨ (k ≠ i ∧ m = m0)) := by
    intro k m h
    simp only [Scene.regDefName] at h
    by_cases hk : k = i
    · rw [if_pos hk, hn] at h
      simp only [Option.map_some, Option.some.injEq] at h
      subst h
      exact ⟨n, hk ▸ hn, rfl, rfl, .inl ⟨hk, rfl⟩⟩
    · rw [if_neg hk] at h; exact ⟨m, h, rfl, rfl, .inr ⟨hk, rfl⟩⟩
  have hold : ∀ l j, Holds ⟨w.scene.regDefName nm i, w.live⟩ l j → Holds w l j := by
    intro l j h
    cases h with
    | child h => exact .child h
    | @field k m d v p _ h1 h2 h3 h4 h5 =>
      obtain ⟨m0, g1, g2, g3, -⟩ := hheap k m h2
      exact .field h1 g1 (g2 ▸ h3) (by simpa [FieldDecl.read, g3] using h4) h5
  refine ⟨fun k hk => ?_, fun k hk m hm => ?_, fun l j h => ho.closed l j (hold l j h), fun j m l l' hm hD h1 h2 => ?_, fun k hk m hm hD => ?_, ho.routes, ho.file⟩
  · obtain ⟨m, h1, h2⟩ := ho.nodes k hk
    show ∃ m, (if k = i then (w.scene.heap i).map (fun nd => { nd with DEF := nm }) else w.scene.heap k) = some m ∧ _
    by_cases hki : k = i
    · rw [if_pos hki, hn]
      exact ⟨_, rfl, hc⟩
    · rw [if_neg hki]; exact ⟨m, h1, h2⟩
  · obtain ⟨m0, g1, -, -, ⟨-, g⟩ | ⟨-, rfl⟩⟩ := hheap k m hm
    · exact .inr (g ▸ hl)
    · exact ho.DEF k hk m g1
  · obtain ⟨m0, g1, -, -, ⟨-, g⟩ | ⟨-, rfl⟩⟩ := hheap j m hm
    · exact absurd (g.symm.trans hD) hne
    · exact ho.once j m l l' g1 hD (hold l j h1) (hold l' j h2)
  · obtain ⟨m0, g1, -, -, ⟨rfl, g⟩ | ⟨hki, rfl⟩⟩ := hheap k m hm
    · rw [g]; simp [Scene.getDEF, Scene.regDefName]
    · have hr := ho.registered k hk m g1 hD
      have h1 : m.DEF ≠ nm := fun h => hki (hu k hk m g1 h)
      have h2 : (m.DEF == nm) = false := by simpa using h1
      simp only [Scene.getDEF, Scene.regDefName, List.lookup_cons, h2]
      rw [Lin.lookup_filter_ne h1]
      split
      · rename_i hcur
        have h3 : m.DEF ≠ w.scene.defOf i := fun h => hki (by
          simp only [Scene.getDEF] at hr
          rw [← h, hr] at hcur
          cases hcur; rfl)
        rw [Lin.lookup_filter_ne h3]; exact hr
      · exact hr

theorem apply_scripts {N : Num F} {w : Work F} (ho : ScriptsInOrder N w) {e : Edit F} (ha : AllowedS N w e) : ScriptsInOrder N (apply N w e) := by
  cases e with
  | new t j =>
    simp only [apply]
    split
    · rename_i c hc hj; exact new_scripts ho hc hj
    · exact ho
  | set i f v rooted =>
    obtain ⟨hi, hr, h⟩ := ha
    simp only [apply]
    split
    · exact ho
    rename_i n hn
    split
    · exact ho
    rename_i d hd
    split
    · exact ho
    rename_i u hu
    have hnm : d.name = f := by simpa using List.find?_some hd
    obtain ⟨h1, h2⟩ := h n d u hn (List.mem_of_find?_eq_some hd) hnm hu
    have hok := set_node ho hi hn (List.mem_of_find?_eq_some hd) hu (hnm ▸ h1)
    have := set_scripts ho hi hn (List.mem_of_find?_eq_some hd) hok (hnm ▸ h2)
    exact scripts_like (roots_like rooted hr this.registered) this
  | children l rooted =>
    have := children_scripts ho ha.2
    exact scripts_like (roots_like rooted ha.1 this.registered) this
  | name i nm => exact name_scripts ho ha.1 ha.2.1 ha.2.2
  | route r =>
    refine ⟨ho.nodes, ho.DEF, ?_, ?_, ho.registered, fun x hx => ?_, ho.file⟩
    · intro l j h; exact ho.closed l j (by cases h with | child h => exact .child h | field h1 h2 h3 h4 h5 => exact .field h1 h2 h3 h4 h5)
    · intro j m l l' hm hD h1 h2
      exact ho.once j m l l' hm hD (by cases h1 with | child h => exact .child h | field h1 h2 h3 h4 h5 => exact .field h1 h2 h3 h4 h5)
        (by cases h2 with | child h => exact .child h | field h1 h2 h3 h4 h5 => exact .field h1 h2 h3 h4 h5)
    · rcases List.mem_append.1 hx with hx | hx
      · exact ho.routes x hx
      · rw [List.mem_singleton] at hx; subst hx; exact ha
  | unroute k =>
    refine ⟨ho.nodes, ho.DEF, ?_, ?_, ho.registered, fun x hx => ho.routes x (List.mem_of_mem_eraseIdx hx), ho.file⟩
    · intro l j h; exact ho.closed l j (by cases h with | child h => exact .child h | field h1 h2 h3 h4 h5 => exact .field h1 h2 h3 h4 h5)
    · intro j m l l' hm hD h1 h2
      exact ho.once j m l l' hm hD (by cases h1 with | child h => exact .child h | field h1 h2 h3 h4 h5 => exact .field h1 h2 h3 h4 h5)
        (by cases h2 with | child h => exact .child h | field h1 h2 h3 h4 h5 => exact .field h1 h2 h3 h4 h5)

theorem applyAll_scripts {N : Num F} {es : List (Edit F)} : ∀ {w : Work F}, ScriptsInOrder N w → AllowedAllS N w es → ScriptsInOrder N (applyAll N w es) := by
  induction es with
  | nil => intro w h _; exact h
  | cons e es ih =>
    intro w h ha
    cases ha with
    | cons h1 h2 => exact ih (apply_scripts h h1) h2

theorem reach_live_s {N : Num F} {w : Work F} (ho : ScriptsInOrder N w) {i : Nat} (h : Reach w.scene i) : i ∈ w.live := by
  induction h with
  | child h =>
    obtain ⟨k, hk⟩ := List.getElem?_of_mem h
    exact ho.closed _ _ (.child hk)
  | field h1 h2 h3 h4 h5 h6 ih =>
    obtain ⟨p, hp⟩ := List.getElem?_of_mem h6
    exact ho.closed _ _ (.field ih h2 h3 h5 hp)

theorem refers_holds_s {N : Num F} {w : Work F} (ho : ScriptsInOrder N w) {l : Loc} {j : Nat} (h : Refers w.scene l j) : Holds w l j := by
  cases h with
  | child h => exact .child h
  | field h1 h2 h3 h4 h5 h6 => exact .field (reach_live_s ho h1) h2 h3 h5 h6


theorem scripts_scene {N : Num F} {w : Work F} (ho : ScriptsInOrder N w) (hf : Finished w) : ScriptScene N w.scene w.live where
  finite i hi := reach_live_s ho hi
  nodes i hi := by
    obtain ⟨n, h1, h2⟩ := ho.nodes i (reach_live_s ho hi)
    have hD := ho.DEF i (reach_live_s ho hi) n h1
    rcases h2 with ⟨h2, h3⟩ | h2
    · exact ⟨n, h1, .inl ⟨h2, hD, h3, hf.fonts i n hi h1⟩⟩
    · exact ⟨n, h1, .inr { proto := h2.proto, DEF := hD, mapped := h2.mapped, external := h2.external, distinct := h2.distinct, fields := h2.fields, events := h2.events, common := h2.common, url := h2.url, flags := h2.flags, declared := h2.declared }⟩
  shared j n l l' h1 h2 h3 h4 _ := ho.once j n l l' h3 h4 (refers_holds_s ho h1) (refers_holds_s ho h2)
  registered i n hi hn hD := ho.registered i (reach_live_s ho hi) n hn hD
  routes r hr := ⟨(hf.routes r hr).1, (hf.routes r hr).2, ho.routes r hr⟩
  children := hf.children
  file := ho.file

/-- **C92** With Scripts. -/
theorem C92_scripts_edited_saved {N : Num F} (hN : GoodNum N) {lv : LinValues} (hlv : GoodOptions lv) {w : Work F} (ho : ScriptsInOrder N w) {es : List (Edit F)} (ha : AllowedAllS N w es)
    (hf : Finished (applyAll N w es)) (hl : ScriptLines lv (applyAll N w es).scene) {fuel : Nat} (hfu : (applyAll N w es).live.length < fuel) :
    ∃ text named w' φ, linearise lv (floats N) (applyAll N w es).scene fuel = .ok (text, named) ∧ Renamed (applyAll N w es).scene named ∧
      ReadsWorld (library N) (floats N) text w' ∧ SameScene named w'.file φ ∧ linearise lv (floats N) w'.file fuel = .ok (text, w'.file) := by
  have hs := scripts_scene (applyAll_scripts ho ha) hf
  obtain ⟨text, named, w', φ, h1, h2, h3, h4, -⟩ := C81_scripts_round_trip hN hlv hs hl hfu
  obtain ⟨text', named', k1, -, k3⟩ := C88_library_scripts hN hlv hs hl hfu
  rw [h1] at k1; cases k1
  exact ⟨text, named, w', φ, h1, h2, h3, h4, k3 w' h3⟩

/-! ### The last edits win, and loaded files -/

theorem visible_of_legal {d : FieldDecl F} (h : LegalName d.name) : Visible d := by
  obtain ⟨c, s, h1, h2, -⟩ := h
  rw [Visible, h1]
  refine ⟨List.cons_ne_nil _ _, fun s' h' => ?_⟩
  cases h'
  revert h2; decide

/-- names in a node in order are distinct, and seen by the writer -/
theorem node_names {N : Num F} {n : Node F} (h : NodeInOrder N n) : (n.cls.fields.map FieldDecl.name).Nodup ∧ ∀ d ∈ n.cls.fields, Visible d := by
  rcases h with ⟨h, -⟩ | h
  · exact ⟨(List.nodup_append.1 (class_names h).2.2.1).1, fun d hd => visible_of_safe ((class_names h).2.2.2 d hd)⟩
  · refine ⟨(List.nodup_append.1 h.distinct).1, fun d hd => ?_⟩
    by_cases hdec : Declared n.cls d.name
    · exact visible_of_legal (h.fields d hd hdec).1
    · exact visible_of_safe (script_common h hd hdec).1

theorem plain_node {N : Num F} {n : Node F} (h : LibraryNode N n ∨ LibraryScriptNode N n) : NodeInOrder N n := by
  rcases h with h | h
  · exact .inl ⟨h.cls, h.values⟩
  · exact .inr { proto := h.proto, DEF := .inl rfl, mapped := h.mapped, external := h.external, distinct := h.distinct, fields := h.fields, events := h.events, common := h.common, url := h.url, flags := h.flags, declared := h.declared }

theorem apply_keeps_s {N : Num F} {w : Work F} (ho : ScriptsInOrder N w) {e : Edit F} (ha : AllowedS N w e) {i : Nat} (hi : i ∈ w.live) {n : Node F} (hn : w.scene.heap i = some n) :
    i ∈ (apply N w e).live ∧ ∃ m, (apply N w e).scene.heap i = some m ∧ m.cls = n.cls ∧ (∀ f, ¬ e.Sets i f → m.dict f = n.dict f) ∧ (¬ e.Names i → m.DEF = n.DEF) := by
  cases e with
  | new t j =>
    simp only [apply]
    split
    · rename_i c hc hj
      refine ⟨List.mem_cons_of_mem _ hi, n, ?_, rfl, fun _ _ => rfl, fun _ => rfl⟩
      show (if i = j then _ else w.scene.heap i) = some n
      rw [if_neg (fun h => by rw [h, hj] at hn; cases hn)]; exact hn
    · exact ⟨hi, n, hn, rfl, fun _ _ => rfl, fun _ => rfl⟩
  | set k f v rooted =>
    obtain ⟨hk, hr, h⟩ := ha
    simp only [apply]
    split
    · exact ⟨hi, n, hn, rfl, fun _ _ => rfl, fun _ => rfl⟩
    rename_i m hm
    split
    · exact ⟨hi, n, hn, rfl, fun _ _ => rfl, fun _ => rfl⟩
    rename_i d hd
    split
    · exact ⟨hi, n, hn, rfl, fun _ _ => rfl, fun _ => rfl⟩
    rename_i u hu
    have hnm : d.name = f := by simpa using List.find?_some hd
    obtain ⟨h1, h2⟩ := h m d u hm (List.mem_of_find?_eq_some hd) hnm hu
    have ho' := set_scripts ho hk hm (List.mem_of_find?_eq_some hd) (set_node ho hk hm (List.mem_of_find?_eq_some hd) hu (hnm ▸ h1)) (hnm ▸ h2)
    have hl := roots_like rooted hr ho'.registered
    refine ⟨hi, ?_⟩
    show ∃ m', (rooted.foldl root _).heap i = some m' ∧ _
    rw [hl.heap]
    by_cases hki : i = k
    · subst hki
      rw [hn] at hm; cases hm
      refine ⟨n.set d.name u, if_pos rfl, rfl, fun g hg => ?_, fun _ => rfl⟩
      have : g ≠ d.name := fun h => hg ⟨rfl, by rw [h, hnm]⟩
      simp [Node.set, this]
    · exact ⟨n, by show (if i = k then _ else w.scene.heap i) = some n; rw [if_neg hki]; exact hn, rfl, fun _ _ => rfl, fun _ => rfl⟩
  | children l rooted =>
    have ho' := children_scripts ho ha.2
    have hl := roots_like rooted ha.1 ho'.registered
    refine ⟨hi, n, ?_, rfl, fun _ _ => rfl, fun _ => rfl⟩
    show (rooted.foldl root _).heap i = some n
    rw [hl.heap]; exact hn
  | name k nm =>
    refine ⟨hi, ?_⟩
    show ∃ m, (if i = k then (w.scene.heap k).map (fun nd => { nd with DEF := nm }) else w.scene.heap i) = some m ∧ _
    by_cases hki : i = k
    · subst hki
      rw [if_pos rfl, hn]
      exact ⟨_, rfl, rfl, fun _ _ => rfl, fun h => absurd rfl h⟩
    · rw [if_neg hki]
      exact ⟨n, hn, rfl, fun _ _ => rfl, fun _ => rfl⟩
  | route r => exact ⟨hi, n, hn, rfl, fun _ _ => rfl, fun _ => rfl⟩
  | unroute k => exact ⟨hi, n, hn, rfl, fun _ _ => rfl, fun _ => rfl⟩

theorem applyAll_keeps_s {N : Num F} {es : List (Edit F)} : ∀ {w : Work F}, ScriptsInOrder N w → AllowedAllS N w es → ∀ {i : Nat}, i ∈ w.live → ∀ {n : Node F}, w.scene.heap i = some n →
    ∃ m, (applyAll N w es).scene.heap i = some m ∧ m.cls = n.cls ∧ (∀ f, (∀ e ∈ es, ¬ e.Sets i f) → m.dict f = n.dict f) ∧ ((∀ e ∈ es, ¬ e.Names i) → m.DEF = n.DEF) := by
  induction es with
  | nil => intro w _ _ i _ n hn; exact ⟨n, hn, rfl, fun _ _ => rfl, fun _ => rfl⟩
  | cons e es ih =>
    intro w ho ha i hi n hn
    cases ha with
    | cons h1 h2 =>
      obtain ⟨hi', m, k1, k2, k3, k4⟩ := apply_keeps_s ho h1 hi hn
      obtain ⟨m', g1, g2, g3, g4⟩ := ih (apply_scripts ho h1) h2 hi' k1
      exact ⟨m', g1, g2.trans k2, fun f hf => (g3 f fun e' he' => hf e' (List.mem_cons_of_mem _ he')).trans (k3 f (hf e (List.mem_cons_self ..))),
        fun hf => (g4 fun e' he' => hf e' (List.mem_cons_of_mem _ he')).trans (k4 (hf e (List.mem_cons_self ..)))⟩

theorem allowed_split_s {N : Num F} {a : List (Edit F)} : ∀ {w : Work F} {e : Edit F} {b : List (Edit F)}, AllowedAllS N w (a ++ e :: b) →
    AllowedAllS N w a ∧ AllowedS N (applyAll N w a) e ∧ AllowedAllS N (apply N (applyAll N w a) e) b := by
  induction a with
  | nil => intro w e b h; cases h with | cons h1 h2 => exact ⟨.nil, h1, h2⟩
  | cons x a ih =>
    intro w e b h
    cases h with
    | cons h1 h2 =>
      obtain ⟨k1, k2, k3⟩ := ih h2
      exact ⟨.cons h1 k1, k2, k3⟩

/-- **C92** With Scripts: the last value counts. -/
theorem C92_scripts_last_value {N : Num F} (hN : GoodNum N) {lv : LinValues} (hlv : GoodOptions lv) {w : Work F} (ho : ScriptsInOrder N w) {before after : List (Edit F)} {i : Nat} {f : Text} {v : Val F}
    {rooted : List Nat} (ha : AllowedAllS N w (before ++ .set i f v rooted :: after)) (hno : ∀ e ∈ after, ¬ e.Sets i f)
    {n : Node F} (hn : (applyAll N w before).scene.heap i = some n) {d : FieldDecl F} (hd : d ∈ n.cls.fields) (hdf : d.name = f) {u : Val F} (hu : coerce d.kind d.conv v = some u)
    (hreach : Reach (applyAll N w (before ++ .set i f v rooted :: after)).scene i) (hf : Finished (applyAll N w (before ++ .set i f v rooted :: after)))
    (hl : ScriptLines lv (applyAll N w (before ++ .set i f v rooted :: after)).scene) {fuel : Nat} (hfu : (applyAll N w (before ++ .set i f v rooted :: after)).live.length < fuel) :
    ∃ text named w' φ, linearise lv (floats N) (applyAll N w (before ++ .set i f v rooted :: after)).scene fuel = .ok (text, named) ∧ ReadsWorld (library N) (floats N) text w' ∧ SameScene named w'.file φ ∧
      ∃ m, w'.heap (φ i) = some m ∧ m.cls.proto = n.cls.proto ∧ ∃ d' ∈ m.cls.fields, d'.name = f ∧ d'.read m = some (u.mapRef φ) := by
  obtain ⟨text, named, w', φ, hw, hr, hrd, hs, -⟩ := C92_scripts_edited_saved hN hlv ho ha hf hl hfu
  refine ⟨text, named, w', φ, hw, hrd, hs, ?_⟩
  have hend := (applyAll_scripts ho ha).file
  obtain ⟨h1, h2, h3⟩ := allowed_split_s ha
  have ho1 := applyAll_scripts ho h1
  have ho2 := apply_scripts ho1 h2
  obtain ⟨hi, hroot, hset⟩ := h2
  obtain ⟨n0, e0, e1⟩ := ho1.nodes i hi
  rw [hn] at e0; cases e0
  have hfind : n.cls.fields.find? (fun d => d.name == f) = some d := by
    cases hx : n.cls.fields.find? (fun d => d.name == f) with
    | none => exact absurd hdf (by simpa using List.find?_eq_none.1 hx d hd)
    | some x =>
      have : x = d := List.inj_on_of_nodup_map (node_names e1).1 (List.mem_of_find?_eq_some hx) hd
        ((by simpa using List.find?_some hx : x.name = f).trans hdf.symm)
      rw [this]
  have hstep : (apply N (applyAll N w before) (.set i f v rooted)).scene.heap i = some (n.set d.name u) := by
    simp only [apply, hn, hfind, hu]
    have ho' := set_scripts ho1 hi hn hd (set_node ho1 hi hn hd hu (hdf ▸ (hset n d u hn hd hdf hu).1)) (hdf ▸ (hset n d u hn hd hdf hu).2)
    rw [(roots_like rooted hroot ho'.registered).heap]
    exact if_pos rfl
  have hlive : i ∈ (apply N (applyAll N w before) (.set i f v rooted)).live := (apply_keeps_s (e := .set i f v rooted) ho1 ⟨hi, hroot, hset⟩ hi hn).1
  obtain ⟨m, k1, k2, k3, -⟩ := applyAll_keeps_s ho2 h3 hlive hstep
  rw [← applyAll_split] at k1
  obtain ⟨m', g1, g2, -, g4⟩ := loaded_node hr hs hend hreach k1
  obtain ⟨d', q1, q2, q3⟩ := g4 d (by rw [k2]; exact hd) ((node_names e1).2 d hd)
  refine ⟨m', g1, by rw [g2, k2]; rfl, d', q1, q2.trans hdf, ?_⟩
  rw [q3]
  have : m.dict d.name = some u := by
    rw [hdf, k3 f hno, ← hdf]; simp [Node.set]
  simp [FieldDecl.read, this]

theorem opened_scripts {N : Num F} {text : Text} {w : World F} (h : ReadsWorld (library N) (floats N) text w) {kids : List PTree} (hk : ItemsOf text kids)
    (hp : noProtosAll kids = true) (hs : SavableScripts N w) : ScriptsInOrder N (opened w) := by
  have hl := loaded_script_scene h hk hp hs
  obtain ⟨f1, -, -, f4⟩ := reads_flat (C81_builtins N) h hk hp
  have hlive : ∀ i, i ∈ (opened w).live ↔ Reach w.file i := fun i => by
    simp only [opened, List.mem_filter, decide_eq_true_eq]
    exact ⟨fun h => h.2, fun h => ⟨hl.finite i h, h⟩⟩
  have hrefers : ∀ l j, Holds (opened w) l j → Refers w.file l j := by
    intro l j h
    cases h with
    | child h => exact .child h
    | @field i n d v p _ h1 h2 h3 h4 h5 =>
      have hi := (hlive i).1 h1
      obtain ⟨m, k1, k2⟩ := hl.nodes i hi
      have h2 : w.file.heap i = some n := h2
      rw [h2] at k1; cases k1
      exact .field hi h2 h3 ⟨(node_names (plain_node k2)).2 d h3, fun nm hm => by obtain ⟨_, _, h0, -⟩ := hm; cases h0⟩ h4 h5
  refine ⟨fun i hi => ?_, fun i hi n hn => ?_, fun l j h => (hlive j).2 ?_, fun j n l l' hn hD h1 h2 => ?_, fun i hi n hn hD => ?_, fun r hr => (hl.routes r hr).2.2, rfl⟩
  · obtain ⟨n, h1, h2⟩ := hl.nodes i ((hlive i).1 hi)
    exact ⟨n, h1, plain_node h2⟩
  · obtain ⟨m, h1, h2⟩ := hl.nodes i ((hlive i).1 hi)
    rw [show w.file.heap i = some n from hn] at h1; cases h1
    rcases h2 with h2 | h2
    · exact h2.DEF
    · exact h2.DEF
  · cases hrefers l j h with
    | child h => exact .child (List.mem_of_getElem? h)
    | field h1 h2 h3 h4 h5 h6 => exact .field h1 h2 h3 h4 h5 (List.mem_of_getElem? h6)
  · exact C91_shared_only_by_name (C81_builtins N) (no_script_class N) h hk (items_plain hk hp) f1 (hrefers l j h1) (hrefers l' j h2) hn hD
  · exact hl.registered i n ((hlive i).1 hi) hn hD

/-- **C92** With Scripts: load, edit, save, load. -/
theorem C92_scripts_load_edit_save {N : Num F} (hN : GoodNum N) {lv : LinValues} (hlv : GoodOptions lv) {text : Text} {w : World F} (h : ReadsWorld (library N) (floats N) text w)
    {kids : List PTree} (hk : ItemsOf text kids) (hp : noProtosAll kids = true) (hs : SavableScripts N w) {es : List (Edit F)} (ha : AllowedAllS N (opened w) es)
    (hf : Finished (applyAll N (opened w) es)) (hl : ScriptLines lv (applyAll N (opened w) es).scene) {fuel : Nat} (hfu : (applyAll N (opened w) es).live.length < fuel) :
    ∃ saved named w' φ, linearise lv (floats N) (applyAll N (opened w) es).scene fuel = .ok (saved, named) ∧ Renamed (applyAll N (opened w) es).scene named ∧
      ReadsWorld (library N) (floats N) saved w' ∧ SameScene named w'.file φ ∧ linearise lv (floats N) w'.file fuel = .ok (saved, w'.file) :=
  C92_scripts_edited_saved hN hlv (opened_scripts h hk hp hs) ha hf hl hfu

/-! ### The theorems apply -/

/-- a program loads the file of `exScripts`, sets a field of the Script, and saves -/
example : ∃ w kids, ReadsWorld (library exNum) (floats exNum) exScripts w ∧ ItemsOf exScripts kids ∧ noProtosAll kids = true ∧ SavableScripts exNum w ∧ ScriptsInOrder exNum (opened w) ∧
    AllowedAllS exNum (opened w) [.set 0 (chars "mustEvaluate") (.bool true) []] ∧
    ∃ text named w' φ, linearise defaults (floats exNum) (applyAll exNum (opened w) [.set 0 (chars "mustEvaluate") (.bool true) []]).scene 5 = .ok (text, named) ∧
      ReadsWorld (library exNum) (floats exNum) text w' ∧ SameScene named w'.file φ ∧
      ∃ m, w'.heap (φ 0) = some m ∧ m.cls.proto = chars "Script" ∧ ∃ d ∈ m.cls.fields, d.name = chars "mustEvaluate" ∧ d.read m = some (.bool true) := by
  obtain ⟨w, h1, h2⟩ := world_fact (base := library exNum) (fl := floats exNum) (fuel := 600) (text := exScripts)
    (f := fun w => w.next == 3 && (w.heap 0).map (fun n => n.cls.proto) == some (chars "Script") && savableScriptsB w && w.file.children == [0, 2] && w.file.routes.map (fun r => (r.src, r.dst)) == [(0, 0)] &&
      (List.range w.next).all (fun i => (w.heap i).map (fun n => n.cls.proto) != some (chars "FontStyle"))) (x := true) (by decide +kernel)
  simp only [Bool.and_eq_true, beq_iff_eq] at h2
  obtain ⟨⟨⟨⟨⟨e1, e2⟩, e3⟩, e4⟩, e5⟩, e6⟩ := h2
  obtain ⟨hdr, sm, kids, eof, m, vs, hd, hr⟩ := id h1
  have hk : ItemsOf exScripts kids := ⟨hdr, sm, eof, m, hd⟩
  have hp : noProtosAll kids = true := items_fact (fuel := 600) (P := noProtosAll) (by decide +kernel) hk
  have hs := savable_scripts_of h1 hk hp e3
  have ho := opened_scripts h1 hk hp hs
  obtain ⟨n, hn, hpr⟩ := Option.map_eq_some_iff.1 e2
  have hn : (opened w).scene.heap 0 = some n := hn
  have hlive : ∀ i, Reach w.file i → i ∈ (opened w).live := fun i hi => by
    simp only [opened, List.mem_filter, decide_eq_true_eq]
    exact ⟨List.mem_range.2 (reach_exists (C81_builtins exNum) h1 i hi), hi⟩
  have h0 : (0 : Nat) ∈ (opened w).live := hlive 0 (.child (by rw [e4]; simp))
  have hscr : LibraryScriptNode exNum { n with DEF := [] } := by
    obtain ⟨n', k1, k2⟩ := ho.nodes 0 h0
    rw [hn] at k1; cases k1
    rcases k2 with ⟨k2, -⟩ | k2
    · rw [hpr, show chars "Script" = scriptName from rfl, no_script_class] at k2; cases k2
    · exact k2
  have hkind : ∀ d ∈ n.cls.fields, d.name = chars "mustEvaluate" → d.kind = .sfBool := fun d hd hx => by
    rcases script_field hscr (.inr (.inr rfl)) hd hx with ⟨k, -⟩ | ⟨-, k⟩
    · exact absurd k (by decide)
    · exact k
  have hall : AllowedAllS exNum (opened w) [.set 0 (chars "mustEvaluate") (.bool true) []] := by
    refine .cons ⟨h0, fun j hj => (by cases hj), fun n' d u hn' hd hx hu => ?_⟩ .nil
    rw [hn] at hn'; cases hn'
    rw [if_pos hpr]
    refine ⟨.inr (.inl rfl), ?_⟩
    rw [hkind d hd hx] at hu
    cases hu
    exact fun j hj => by cases hj
  refine ⟨w, kids, h1, hk, hp, hs, ho, hall, ?_⟩
  obtain ⟨d, hd, hx⟩ : ∃ d ∈ n.cls.fields, d.name = chars "mustEvaluate" :=
    ⟨_, (hscr.common ⟨⟨chars "mustEvaluate", chars "SFBool", .sfBool, fun _ => [], id, .scalar (.bool false)⟩, false⟩ (by simp [scriptProto]) (show chars "mustEvaluate" ≠ chars "externalURL" by decide)).1, rfl⟩
  have hch : (applyAll exNum (opened w) [.set 0 (chars "mustEvaluate") (.bool true) []]).scene.children = [0, 2] ∧
      (applyAll exNum (opened w) [.set 0 (chars "mustEvaluate") (.bool true) []]).scene.routes = w.file.routes ∧
      (applyAll exNum (opened w) [.set 0 (chars "mustEvaluate") (.bool true) []]).live = (opened w).live := by
    rw [← e4]
    simp only [applyAll, List.foldl_cons, List.foldl_nil, apply, hn]
    split
    · exact ⟨rfl, rfl, rfl⟩
    split
    · exact ⟨rfl, rfl, rfl⟩
    · exact ⟨rfl, rfl, rfl⟩
  have hfin : Finished (applyAll exNum (opened w) [.set 0 (chars "mustEvaluate") (.bool true) []]) := by
    refine ⟨by rw [hch.1]; simp, fun r hr => ?_, fun i n' hi hn' hf => ?_⟩
    · rw [hch.2.1] at hr
      have : (r.src, r.dst) ∈ w.file.routes.map (fun r => (r.src, r.dst)) := List.mem_map_of_mem hr
      rw [e5, List.mem_singleton, Prod.mk.injEq] at this
      rw [this.1, this.2]
      exact ⟨.child (by rw [hch.1]; simp), .child (by rw [hch.1]; simp)⟩
    · have hl := reach_live_s (applyAll_scripts ho hall) hi
      rw [hch.2.2] at hl
      obtain ⟨n0, k1, -⟩ := ho.nodes i hl
      obtain ⟨m', g1, g2, -⟩ := applyAll_keeps_s ho hall hl k1
      rw [hn'] at g1; cases g1
      have hb := List.all_eq_true.1 e6 i (by simp only [opened, List.mem_filter] at hl; exact hl.1)
      have k1 : w.heap i = some n0 := k1
      rw [k1, Option.map_some, ← g2, hf] at hb
      exact absurd hb (by decide)
  obtain ⟨text, named, w', φ, g1, g2, g3, m, g4, g5, d', g6, g7, g8⟩ := C92_scripts_last_value (before := []) (after := []) (i := 0) (f := chars "mustEvaluate") (v := .bool true) (rooted := [])
    exGoodNum goodDefaults ho hall (fun e he => by cases he) hn hd hx (u := .bool true) (by rw [hkind d hd hx]; rfl) (.child (by rw [List.nil_append, hch.1]; simp)) hfin (fun _ _ _ _ _ => by decide) (fuel := 5)
    (by
      rw [List.nil_append, hch.2.2]
      refine Nat.lt_of_le_of_lt (List.length_filter_le _ _) ?_
      rw [List.length_range, e1]
      decide)
  exact ⟨text, named, w', φ, g1, g2, g3, m, g4, g5.trans hpr, d', g6, g7, g8⟩

end Verif.Editing
