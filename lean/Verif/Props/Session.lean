import Verif.Props.Edit
import Verif.Props.Animate
import Verif.Spec.Session
/-!
C95: a program edits a scene while its ROUTEs are live, and saves it: what is loaded is the scene as it is now.
-/
namespace Verif.Editing
open Verif.TextOut Verif.Text Verif.SceneText Verif.Full Verif.Library
open Verif.Lin hiding disp dispList dispDecls dispAttrs disp_node disp_attr
variable {F : Type}

/-! ### Connections and ROUTEs -/

theorem connection_some {w : Work F} {r : Rt} {x : Wire} : connection w r = some x ↔
    ∃ n a, w.scene.heap r.src = some n ∧ n.cls.getField r.srcField = some a ∧ x = ⟨r.src, portName a, r.dst, r.dstField⟩ := by
  unfold connection
  cases hn : w.scene.heap r.src with
  | none =>
    refine ⟨fun h => (by cases h), ?_⟩
    rintro ⟨n, a, h, -⟩
    cases h
  | some n =>
    simp only [Option.bind_some, Option.some.injEq]
    cases ha : n.cls.getField r.srcField with
    | none =>
      refine ⟨fun h => (by cases h), ?_⟩
      rintro ⟨n', a, rfl, h2, -⟩
      rw [ha] at h2; cases h2
    | some a =>
      cases a with
      | inl d =>
        refine ⟨fun h => ⟨n, _, rfl, ha, (Option.some.inj h).symm⟩, ?_⟩
        rintro ⟨n', a, rfl, h2, h3⟩
        rw [ha] at h2; cases h2
        rw [h3]; rfl
      | inr e =>
        refine ⟨fun h => ⟨n, _, rfl, ha, (Option.some.inj h).symm⟩, ?_⟩
        rintro ⟨n', a, rfl, h2, h3⟩
        rw [ha] at h2; cases h2
        rw [h3]; rfl

theorem objects_wires {N : Num F} {w : Work F} {x : Wire} : x ∈ (objects N w).wires ↔
    ∃ r ∈ w.scene.routes, ∃ n a, w.scene.heap r.src = some n ∧ n.cls.getField r.srcField = some a ∧ x = ⟨r.src, portName a, r.dst, r.dstField⟩ := by
  show x ∈ w.scene.routes.filterMap (connection w) ↔ _
  simp only [List.mem_filterMap, connection_some]

/-- **C95** An assignment is carried to exactly the fields that the ROUTEs of the scene lead to at that moment. -/
theorem C95_connections {N : Num F} {w : Work F} {p q : Place} : Linked (objects N w) p q ↔ Leads w p q := by
  constructor
  · intro h
    induction h with
    | start => exact .refl
    | step h hx he hd ih =>
      obtain ⟨r, hr, n, a, h1, h2, rfl⟩ := objects_wires.1 hx
      obtain ⟨m, h3, h4⟩ := hd
      rw [← he] at ih
      exact ih.tail (.route hr h1 h2 h3 h4)
  · intro h
    induction h with
    | refl => exact .start
    | tail h hr ih =>
      cases hr with
      | @route r n a m d hr h1 h2 h3 h4 => exact .step (x := ⟨r.src, portName a, r.dst, r.dstField⟩) ih (objects_wires.2 ⟨r, hr, n, a, h1, h2, rfl⟩) rfl ⟨m, h3, h4⟩

/-! ### One assignment -/

theorem port_of_field {N : Num F} {t : Text} {c : Class F} (h : library N t = some c) {d : FieldDecl F} (hd : d ∈ c.fields) : c.port d.name = some (.inl d) := by
  have hdist : (c.fields.map FieldDecl.name ++ c.events.map EventDecl.name).Nodup := (class_names h).2.2.1
  obtain ⟨h1, -, h3⟩ := List.nodup_append.1 hdist
  unfold Class.port
  have he : c.events.find? (fun e => e.name == d.name) = none := by
    rw [List.find?_eq_none]
    intro e hm hb
    exact h3 _ (List.mem_map_of_mem hd) _ (List.mem_map_of_mem hm) (by simpa using hb : e.name = d.name).symm
  rw [he]
  have hf : c.fields.find? (fun x => x.name == d.name) = some d := by
    cases hx : c.fields.find? (fun x => x.name == d.name) with
    | none => exact absurd (List.find?_eq_none.1 hx d hd) (by simp)
    | some x =>
      have : x = d := List.inj_on_of_nodup_map h1 (List.mem_of_find?_eq_some hx) hd (by simpa using List.find?_some hx)
      rw [this]
  simp [hf]

/-- what an allowed assignment does -/
theorem assign_does {N : Num F} {w : Work F} (ho : InOrder N w) {i : Nat} {f : Text} {v u : Val F} (ha : Assignable N w i f v u) :
    ∃ heap, act N w (.assign i f v) = some { w with scene := { w.scene with heap := heap } } ∧
      (∀ j, (heap j).map (fun n => (n.cls, n.DEF)) = (w.scene.heap j).map (fun n => (n.cls, n.DEF))) ∧
      ∀ j ∈ w.live, ∀ n m, w.scene.heap j = some n → heap j = some m → ∀ d ∈ n.cls.fields,
        (Leads w (i, f) (j, d.name) → m.dict d.name = some u) ∧ (¬ Leads w (i, f) (j, d.name) → m.dict d.name = n.dict d.name) := by
  obtain ⟨w', h1, h2, h3⟩ := C93_assignment_spreads ha.starts ha.keeps
  refine ⟨w'.heap, by simp only [act, h1, Option.map_some], h2.nodes, fun j hj n m hn hm d hd => ?_⟩
  obtain ⟨n', e1, e2⟩ := ho.cls j hj
  rw [hn] at e1; cases e1
  have hat := h3 j d.name ⟨n, d, hn, port_of_field e2 hd⟩
  rw [C95_connections] at hat
  have hold : (objects N w).at j d.name = n.dict d.name := by
    show (w.scene.heap j).bind _ = _
    rw [hn]; rfl
  have hnew : w'.at j d.name = m.dict d.name := by
    simp only [World.at, hm, Option.bind_some]
  rw [hold, hnew] at hat
  exact hat

theorem assign_inorder {N : Num F} {w : Work F} (ho : InOrder N w) {i : Nat} {f : Text} {v u : Val F} (ha : Assignable N w i f v u) {w' : Work F} (h : act N w (.assign i f v) = some w') :
    InOrder N w' := by
  obtain ⟨heap, h1, h2, h3⟩ := assign_does ho ha
  rw [h1] at h; cases h
  have hback : ∀ k m, heap k = some m → ∃ n, w.scene.heap k = some n ∧ m.cls = n.cls ∧ m.DEF = n.DEF := by
    intro k m hm
    have := h2 k
    rw [hm] at this
    cases hn : w.scene.heap k with
    | none => rw [hn] at this; cases this
    | some n =>
      rw [hn] at this
      simp only [Option.map_some, Option.some.injEq, Prod.mk.injEq] at this
      exact ⟨n, rfl, this.1, this.2⟩
  have hold : ∀ l j, Holds ⟨{ w.scene with heap := heap }, w.live⟩ l j → Holds w l j ∨ j ∈ u.nodes := by
    intro l j h
    cases h with
    | child h => exact .inl (.child h)
    | @field k m d v' p _ g1 g2 g3 g4 g5 =>
      obtain ⟨n, hn, e1, -⟩ := hback k m g2
      rw [e1] at g3
      obtain ⟨k1, k2⟩ := h3 k g1 n m hn g2 d g3
      by_cases hl : Leads w (i, f) (k, d.name)
      · right
        simp only [FieldDecl.read, k1 hl, Option.some.injEq] at g4
        subst g4
        exact List.mem_of_getElem? g5
      · left
        refine .field g1 hn g3 ?_ g5
        simpa only [FieldDecl.read, k2 hl] using g4
  refine ⟨fun k hk => ?_, fun k hk m hm => ?_, fun k hk m hm d hd v' hv => ?_, fun l j h => ?_, fun j m l l' hm hD g1 g2 => ?_, fun k hk m hm hD => ?_, ho.routes, ho.file⟩
  · obtain ⟨n, e1, e2⟩ := ho.cls k hk
    have := h2 k
    rw [e1] at this
    cases hm : heap k with
    | none => rw [hm] at this; cases this
    | some m =>
      rw [hm] at this
      simp only [Option.map_some, Option.some.injEq, Prod.mk.injEq] at this
      exact ⟨m, hm, by rw [this.1]; exact e2⟩
  · obtain ⟨n, hn, -, e2⟩ := hback k m hm
    rw [e2]; exact ho.DEF k hk n hn
  · obtain ⟨n, hn, e1, -⟩ := hback k m hm
    rw [e1] at hd
    obtain ⟨k1, k2⟩ := h3 k hk n m hn hm d hd
    by_cases hl : Leads w (i, f) (k, d.name)
    · rw [k1 hl] at hv; cases hv
      exact ha.fits k n d hk hn hd hl
    · rw [k2 hl] at hv
      exact ho.values k hk n hn d hd v' hv
  · rcases hold l j h with h | h
    · exact ho.closed l j h
    · exact (ha.named j h).1
  · obtain ⟨n, hn, -, e2⟩ := hback j m hm
    have hno : j ∉ u.nodes := fun hj => (ha.named j hj).2 n hn (e2.symm.trans hD)
    exact ho.once j n l l' hn (e2.symm.trans hD) ((hold l j g1).resolve_right hno) ((hold l' j g2).resolve_right hno)
  · obtain ⟨n, hn, -, e2⟩ := hback k m hm
    rw [e2] at hD ⊢
    exact ho.registered k hk n hn hD

/-! ### Programs -/

theorem act_inorder {N : Num F} {w : Work F} (ho : InOrder N w) {a : Act F} (ha : AllowedAct N w a) {w' : Work F} (h : act N w a = some w') : InOrder N w' := by
  cases a with
  | edit e =>
    cases h
    exact apply_inorder ho ha.1
  | assign i f v =>
    obtain ⟨u, hu⟩ := ha
    exact assign_inorder ho hu h

/-- what an action leaves as it is -/
theorem act_keeps {N : Num F} {w : Work F} (ho : InOrder N w) {a : Act F} (ha : AllowedAct N w a) {w' : Work F} (h : act N w a = some w') {j : Nat} (hj : j ∈ w.live) {n : Node F}
    (hn : w.scene.heap j = some n) :
    j ∈ w'.live ∧ ∃ m, w'.scene.heap j = some m ∧ m.cls = n.cls ∧ ∀ d ∈ n.cls.fields, ¬ Changes w (j, d.name) a → m.dict d.name = n.dict d.name := by
  cases a with
  | edit e =>
    cases h
    obtain ⟨h1, m, h2, h3, h4, -⟩ := apply_keeps ho ha.1 hj hn
    exact ⟨h1, m, h2, h3, fun d _ hd => h4 d.name hd⟩
  | assign i f v =>
    obtain ⟨u, hu⟩ := ha
    obtain ⟨heap, h1, h2, h3⟩ := assign_does ho hu
    rw [h1] at h; cases h
    have := h2 j
    rw [hn] at this
    cases hm : heap j with
    | none => rw [hm] at this; cases this
    | some m =>
      rw [hm] at this
      simp only [Option.map_some, Option.some.injEq, Prod.mk.injEq] at this
      exact ⟨hj, m, hm, this.1, fun d hd hc => (h3 j hj n m hn hm d hd).2 hc⟩

theorem session_inorder {N : Num F} {l : List (Act F)} : ∀ {w : Work F}, InOrder N w → AllowedSession N w l → ∃ w', session N w l = some w' ∧ InOrder N w' := by
  induction l with
  | nil => intro w ho _; exact ⟨w, rfl, ho⟩
  | cons a l ih =>
    intro w ho h
    cases h with
    | cons h1 h2 h3 =>
      obtain ⟨w', e1, e2⟩ := ih (act_inorder ho h1 h2) h3
      exact ⟨w', by simp only [session, List.foldlM_cons, h2, Option.bind_eq_bind, Option.bind_some]; exact e1, e2⟩

theorem session_keeps {N : Num F} {l : List (Act F)} : ∀ {w : Work F}, InOrder N w → AllowedSession N w l → ∀ {w' : Work F}, session N w l = some w' → ∀ {j : Nat}, j ∈ w.live → ∀ {n : Node F},
    w.scene.heap j = some n → ∃ m, w'.scene.heap j = some m ∧ m.cls = n.cls ∧ ∀ d ∈ n.cls.fields, Untouched N (j, d.name) w l → m.dict d.name = n.dict d.name := by
  induction l with
  | nil => intro w _ _ w' h j _ n hn; cases h; exact ⟨n, hn, rfl, fun _ _ _ => rfl⟩
  | cons a l ih =>
    intro w ho h w' hs j hj n hn
    cases h with
    | @cons _ _ w1 _ h1 h2 h3 =>
      simp only [session, List.foldlM_cons, h2, Option.bind_eq_bind, Option.bind_some] at hs
      obtain ⟨hj', m, k1, k2, k3⟩ := act_keeps ho h1 h2 hj hn
      obtain ⟨m', g1, g2, g3⟩ := ih (act_inorder ho h1 h2) h3 hs hj' k1
      refine ⟨m', g1, g2.trans k2, fun d hd hu => ?_⟩
      cases hu with
      | cons u1 u2 u3 =>
        rw [h2] at u2; cases u2
        rw [g3 d (by rw [k2]; exact hd) u3, k3 d hd u1]

/-- **C95** A program that edits a scene of library nodes while its ROUTEs are live (creating, naming and moving nodes, adding and removing ROUTEs, and assigning fields and events, which the ROUTEs of the moment
carry on), and saves it at any time: every action succeeds, the scene can be saved, and what is loaded is the scene as it is then, which saves as the same text. -/
theorem C95_session_saved {N : Num F} (hN : GoodNum N) {lv : LinValues} (hlv : GoodOptions lv) {w : Work F} (ho : InOrder N w) {l : List (Act F)} (ha : AllowedSession N w l) :
    ∃ now, session N w l = some now ∧ (Finished now → ∀ fuel, now.live.length < fuel →
      ∃ text named w' φ, linearise lv (floats N) now.scene fuel = .ok (text, named) ∧ Renamed now.scene named ∧
        ReadsWorld (library N) (floats N) text w' ∧ SameScene named w'.file φ ∧ linearise lv (floats N) w'.file fuel = .ok (text, w'.file)) := by
  obtain ⟨now, h1, h2⟩ := session_inorder ho ha
  exact ⟨now, h1, fun hf fuel hfu => C92_edited_scene_saved (es := []) hN hlv h2 .nil hf hfu⟩

theorem session_split {N : Num F} {b : List (Act F)} {a : Act F} : ∀ {l : List (Act F)} {w w' : Work F}, AllowedSession N w (l ++ a :: b) → session N w (l ++ a :: b) = some w' →
    ∃ w1 w2, session N w l = some w1 ∧ AllowedSession N w l ∧ AllowedAct N w1 a ∧ act N w1 a = some w2 ∧ AllowedSession N w2 b ∧ session N w2 b = some w' := by
  intro l
  induction l with
  | nil =>
    intro w w' h hs
    cases h with
    | cons h1 h2 h3 =>
      refine ⟨w, _, rfl, .nil, h1, h2, h3, ?_⟩
      simpa only [session, List.nil_append, List.foldlM_cons, h2, Option.bind_eq_bind, Option.bind_some] using hs
  | cons x l ih =>
    intro w w' h hs
    cases h with
    | cons h1 h2 h3 =>
      simp only [session, List.cons_append, List.foldlM_cons, h2, Option.bind_eq_bind, Option.bind_some] at hs
      obtain ⟨w1, w2, e1, e2, e3, e4, e5, e6⟩ := ih h3 hs
      exact ⟨w1, w2, by simp only [session, List.foldlM_cons, h2, Option.bind_eq_bind, Option.bind_some]; exact e1, .cons h1 h2 e2, e3, e4, e5, e6⟩

/-- what a field of a node of the scene is after saving and loading -/
theorem saved_field {N : Num F} (hN : GoodNum N) {lv : LinValues} (hlv : GoodOptions lv) {now : Work F} (ho : InOrder N now) (hf : Finished now) {fuel : Nat} (hfu : now.live.length < fuel) :
    ∃ text named w' φ, linearise lv (floats N) now.scene fuel = .ok (text, named) ∧ ReadsWorld (library N) (floats N) text w' ∧ SameScene named w'.file φ ∧
      ∀ j n, Reach now.scene j → now.scene.heap j = some n → ∃ m, w'.heap (φ j) = some m ∧ m.cls.proto = n.cls.proto ∧
        ∀ d ∈ n.cls.fields, ∃ d' ∈ m.cls.fields, d'.name = d.name ∧ d'.read m = (d.read n).map (Val.mapRef φ) := by
  obtain ⟨text, named, w', φ, hw, hr, hrd, hs, -⟩ := C92_edited_scene_saved (es := []) hN hlv ho .nil hf hfu
  refine ⟨text, named, w', φ, hw, hrd, hs, fun j n hj hn => ?_⟩
  obtain ⟨m, k1, k2, -, k4⟩ := loaded_node hr hs ho.file hj hn
  refine ⟨m, k1, k2, fun d hd => k4 d hd ?_⟩
  obtain ⟨n', e1, e2⟩ := ho.cls j (reach_live ho hj)
  rw [hn] at e1; cases e1
  exact visible_of_safe ((class_names e2).2.2.2 d hd)

/-- **C95** The value that an assignment stores is saved with every field that the ROUTEs led to when it was made (also if they are gone by now), unless the field was changed again. -/
theorem C95_routed_value_saved {N : Num F} (hN : GoodNum N) {lv : LinValues} (hlv : GoodOptions lv) {w : Work F} (ho : InOrder N w) {before after : List (Act F)} {i : Nat} {f : Text} {v u : Val F}
    (ha : AllowedSession N w (before ++ .assign i f v :: after)) {now : Work F} (hs : session N w (before ++ .assign i f v :: after) = some now) (hf : Finished now)
    {fuel : Nat} (hfu : now.live.length < fuel) {w1 w2 : Work F} (h1 : session N w before = some w1) (h2 : act N w1 (.assign i f v) = some w2) (hu : Assignable N w1 i f v u) :
    ∃ text named w' φ, linearise lv (floats N) now.scene fuel = .ok (text, named) ∧ ReadsWorld (library N) (floats N) text w' ∧ SameScene named w'.file φ ∧
      ∀ j n, j ∈ w1.live → Reach now.scene j → w1.scene.heap j = some n → ∃ m, w'.heap (φ j) = some m ∧ m.cls.proto = n.cls.proto ∧
        ∀ d ∈ n.cls.fields, Leads w1 (i, f) (j, d.name) → Untouched N (j, d.name) w2 after → ∃ d' ∈ m.cls.fields, d'.name = d.name ∧ d'.read m = some (u.mapRef φ) := by
  obtain ⟨x1, x2, e1, e2, e3, e4, e5, e6⟩ := session_split ha hs
  rw [h1] at e1; cases e1
  rw [h2] at e4; cases e4
  obtain ⟨y1, g1, ho1⟩ := session_inorder ho e2
  rw [h1] at g1; cases g1
  have ho2 := act_inorder ho1 e3 h2
  obtain ⟨y2, g2, ho3⟩ := session_inorder ho2 e5
  rw [e6] at g2; cases g2
  obtain ⟨text, named, w', φ, k1, k2, k3, k4⟩ := saved_field hN hlv ho3 hf hfu
  refine ⟨text, named, w', φ, k1, k2, k3, fun j n hj hr hn => ?_⟩
  obtain ⟨heap, q1, -, q3⟩ := assign_does ho1 hu
  obtain ⟨hj2, n2, r1, r2, -⟩ := act_keeps ho1 e3 h2 hj hn
  obtain ⟨n3, s1, s2, s3⟩ := session_keeps ho2 e5 e6 hj2 r1
  obtain ⟨m, t1, t2, t3⟩ := k4 j n3 hr s1
  refine ⟨m, t1, by rw [t2, s2, r2], fun d hd hl hun => ?_⟩
  obtain ⟨d', b1, b2, b3⟩ := t3 d (by rw [s2, r2]; exact hd)
  refine ⟨d', b1, b2, ?_⟩
  have hv2 : n2.dict d.name = some u := by
    rw [h2] at q1; cases q1
    exact (q3 j hj n n2 hn r1 d hd).1 hl
  have hv3 : n3.dict d.name = some u := by rw [s3 d (by rw [r2]; exact hd) hun, hv2]
  rw [b3, FieldDecl.read, hv3]; rfl

/-- **C95** A field that no action changed is saved as it was. -/
theorem C95_untouched_saved {N : Num F} (hN : GoodNum N) {lv : LinValues} (hlv : GoodOptions lv) {w : Work F} (ho : InOrder N w) {l : List (Act F)} (ha : AllowedSession N w l) {now : Work F}
    (hs : session N w l = some now) (hf : Finished now) {fuel : Nat} (hfu : now.live.length < fuel) :
    ∃ text named w' φ, linearise lv (floats N) now.scene fuel = .ok (text, named) ∧ ReadsWorld (library N) (floats N) text w' ∧ SameScene named w'.file φ ∧
      ∀ j n, j ∈ w.live → Reach now.scene j → w.scene.heap j = some n → ∃ m, w'.heap (φ j) = some m ∧ m.cls.proto = n.cls.proto ∧
        ∀ d ∈ n.cls.fields, Untouched N (j, d.name) w l → ∃ d' ∈ m.cls.fields, d'.name = d.name ∧ d'.read m = (d.read n).map (Val.mapRef φ) := by
  obtain ⟨y, g, ho3⟩ := session_inorder ho ha
  rw [hs] at g; cases g
  obtain ⟨text, named, w', φ, k1, k2, k3, k4⟩ := saved_field hN hlv ho3 hf hfu
  refine ⟨text, named, w', φ, k1, k2, k3, fun j n hj hr hn => ?_⟩
  obtain ⟨n3, s1, s2, s3⟩ := session_keeps ho ha hs hj hn
  obtain ⟨m, t1, t2, t3⟩ := k4 j n3 hr s1
  refine ⟨m, t1, by rw [t2, s2], fun d hd hun => ?_⟩
  obtain ⟨d', b1, b2, b3⟩ := t3 d (by rw [s2]; exact hd)
  exact ⟨d', b1, b2, by rw [b3, FieldDecl.read, FieldDecl.read, s3 d hd hun]⟩

/-- **C95** The program may start with a file that it has loaded (without prototypes, of library nodes): the ROUTEs of the file are the connections that reading it has made. -/
theorem C95_opened {N : Num F} {text : Text} {w : World F} (h : ReadsWorld (library N) (floats N) text w) {kids : List PTree} (hk : ItemsOf text kids) (hp : noProtosAll kids = true) (hs : Savable N w)
    (hsc : ∀ r ∈ w.file.routes, ∀ n, w.heap r.src = some n → n.cls.proto ≠ chars "Script") : InOrder N (opened w) ∧ ∀ p q, Leads (opened w) p q ↔ Linked w p q := by
  refine ⟨opened_inorder h hk hp hs, fun p q => ?_⟩
  rw [C93_linked_by_routes (C81_builtins N) h hk hp hsc]
  refine ⟨fun hl => Relation.ReflTransGen.mono (fun a b hab => ?_) _ _ hl, fun hl => Relation.ReflTransGen.mono (fun a b hab => ?_) _ _ hl⟩
  · cases hab with
    | route h1 h2 h3 h4 h5 => exact .route h1 ⟨_, h2, h3⟩ ⟨_, h4, h5⟩
  · cases hab with
    | route h1 h2 h3 =>
      obtain ⟨n, e1, e2⟩ := h2
      obtain ⟨m, e3, e4⟩ := h3
      exact .route h1 e1 e2 e3 e4

/-! ### The theorems apply -/

def eatsB (d : FieldDecl Int) (l : List Int) : Bool := fitsB d (.nums l) && match coerce d.kind d.conv (.nums l) with
  | some (.nums l') => l' == l
  | _ => false

theorem eats_coerce {d : FieldDecl Int} {l : List Int} (h : eatsB d l = true) : coerce d.kind d.conv (.nums l) = some (.nums l) := by
  simp only [eatsB, Bool.and_eq_true] at h
  have h2 := h.2
  split at h2
  · rename_i l' hl
    rw [hl, beq_iff_eq.1 h2]
  · cases h2

/-- all ROUTEs are to fields that take the vector `l`, and so is the assigned field -/
def assignB (w : Work Int) (i : Nat) (f : Text) (l : List Int) : Bool :=
  w.live.contains i && (match w.scene.heap i with
    | none => false
    | some n => match n.cls.port f with
      | some (.inl d) => eatsB d l
      | _ => false) &&
  w.scene.routes.all (fun r => w.live.contains r.dst && match w.scene.heap r.dst with
    | none => false
    | some n => match n.cls.getField r.dstField with
      | some (.inl d) => eatsB d l
      | _ => false)

theorem assign_of {w : Work Int} (ho : InOrder exNum w) {i : Nat} {f : Text} {l : List Int} (h : assignB w i f l = true) : Assignable exNum w i f (.nums l) (.nums l) := by
  simp only [assignB, Bool.and_eq_true, List.contains_eq_mem, decide_eq_true_eq, List.all_eq_true] at h
  obtain ⟨⟨h1, h2⟩, h3⟩ := h
  split at h2
  · cases h2
  rename_i n hn
  split at h2
  case h_2 => cases h2
  rename_i d hd
  have hr : ∀ r ∈ w.scene.routes, ∃ m e, w.scene.heap r.dst = some m ∧ m.cls.getField r.dstField = some (.inl e) ∧ eatsB e l = true := by
    intro r hr
    have h4 := (h3 r hr).2
    split at h4
    · cases h4
    rename_i m hm
    split at h4
    case h_2 => cases h4
    rename_i e he
    exact ⟨m, e, hm, he, h4⟩
  refine ⟨h1, ⟨n, hn, .inl ⟨d, hd, eats_coerce h2⟩⟩, fun x hx _ => .inl ?_, fun j m e hj hm he hl => ?_, fun j hj => by cases hj⟩
  · obtain ⟨r, h4, -, -, -, -, rfl⟩ := objects_wires.1 hx
    obtain ⟨m, e, k1, k2, k3⟩ := hr r h4
    exact ⟨e, ⟨m, k1, k2⟩, eats_coerce k3, eats_coerce k3⟩
  · obtain ⟨m', g1, g2⟩ := ho.cls j hj
    rw [hm] at g1; cases g1
    refine fits_of g2 he ?_
    have hsame : ∀ e' ∈ m.cls.fields, e'.name = e.name → e' = e := fun e' he' hne =>
      List.inj_on_of_nodup_map (List.nodup_append.1 (class_names g2).2.2.1).1 he' he hne
    rcases Relation.ReflTransGen.cases_tail hl with hl | ⟨q, -, hl⟩
    · cases hl
      rw [hn] at hm; cases hm
      obtain ⟨k1, k2, -⟩ := port_is_field hd
      have := hsame d k2 k1
      subst this
      simp only [eatsB, Bool.and_eq_true] at h2
      exact h2.1
    · generalize hq : (j, e.name) = q' at hl
      cases hl with
      | @route r n' a m' d' k1 k2 k3 k4 k5 =>
        injection hq with q1 q2
        subst q1
        rw [hm] at k4; cases k4
        obtain ⟨m2, e2, b1, b2, b3⟩ := hr r k1
        rw [hm] at b1; cases b1
        rw [k5] at b2; cases b2
        have := hsame d' (Reader.getField_mem k5) q2.symm
        subst this
        simp only [eatsB, Bool.and_eq_true] at b3
        exact b3.1

/-- Two Transforms; a ROUTE from the first to the second is made, the first is moved, the ROUTE is removed, and the first is moved again. -/
def exSetup : List (Edit Int) := [.new (chars "Transform") 0, .new (chars "Transform") 1, .children [0, 1] [0, 1], .name 0 (chars "A"),
  .route ⟨0, chars "translation_changed", 1, chars "set_translation"⟩]

def exMoves : List (Act Int) := [.assign 0 (chars "translation") (.nums [1, 2, 3]), .edit (.unroute 0), .assign 0 (chars "translation") (.nums [4, 5, 6])]

def exBase : Work Int := applyAll exNum empty exSetup

theorem exBase_inorder : InOrder exNum exBase := applyAll_inorder (empty_inorder exNum) (allowedAll_of (empty_inorder exNum) (by decide +kernel))

/-- what the nodes are after the first moves -/
def getW (w : Option (Work Int)) : Work Int := w.getD empty

def exW1 : Work Int := getW (act exNum exBase exMoves[0])
def exW2 : Work Int := getW (act exNum exW1 exMoves[1])
def exW3 : Work Int := getW (act exNum exW2 exMoves[2])

theorem get_some {w : Option (Work Int)} (h : w.isSome = true) : w = some (getW w) := by
  cases w with
  | none => cases h
  | some w => rfl

theorem exSteps : act exNum exBase exMoves[0] = some exW1 ∧ act exNum exW1 exMoves[1] = some exW2 ∧ act exNum exW2 exMoves[2] = some exW3 :=
  ⟨get_some (by decide +kernel), get_some (by decide +kernel), get_some (by decide +kernel)⟩

theorem exFirst : Assignable exNum exBase 0 (chars "translation") (.nums [1, 2, 3]) (.nums [1, 2, 3]) := assign_of exBase_inorder (by decide +kernel)

theorem exMoves_allowed : AllowedSession exNum exBase exMoves ∧ InOrder exNum exW3 := by
  obtain ⟨h1, h2, h3⟩ := exSteps
  have a1 : AllowedAct exNum exBase exMoves[0] := ⟨_, exFirst⟩
  have o1 := act_inorder exBase_inorder a1 h1
  have a2 : AllowedAct exNum exW1 exMoves[1] := ⟨trivial, fun _ _ h => by cases h⟩
  have o2 := act_inorder o1 a2 h2
  have a3 : AllowedAct exNum exW2 exMoves[2] := ⟨_, assign_of o2 (by decide +kernel)⟩
  exact ⟨.cons a1 h1 (.cons a2 h2 (.cons a3 h3 .nil)), act_inorder o2 a3 h3⟩

theorem exMoves_run : session exNum exBase exMoves = some exW3 := by
  obtain ⟨h1, h2, h3⟩ := exSteps
  show (act exNum exBase exMoves[0]).bind (fun w => (act exNum w exMoves[1]).bind (fun w => (act exNum w exMoves[2]).bind some)) = _
  rw [h1]
  show (act exNum exW1 exMoves[1]).bind (fun w => (act exNum w exMoves[2]).bind some) = _
  rw [h2]
  show (act exNum exW2 exMoves[2]).bind some = _
  rw [h3]; rfl

theorem exMoves_finished : Finished exW3 where
  children := by decide +kernel
  routes r hr := by
    have : exW3.scene.routes = [] := by decide +kernel
    rw [this] at hr; cases hr
  fonts i n hi hn hp := by
    have hl : i ∈ exW3.live := reach_live exMoves_allowed.2 hi
    have h2 : ∀ i ∈ exW3.live, (exW3.scene.heap i).map (fun n => n.cls.proto) ≠ some (chars "FontStyle") := by decide +kernel
    exact absurd (by rw [hn, Option.map_some, hp]) (h2 i hl)

/-- The second Transform is saved with the first move, though the ROUTE is gone by then. -/
example : ∃ text named w' φ, linearise defaults (floats exNum) exW3.scene 3 = .ok (text, named) ∧ ReadsWorld (library exNum) (floats exNum) text w' ∧ SameScene named w'.file φ ∧
    ∃ m, w'.heap (φ 1) = some m ∧ m.cls.proto = chars "Transform" ∧ ∃ d ∈ m.cls.fields, d.name = chars "translation" ∧ d.read m = some (.nums [1, 2, 3]) := by
  obtain ⟨h1, h2, h3⟩ := exSteps
  obtain ⟨text, named, w', φ, k1, k2, k3, k4⟩ := C95_routed_value_saved (before := []) (after := exMoves.drop 1) exGoodNum goodDefaults exBase_inorder exMoves_allowed.1 exMoves_run exMoves_finished
    (fuel := 3) (by decide +kernel) rfl h1 exFirst
  refine ⟨text, named, w', φ, k1, k2, k3, ?_⟩
  have hl1 : 1 ∈ exBase.live := by decide +kernel
  obtain ⟨n, hn, hc⟩ := exBase_inorder.cls 1 hl1
  have hp : (exBase.scene.heap 1).map (fun n => n.cls.proto) = some (chars "Transform") := by decide +kernel
  rw [hn, Option.map_some, Option.some.injEq] at hp
  rw [hp] at hc
  have hcls := (library_of hc).2
  obtain ⟨m, e1, e2, e3⟩ := k4 1 n hl1 (.child (by decide +kernel)) hn
  have hcls' : n.cls = nodeClass exNum "Transform" := hcls
  have hd : ∃ d ∈ (nodeClass exNum "Transform").fields, d.name = chars "translation" ∧ (nodeClass exNum "Transform").getField (chars "set_translation") = some (.inl d) := by
    have h : (match (nodeClass exNum "Transform").getField (chars "set_translation") with
      | some (.inl d) => d.name == chars "translation"
      | _ => false) = true := by decide +kernel
    split at h
    · rename_i d hd
      exact ⟨d, Reader.getField_mem hd, by simpa using h, hd⟩
    · cases h
  obtain ⟨d, hd1, hd2, hd3⟩ := hd
  obtain ⟨n0, hn0, hc0⟩ := exBase_inorder.cls 0 (by decide +kernel)
  have hp0 : (exBase.scene.heap 0).map (fun n => n.cls.proto) = some (chars "Transform") := by decide +kernel
  rw [hn0, Option.map_some, Option.some.injEq] at hp0
  rw [hp0] at hc0
  have hsrc : ∃ a, (nodeClass exNum "Transform").getField (chars "translation_changed") = some a ∧ portName a = chars "translation" := by
    have h : (match (nodeClass exNum "Transform").getField (chars "translation_changed") with
      | some a => portName a == chars "translation"
      | _ => false) = true := by decide +kernel
    split at h
    · rename_i a ha
      exact ⟨a, ha, by simpa using h⟩
    · cases h
  obtain ⟨a, ha1, ha2⟩ := hsrc
  have hlead : Leads exBase (0, chars "translation") (1, d.name) := by
    have hr : (⟨0, chars "translation_changed", 1, chars "set_translation"⟩ : Rt) ∈ exBase.scene.routes := by decide +kernel
    have := RoutedNow.route (w := exBase) hr hn0 (by rw [(library_of hc0).2]; exact ha1) hn (by rw [hcls']; exact hd3)
    rw [ha2] at this
    exact .single this
  have hun : Untouched exNum (1, d.name) exW1 (exMoves.drop 1) := by
    refine .cons (fun h => by cases h) h2 (.cons (fun h => ?_) h3 .nil)
    have hno : exW2.scene.routes = [] := by decide +kernel
    rcases Relation.ReflTransGen.cases_tail h with h | ⟨q, -, h⟩
    · cases h
    · generalize (1, d.name) = q' at h
      cases h with
      | route hr => rw [hno] at hr; cases hr
  obtain ⟨d', g1, g2, g3⟩ := e3 d (by rw [hcls']; exact hd1) hlead hun
  exact ⟨m, e1, by rw [e2, hp], d', g1, g2.trans hd2, g3⟩

end Verif.Editing
