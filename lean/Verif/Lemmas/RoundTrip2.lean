import Verif.Lemmas.Decls
/-!
Lemmas for C09, continued: attributes and nodes.
-/
namespace Verif.Lin
open Verif.Peg Verif.Grammar Verif.TextOut Verif.Text Verif.SceneText Verif.ListText
variable {F : Type}

theorem Class.Distinct.fields {c : Class F} (h : c.Distinct) : (c.fields.map FieldDecl.name).Nodup := (List.nodup_append.1 h).1

theorem resolveName_exact {α : Type} {known : Text → Option α} {nm : Text} {a : α} (h : known nm = some a) : resolveName known nm = some a := by
  rw [resolveName, h]

theorem getField_self {c : Class F} (h : c.Distinct) {d : FieldDecl F} (hd : d ∈ c.fields) :
    c.getField d.name = some (.inl d) := by
  have key : ∀ l : List (FieldDecl F), (l.map FieldDecl.name).Nodup → d ∈ l → l.find? (fun e => e.name == d.name) = some d := by
    intro l
    induction l with
    | nil => intro _ h; cases h
    | cons a l ih =>
      intro hn hm
      simp only [List.map_cons, List.nodup_cons] at hn
      rcases List.mem_cons.1 hm with rfl | hm
      · simp
      · have : a.name ≠ d.name := fun he => hn.1 (he ▸ List.mem_map_of_mem (f := FieldDecl.name) hm)
        rw [List.find?_cons_of_neg (by simpa using this)]
        exact ih hn.2 hm
  refine resolveName_exact ?_
  have he : c.events.find? (fun e => e.name == d.name) = none := by
    rw [List.find?_eq_none]
    intro e he hh
    refine (List.nodup_append.1 h).2.2 d.name (List.mem_map_of_mem hd) e.name (List.mem_map_of_mem he) ?_
    exact (by simpa using hh : e.name = d.name).symm
  rw [Class.port, he, key _ h.fields hd]
  rfl


/-! ### Warnings and known nodes stay -/

/-- once a warning is written it stays, and nodes stay known -/
def Up (st st' : St) : Prop := (st.warned = true → st'.warned = true) ∧ ∀ j, Done st j → Done st' j

theorem Up.refl (st : St) : Up st st := ⟨id, fun _ => id⟩
theorem Up.trans {a b c : St} (h1 : Up a b) (h2 : Up b c) : Up a c := ⟨h2.1 ∘ h1.1, fun j => h2.2 j ∘ h1.2 j⟩
theorem Up.of {a b : St} (h1 : b.done = a.done) (h2 : b.warned = a.warned) : Up a b :=
  ⟨fun h => by rw [h2]; exact h, fun j hj => (Grow.of_done h1).done hj⟩

def Mono (lin : St → Nat → Res St) : Prop := ∀ st i st', lin st i = .ok st' → Up st st'

theorem mono_elems {lv : LinValues} {lin : St → Nat → Res St} (hl : Mono lin) : ∀ l st st', linElems lv lin st l = .ok st' → Up st st' := by
  intro l
  induction l with
  | nil => intro st st' h; simp only [linElems, Except.ok.injEq] at h; subst h; exact Up.refl _
  | cons o l ih =>
    intro st st' h
    cases o with
    | none =>
      simp only [linElems] at h
      have h0 : Up st ((st.write (lv.fullSep ++ st.cur lv ++ lv.indent)).write ['N', 'U', 'L', 'L']) := Up.of rfl rfl
      exact h0.trans (ih _ _ h)
    | some i =>
      simp only [linElems] at h
      cases hlin : lin (st.write (lv.fullSep ++ st.cur lv ++ lv.indent)) i with
      | error e => rw [hlin] at h; cases h
      | ok st1 =>
        rw [hlin] at h
        have h0 : Up st (st.write (lv.fullSep ++ st.cur lv ++ lv.indent)) := Up.of rfl rfl
        exact (h0.trans (hl _ _ _ hlin)).trans (ih _ _ h)

theorem mono_mf {lv : LinValues} {lin : St → Nat → Res St} (hl : Mono lin) {l st st'} (h : linMF lv lin st l = .ok st') : Up st st' := by
  simp only [linMF] at h
  split at h
  · simp only [Except.ok.injEq] at h; subst h; exact Up.of rfl rfl
  · split at h
    · cases h
    · rename_i st1 h1
      simp only [Except.ok.injEq] at h
      subst h
      have h2 := mono_elems hl _ _ _ h1
      exact ((Up.of rfl rfl : Up st _).trans h2).trans (Up.of rfl rfl)

theorem mono_field {lv : LinValues} {lin : St → Nat → Res St} (hl : Mono lin) {d : FieldDecl F} {v st st'}
    (h : linField lv lin st d v = .ok st') : Up st st' := by
  have simple : (∀ T, simpleText lv d v = .ok T → linField lv lin st d v = .ok (st.write T)) →
      (∀ e, simpleText lv d v = .error e → linField lv lin st d v = .error e) → Up st st' := by
    intro h1 h2
    cases hs : simpleText lv d v with
    | error e => rw [h2 e hs] at h; cases h
    | ok T => rw [h1 T hs] at h; cases h; exact Up.of rfl rfl
  cases v with
  | ref o =>
    cases o with
    | none => simp only [linField, Except.ok.injEq] at h; subst h; exact Up.of rfl rfl
    | some i => exact hl _ _ _ h
  | refs l => exact mono_mf hl h
  | strs l =>
    cases l with
    | nil => exact mono_mf hl h
    | cons a l => simp only [linField, Except.ok.injEq] at h; subst h; exact Up.of rfl rfl
  | bool b => exact simple (fun T hT => by simp only [linField, hT]) (fun T hT => by simp only [linField, hT])
  | int b => exact simple (fun T hT => by simp only [linField, hT]) (fun T hT => by simp only [linField, hT])
  | num b => exact simple (fun T hT => by simp only [linField, hT]) (fun T hT => by simp only [linField, hT])
  | str b => exact simple (fun T hT => by simp only [linField, hT]) (fun T hT => by simp only [linField, hT])
  | ints b => exact simple (fun T hT => by simp only [linField, hT]) (fun T hT => by simp only [linField, hT])
  | nums b => exact simple (fun T hT => by simp only [linField, hT]) (fun T hT => by simp only [linField, hT])
  | rows b => exact simple (fun T hT => by simp only [linField, hT]) (fun T hT => by simp only [linField, hT])

theorem mono_attrs {lv : LinValues} {fl : Floats F} {lin : St → Nat → Res St} (hl : Mono lin) {n : Node F} {isn} : ∀ l st st',
    linAttrs lv fl lin n isn st l = .ok st' → Up st st' := by
  intro l
  induction l with
  | nil => intro st st' h; simp only [linAttrs, Except.ok.injEq] at h; subst h; exact Up.refl _
  | cons d l ih =>
    intro st st' h
    simp only [linAttrs] at h
    split at h
    · cases h
    · split at h
      · exact (Up.of rfl rfl : Up st (st.write _)).trans (ih _ _ h)
      · split at h
        · cases h
        · exact ih _ _ h
        · split at h
          · cases h
          · rename_i h1
            have h0 : Up st (st.write (lv.fullSep ++ st.cur lv ++ lv.indent ++ d.name ++ ['\t'])) := Up.of rfl rfl
            exact (h0.trans (mono_field hl h1)).trans (ih _ _ h)

theorem mono_default {lv : LinValues} {lin : St → Nat → Res St} (hl : Mono lin) {d : FieldDecl F} {st st'}
    (h : linDefault lv lin st d = .ok st') : Up st st' := by
  simp only [linDefault] at h
  split at h
  · cases h
  · split at h
    · cases h
    · cases h; exact Up.of rfl rfl
    · exact mono_field hl h

theorem mono_decls {lv : LinValues} {lin : St → Nat → Res St} (hl : Mono lin) : ∀ (l : List (PField F)) st st',
    linDecls lv lin st l = .ok st' → Up st st' := by
  intro l
  induction l with
  | nil => intro st st' h; simp only [linDecls, Except.ok.injEq] at h; subst h; exact Up.refl _
  | cons f l ih =>
    intro st st' h
    simp only [linDecls] at h
    split at h
    · cases h
    · rename_i h1
      exact ((Up.of rfl rfl : Up st (st.write _)).trans (mono_default hl h1)).trans (ih _ _ h)

theorem mono_begin {lv : LinValues} {lin : St → Nat → Res St} (hl : Mono lin) {c : Class F} {st st'}
    (h : linBegin lv lin st c = .ok st') : Up st st' := by
  simp only [linBegin] at h
  split at h
  · split at h
    · cases h
    · rename_i h1
      cases h
      exact ((Up.of rfl rfl : Up st (St.write { st with level := st.level + 1 } (eventsText lv (St.cur lv { st with level := st.level + 1 }) c.events))).trans (mono_decls hl _ _ _ h1)).trans (Up.of rfl rfl)
  · cases h; exact Up.refl _

theorem look_cons (st : St) (i j : Nat) (x : Nat × Option Nat) (st' : St) (h : st'.done = (i, x) :: st.done) :
    st'.look j = if j = i then some x else st.look j := by
  simp only [St.look, h, List.lookup_cons]
  by_cases hj : j = i
  · simp [hj]
  · have : (j == i) = false := by simpa using hj
    simp [this, hj]

theorem done_cons {st st' : St} {i j : Nat} {x : Nat × Option Nat} (h : st'.done = (i, x) :: st.done) (hj : Done st j) : Done st' j := by
  obtain ⟨y, hy⟩ := hj
  by_cases hi : j = i
  · exact ⟨x, by rw [look_cons st i j x st' h, if_pos hi]⟩
  · exact ⟨y, by rw [look_cons st i j x st' h, if_neg hi]; exact hy⟩

theorem mono_node {lv : LinValues} {fl : Floats F} {src : Scene F} : ∀ fuel, Mono (linNode lv fl src fuel) := by
  intro fuel
  induction fuel with
  | zero => intro st i st' h; simp [linNode] at h
  | succ fuel ih =>
    intro st i st' h
    simp only [linNode] at h
    split at h
    · cases h
    · split at h
      · split at h
        · cases h; exact Up.of rfl rfl
        · split at h <;> (cases h; exact ⟨fun _ => rfl, fun j hj => (Grow.of_done rfl).done hj⟩)
      · split at h
        · cases h
        · rename_i h0
          split at h
          · cases h
          · rename_i h1
            simp only [Except.ok.injEq] at h
            subst h
            have h2 := (mono_begin ih h0).trans (mono_attrs ih _ _ _ h1)
            refine ⟨fun hw => h2.1 hw, fun j hj => ?_⟩
            have h3 := h2.2 j (done_cons (by rfl) hj)
            exact done_cons (by rfl) h3

/-- Reading changed at most node `p` among the old ones, and neither its class nor its name. -/
structure FrameX (p : Nat) (rs rs' : RSt F) : Prop where
  next : rs.next ≤ rs'.next
  heap : ∀ j, j < rs.next → j ≠ p → rs'.sc.heap j = rs.sc.heap j
  children : rs'.sc.children = rs.sc.children
  routes : rs'.sc.routes = rs.sc.routes
  is : ∀ j, j < rs.next → j ≠ p → ∀ f nm, IsMapped rs'.sc j f nm ↔ IsMapped rs.sc j f nm

theorem FrameX.refl (p : Nat) (rs : RSt F) : FrameX p rs rs := ⟨Nat.le_refl _, fun _ _ _ => rfl, rfl, rfl, fun _ _ _ _ _ => Iff.rfl⟩
theorem FrameX.trans {p : Nat} {a b c : RSt F} (h1 : FrameX p a b) (h2 : FrameX p b c) : FrameX p a c :=
  ⟨Nat.le_trans h1.next h2.next, fun j hj hp => (h2.heap j (Nat.lt_of_lt_of_le hj h1.next) hp).trans (h1.heap j hj hp),
    h2.children.trans h1.children, h2.routes.trans h1.routes,
    fun j hj hp f nm => (h2.is j (Nat.lt_of_lt_of_le hj h1.next) hp f nm).trans (h1.is j hj hp f nm)⟩
theorem Frame.toX {a b : RSt F} (h : Frame a b) (p : Nat) : FrameX p a b :=
  ⟨h.next, fun j hj _ => h.heap j hj, h.children, h.routes, fun j hj _ => h.is j hj⟩

section
variable (lk : Text → Option (Class F)) (fl : Floats F) (src : Scene F) (P : Nat → Prop)

/-- Reading the attributes of node `i`: each field of `l` ends up with its value, or is left out and gets its value
from the default. -/
def AttrsEff (st st' : St) (i : Nat) (n : Node F) (l : List (FieldDecl F)) (ts : List PTree) : Prop :=
  (∀ t ∈ ts, ParseVal.Tree.tag t = .attr) ∧
  ∀ k rs φ m, Inv src P st rs φ → rs.sc.heap (φ i) = some m → SameClass n.cls m.cls → m.cls.Distinct → ∃ rs' φ' vs m', dispList lk fl ts (some (φ i)) k rs = some (vs, rs') ∧
    Inv src P st' rs' φ' ∧ Ext st φ φ' ∧ FrameX (φ i) rs rs' ∧ rs'.sc.heap (φ i) = some m' ∧ m'.cls = m.cls ∧ m'.DEF = m.DEF ∧
    (∀ nm, nm ∉ l.map FieldDecl.name → m'.dict nm = m.dict nm) ∧
    (∀ f nm, IsMapped rs'.sc (φ i) f nm ↔ IsMapped rs.sc (φ i) f nm ∨ (f ∈ l.map FieldDecl.name ∧ IsMapped src i f nm)) ∧
    ∀ d ∈ l, Shown src i d → ∃ v, d.read n = some v ∧ (∀ j ∈ v.nodes, Done st' j) ∧ (m'.dict d.name = some (v.mapRef φ') ∨
      (m'.dict d.name = m.dict d.name ∧ v.nodes = [] ∧ d.default = some v))
end

section
variable {lk : Text → Option (Class F)} {fl : Floats F} {src : Scene F} {P : Nat → Prop} {lv : LinValues} {lin : St → Nat → Res St}

/-- Storing a value in a node that is being written keeps the invariant. -/
theorem Inv.store {st : St} {rs rs' : RSt F} {φ : Nat → Nat} (h : Inv src P st rs φ) {i s : Nat} (hi : st.look i = some (s, none))
    {d : FieldDecl F} {u v : Val F} (hc : coerce d.kind d.conv u = some v) {m : Node F} (hm : rs.sc.heap (φ i) = some m)
    (hs : rs' = { rs with sc := { rs.sc with heap := fun j => if j = φ i then (rs.sc.heap (φ i)).map (fun n => n.set d.name v) else rs.sc.heap j } }) :
    rs.store (φ i) d u = some rs' ∧ Inv src P st rs' φ ∧ rs'.sc.heap (φ i) = some (m.set d.name v) ∧ FrameX (φ i) rs rs' := by
  subst hs
  refine ⟨by simp [RSt.store, hc], ⟨fun j x hx => ?_, h.inj, h.is, h.cover, h.full, h.body⟩, by simp [hm],
    ⟨Nat.le_refl _, fun j _ hj => by simp [hj], rfl, rfl, fun _ _ _ _ _ => Iff.rfl⟩⟩
  obtain ⟨hP, n', m', h1, h2, h4, h5, h6, h7⟩ := h.node j x hx
  by_cases hj : φ j = φ i
  · have : j = i := h.inj j i ⟨x, hx⟩ ⟨_, hi⟩ hj
    subst this
    rw [hi] at hx; cases hx
    refine ⟨hP, n', m'.set d.name v, h1, by simp [h2], h4, h5, h6, fun hh => absurd rfl hh⟩
  · exact ⟨hP, n', m', h1, by simp [hj, h2], h4, h5, h6, h7⟩

/-- Giving a class to a node that is being written keeps the invariant. -/
theorem Inv.setClass {st : St} {rs : RSt F} {φ : Nat → Nat} (h : Inv src P st rs φ) {i s : Nat} (hi : st.look i = some (s, none)) (c : Class F)
    {m : Node F} (hm : rs.sc.heap (φ i) = some m) :
    Inv src P st (rs.setClass (φ i) c) φ ∧ (rs.setClass (φ i) c).sc.heap (φ i) = some { m with cls := c } ∧ FrameX (φ i) rs (rs.setClass (φ i) c) := by
  refine ⟨⟨fun j x hx => ?_, h.inj, h.is, h.cover, h.full, h.body⟩, by simp [RSt.setClass, hm],
    ⟨Nat.le_refl _, fun j _ hj => by simp [RSt.setClass, hj], rfl, rfl, fun _ _ _ _ _ => Iff.rfl⟩⟩
  obtain ⟨hP, n', m', h1, h2, h4, h5, h6, h7⟩ := h.node j x hx
  by_cases hj : φ j = φ i
  · have : j = i := h.inj j i ⟨x, hx⟩ ⟨_, hi⟩ hj
    subst this
    rw [hi] at hx; cases hx
    exact ⟨hP, n', { m' with cls := c }, h1, by simp [RSt.setClass, h2], h4, h5, h6, fun hh => absurd rfl hh⟩
  · exact ⟨hP, n', m', h1, by simp [RSt.setClass, hj, h2], h4, h5, h6, h7⟩

/-- An IS declaration in a node that is being written keeps the invariant. -/
theorem Inv.addIs {st : St} {rs : RSt F} {φ : Nat → Nat} (h : Inv src P st rs φ) {i s : Nat} (hi : st.look i = some (s, none))
    {dict} (hd : rs.sc.is = some dict) (f nm : Text) :
    Inv src P st { rs with sc := { rs.sc with is := some (isAppend nm (φ i, f) dict) } } φ ∧
    FrameX (φ i) rs { rs with sc := { rs.sc with is := some (isAppend nm (φ i, f) dict) } } := by
  have hne : ∀ j x, st.look j = some x → x.2 ≠ none → φ j ≠ φ i := by
    intro j x hx hx2 he
    have : j = i := h.inj j i ⟨x, hx⟩ ⟨_, hi⟩ he
    subst this
    rw [hi] at hx; cases hx; exact hx2 rfl
  refine ⟨⟨h.node, h.inj, fun j x hx hx2 f' nm' => ?_, fun j f' nm' hm => ?_, fun _ _ _ hd' hm => ?_, fun _ => by simp⟩,
    ⟨Nat.le_refl _, fun _ _ _ => rfl, rfl, rfl, fun j _ hj f' nm' => ?_⟩⟩
  · rw [isMapped_append hd, ← h.is j x hx hx2 f' nm']
    exact ⟨fun hh => hh.resolve_right (fun hh => hne j x hx hx2 hh.1), .inl⟩
  · rcases (isMapped_append hd).1 hm with hm | hm
    · exact h.cover j f' nm' hm
    · exact ⟨i, ⟨_, hi⟩, hm.1⟩
  · cases hd'; exact isAppend_full dict (fun k l => h.full dict k l hd) _ _ hm
  · rw [isMapped_append hd]
    exact ⟨fun hh => hh.resolve_right (fun hh => hj hh.1), .inl⟩

theorem getField_same {c c' : Class F} (h : SameClass c c') (hn : c'.Distinct) {d : FieldDecl F}
    (hd : d ∈ c.fields) (hv : Visible d) : ∃ d', c'.getField d.name = some (.inl d') ∧ SameType d d' := by
  obtain ⟨d', h1, h2, -⟩ := h.fields d hd hv
  exact ⟨d', by rw [← h2.name]; exact getField_self hn h1, h2⟩

/-- The same field of two classes that look the same. -/
theorem SameClass.field {c c' : Class F} (h : SameClass c c') (hn : c'.Distinct) {d d' : FieldDecl F} (hd : d ∈ c.fields) (hv : Visible d)
    (hd' : d' ∈ c'.fields) (he : d'.name = d.name) : SameType d d' ∧ (¬ Declared c d.name → SameField d d') := by
  obtain ⟨d'', h1, h2⟩ := h.fields d hd hv
  have : d'' = d' := by
    have a := getField_self hn h1
    have b := getField_self hn hd'
    rw [h2.1.name] at a
    rw [he, a] at b
    cases b; rfl
  subst this
  exact h2

/-- One attribute, then the others. -/
theorem AttrsEff.cons {st st1 st' : St} {i : Nat} {n : Node F} {d : FieldDecl F} {l : List (FieldDecl F)} {a b : List PTree}
    (hi : Done st i) (hg : Grow st st1) (hg' : Grow st1 st') (hnd : d.name ∉ l.map FieldDecl.name)
    (h1 : AttrsEff lk fl src P st st1 i n [d] a) (h2 : AttrsEff lk fl src P st1 st' i n l b) : AttrsEff lk fl src P st st' i n (d :: l) (a ++ b) := by
  have hne : ∀ e ∈ l, e.name ≠ d.name := fun e he h => hnd (h ▸ List.mem_map_of_mem (f := FieldDecl.name) he)
  refine ⟨fun t ht => (List.mem_append.1 ht).elim (h1.1 t) (h2.1 t), fun k rs φ m hinv hm hs hm' => ?_⟩
  obtain ⟨rs1, φ1, vs1, m1, e1, e2, e3, e4, e5, e6, e7, e8, eis, e9⟩ := h1.2 k rs φ m hinv hm hs hm'
  have hφ : φ1 i = φ i := e3 i hi
  obtain ⟨rs2, φ2, vs2, m2, f1, f2, f3, f4, f5, f6, f7, f8, fis, f9⟩ := h2.2 k rs1 φ1 m1 e2 (by rw [hφ]; exact e5) (by rw [e6]; exact hs) (by rw [e6]; exact hm')
  rw [hφ] at f1 f4 f5 fis
  refine ⟨rs2, φ2, vs1 ++ vs2, m2, ?_, f2, Ext.trans hg e3 f3, e4.trans f4, f5, f6.trans e6, f7.trans e7, fun nm hnm => ?_, fun f nm => ?_, fun e he hsh => ?_⟩
  · have key : ∀ (a b : List PTree) (rs rs1 rs2 : RSt F) vs1 vs2 cur, dispList lk fl a cur k rs = some (vs1, rs1) → dispList lk fl b cur k rs1 = some (vs2, rs2) →
        dispList lk fl (a ++ b) cur k rs = some (vs1 ++ vs2, rs2) := by
      intro a
      induction a with
      | nil => intro b rs rs1 rs2 vs1 vs2 cur g1 g2; simp only [dispList, Option.some.injEq, Prod.mk.injEq] at g1; obtain ⟨rfl, rfl⟩ := g1; simpa using g2
      | cons t a ih =>
        intro b rs rs1 rs2 vs1 vs2 cur g1 g2
        simp only [dispList] at g1
        split at g1
        · cases g1
        · rename_i v rs0 g3
          split at g1
          · cases g1
          · rename_i vs rs' g4
            cases g1
            exact dispList_cons lk fl g3 (ih b _ _ _ _ _ _ g4 g2)
    exact key a b _ _ _ _ _ _ e1 f1
  · simp only [List.map_cons, List.mem_cons, not_or] at hnm
    rw [f8 nm hnm.2, e8 nm (by simp [hnm.1])]
  · rw [fis, eis]
    simp only [List.map_cons, List.map_nil, List.mem_cons, List.not_mem_nil, or_false]
    constructor
    · rintro ((h | ⟨h, h'⟩) | ⟨h, h'⟩)
      · exact .inl h
      · exact .inr ⟨.inl h, h'⟩
      · exact .inr ⟨.inr h, h'⟩
    · rintro (h | ⟨h | h, h'⟩)
      · exact .inl (.inl h)
      · exact .inl (.inr ⟨h, h'⟩)
      · exact .inr ⟨h, h'⟩
  · rcases List.mem_cons.1 he with rfl | he
    · obtain ⟨v, g1, g2, g3⟩ := e9 e (by simp) hsh
      refine ⟨v, g1, fun j hj => hg'.done (g2 j hj), ?_⟩
      rw [f8 _ hnd]
      rcases g3 with g3 | g3
      · rw [mapRef_congr v (fun j hj => f3 j (g2 j hj))]; exact .inl g3
      · exact .inr g3
    · obtain ⟨v, g1, g2, g3⟩ := f9 e he hsh
      refine ⟨v, g1, g2, ?_⟩
      rw [e8 e.name (by simpa using hne e he)] at g3
      exact g3

theorem attrs_read (hlv : GoodOptions lv) (hmono : Mono lin) (hl : Good lk fl src P lv lin) {It : E} {i s : Nat} {n : Node F} (hg : GoodNode lk fl src i n) :
    ∀ (l : List (FieldDecl F)) (st st' : St), (∀ d ∈ l, d ∈ n.cls.fields ∧ Visible d ∧ ¬ Declared n.cls d.name ∧ ReadsAttr It d.name) → (l.map FieldDecl.name).Nodup →
    (∀ d ∈ l, Shown src i d → ∀ v, d.read n = some v → ∀ j ∈ v.nodes, P j) →
    st.look i = some (s, none) → linAttrs lv fl lin n (src.isOf i) st l = .ok st' → st'.warned = false →
    st.warned = false ∧ Grow st st' ∧ ∃ C, st'.out = st.out ++ C ∧ (C = [] ∨ textOf C ≠ []) ∧ Block lv It (textOf C) (AttrsEff lk fl src P st st' i n l) := by
  intro l
  induction l with
  | nil =>
    intro st st' _ _ _ _ h hw
    simp only [linAttrs, Except.ok.injEq] at h
    subst h
    refine ⟨hw, Grow.refl _, [], by simp, .inl rfl, .inl ⟨rfl, by simp, fun k rs φ m hi hm _ _ => ⟨rs, φ, [], m, rfl, hi, Ext.refl _ _, FrameX.refl _ _, hm, rfl, rfl, fun _ _ => rfl, by simp, by simp⟩⟩⟩
  | cons d l ih =>
    intro st st' hsub hnd hP hli h hw
    obtain ⟨hd, hvis, hdecl, hread⟩ := hsub d (by simp)
    simp only [List.map_cons, List.nodup_cons] at hnd
    have hsub' : ∀ e ∈ l, e ∈ n.cls.fields ∧ Visible e ∧ ¬ Declared n.cls e.name ∧ ReadsAttr It e.name := fun e he => hsub e (by simp [he])
    have hP' : ∀ e ∈ l, Shown src i e → ∀ v, e.read n = some v → ∀ j ∈ v.nodes, P j := fun e he => hP e (by simp [he])
    have hsafe := hg.names d hd hvis hdecl
    have hind : Ignorable (st.cur lv ++ lv.indent) := (cur_ign hlv st).append hlv.plain.indent
    have hnis : ∀ z, NameEnd z → Der gram (kw "IS") (d.name ++ z) .fail := fun z hz => safe_no hsafe hz (by decide)
    have hne : d.name ≠ [] := hvis.1
    have htab : Ignorable ['\t'] := .blank (by decide) .nil
    simp only [linAttrs] at h
    cases hr : d.read n with
    | none => rw [hr] at h; cases h
    | some v =>
      rw [hr] at h
      simp only at h
      cases his : src.isOf i d.name with
      | some im =>
        rw [his] at h
        simp only at h
        have hmap : IsMapped src i d.name im := isOf_some his
        have him : LegalName im := (hg.isField _ _ hmap).1
        generalize hst0 : st.write (lv.fullSep ++ st.cur lv ++ lv.indent ++ d.name ++ [' ', 'I', 'S', ' '] ++ im ++ ['\t']) = st0 at h
        have hd0 : st0.done = st.done := by subst hst0; rfl
        have hout0 : st0.out = st.out ++ [Chunk.text (lv.fullSep ++ st.cur lv ++ lv.indent ++ d.name ++ [' ', 'I', 'S', ' '] ++ im ++ ['\t'])] := by subst hst0; rfl
        have hw00 : st0.warned = st.warned := by subst hst0; rfl
        have hlook0 : ∀ j, st0.look j = st.look j := fun j => by simp [St.look, hd0]
        have hgr0 : Grow st st0 := Grow.of_done hd0
        obtain ⟨a1, a2, C2, a3, -, a4⟩ := ih st0 st' hsub' hnd.2 hP' (by rw [hlook0]; exact hli) h hw
        have hnext : ∀ z, NextS (d.name ++ ([' '] ++ (['I', 'S'] ++ ([' '] ++ (im ++ ['\t'])))) ++ z) := fun z => by
          refine ⟨?_, ?_⟩
          · have := next_attr (s := ['S', ' '] ++ (im ++ ['\t'] ++ z)) hsafe sp_ign (by simp) (c := 'I') (by decide) (by decide) (by decide)
            simpa using this
          · simp only [List.append_assoc]; exact hnis _ (nameEnd_cons (by decide))
        have b1 : Block lv It (lv.fullSep ++ (st.cur lv ++ lv.indent) ++ (d.name ++ ([' '] ++ (['I', 'S'] ++ ([' '] ++ (im ++ ['\t'])))))) (AttrsEff lk fl src P st st0 i n [d]) := by
          refine Block.item hind (by simp [hne]) hnext (fun w r hw' hr' => ?_)
          have c3 := attr_is_der hread hsafe him sp_ign (by simp) sp_ign (htab.append (hw'.ign hlv)) (by simp) hr'.1.1
          refine ⟨_, by simpa using c3, by simp [ParseVal.Tree.tag], fun k rs φ m hi hm g3 g3' => ?_⟩
          obtain ⟨d', hgf, -⟩ := getField_same g3 g3' hd hvis
          cases hdict : rs.sc.is with
          | none => exact absurd hdict (hi.body ⟨i, _, _, hmap⟩)
          | some dict =>
            obtain ⟨k1, k2⟩ := hi.addIs hli hdict d.name im
            refine ⟨_, φ, _, m, dispList_cons lk fl (disp_attr_is lk fl hm hgf hdict) rfl, k1.of_done hd0, Ext.refl _ _, k2, hm, rfl, rfl, fun _ _ => rfl, fun f nm => ?_, fun e he hsh => ?_⟩
            · rw [isMapped_append hdict]
              simp only [List.map_cons, List.map_nil, List.mem_cons, List.not_mem_nil, or_false]
              constructor
              · rintro (h | ⟨-, h1, h2⟩)
                · exact .inl h
                · subst h1 h2; exact .inr ⟨rfl, hmap⟩
              · rintro (h | ⟨h1, h2⟩)
                · exact .inl h
                · subst h1
                  exact .inr ⟨trivial, rfl, hg.isOne _ _ _ h2 hmap⟩
            · simp only [List.mem_cons, List.not_mem_nil, or_false] at he
              subst he
              exact absurd hmap (hsh.2 im)
        refine ⟨by rw [← hw00]; exact a1, hgr0.trans a2, [Chunk.text (lv.fullSep ++ st.cur lv ++ lv.indent ++ d.name ++ [' ', 'I', 'S', ' '] ++ im ++ ['\t'])] ++ C2,
          by rw [a3, hout0]; simp, .inr (by simp [textOf_cons, Chunk.toText]), ?_⟩
        have hT : textOf ([Chunk.text (lv.fullSep ++ st.cur lv ++ lv.indent ++ d.name ++ [' ', 'I', 'S', ' '] ++ im ++ ['\t'])] ++ C2) =
            lv.fullSep ++ (st.cur lv ++ lv.indent) ++ (d.name ++ ([' '] ++ (['I', 'S'] ++ ([' '] ++ (im ++ ['\t']))))) ++ textOf C2 := by
          simp [textOf_cons, Chunk.toText]
        rw [hT]
        refine (b1.append a4).mono (fun ts hts => ?_)
        obtain ⟨x, y, rfl, hx, hy⟩ := hts
        exact AttrsEff.cons ⟨_, hli⟩ hgr0 a2 hnd.1 hx hy
      | none =>
       rw [his] at h
       simp only at h
       have hshown : Shown src i d := ⟨hvis, isOf_none his⟩
       have hisd : ∀ A : Text → Text → Prop, ∀ f nm, A f nm ↔ A f nm ∨ (f ∈ [d].map FieldDecl.name ∧ IsMapped src i f nm) := by
         intro A f nm
         simp only [List.map_cons, List.map_nil, List.mem_cons, List.not_mem_nil, or_false]
         constructor
         · exact .inl
         · rintro (h | ⟨h1, h2⟩)
           · exact h
           · subst h1; exact absurd h2 (hshown.2 _)
       cases ho : omitted fl d.dflt v with
       | none => rw [ho] at h; cases h
       | some b =>
         rw [ho] at h
         cases b with
         | true =>
           simp only at h
           obtain ⟨hdv, hvn⟩ := hg.omitted d hd hshown hdecl v hr ho
           obtain ⟨a1, a2, C, a3, a3', a4⟩ := ih st st' hsub' hnd.2 hP' hli h hw
           refine ⟨a1, a2, C, a3, a3', a4.mono (fun ts hts => ?_)⟩
           have h0 : AttrsEff lk fl src P st st i n [d] [] := by
             refine ⟨by simp, fun k rs φ m hi hm _ _ => ⟨rs, φ, [], m, rfl, hi, Ext.refl _ _, FrameX.refl _ _, hm, rfl, rfl, fun _ _ => rfl, hisd _, fun e he hsh => ?_⟩⟩
             simp only [List.mem_cons, List.not_mem_nil, or_false] at he
             subst he
             exact ⟨v, hr, by simp [hvn], .inr ⟨rfl, hvn, hdv⟩⟩
           exact AttrsEff.cons ⟨_, hli⟩ (Grow.refl _) a2 hnd.1 h0 hts
         | false =>
           simp only at h
           generalize hst0 : st.write (lv.fullSep ++ st.cur lv ++ lv.indent ++ d.name ++ ['\t']) = st0 at h
           have hd0 : st0.done = st.done := by subst hst0; rfl
           have hout0 : st0.out = st.out ++ [Chunk.text (lv.fullSep ++ st.cur lv ++ lv.indent ++ d.name ++ ['\t'])] := by subst hst0; rfl
           have hw00 : st0.warned = st.warned := by subst hst0; rfl
           have hlook0 : ∀ j, st0.look j = st.look j := fun j => by simp [St.look, hd0]
           cases hf : linField lv lin st0 d v with
           | error e => rw [hf] at h; cases h
           | ok st1 =>
             rw [hf] at h
             simp only at h
             have hgr0 : Grow st st0 := Grow.of_done hd0
             have hw1 : st1.warned = false := by
               cases hx : st1.warned with
               | false => rfl
               | true => rw [(mono_attrs hmono _ _ _ h).1 hx] at hw; cases hw
             obtain ⟨f1, f2, f3, C, pre, V, f4, f5, f6, f7, f8⟩ := field_read hlv hl (hg.written d hd hshown hdecl v hr ho) (hP d (by simp) hshown v hr) hf hw1
             have hli1 : st1.look i = some (s, none) := f2.1 i _ (by rw [hlook0]; exact hli)
             obtain ⟨a1, a2, C2, a3, -, a4⟩ := ih st1 st' hsub' hnd.2 hP' hli1 h hw
             have htab : Ignorable (['\t'] ++ pre) := Ignorable.append (.blank (by decide) .nil) f6
             obtain ⟨c, V', hV, hV1, hV2, hV3⟩ := f7.head
             have hnext : ∀ z, NextS (d.name ++ ((['\t'] ++ pre) ++ V) ++ z) := fun z => by
               refine ⟨?_, ?_⟩
               · have := next_attr (s := V' ++ z) hsafe htab (by simp) hV1 hV2 hV3
                 rw [hV]; simpa using this
               · simp only [List.append_assoc]; exact hnis _ (nameEnd_cons (by decide))
             have b1 : Block lv It (lv.fullSep ++ (st.cur lv ++ lv.indent) ++ (d.name ++ ((['\t'] ++ pre) ++ V))) (AttrsEff lk fl src P st st1 i n [d]) := by
               refine Block.item hind (by simp [hne]) hnext (fun w r hw' hr' => ?_)
               obtain ⟨t, c1, c2⟩ := f8 w r hw' hr'.1
               have c3 := attr_der hread hsafe htab (by simp) (f7.mean _) (f7.noIs _) c1 hr'.1.1
               refine ⟨_, by simpa using c3, by simp [ParseVal.Tree.tag], fun k rs φ m hi hm g3 g3' => ?_⟩
               obtain ⟨rs1, φ1, rv, u, b1, b2, b3, b4, b5, b6⟩ := c2 (some (φ i)) rs φ (hi.of_done hd0)
               have hdi : Done st0 i := ⟨_, by rw [hlook0]; exact hli⟩
               have hφ1 : φ1 i = φ i := b5 i hdi
               have hlt : φ i < rs.next := by
                 obtain ⟨-, n', m', -, -, -, h5, -⟩ := hi.node i _ hli; exact h5
               obtain ⟨d', hgf, hsf⟩ := getField_same g3 g3' hd hvis
               have hfwd : d'.name ∉ m.cls.mapped := fun hin => by
                 rw [hsf.name, g3.mapped] at hin
                 exact hg.forwarded d hd hin hshown v hr ho
               have hm1 : rs1.sc.heap (φ1 i) = some m := by rw [hφ1, b6.heap _ hlt]; exact hm
               obtain ⟨g1, g2, g3, g4⟩ := b4.store hli1 b3 hm1 rfl
               rw [hφ1] at g1 g3 g4
               have hattr := disp_attr lk fl (m := d.name ++ ((['\t'] ++ pre) ++ (V ++ w))) (nm := d.name) (nk := []) (k := k) hm hgf (isTarget_field c1) hfwd (by rw [hsf.kind]; exact b1) b2 (by rw [hsf.store]; exact g1)
               refine ⟨_, φ1, _, m.set d.name (v.mapRef φ1), dispList_cons lk fl hattr rfl, by rw [hφ1] at g2; exact g2, fun j hj => b5 j (hgr0.done hj), (b6.toX (φ i)).trans g4, g3, rfl, rfl, ?_, fun f nm => (b6.is _ hlt f nm).trans (hisd (IsMapped rs.sc (φ i)) f nm), ?_⟩
               · intro nm hnm
                 simp only [List.map_cons, List.map_nil, List.mem_cons, List.not_mem_nil, or_false] at hnm
                 simp [Node.set, hnm]
               · intro e he hsh
                 simp only [List.mem_cons, List.not_mem_nil, or_false] at he
                 subst he
                 exact ⟨v, hr, f3, .inl (by simp [Node.set])⟩
             refine ⟨by rw [← hw00]; exact f1, (hgr0.trans f2).trans a2, [Chunk.text (lv.fullSep ++ st.cur lv ++ lv.indent ++ d.name ++ ['\t'])] ++ C ++ C2,
               by rw [a3, f4, hout0]; simp, .inr (by simp [textOf_cons, Chunk.toText]), ?_⟩
             have hT : textOf ([Chunk.text (lv.fullSep ++ st.cur lv ++ lv.indent ++ d.name ++ ['\t'])] ++ C ++ C2) =
                 lv.fullSep ++ (st.cur lv ++ lv.indent) ++ (d.name ++ ((['\t'] ++ pre) ++ V)) ++ textOf C2 := by
               simp [textOf_cons, textOf_append, Chunk.toText, f5]
             rw [hT]
             refine (b1.append a4).mono (fun ts hts => ?_)
             obtain ⟨x, y, rfl, hx, hy⟩ := hts
             exact AttrsEff.cons ⟨_, hli⟩ (hgr0.trans f2) a2 hnd.1 hx hy

/-- A field that was an attribute looks the same on both sides. -/
theorem fieldOk_attr {st : St} {φ : Nat → Nat} {n m : Node F} {d : FieldDecl F} (hs : SameClass n.cls m.cls) (hn : m.cls.Distinct)
    (hd : d ∈ n.cls.fields) (hv : Visible d) (hdecl : ¬ Declared n.cls d.name)
    (h : ∃ v, d.read n = some v ∧ (∀ j ∈ v.nodes, Done st j) ∧ (m.dict d.name = some (v.mapRef φ) ∨ (m.dict d.name = none ∧ v.nodes = [] ∧ d.default = some v))) :
    FieldOk st φ n m d := by
  obtain ⟨v, h1, h2, h3⟩ := h
  refine ⟨v, h1, h2, fun d' hd' he => ⟨?_, fun h => absurd h hdecl⟩⟩
  have hsf := (hs.field hn hd hv hd' he).2 hdecl
  rw [hsf.read, FieldDecl.read_eq]
  rcases h3 with h3 | ⟨h3, h4, h5⟩
  · rw [h3]
  · rw [h3, mapRef_none v h4]; exact h5

/-! ### Nodes -/

theorem comment_ign {b w : Text} (hb : '\n' ∉ b) (hw : Ignorable w) (hn : '\n' ∈ w) : Ignorable ('#' :: (b ++ w)) := by
  have key : ∃ b' s, w = b' ++ '\n' :: s ∧ '\n' ∉ b' ∧ Ignorable s := by
    induction hw with
    | nil => cases hn
    | @blank c s hc hs ih =>
      by_cases h : c = '\n'
      · exact ⟨[], s, by simp [h], by simp, hs⟩
      · have hn' : '\n' ∈ s := by
          rcases List.mem_cons.1 hn with h' | h'
          · exact absurd h'.symm h
          · exact h'
        obtain ⟨b', t, rfl, h2, h3⟩ := ih hn'
        exact ⟨c :: b', t, by simp, by simp [h2, Ne.symm h], h3⟩
    | @comment body s hb' hs => exact ⟨'#' :: body, s, by simp, by simp [hb'], hs⟩
  obtain ⟨b', s, rfl, h2, h3⟩ := key
  have := Ignorable.comment (body := b ++ b') (by simp [hb, h2]) h3
  simpa using this

theorem lookup_filter_ne {l : List (Text × Nat)} {a b : Text} (h : b ≠ a) : (l.filter (fun p => p.1 != a)).lookup b = l.lookup b := by
  induction l with
  | nil => rfl
  | cons p l ih =>
    obtain ⟨x, y⟩ := p
    by_cases hx : x = a
    · subst hx
      simp only [List.filter_cons, bne_self_eq_false, Bool.false_eq_true, if_false, ih]
      rw [List.lookup_cons]
      have : (b == x) = false := by simpa using h
      rw [this]
    · have : (x != a) = true := by simpa using hx
      simp only [List.filter_cons, this, if_true, List.lookup_cons, ih]

theorem reg_lookup (sc : Scene F) (d e : Text) (i : Nat) (he : e ≠ d) (h0 : e ≠ sc.defOf i) :
    (sc.regDefName d i).getDEF e = sc.getDEF e := by
  simp only [Scene.regDefName, Scene.getDEF]
  rw [List.lookup_cons]
  have : (e == d) = false := by simpa using he
  rw [this]
  simp only
  rw [lookup_filter_ne he]
  split
  · exact lookup_filter_ne h0
  · rfl

theorem reg_self (sc : Scene F) (d : Text) (i : Nat) : (sc.regDefName d i).getDEF d = some i := by
  simp [Scene.regDefName, Scene.getDEF]

/-- A new node: it has its class and name and nothing stored; nothing else changes. -/
theorem newNode_spec (rs : RSt F) (c : Class F) (d : Text) :
    (rs.newNode c d).next = rs.next + 1 ∧
    (∀ j, (rs.newNode c d).sc.heap j = if j = rs.next then some ⟨c, d, fun _ => none⟩ else rs.sc.heap j) ∧
    (rs.newNode c d).sc.children = rs.sc.children ∧ (rs.newNode c d).sc.routes = rs.sc.routes ∧ (rs.newNode c d).sc.is = rs.sc.is ∧
    (d ≠ [] → (rs.newNode c d).sc.getDEF d = some rs.next) ∧
    (∀ e, e ≠ [] → e ≠ d → (rs.newNode c d).sc.getDEF e = rs.sc.getDEF e) := by
  generalize hsc : ({ rs.sc with heap := fun j => if j = rs.next then some ⟨c, [], fun _ => none⟩ else rs.sc.heap j } : Scene F) = sc
  have hdef : sc.defOf rs.next = [] := by subst hsc; simp [Scene.defOf]
  have hheap : ∀ j, sc.heap j = if j = rs.next then some ⟨c, [], fun _ => none⟩ else rs.sc.heap j := by subst hsc; simp
  have hget : ∀ e, sc.getDEF e = rs.sc.getDEF e := by subst hsc; intro e; rfl
  have hch : sc.children = rs.sc.children ∧ sc.routes = rs.sc.routes ∧ sc.is = rs.sc.is := by subst hsc; exact ⟨rfl, rfl, rfl⟩
  have hnew : rs.newNode c d = ⟨if d = [] then sc.regDefName [] rs.next else (sc.regDefName [] rs.next).regDefName d rs.next, rs.next + 1⟩ := by
    subst hsc; rfl
  have hdef1 : (sc.regDefName [] rs.next).defOf rs.next = [] := by
    simp [Scene.defOf, Scene.regDefName, hheap]
  rw [hnew]
  by_cases h0 : d = []
  · subst h0
    simp only [if_true]
    refine ⟨trivial, fun j => ?_, hch.1, hch.2.1, hch.2.2, fun h => absurd rfl h, fun e he _ => ?_⟩
    · simp only [Scene.regDefName, hheap, if_true, Option.map_some]
      split <;> rfl
    · rw [reg_lookup _ _ _ _ he (by rw [hdef]; exact he), hget]
  · simp only [if_neg h0]
    refine ⟨trivial, fun j => ?_, hch.1, hch.2.1, hch.2.2, fun _ => reg_self _ _ _, fun e he hed => ?_⟩
    · simp only [Scene.regDefName, hheap, if_true, Option.map_some]
      split <;> rfl
    · rw [reg_lookup _ _ _ _ hed (by rw [hdef1]; exact he), reg_lookup _ _ _ _ he (by rw [hdef]; exact he), hget]

/-- What is assumed of the nodes to be written. -/
structure GoodHeap (lk : Text → Option (Class F)) (fl : Floats F) (src : Scene F) (P : Nat → Prop) : Prop where
  good : ∀ i n, P i → src.heap i = some n → GoodNode lk fl src i n
  closed : ∀ i n, P i → src.heap i = some n → ∀ d ∈ n.cls.fields, Shown src i d → ∀ v, d.read n = some v → ∀ j ∈ v.nodes, P j
  unique : ∀ i j n m, P i → P j → src.heap i = some n → src.heap j = some m → n.DEF ≠ [] → n.DEF = m.DEF → i = j

theorem visible_iff (d : FieldDecl F) : shownName d.name = true ↔ Visible d := shownName_iff d.name

theorem declared_iff {c : Class F} {f : Text} (hc : c.proto = scriptName) : Declared c f ↔ scriptAttrs.contains f = false := by
  simp only [Declared, scriptAttrs]
  rw [show c.proto = chars "Script" from hc]
  simp only [true_and]
  rw [← Bool.not_eq_true]
  simp only [List.contains_iff_mem, List.mem_cons, List.not_mem_nil, or_false, not_or]
  constructor <;> exact fun ⟨a, b, c⟩ => ⟨a, c, b⟩

theorem scriptAttrs_visible {f : Text} (h : f ∈ scriptAttrs) : shownName f = true := by
  simp only [scriptAttrs, List.mem_cons, List.not_mem_nil, or_false] at h
  rcases h with rfl | rfl | rfl <;> rfl

theorem attrFields_mem {c : Class F} {d : FieldDecl F} : d ∈ attrFields c ↔ d ∈ c.fields ∧ Visible d ∧ ¬ Declared c d.name := by
  simp only [attrFields, (sortBy_perm _ _).mem_iff, List.mem_filter]
  refine and_congr_right fun _ => ?_
  by_cases hc : c.proto = scriptName
  · rw [if_pos hc, declared_iff hc, ← visible_iff]
    simp only [List.contains_iff_mem]
    constructor
    · exact fun h => ⟨scriptAttrs_visible h, by simpa using h⟩
    · exact fun ⟨_, h⟩ => by simpa using h
  · rw [if_neg hc, visible_iff]
    exact ⟨fun h => ⟨h, fun h' => hc h'.1⟩, fun h => h.1⟩

theorem attrFields_nodup {c : Class F} (h : (c.fields.map FieldDecl.name).Nodup) : ((attrFields c).map FieldDecl.name).Nodup := by
  have h1 := (sortBy_perm fieldLe (c.fields.filter (fun d => if c.proto = scriptName then scriptAttrs.contains d.name else shownName d.name))).map FieldDecl.name
  rw [attrFields, h1.nodup_iff]
  exact h.sublist (List.filter_sublist.map _)

theorem scriptFields_mem {c : Class F} (hc : c.proto = scriptName) {f : PField F} : f ∈ scriptFields c ↔
    ∃ d ∈ c.fields, Visible d ∧ Declared c d.name ∧ f = ⟨d, c.exposed.contains d.name⟩ := by
  simp only [scriptFields, List.mem_map, (sortBy_perm _ _).mem_iff, List.mem_filter, Bool.and_eq_true, Bool.not_eq_true', visible_iff, declared_iff hc]
  constructor
  · rintro ⟨d, ⟨h1, h2, h3⟩, rfl⟩; exact ⟨d, h1, h3, h2, rfl⟩
  · rintro ⟨d, h1, h3, h2, rfl⟩; exact ⟨d, ⟨h1, h2, h3⟩, rfl⟩

theorem scriptFields_nodup {c : Class F} (h : (c.fields.map FieldDecl.name).Nodup) : ((scriptFields c).map (fun f => f.decl.name)).Nodup := by
  have h1 := (sortBy_perm (fun a b : FieldDecl F => textLe a.name b.name) (c.fields.filter (fun d => !scriptAttrs.contains d.name && shownName d.name))).map FieldDecl.name
  simp only [scriptFields, List.map_map, Function.comp_def]
  rw [show (fun x : FieldDecl F => x.name) = FieldDecl.name from rfl, h1.nodup_iff]
  exact h.sublist (List.filter_sublist.map _)

theorem declEvents_mem {l : List EventDecl} {e : EventDecl} : e ∈ declEvents l ↔ e ∈ l ∧ e.Visible := by
  simp only [declEvents, (sortBy_perm _ _).mem_iff, List.mem_filter, shownName_iff, EventDecl.Visible]

theorem declEvents_nodup {l : List EventDecl} (h : (l.map EventDecl.name).Nodup) : ((declEvents l).map EventDecl.name).Nodup := by
  have h1 := (sortBy_perm (fun a b : EventDecl => textLe a.name b.name) (l.filter (fun e => shownName e.name))).map EventDecl.name
  rw [declEvents, h1.nodup_iff]
  exact h.sublist (List.filter_sublist.map _)

theorem nodup_name_eq {l : List (FieldDecl F)} (h : (l.map FieldDecl.name).Nodup) {d d' : FieldDecl F} (hd : d ∈ l) (hd' : d' ∈ l) (he : d'.name = d.name) : d' = d := by
  have h' : Class.Distinct (⟨[], l, [], [], []⟩ : Class F) := by simpa [Class.Distinct] using h
  have a := getField_self h' hd
  have b := getField_self h' hd'
  rw [he, a] at b
  cases b; rfl

theorem samePort_names {φ : Nat → Nat} {l Gs : List (PField F)} (h : List.Forall₂ (SamePort φ) l Gs) : Gs.map (fun f => f.decl.name) = l.map (fun f => f.decl.name) := by
  induction h with
  | nil => rfl
  | cons h _ ih => simp [ih, h.type.name]

/-- The class that the reader builds from the declarations of a good Script. -/
theorem script_class {n : Node F} (hs : GoodScript fl n) (hnd : (n.cls.fields.map FieldDecl.name).Nodup) {φ : Nat → Nat} {Gs : List (PField F)}
    (h : List.Forall₂ (SamePort φ) (scriptFields n.cls) Gs) {c : Class F}
    (hc : c = (Gs.foldl ProtoDef.addField ((declEvents n.cls.events).foldl ProtoDef.addEvent scriptProto)).cls) :
    (SameClass n.cls c ∧ c.Distinct) ∧
    (∀ d ∈ n.cls.fields, Visible d → Declared n.cls d.name → ∀ d' ∈ c.fields, d'.name = d.name → ∃ v, d.default = some v ∧ d'.default = some (v.mapRef φ)) := by
  have hp : n.cls.proto = scriptName := hs.proto
  have hnames : Gs.map (fun f => f.decl.name) = (scriptFields n.cls).map (fun f => f.decl.name) := samePort_names h
  obtain ⟨e1, e2, e3, e4, -, -⟩ := fold_events (F := F) (declEvents n.cls.events) scriptProto (declEvents_nodup hs.events_distinct)
  simp only [List.foldl_map] at e1 e2 e3 e4
  generalize hq0 : (declEvents n.cls.events).foldl ProtoDef.addEvent scriptProto = q0 at hc e1 e2 e3 e4
  obtain ⟨f1, f2, f3, f4, -, -⟩ := fold_fields Gs q0 (by rw [hnames]; exact scriptFields_nodup hnd)
  simp only [List.foldl_map] at f1 f2 f3 f4
  generalize hq : Gs.foldl ProtoDef.addField q0 = q at hc f1 f2 f3 f4
  -- the fields common to all Scripts
  have hcommon : ∀ g ∈ (scriptProto : ProtoDef F).fields, g.decl.name ≠ chars "externalURL" → ∃ d ∈ n.cls.fields, d.name ∈ scriptAttrs ∧ SameField d g.decl ∧ (d.name ∈ n.cls.exposed ↔ g.exposed = true) := by
    intro g hg hne
    obtain ⟨d, h1, h2, h3⟩ := hs.common g hg
    refine ⟨d, h1, ?_, h3 hne⟩
    rw [h2]
    simp only [scriptProto, List.mem_cons, List.not_mem_nil, or_false] at hg
    rcases hg with rfl | rfl | rfl | rfl
    · exact absurd rfl hne
    · show chars "url" ∈ scriptAttrs; decide
    · show chars "directOutput" ∈ scriptAttrs; decide
    · show chars "mustEvaluate" ∈ scriptAttrs; decide
  have hext : chars "externalURL" ∈ Gs.map (fun f => f.decl.name) := by
    obtain ⟨d, h1, h2, -⟩ := hs.common externalURL (by simp [scriptProto])
    rw [hnames]
    refine List.mem_map.2 ⟨⟨d, _⟩, (scriptFields_mem hp).2 ⟨d, h1, ?_, ?_, rfl⟩, h2⟩
    · rw [← visible_iff, h2]; rfl
    · rw [declared_iff hp, h2]; show scriptAttrs.contains (chars "externalURL") = false; decide
  have hev : q.events = declEvents n.cls.events := by
    rw [f2, e2]
    simp only [scriptProto, List.filter_nil, List.nil_append]
    apply List.filter_eq_self.2
    intro e he
    simp only [Bool.not_eq_true', ← Bool.not_eq_true, List.contains_iff_mem]
    rw [hnames]
    intro hm
    obtain ⟨f, hf, hfe⟩ := List.mem_map.1 hm
    obtain ⟨d, h1, -, -, rfl⟩ := (scriptFields_mem hp).1 hf
    exact hs.distinct e (declEvents_mem.1 he).1 d h1 hfe
  have hq0f : ∀ g, g ∈ q0.fields ↔ g ∈ (scriptProto : ProtoDef F).fields := by
    intro g
    rw [e1, List.mem_filter]
    refine ⟨fun h => h.1, fun h => ⟨h, ?_⟩⟩
    simp only [Bool.not_eq_true', ← Bool.not_eq_true, List.contains_iff_mem]
    intro hm
    obtain ⟨e, he, hee⟩ := List.mem_map.1 hm
    obtain ⟨d, h1, h2, -⟩ := hs.common g h
    exact hs.distinct e (declEvents_mem.1 he).1 d h1 (h2.trans hee.symm)
  have hmem : ∀ g, g ∈ q.fields ↔ (g ∈ (scriptProto : ProtoDef F).fields ∧ g.decl.name ∈ scriptAttrs) ∨ g ∈ Gs := by
    intro g
    rw [f1, List.mem_append, List.mem_filter, hq0f]
    refine or_congr_left (and_congr_right fun hg => ?_)
    simp only [Bool.not_eq_true', ← Bool.not_eq_true, List.contains_iff_mem]
    constructor
    · intro hm
      obtain ⟨d, -, h2, h3, -⟩ := hcommon g hg (fun h => hm (h ▸ hext))
      rw [h3.name]; exact h2
    · intro ha hm
      rw [hnames] at hm
      obtain ⟨f, hf, hfe⟩ := List.mem_map.1 hm
      obtain ⟨d, h1, -, h3, rfl⟩ := (scriptFields_mem hp).1 hf
      rw [declared_iff hp] at h3
      rw [← hfe] at ha
      have := List.contains_iff_mem.2 ha
      rw [this] at h3; cases h3
  have hne : ∀ {f : Text}, f ∈ scriptAttrs → f ≠ chars "externalURL" := by
    intro f hf he; subst he; revert hf; decide
  -- one field of the class per name
  have hnodup : (q.fields.map (fun f => f.decl.name)).Nodup := by
    rw [f1, List.map_append]
    refine List.nodup_append.2 ⟨?_, by rw [hnames]; exact scriptFields_nodup hnd, ?_⟩
    · rw [e1]
      have : ((scriptProto : ProtoDef F).fields.map (fun f => f.decl.name)).Nodup := by
        simp only [scriptProto, externalURL, List.map_cons, List.map_nil]; decide
      exact this.sublist ((List.filter_sublist.trans List.filter_sublist).map _)
    · intro a ha b hb hab
      obtain ⟨g, hg, rfl⟩ := List.mem_map.1 ha
      have := (List.mem_filter.1 hg).2
      simp only [Bool.not_eq_true', ← Bool.not_eq_true, List.contains_iff_mem] at this
      exact this (hab ▸ hb)
  have hcf : c.fields = q.fields.map PField.decl := by rw [hc]; rfl
  have hcn : (c.fields.map FieldDecl.name).Nodup := by
    rw [hcf, List.map_map]; exact hnodup
  have hpart : ∀ d ∈ n.cls.fields, Visible d → (∃ g ∈ (scriptProto : ProtoDef F).fields, g ∈ q.fields ∧ ¬ Declared n.cls d.name ∧ SameField d g.decl ∧ (d.name ∈ n.cls.exposed ↔ g.exposed = true)) ∨
      (Declared n.cls d.name ∧ ∃ g ∈ Gs, g ∈ q.fields ∧ SamePort φ ⟨d, n.cls.exposed.contains d.name⟩ g) := by
    intro d hd hv
    by_cases hdec : Declared n.cls d.name
    · obtain ⟨g, hg, hsp⟩ := forall2_mem_left h _ ((scriptFields_mem hp).2 ⟨d, hd, hv, hdec, rfl⟩)
      exact .inr ⟨hdec, g, hg, (hmem g).2 (.inr hg), hsp⟩
    · have ha : d.name ∈ scriptAttrs := by
        rw [declared_iff hp] at hdec
        simpa using hdec
      obtain ⟨g, hg, hgn⟩ : ∃ g ∈ (scriptProto : ProtoDef F).fields, g.decl.name = d.name := by
        simp only [scriptAttrs, List.mem_cons, List.not_mem_nil, or_false] at ha
        rcases ha with ha | ha | ha <;> rw [ha]
        · exact ⟨_, List.mem_cons_of_mem _ List.mem_cons_self, rfl⟩
        · exact ⟨_, List.mem_cons_of_mem _ (List.mem_cons_of_mem _ (List.mem_cons_of_mem _ List.mem_cons_self)), rfl⟩
        · exact ⟨_, List.mem_cons_of_mem _ (List.mem_cons_of_mem _ List.mem_cons_self), rfl⟩
      obtain ⟨d0, h1, -, h3, h4⟩ := hcommon g hg (by rw [hgn]; exact hne ha)
      have : d0 = d := nodup_name_eq hnd hd h1 (by rw [← h3.name, hgn])
      subst this
      exact .inl ⟨g, hg, (hmem g).2 (.inl ⟨hg, by rw [hgn]; exact ha⟩), hdec, h3, h4⟩
  have hexp : ∀ g ∈ q.fields, (g.decl.name ∈ c.exposed ↔ g.exposed = true) := by
    intro g hg
    rw [hc]
    simp only [ProtoDef.cls, List.mem_map, List.mem_filter]
    constructor
    · rintro ⟨g', ⟨h1, h2⟩, h3⟩
      have : g' = g := by
        have key : ∀ l : List (PField F), (l.map (fun f => f.decl.name)).Nodup → g' ∈ l → g ∈ l → g' = g := by
          intro l
          induction l with
          | nil => intro _ h; cases h
          | cons a l ih =>
            intro hn h1 h2
            simp only [List.map_cons, List.nodup_cons] at hn
            rcases List.mem_cons.1 h1 with e1 | m1
            · rcases List.mem_cons.1 h2 with e2 | m2
              · rw [e1, e2]
              · exact absurd (List.mem_map.2 ⟨g, m2, h3.symm.trans (by rw [e1])⟩) hn.1
            · rcases List.mem_cons.1 h2 with e2 | m2
              · exact absurd (List.mem_map.2 ⟨g', m1, h3.trans (by rw [e2])⟩) hn.1
              · exact ih hn.2 m1 m2
        exact key _ hnodup h1 hg
      subst this; exact h2
    · intro h2; exact ⟨g, ⟨hg, h2⟩, rfl⟩
  have hcd : c.Distinct := by
    have hce : c.events = q.events := by rw [hc]; rfl
    rw [Class.Distinct, hce, hev]
    refine List.nodup_append.2 ⟨hcn, declEvents_nodup hs.events_distinct, ?_⟩
    intro a ha b hb hab
    obtain ⟨e, he, rfl⟩ := List.mem_map.1 hb
    rw [hcf, List.map_map] at ha
    obtain ⟨g, hg, rfl⟩ := List.mem_map.1 ha
    have hd := hs.distinct e (declEvents_mem.1 he).1
    rcases (hmem g).1 hg with ⟨h1, -⟩ | h1
    · obtain ⟨d, a1, a2, -⟩ := hs.common g h1
      exact hd d a1 (a2.trans hab)
    · obtain ⟨f, a1, a2⟩ := forall2_mem_right h g h1
      obtain ⟨d, b1, -, -, rfl⟩ := (scriptFields_mem hp).1 a1
      exact hd d b1 (a2.type.name.symm.trans hab)
  refine ⟨⟨⟨?_, ?_, ?_, ?_, ?_, ?_⟩, hcd⟩, ?_⟩
  · rw [hc]; show q.name = _; rw [f3, e3, hp]; rfl
  · intro d hd hv
    rcases hpart d hd hv with ⟨g, -, h2, -, h4, -⟩ | ⟨hdec, g, -, h2, h3⟩
    · exact ⟨g.decl, by rw [hcf]; exact List.mem_map_of_mem h2, h4.toSameType, fun _ => h4⟩
    · exact ⟨g.decl, by rw [hcf]; exact List.mem_map_of_mem h2, h3.type, fun h => absurd hdec h⟩
  · intro d' hd' hv
    rw [hcf] at hd'
    obtain ⟨g, hg, rfl⟩ := List.mem_map.1 hd'
    rcases (hmem g).1 hg with ⟨h1, h2⟩ | h1
    · obtain ⟨d, a1, -, a3, -⟩ := hcommon g h1 (hne h2)
      exact ⟨d, a1, a3.toSameType, fun _ => a3⟩
    · obtain ⟨f, a1, a2⟩ := forall2_mem_right h g h1
      obtain ⟨d, b1, -, b3, rfl⟩ := (scriptFields_mem hp).1 a1
      exact ⟨d, b1, a2.type, fun h => absurd b3 h⟩
  · intro f
    rw [hs.mapped, hc]
    simp only [ProtoDef.cls, ProtoDef.mapped, ProtoDef.isMaps, f4, e4]
    simp [scriptProto]
  · intro d hd hv
    rcases hpart d hd hv with ⟨g, -, h2, -, h4, h5⟩ | ⟨hdec, g, -, h2, h3⟩
    · rw [← h4.name, hexp g h2, ← h5, h4.name]
    · have h6 : g.exposed = n.cls.exposed.contains d.name := h3.exposed
      have h7 : g.decl.name = d.name := h3.type.name
      rw [← h7, hexp g h2, h6, h7]
      exact List.contains_iff_mem
  · intro e hv
    have : c.events = declEvents n.cls.events := by rw [hc]; exact hev
    rw [this, declEvents_mem]
    exact ⟨fun h => h.1, fun h => ⟨h, hv⟩⟩
  · intro d hd hv hdec d' hd' he
    rcases hpart d hd hv with ⟨g, -, -, h3, -, -⟩ | ⟨-, g, -, h2, h3⟩
    · exact absurd hdec h3
    · have : d' = g.decl := nodup_name_eq hcn (by rw [hcf]; exact List.mem_map_of_mem h2) hd' (by rw [he]; exact h3.type.name.symm)
      subst this
      exact h3.dflt

/-! ### What is between the braces -/

section
variable (lk fl src P)
/-- Reading what is between the braces of node `i`, which was created with class `c0` and has nothing stored. -/
def ItemsEff (st st' : St) (i : Nat) (n : Node F) (c0 : Class F) (D : Option Kind → Nat → RSt F → Option (RSt F)) : Prop :=
  ∀ k rs φ, Inv src P st rs φ → rs.sc.heap (φ i) = some ⟨c0, n.DEF, fun _ => none⟩ → ∃ rs' φ' m', D k (φ i) rs = some rs' ∧
    Inv src P st' rs' φ' ∧ Ext st φ φ' ∧ FrameX (φ i) rs rs' ∧ rs'.sc.heap (φ i) = some m' ∧
    (SameClass n.cls m'.cls ∧ m'.cls.Distinct) ∧
    (∀ f nm, IsMapped rs'.sc (φ i) f nm ↔ IsMapped rs.sc (φ i) f nm ∨ IsMapped src i f nm) ∧
    ∀ d ∈ n.cls.fields, Shown src i d → FieldOk st' φ' n m' d
end

theorem isMapped_attr {i : Nat} {n : Node F} (hg : GoodNode lk fl src i n) {f nm : Text} :
    (f ∈ (attrFields n.cls).map FieldDecl.name ∧ IsMapped src i f nm) ↔ IsMapped src i f nm := by
  refine ⟨fun h => h.2, fun h => ⟨?_, h⟩⟩
  obtain ⟨-, d, hd, hv, hnd, rfl⟩ := hg.isField _ _ h
  exact List.mem_map_of_mem (attrFields_mem.2 ⟨hd, hv, hnd⟩)

/-- the items of a node that is not a Script -/
theorem items_plain {st st' : St} {i : Nat} {n : Node F} {c0 : Class F} {ts : List PTree} (hg : GoodNode lk fl src i n) (hp : n.cls.proto ≠ scriptName)
    (hc : SameClass n.cls c0) (hn : c0.Distinct) (h : AttrsEff lk fl src P st st' i n (attrFields n.cls) ts) :
    ItemsEff src P st st' i n c0 (fun k j rs => (dispList lk fl ts (some j) k rs).map Prod.snd) := by
  intro k rs φ hi hm
  obtain ⟨rs', φ', vs, m', e1, e2, e3, e4, e5, e6, -, e8, eis, e9⟩ := h.2 k rs φ _ hi hm hc hn
  have hs : SameClass n.cls m'.cls := by rw [e6]; exact hc
  have hn' : m'.cls.Distinct := by rw [e6]; exact hn
  refine ⟨rs', φ', m', by simp [e1], e2, e3, e4, e5, ⟨hs, hn'⟩, fun f nm => ?_, fun d hd hsh => ?_⟩
  · rw [eis, isMapped_attr hg]
  · have hnd : ¬ Declared n.cls d.name := fun h => hp h.1
    exact fieldOk_attr hs hn' hd hsh.1 hnd (e9 d (attrFields_mem.2 ⟨hd, hsh.1, hnd⟩) hsh)

theorem dispDecls_attrs : ∀ (ts : List PTree), (∀ t ∈ ts, ParseVal.Tree.tag t = .attr) → ∀ i p is (rs : RSt F), dispDecls lk fl ts i p is rs = some (p, is, rs) := by
  intro ts
  induction ts with
  | nil => intro _ i p is rs; rfl
  | cons t ts ih =>
    intro h i p is rs
    obtain ⟨tg, m, kids⟩ := t
    have : tg = .attr := h (.node tg m kids) (by simp)
    subst this
    simp only [dispDecls]
    exact ih (fun t ht => h t (by simp [ht])) i p is rs

theorem dispAttrs_decls : ∀ (ts : List PTree), (∀ t ∈ ts, ParseVal.Tree.tag t ≠ .attr) → ∀ ts' i k (rs : RSt F), dispAttrs lk fl (ts ++ ts') i k rs = dispAttrs lk fl ts' i k rs := by
  intro ts
  induction ts with
  | nil => intro _ ts' i k rs; rfl
  | cons t ts ih =>
    intro h ts' i k rs
    simp only [List.cons_append, dispAttrs, h t (by simp), if_false]
    exact ih (fun t ht => h t (by simp [ht])) ts' i k rs

theorem dispAttrs_list : ∀ (ts : List PTree), (∀ t ∈ ts, ParseVal.Tree.tag t = .attr) → ∀ i k (rs : RSt F), dispAttrs lk fl ts i k rs = (dispList lk fl ts (some i) k rs).map Prod.snd := by
  intro ts
  induction ts with
  | nil => intro _ i k rs; rfl
  | cons t ts ih =>
    intro h i k rs
    simp only [dispAttrs, dispList, h t (by simp), if_true]
    cases disp lk fl t (some i) k rs with
    | none => rfl
    | some x =>
      simp only
      rw [ih (fun t ht => h t (by simp [ht]))]
      cases dispList lk fl ts (some i) k x.2 <;> rfl

/-- What the reader does with the items of a Script. -/
def scriptItems (lk : Text → Option (Class F)) (fl : Floats F) (ts : List PTree) (k : Option Kind) (j : Nat) (rs : RSt F) : Option (RSt F) :=
  match dispDecls lk fl ts j scriptProto [] rs with
  | none => none
  | some (p, is, rs1) =>
    match (rs1.setClass j p.cls).addIs j is with
    | none => none
    | some rs2 => dispAttrs lk fl ts j k rs2

/-- the items of a Script -/
theorem items_script {st st1 st2 st' : St} {i s : Nat} {n : Node F} {a b c : List PTree} (hg : GoodNode lk fl src i n) (hs : GoodScript fl n)
    (hli : st.look i = some (s, none)) (hg1 : Grow st st1) (hg2 : Grow st1 st2) (hg3 : Grow st2 st')
    (hdone : ∀ f ∈ scriptFields n.cls, ∀ v, f.decl.default = some v → ∀ j ∈ v.nodes, Done st2 j)
    (h1 : DeclsEff lk fl src P st st1 (declEvents n.cls.events) [] a) (h2 : DeclsEff lk fl src P st1 st2 [] (scriptFields n.cls) b)
    (h3 : AttrsEff lk fl src P st2 st' i n (attrFields n.cls) c) :
    ItemsEff src P st st' i n scriptProto.cls (scriptItems lk fl (a ++ (b ++ c))) := by
  intro k rs φ hi hm
  obtain ⟨rs1, φ1, G1, a1, a2, a3, a4, a5⟩ := h1.2 (φ i) rs φ hi
  obtain ⟨rs2, φ2, Gs, b1, b2, b3, b4, b5⟩ := h2.2 (φ i) rs1 φ1 a2
  cases a5
  have hlt : φ i < rs.next := by
    obtain ⟨-, n', m', -, -, -, h5, -⟩ := hi.node i _ hli; exact h5
  have hli1 := hg1.1 i _ hli
  have hli2 := hg2.1 i _ hli1
  have hφ1 : φ1 i = φ i := a3 i ⟨_, hli⟩
  have hφ2 : φ2 i = φ i := by rw [b3 i ⟨_, hli1⟩, hφ1]
  have hm2 : rs2.sc.heap (φ2 i) = some ⟨scriptProto.cls, n.DEF, fun _ => none⟩ := by
    rw [hφ2, b4.heap _ (Nat.lt_of_lt_of_le hlt a4.next), a4.heap _ hlt]; exact hm
  obtain ⟨⟨hsc, hscn⟩, hdf⟩ := script_class hs hg.distinct b5 rfl
  generalize hcc : (Gs.foldl ProtoDef.addField ((declEvents n.cls.events).foldl ProtoDef.addEvent scriptProto)).cls = cc at hsc hscn hdf
  obtain ⟨c1, c2, c3⟩ := b2.setClass hli2 cc hm2
  rw [hφ2] at c1 c2 c3
  obtain ⟨rs', φ', vs, m', e1, e2, e3, e4, e5, e6, -, e8, eis, e9⟩ := h3.2 k _ φ2 _ c1 (by rw [hφ2]; exact c2) hsc hscn
  rw [hφ2] at e1 e4 e5 eis
  simp only at e6 e8
  have hs' : SameClass n.cls m'.cls := by rw [e6]; exact hsc
  have hn' : m'.cls.Distinct := by rw [e6]; exact hscn
  have hna : ∀ t ∈ a ++ b, ParseVal.Tree.tag t ≠ .attr := by
    intro t ht
    rcases List.mem_append.1 ht with ht | ht
    · rcases h1.1 t ht with h | h <;> rw [h] <;> decide
    · rcases h2.1 t ht with h | h <;> rw [h] <;> decide
  refine ⟨rs', φ', m', ?_, e2, ?_, ?_, e5, ⟨hs', hn'⟩, fun f nm => ?_, fun d hd hsh => ?_⟩
  · simp only [scriptItems]
    rw [a1, b1, dispDecls_attrs c h3.1]
    simp only [List.foldl_nil, RSt.addIs, if_true]
    rw [← List.append_assoc, dispAttrs_decls (a ++ b) hna, dispAttrs_list c h3.1, hcc, e1]
    rfl
  · exact Ext.trans hg1 a3 (Ext.trans hg2 b3 e3)
  · exact ((a4.toX (φ i)).trans (b4.toX (φ i))).trans (c3.trans e4)
  · rw [eis, isMapped_attr hg]
    refine or_congr ?_ Iff.rfl
    rw [← a4.is _ hlt, ← b4.is _ (Nat.lt_of_lt_of_le hlt a4.next)]
    exact Iff.rfl
  · by_cases hnd : Declared n.cls d.name
    · obtain ⟨v, g1, g2, -⟩ := (hs.decls d hd hsh.1 hnd).value
      have hin : (⟨d, n.cls.exposed.contains d.name⟩ : PField F) ∈ scriptFields n.cls := (scriptFields_mem hs.proto).2 ⟨d, hd, hsh.1, hnd, rfl⟩
      have hdn : ∀ j ∈ v.nodes, Done st2 j := hdone _ hin v g1
      have hnone : m'.dict d.name = none := by
        rw [e8 d.name]
        intro hmem
        obtain ⟨d0, q1, q2⟩ := List.mem_map.1 hmem
        exact (attrFields_mem.1 q1).2.2 (by rw [q2]; exact hnd)
      refine ⟨v, g2, fun j hj => hg3.done (hdn j hj), fun d' hd' he => ?_⟩
      obtain ⟨v', k1, k2⟩ := hdf d hd hsh.1 hnd d' (by rw [← e6]; exact hd') he
      rw [g1] at k1; cases k1
      have k3 : d'.default = some (v.mapRef φ') := by rw [k2, mapRef_congr v (fun j hj => e3 j (hdn j hj))]
      refine ⟨?_, fun _ => ⟨g1, k3⟩⟩
      rw [FieldDecl.read_eq, he, hnone]
      exact k3
    · exact fieldOk_attr hs' hn' hd hsh.1 hnd (e9 d (attrFields_mem.2 ⟨hd, hsh.1, hnd⟩) hsh)

/-- A node, given what is between its braces. -/
theorem node_eff (hh : GoodHeap lk fl src P) {st st0 st1 st' : St} {i s e : Nat} {n : Node F} {c0 : Class F} {D : Option Kind → Nat → RSt F → Option (RSt F)} {t : PTree}
    (hPi : P i) (hn : src.heap i = some n) (hlk : st.look i = none)
    (hlook0 : ∀ j, st0.look j = if j = i then some (s, none) else st.look j)
    (hli1 : st1.look i = some (s, none))
    (hlook' : ∀ j, st'.look j = if j = i then some (s, some e) else st1.look j)
    (ht : ∀ cur k rs rs', D k rs.next (rs.newNode c0 n.DEF) = some rs' → disp lk fl t cur k rs = some (.ref (some rs.next), rs'))
    (he : ItemsEff src P st0 st1 i n c0 D) : NodeEff lk fl src P st st' i t := by
  have hdone1 : ∀ j, Done st1 j → Done st' j := by
    intro j ⟨x, hx⟩
    by_cases hj : j = i
    · exact ⟨_, by rw [hlook', if_pos hj]⟩
    · exact ⟨x, by rw [hlook', if_neg hj]; exact hx⟩
  intro cur k rs φ hi
  obtain ⟨q1, q2, q3, q4, qis, q5, q6⟩ := newNode_spec rs c0 n.DEF
  have hφlt : ∀ j, Done st j → φ j < rs.next := by
    intro j ⟨x, hx⟩; obtain ⟨-, n', m', -, -, -, h5, -⟩ := hi.node j x hx; exact h5
  have hni : ¬ Done st i := by rintro ⟨x, hx⟩; rw [hlk] at hx; cases hx
  let φ0 : Nat → Nat := fun j => if j = i then rs.next else φ j
  have hφi : φ0 i = rs.next := by simp [φ0]
  have hφj : ∀ j, j ≠ i → φ0 j = φ j := fun j hj => by simp [φ0, hj]
  have hext0 : Ext st φ φ0 := fun j hj => hφj j (by rintro rfl; exact hni hj)
  have hD0 : ∀ j, Done st0 j → j = i ∨ Done st j := by
    intro j ⟨x, hx⟩
    by_cases hj : j = i
    · exact .inl hj
    · rw [hlook0, if_neg hj] at hx; exact .inr ⟨x, hx⟩
  have hD0' : ∀ j, Done st j → Done st0 j := by
    intro j ⟨x, hx⟩
    by_cases hj : j = i
    · exact ⟨_, by rw [hlook0, if_pos hj]⟩
    · exact ⟨x, by rw [hlook0, if_neg hj]; exact hx⟩
  have hinv0 : Inv src P st0 (rs.newNode c0 n.DEF) φ0 := by
    refine ⟨fun j x hx => ?_, fun a b ha hb hab => ?_, fun j x hx hx2 f nm => ?_, fun j f nm hm => ?_, fun dict nm l hd => hi.full dict nm l (by rw [← qis]; exact hd), fun hb => by rw [qis]; exact hi.body hb⟩
    · by_cases hj : j = i
      · subst hj
        rw [hlook0, if_pos rfl] at hx; cases hx
        exact ⟨hPi, n, ⟨c0, n.DEF, fun _ => none⟩, hn, by rw [q2, hφi, if_pos rfl], rfl, by rw [hφi, q1]; omega, by rw [hφi]; exact q5, fun hh => absurd rfl hh⟩
      · rw [hlook0, if_neg hj] at hx
        obtain ⟨hPj, n', m', g1, g2, g4, g5, g6, g7⟩ := hi.node j x hx
        refine ⟨hPj, n', m', g1, ?_, g4, by rw [hφj j hj, q1]; omega, ?_, ?_⟩
        · rw [q2, hφj j hj, if_neg (by omega)]; exact g2
        · intro hne
          rw [q6 _ hne (fun heq => hj (hh.unique j i n' n hPj hPi g1 hn hne heq)), hφj j hj]
          exact g6 hne
        · intro hx2
          refine ⟨(g7 hx2).1, fun d hd hv => ?_⟩
          obtain ⟨v, e1, e2, e3⟩ := (g7 hx2).2 d hd hv
          refine ⟨v, e1, fun j hj => hD0' j (e2 j hj), ?_⟩
          rw [mapRef_congr v (fun j hj => hext0 j (e2 j hj))]; exact e3
    · rcases hD0 a ha with rfl | ha'
      · rcases hD0 b hb with rfl | hb'
        · rfl
        · rw [hφi, hext0 b hb'] at hab
          have := hφlt b hb'; omega
      · rcases hD0 b hb with rfl | hb'
        · rw [hφi, hext0 a ha'] at hab
          have := hφlt a ha'; omega
        · rw [hext0 a ha', hext0 b hb'] at hab
          exact hi.inj a b ha' hb' hab
    · by_cases hj : j = i
      · subst hj
        rw [hlook0, if_pos rfl] at hx; cases hx; exact absurd rfl hx2
      · rw [hlook0, if_neg hj] at hx
        rw [isMapped_congr qis, hφj j hj]
        exact hi.is j x hx hx2 f nm
    · rw [isMapped_congr qis] at hm
      obtain ⟨a, h1, h2⟩ := hi.cover j f nm hm
      exact ⟨a, hD0' a h1, by rw [hext0 a h1]; exact h2⟩
  obtain ⟨rs', φ', m', e1, e2, e3, e4, e5, e6, eis, e9⟩ := he k (rs.newNode c0 n.DEF) φ0 hinv0 (by rw [q2, hφi, if_pos rfl])
  rw [hφi] at e1 e4 e5 eis
  have hφ'i : φ' i = rs.next := by rw [e3 i ⟨_, by rw [hlook0, if_pos rfl]⟩, hφi]
  refine ⟨rs', φ', ?_, ?_, ?_, ?_⟩
  · rw [hφ'i]; exact ht cur k rs rs' e1
  · refine ⟨fun j x hx => ?_, fun a b ha hb hab => ?_, fun j x hx hx2 f nm => ?_,
      fun j f nm hm => by obtain ⟨a, h1, h2⟩ := e2.cover j f nm hm; exact ⟨a, hdone1 a h1, h2⟩, e2.full, e2.body⟩
    · by_cases hj : j = i
      · subst hj
        obtain ⟨-, n', m2, g1, g2, g4, g5, g6, -⟩ := e2.node j _ hli1
        rw [hn] at g1; cases g1
        rw [hφ'i, e5] at g2; cases g2
        refine ⟨hPi, n, m', hn, by rw [hφ'i]; exact e5, g4, g5, g6, fun _ => ⟨e6, fun d hd hv => ?_⟩⟩
        obtain ⟨v, k1, k2, k3⟩ := e9 d hd hv
        exact ⟨v, k1, fun j hj => hdone1 j (k2 j hj), k3⟩
      · rw [hlook', if_neg hj] at hx
        obtain ⟨hPj, n', m', g1, g2, g4, g5, g6, g7⟩ := e2.node j x hx
        refine ⟨hPj, n', m', g1, g2, g4, g5, g6, fun hx2 => ⟨(g7 hx2).1, fun d hd hv => ?_⟩⟩
        obtain ⟨v, k1, k2, k3⟩ := (g7 hx2).2 d hd hv
        exact ⟨v, k1, fun j hj => hdone1 j (k2 j hj), k3⟩
    · have back : ∀ a, Done st' a → Done st1 a := by
        intro a ⟨x, hx⟩
        by_cases hj : a = i
        · subst hj; exact ⟨_, hli1⟩
        · rw [hlook', if_neg hj] at hx; exact ⟨x, hx⟩
      exact e2.inj a b (back a ha) (back b hb) hab
    · by_cases hj : j = i
      · subst hj
        rw [hφ'i, eis, isMapped_congr qis]
        constructor
        · rintro (h | h)
          · exact absurd (hi.fresh h) (by omega)
          · exact h
        · exact .inr
      · rw [hlook', if_neg hj] at hx
        exact e2.is j x hx hx2 f nm
  · intro j hj
    rw [e3 j (hD0' j hj), hext0 j hj]
  · have := e4.next
    rw [q1] at this
    refine ⟨by omega, fun j hj => ?_, e4.children.trans q3, e4.routes.trans q4, fun j hj f nm => ?_⟩
    · rw [e4.heap j (by rw [q1]; omega) (by omega), q2, if_neg (by omega)]
    · rw [e4.is j (by rw [q1]; omega) (by omega), isMapped_congr qis]

theorem disp_script {m d : Text} {ts : List PTree} {cur : Option Nat} {k : Option Kind} {rs rs' : RSt F} (hts : ∀ t ∈ ts, ParseVal.Tree.tag t ≠ .name)
    (h : scriptItems lk fl ts k rs.next (rs.newNode scriptProto.cls d) = some rs') :
    disp lk fl (.node .script m (defTrees d ++ ts)) cur k rs = some (.ref (some rs.next), rs') := by
  unfold scriptItems at h
  split at h
  · cases h
  · rename_i p is rs1 h1
    split at h
    · cases h
    · rename_i rs2 h2
      by_cases h0 : d = []
      · subst h0
        simp only [defTrees, if_true, List.nil_append]
        cases ts with
        | nil => simp only [disp, h1, h2, h]
        | cons t ts =>
          obtain ⟨tg, tm, tk⟩ := t
          have : tg ≠ .name := hts (.node tg tm tk) (by simp)
          cases tg
          case name => exact absurd rfl this
          all_goals simp only [disp, h1, h2, h]
      · simp only [defTrees, if_neg h0, List.cons_append, List.nil_append, disp, h1, h2, h]

theorem safe_ne_script {p : Text} (h : SafeName p) : p ≠ scriptName := by
  rintro rfl; revert h; decide

theorem scriptAttr_safe {f : Text} (h : f ∈ scriptAttrs) : SafeName f := by
  simp only [scriptAttrs, List.mem_cons, List.not_mem_nil, or_false] at h
  rcases h with rfl | rfl | rfl <;> decide

theorem node_read (hlv : GoodOptions lv) (hh : GoodHeap lk fl src P)
    (hlines : ∀ i n, P i → src.heap i = some n → n.cls.proto = scriptName → '\n' ∈ lv.fullSep) : ∀ fuel, Good lk fl src P lv (linNode lv fl src fuel) := by
  intro fuel
  induction fuel with
  | zero => intro st i st' _ h; simp [linNode] at h
  | succ fuel ih =>
    intro st i st' hPi h hw
    simp only [linNode] at h
    cases hn : src.heap i with
    | none => rw [hn] at h; cases h
    | some n =>
      rw [hn] at h
      simp only at h
      have hg := hh.good i n hPi hn
      cases hlk : st.look i with
      | some x =>
        obtain ⟨start, stop⟩ := x
        rw [hlk] at h
        simp only at h
        by_cases hD : n.DEF = []
        · simp only [hD, ne_eq, not_true_eq_false, if_false] at h
          cases stop <;> (simp only [Except.ok.injEq] at h; subst h; cases hw)
        · simp only [ne_eq, hD, not_false_eq_true, if_true, Except.ok.injEq] at h
          subst h
          have hL : LegalName n.DEF := hg.DEF.resolve_left hD
          refine ⟨hw, Grow.of_done rfl, ⟨_, hlk⟩, [Chunk.use i n.DEF], [], ['U', 'S', 'E', ' '] ++ n.DEF, rfl, by simp [textOf_cons, textOf_nil, Chunk.toText], .nil, start_use.append, fun w r hw' hr => ?_⟩
          refine ⟨.node .use n.DEF [.node .name n.DEF []], use_der hL (hw'.ign hlv) (hw'.ne hlv) hr, rfl, ?_⟩
          intro cur k rs φ hi
          obtain ⟨-, n', m', g1, g2, g4, g5, g6, -⟩ := hi.node i _ hlk
          rw [hn] at g1; cases g1
          exact ⟨rs, φ, by simp [disp, g6 hD], hi.of_done rfl, Ext.refl _ _, Frame.refl _⟩
      | none =>
        rw [hlk] at h
        simp only at h
        generalize hst0 : (⟨st.out ++ [Chunk.head i n.DEF n.cls.proto], (i, (st.out.length, none)) :: st.done, st.level + 1, st.warned⟩ : St) = st0 at h
        have hd0 : st0.done = (i, (st.out.length, none)) :: st.done := by subst hst0; rfl
        have hout0 : st0.out = st.out ++ [Chunk.head i n.DEF n.cls.proto] := by subst hst0; rfl
        have hw00 : st0.warned = st.warned := by subst hst0; rfl
        have hlook0 : ∀ j, st0.look j = if j = i then some (st.out.length, none) else st.look j := fun j => look_cons st i j _ st0 hd0
        have hli0 : st0.look i = some (st.out.length, none) := by rw [hlook0, if_pos rfl]
        cases hb : linBegin lv (linNode lv fl src fuel) st0 n.cls with
        | error e => rw [hb] at h; cases h
        | ok stb =>
         rw [hb] at h
         simp only at h
         cases ha : linAttrs lv fl (linNode lv fl src fuel) n (src.isOf i) stb (attrFields n.cls) with
         | error e => rw [ha] at h; cases h
         | ok st1 =>
          rw [ha] at h
          simp only [Except.ok.injEq] at h
          have hw1 : st1.warned = false := by rw [← h] at hw; exact hw
          generalize hcl : closing lv st1 n st.out.length (st1.out.length == (st.out ++ [Chunk.head i n.DEF n.cls.proto]).length) = cl at h
          have hlook' : ∀ j, st'.look j = if j = i then some (st.out.length, some (st1.out.length + 1)) else st1.look j := by
            intro j
            have : st'.done = (i, (st.out.length, some (st1.out.length + 1))) :: st1.done := by subst h; simp [St.write]
            exact look_cons st1 i j _ st' this
          have hout' : st'.out = st1.out ++ [Chunk.text cl] := by subst h; rfl
          have hgrow : Grow st0 st1 → Grow st st' := by
            intro a2
            refine ⟨fun j v hv => ?_, fun j hj v hv => ?_⟩
            · have hji : j ≠ i := by rintro rfl; rw [hlk] at hv; cases hv
              rw [hlook', if_neg hji]
              exact a2.1 j v (by rw [hlook0, if_neg hji]; exact hv)
            · by_cases hji : j = i
              · rw [hlook', if_pos hji] at hv; cases hv; simp
              · rw [hlook', if_neg hji] at hv
                exact a2.2 j (by rw [hlook0, if_neg hji]; exact hj) v hv
          have hPd : ∀ d ∈ attrFields n.cls, Shown src i d → ∀ v, d.read n = some v → ∀ j ∈ v.nodes, P j :=
            fun d hd => hh.closed i n hPi hn d (attrFields_mem.1 hd).1
          have hbrace : ∀ z, Meaningful ('}' :: z) := fun z => (next_brace z).1
          rcases hg.cls with ⟨hproto, cls', hc1, hc2, hc3⟩ | hs
          · -- not a Script
            have hns : n.cls.proto ≠ scriptName := safe_ne_script hproto
            have hstb : stb = st0 := by
              simp only [linBegin, if_neg hns, Except.ok.injEq] at hb; exact hb.symm
            subst hstb
            obtain ⟨a1, a2, C, a3, a3', a4⟩ := attrs_read (It := bodyItem) hlv (mono_node fuel) ih hg (attrFields n.cls) stb st1
              (fun d hd => by
                obtain ⟨h1, h2, h3⟩ := attrFields_mem.1 hd
                exact ⟨h1, h2, h3, body_attr (hg.names d h1 h2 h3)⟩)
              (attrFields_nodup hg.distinct) hPd hli0 ha hw1
            have hli1 : st1.look i = some (st.out.length, none) := a2.1 i _ hli0
            have eff : ∀ tx ts, AttrsEff lk fl src P stb st1 i n (attrFields n.cls) ts →
                NodeEff lk fl src P st st' i (.node .node tx (defTrees n.DEF ++ (.node .nodegi n.cls.proto [.node .name n.cls.proto []] :: ts))) := by
              intro tx ts he
              refine node_eff hh hPi hn hlk hlook0 hli1 hlook' (fun cur k rs rs' hD => ?_) (items_plain hg hns hc2 hc3 he)
              simp only [Option.map_eq_some_iff] at hD
              obtain ⟨⟨vs, rs''⟩, hD1, rfl⟩ := hD
              exact disp_node lk fl hc1 hD1
            have hT : ∀ z, defText n.DEF ++ (n.cls.proto ++ ([' ', '{'] ++ z)) = Chunk.toText (.head i n.DEF n.cls.proto) ++ z := by
              intro z; simp only [Chunk.toText, defText, defPart, if_neg hns]; simp
            refine ⟨by rw [← hw00]; exact a1, hgrow a2, ⟨_, by rw [hlook', if_pos rfl]⟩, Chunk.head i n.DEF n.cls.proto :: (C ++ [Chunk.text cl]), [], textOf (Chunk.head i n.DEF n.cls.proto :: (C ++ [Chunk.text cl])), ?_, rfl, .nil, ?_, ?_⟩
            · rw [hout', a3, hout0]; simp
            · rw [textOf_cons, ← hT]
              exact def_start hproto (nameEnd_cons (by decide)) (by simp)
            · rcases a4 with ⟨b1, b2⟩ | ⟨w0, body, b1, b2, b3, b4⟩
              · have hC : C = [] := a3'.resolve_right (fun h => h b1)
                subst hC
                have hcl' : cl = lv.courtesyspace ++ ['}'] := by
                  rw [← hcl, a3, hout0]; simp [closing, hns]
                intro w r hw' hr
                obtain ⟨m, c1⟩ := node_der (d := n.DEF) (p := n.cls.proto) (w0 := lv.courtesyspace) (body := []) (w := w) (r := r) (ts := []) hg.DEF hproto
                  hlv.plain.courtesyspace (meaningful_head (by decide) (by decide)) (.starNil (bodyItem_brace _)) (hw'.ign hlv) hr
                refine ⟨_, ?_, rfl, eff m [] b2⟩
                rw [textOf_cons, List.nil_append, textOf_text, hcl']
                rw [hT, hT] at c1
                simpa using c1
              · have hCne : C ≠ [] := by
                  rintro rfl
                  have : lv.fullSep ++ w0 ++ body = [] := by rw [← b1]; rfl
                  simp at this
                  exact hlv.sep this.1
                have hlen : (st1.out.length == (st.out ++ [Chunk.head i n.DEF n.cls.proto]).length) = false := by
                  rw [a3, hout0]
                  simp [hCne]
                rw [hlen] at hcl
                intro w r hw' hr
                obtain ⟨e, hce, hwe⟩ : ∃ e, cl = lv.fullSep ++ st1.cur lv ++ ['}'] ++ e ∧ Ignorable (e ++ w) := by
                  rw [← hcl]
                  simp only [closing, if_neg hns, Bool.false_eq_true, if_false]
                  cases hec : lv.endComments with
                  | none => exact ⟨[], by simp, by simpa using hw'.ign hlv⟩
                  | some k =>
                    simp only
                    split
                    · have hnl : '\n' ∈ w := by
                        obtain ⟨w1, rfl, -⟩ := hw'
                        rcases hlv.line with h | h
                        · rw [hec] at h; cases h
                        · simp [h]
                      generalize hnm : (if n.DEF = [] then n.cls.proto else n.DEF) = nm
                      have hno : '\n' ∉ nm := by
                        rw [← hnm]
                        split
                        · exact legal_no_nl hproto.1
                        · exact legal_no_nl (hg.DEF.resolve_left (by assumption))
                      refine ⟨chars " #EndNode " ++ nm, by simp, ?_⟩
                      have := comment_ign (b := chars "EndNode " ++ nm) (by simp [hno]) (hw'.ign hlv) hnl
                      have := Ignorable.blank (c := ' ') (by decide) this
                      simpa using this
                    · exact ⟨[], by simp, by simpa using hw'.ign hlv⟩
                obtain ⟨ts, d1, d2⟩ := b4 (lv.fullSep ++ st1.cur lv) ('}' :: ((e ++ w) ++ r)) ⟨_, rfl, cur_ign hlv st1⟩ (nextS_brace _)
                have d1 := d1 [] [] _ (.starNil (bodyItem_brace _))
                obtain ⟨m, c1⟩ := node_der (d := n.DEF) (p := n.cls.proto) (w0 := lv.fullSep ++ w0) (body := body ++ (lv.fullSep ++ st1.cur lv)) (w := e ++ w) (r := r) (ts := ts) hg.DEF hproto
                  (hlv.plain.fullSep.append b2) (by have := (b3 (lv.fullSep ++ St.cur lv st1 ++ '}' :: (e ++ w ++ r))).1.1; simpa using this) (by simpa using d1) hwe hr
                refine ⟨_, ?_, rfl, eff m ts d2⟩
                rw [textOf_cons, textOf_append, textOf_text, hce, b1]
                rw [hT, hT] at c1
                simpa using c1
          · -- a Script
            have hp : n.cls.proto = scriptName := hs.proto
            simp only [linBegin, if_pos hp] at hb
            generalize hste : St.write { st0 with level := st0.level + 1 } (eventsText lv (St.cur lv { st0 with level := st0.level + 1 }) n.cls.events) = ste at hb
            have hde : ste.done = st0.done := by subst hste; rfl
            have hwe : ste.warned = st0.warned := by subst hste; rfl
            have houte : ste.out = st0.out ++ [Chunk.text (eventsText lv (St.cur lv { st0 with level := st0.level + 1 }) n.cls.events)] := by subst hste; rfl
            cases hd : linDecls lv (linNode lv fl src fuel) ste (scriptFields n.cls) with
            | error e => rw [hd] at hb; cases hb
            | ok std =>
              rw [hd] at hb
              simp only [Except.ok.injEq] at hb
              have hdb : stb.done = std.done := by subst hb; rfl
              have hwb : stb.warned = std.warned := by subst hb; rfl
              have houtb : stb.out = std.out := by subst hb; rfl
              have hlookb : ∀ j, stb.look j = std.look j := fun j => by simp [St.look, hdb]
              have hg1 : Grow st0 ste := Grow.of_done hde
              -- events
              have bE : Block lv scriptItem (eventsText lv (St.cur lv { st0 with level := st0.level + 1 }) n.cls.events) (DeclsEff lk fl src P st0 ste (declEvents n.cls.events) []) := by
                refine events_block hlv hde (cur_ign hlv _) (declEvents n.cls.events) (fun e he => ?_)
                obtain ⟨h1, h2⟩ := declEvents_mem.1 he
                obtain ⟨k1, k2, k3, k4⟩ := hs.events e h1 h2
                refine ⟨k1, k2, k3, k4, fun heq => ?_⟩
                obtain ⟨d, h3, h4, -⟩ := hs.common externalURL (by simp [scriptProto])
                exact hs.distinct e h1 d h3 (h4.trans heq.symm)
              -- the rest, as far as warnings
              have hwd : std.warned = false := by
                cases hx : std.warned with
                | false => rfl
                | true => rw [(mono_attrs (mono_node fuel) _ _ _ ha).1 (by rw [hwb]; exact hx)] at hw1; cases hw1
              have hfields : ∀ f ∈ scriptFields n.cls, LegalName f.decl.name ∧ reserved f.decl.name = false ∧ TypeName f.decl.cls ∧ fl.types.field f.decl.cls = some ⟨f.decl.kind, f.decl.str, f.decl.conv⟩ ∧
                  ∃ v, f.decl.default = some v ∧ ((∃ l, v = .strs l ∧ f.decl.kind = .mfString) ∨ Readable fl f.decl v) ∧ ∀ j ∈ v.nodes, P j := by
                intro f hf
                obtain ⟨d, h1, h2, h3, rfl⟩ := (scriptFields_mem hp).1 hf
                have hgd := hs.decls d h1 h2 h3
                obtain ⟨v, g1, g2, g3⟩ := hgd.value
                refine ⟨hgd.name, hgd.free, hgd.type, hgd.known, v, g1, g3, fun j hj => ?_⟩
                refine hh.closed i n hPi hn d h1 ⟨h2, fun nm hm => ?_⟩ v g2 j hj
                obtain ⟨-, d0, q1, q2, q3, q4⟩ := hg.isField _ _ hm
                exact q3 (by rw [q4]; exact h3)
              obtain ⟨x1, x2, x3, Cd, x4, x5⟩ := decls_block hlv ih (scriptFields n.cls) ste std hfields hd hwd
              have hlid : std.look i = some (st.out.length, none) := x2.1 i _ (hg1.1 i _ hli0)
              have hlib : stb.look i = some (st.out.length, none) := by rw [hlookb]; exact hlid
              obtain ⟨a1, a2, C, a3, a3', a4⟩ := attrs_read (It := scriptItem) hlv (mono_node fuel) ih hg (attrFields n.cls) stb st1
                (fun d hd => by
                  obtain ⟨h1, h2, h3⟩ := attrFields_mem.1 hd
                  refine ⟨h1, h2, h3, script_attr (hg.names d h1 h2 h3) ?_⟩
                  rw [declared_iff hp] at h3
                  simpa using h3)
                (attrFields_nodup hg.distinct) hPd hlib ha hw1
              have hg2 : Grow ste stb := x2.trans (Grow.of_done hdb)
              have hli1 : st1.look i = some (st.out.length, none) := a2.1 i _ hlib
              have hdoneb : ∀ j, Done std j → Done stb j := fun j hj => (Grow.of_done hdb).done hj
              have x5' : Block lv scriptItem (textOf Cd) (DeclsEff lk fl src P ste stb [] (scriptFields n.cls)) := x5.mono (fun ts ht => by
                refine ⟨ht.1, fun i rs φ hi => ?_⟩
                obtain ⟨rs', φ', Gs, k1, k2, k3⟩ := ht.2 i rs φ hi
                exact ⟨rs', φ', Gs, k1, k2.of_done hdb, k3⟩)
              have eff : ∀ tx ts, (∃ a b, ts = a ++ b ∧ DeclsEff lk fl src P st0 ste (declEvents n.cls.events) [] a ∧
                  ∃ b' c, b = b' ++ c ∧ DeclsEff lk fl src P ste stb [] (scriptFields n.cls) b' ∧ AttrsEff lk fl src P stb st1 i n (attrFields n.cls) c) →
                  NodeEff lk fl src P st st' i (.node .script tx (defTrees n.DEF ++ ts)) := by
                rintro tx ts ⟨a, b, rfl, h1, b', c, rfl, h2, h3⟩
                refine node_eff hh hPi hn hlk hlook0 hli1 hlook' (fun cur k rs rs' hD => ?_)
                  (items_script hg hs hli0 hg1 hg2 a2 (fun f hf v hv j hj => hdoneb j (x3 f hf v hv j hj)) h1 h2 h3)
                refine disp_script (fun t ht => ?_) hD
                rcases List.mem_append.1 ht with ht | ht
                · rcases h1.1 t ht with h | h <;> rw [h] <;> decide
                · rcases List.mem_append.1 ht with ht | ht
                  · rcases h2.1 t ht with h | h <;> rw [h] <;> decide
                  · rw [h3.1 t ht]; decide
              have hcl' : cl = lv.fullSep ++ st1.cur lv ++ ['}'] ++ ('#' :: (if n.DEF = [] then n.cls.proto else defPart n.DEF)) := by
                rw [← hcl]; simp [closing, hp]
              have hT : ∀ z, Chunk.toText (.head i n.DEF n.cls.proto) ++ z = (if n.DEF = [] then [' '] else []) ++ (scriptDef n.DEF ++ (['S', 'c', 'r', 'i', 'p', 't'] ++ ([' ', '{'] ++ z))) := by
                intro z
                simp only [Chunk.toText, hp, if_true, defPart, scriptDef]
                by_cases h0 : n.DEF = []
                · simp [h0, scriptName]
                · simp [h0, scriptName]
              have hpre : Ignorable (if n.DEF = [] then [' '] else [] : Text) := by split; exacts [sp_ign, .nil]
              have hblk := bE.append (x5'.append a4)
              generalize hTT : eventsText lv (St.cur lv { st0 with level := st0.level + 1 }) n.cls.events ++ (textOf Cd ++ textOf C) = TT at hblk
              refine ⟨by rw [← hw00, ← hwe]; exact x1, hgrow ((hg1.trans hg2).trans a2), ⟨_, by rw [hlook', if_pos rfl]⟩,
                Chunk.head i n.DEF n.cls.proto :: (Chunk.text (eventsText lv (St.cur lv { st0 with level := st0.level + 1 }) n.cls.events) :: (Cd ++ (C ++ [Chunk.text cl]))),
                _, scriptDef n.DEF ++ (['S', 'c', 'r', 'i', 'p', 't'] ++ ([' ', '{'] ++ (TT ++ cl))), ?_, ?_, hpre, ?_, ?_⟩
              · rw [hout', a3, houtb, x4, houte, hout0]; simp
              · rw [textOf_cons, hT, ← hTT]
                simp [textOf_cons, textOf_append, textOf_nil, Chunk.toText]
              · have := script_start (d := n.DEF) (r := '{' :: (TT ++ cl))
                simpa using this
              · intro w r hw' hr
                have hnl : '\n' ∈ w := by
                  obtain ⟨w1, rfl, -⟩ := hw'
                  have := hlines i n hPi hn hp
                  simp [this]
                generalize hcm : (if n.DEF = [] then n.cls.proto else defPart n.DEF) = cm at hcl'
                have hno : '\n' ∉ cm := by
                  rw [← hcm]
                  split
                  · rw [hp]; decide
                  · rename_i h0
                    have := legal_no_nl (hg.DEF.resolve_left h0)
                    simp [defPart, h0, this]
                have hwe' : Ignorable ('#' :: cm ++ w) := by
                  have := comment_ign hno (hw'.ign hlv) hnl
                  simpa using this
                have hcur : Sep lv (lv.fullSep ++ st1.cur lv) := ⟨_, rfl, cur_ign hlv st1⟩
                rcases hblk with ⟨b1, b2⟩ | ⟨w0, body, b1, b2, b3, b4⟩
                · obtain ⟨m, c1⟩ := script_der (d := n.DEF) (w0 := lv.fullSep ++ st1.cur lv) (body := []) (w := '#' :: cm ++ w) (r := r) (ts := []) hg.DEF
                    (hcur.ign hlv) (hbrace _) (.starNil (scriptItem_brace _)) hwe' hr
                  refine ⟨_, ?_, rfl, eff m [] b2⟩
                  rw [b1, hcl']
                  simpa using c1
                · obtain ⟨ts, d1, d2⟩ := b4 (lv.fullSep ++ st1.cur lv) ('}' :: (('#' :: cm ++ w) ++ r)) hcur (nextS_brace _)
                  have d1 := d1 [] [] _ (.starNil (scriptItem_brace _))
                  obtain ⟨m, c1⟩ := script_der (d := n.DEF) (w0 := lv.fullSep ++ w0) (body := body ++ (lv.fullSep ++ st1.cur lv)) (w := '#' :: cm ++ w) (r := r) (ts := ts) hg.DEF
                    (hlv.plain.fullSep.append b2) (by have := (b3 (lv.fullSep ++ St.cur lv st1 ++ '}' :: ('#' :: cm ++ w ++ r))).1.1; simpa using this) (by simpa using d1) hwe' hr
                  refine ⟨_, ?_, rfl, eff m ts d2⟩
                  rw [b1, hcl']
                  simpa using c1
end
end Verif.Lin
