import Verif.Spec.RoundTrip
/-!
Lemmas for C09: every piece of text the writer produces is read back, and reading it rebuilds the written nodes.
-/
namespace Verif.Lin
open Verif.Peg Verif.Grammar Verif.TextOut Verif.Text Verif.SceneText Verif.ListText
variable {F : Type}

/-! ### Writer states -/

/-- the node has been started (and perhaps finished) -/
def Done (st : St) (i : Nat) : Prop := ∃ x, st.look i = some x

/-- entries are kept; new entries are finished nodes -/
def Grow (st st' : St) : Prop :=
  (∀ j v, st.look j = some v → st'.look j = some v) ∧
  (∀ j, st.look j = none → ∀ v, st'.look j = some v → v.2 ≠ none)

theorem Grow.refl (st : St) : Grow st st := ⟨fun _ _ h => h, fun j h v hv => by rw [h] at hv; cases hv⟩

theorem Grow.trans {a b c : St} (h1 : Grow a b) (h2 : Grow b c) : Grow a c := by
  refine ⟨fun j v h => h2.1 j v (h1.1 j v h), fun j h v hv => ?_⟩
  cases hb : b.look j with
  | none => exact h2.2 j hb v hv
  | some x =>
    have := h2.1 j x hb
    rw [this] at hv; cases hv
    exact h1.2 j h v hb

theorem Grow.of_done {a b : St} (h : b.done = a.done) : Grow a b := by
  have : ∀ j, b.look j = a.look j := fun j => by simp [St.look, h]
  exact ⟨fun j v hv => by rw [this]; exact hv, fun j hj v hv => by rw [this, hj] at hv; cases hv⟩

theorem Grow.done {a b : St} (h : Grow a b) {i : Nat} (hi : Done a i) : Done b i := by
  obtain ⟨x, hx⟩ := hi; exact ⟨x, h.1 i x hx⟩

theorem textOf_append (a b : List Chunk) : textOf (a ++ b) = textOf a ++ textOf b := by simp [textOf]
theorem textOf_text (t : Text) : textOf [Chunk.text t] = t := by simp [textOf, Chunk.toText]
theorem textOf_cons (c : Chunk) (l : List Chunk) : textOf (c :: l) = c.toText ++ textOf l := by simp [textOf]
theorem textOf_nil : textOf [] = [] := rfl

/-! ### Reader states -/

/-- Reading continued: nodes that existed are unchanged, nothing was added to the scene graph itself. -/
structure Frame (rs rs' : RSt F) : Prop where
  next : rs.next ≤ rs'.next
  heap : ∀ j, j < rs.next → rs'.sc.heap j = rs.sc.heap j
  children : rs'.sc.children = rs.sc.children
  routes : rs'.sc.routes = rs.sc.routes
  is : ∀ j, j < rs.next → ∀ f nm, IsMapped rs'.sc j f nm ↔ IsMapped rs.sc j f nm

theorem Frame.refl (rs : RSt F) : Frame rs rs := ⟨Nat.le_refl _, fun _ _ => rfl, rfl, rfl, fun _ _ _ _ => Iff.rfl⟩
theorem Frame.trans {a b c : RSt F} (h1 : Frame a b) (h2 : Frame b c) : Frame a c :=
  ⟨Nat.le_trans h1.next h2.next, fun j hj => (h2.heap j (Nat.lt_of_lt_of_le hj h1.next)).trans (h1.heap j hj),
    h2.children.trans h1.children, h2.routes.trans h1.routes,
    fun j hj f nm => (h2.is j (Nat.lt_of_lt_of_le hj h1.next) f nm).trans (h1.is j hj f nm)⟩

/-- `φ'` agrees with `φ` on the nodes known to `st`. -/
def Ext (st : St) (φ φ' : Nat → Nat) : Prop := ∀ i, Done st i → φ' i = φ i

theorem Ext.refl (st : St) (φ : Nat → Nat) : Ext st φ φ := fun _ _ => rfl
theorem Ext.trans {a b : St} {φ φ1 φ2 : Nat → Nat} (hg : Grow a b) (h1 : Ext a φ φ1) (h2 : Ext b φ1 φ2) : Ext a φ φ2 :=
  fun i hi => (h2 i (hg.done hi)).trans (h1 i hi)

/-- What a finished field looks like on both sides. -/
def FieldOk (st : St) (φ : Nat → Nat) (n m : Node F) (d : FieldDecl F) : Prop :=
  ∃ v, d.read n = some v ∧ (∀ j ∈ v.nodes, Done st j) ∧ ∀ d' ∈ m.cls.fields, d'.name = d.name → d'.read m = some (v.mapRef φ) ∧
    (Declared n.cls d.name → d.default = some v ∧ d'.default = some (v.mapRef φ))

/-- The nodes the writer knows (started or finished) and their counterparts in the reader. -/
structure Inv (src : Scene F) (P : Nat → Prop) (st : St) (rs : RSt F) (φ : Nat → Nat) : Prop where
  node : ∀ i x, st.look i = some x → P i ∧ ∃ n m, src.heap i = some n ∧ rs.sc.heap (φ i) = some m ∧
    m.DEF = n.DEF ∧ φ i < rs.next ∧ (n.DEF ≠ [] → rs.sc.getDEF n.DEF = some (φ i)) ∧
    (x.2 ≠ none → (SameClass n.cls m.cls ∧ m.cls.Distinct) ∧ ∀ d ∈ n.cls.fields, Shown src i d → FieldOk st φ n m d)
  inj : ∀ i j, Done st i → Done st j → φ i = φ j → i = j
  is : ∀ i x, st.look i = some x → x.2 ≠ none → ∀ f nm, IsMapped rs.sc (φ i) f nm ↔ IsMapped src i f nm
  cover : ∀ j f nm, IsMapped rs.sc j f nm → ∃ i, Done st i ∧ j = φ i
  full : ∀ dict nm l, rs.sc.is = some dict → (nm, l) ∈ dict → l ≠ []
  body : (∃ i f nm, IsMapped src i f nm) → rs.sc.is ≠ none

/-- Only the `done` table of the writer state matters. -/
theorem Inv.of_done {src : Scene F} {P : Nat → Prop} {st st' : St} {rs : RSt F} {φ : Nat → Nat} (h : Inv src P st rs φ)
    (hd : st'.done = st.done) : Inv src P st' rs φ := by
  have hl : ∀ j, st'.look j = st.look j := fun j => by simp [St.look, hd]
  have hD : ∀ j, Done st' j ↔ Done st j := fun j => by simp [Done, hl]
  refine ⟨fun i x hx => ?_, fun i j hi hj => h.inj i j ((hD i).1 hi) ((hD j).1 hj), fun i x hx => h.is i x (by rw [← hl]; exact hx),
    fun j f nm hm => by obtain ⟨i, h1, h2⟩ := h.cover j f nm hm; exact ⟨i, (hD i).2 h1, h2⟩, h.full, h.body⟩
  rw [hl] at hx
  obtain ⟨hP, n, m, h1, h2, h4, h5, h6, h7⟩ := h.node i x hx
  refine ⟨hP, n, m, h1, h2, h4, h5, h6, fun hx => ⟨(h7 hx).1, fun d hd' hv => ?_⟩⟩
  obtain ⟨v, a, b, c⟩ := (h7 hx).2 d hd' hv
  exact ⟨v, a, fun j hj => (hD j).2 (b j hj), c⟩

theorem Inv.fresh {src : Scene F} {P : Nat → Prop} {st : St} {rs : RSt F} {φ : Nat → Nat} (h : Inv src P st rs φ) {j : Nat} {f nm : Text}
    (hm : IsMapped rs.sc j f nm) : j < rs.next := by
  obtain ⟨i, ⟨x, hx⟩, rfl⟩ := h.cover j f nm hm
  obtain ⟨-, n', m', -, -, -, h5, -⟩ := h.node i x hx
  exact h5

/-! ### Values -/

/-! ### IS declarations -/

theorem isLookup_some {i : Nat} {f nm : Text} : ∀ (d : List (Text × List (Nat × Text))) (c : Option Text), isLookup i f c d = some nm →
    c = some nm ∨ ∃ l, (nm, l) ∈ d ∧ (i, f) ∈ l
  | [], c, h => .inl h
  | (k, l) :: d, c, h => by
    rw [isLookup] at h
    rcases isLookup_some d _ h with h | ⟨l', h1, h2⟩
    · split at h
      · rename_i hc
        cases h
        exact .inr ⟨l, by simp, by simpa using hc⟩
      · exact .inl h
    · exact .inr ⟨l', by simp [h1], h2⟩

theorem isLookup_none {i : Nat} {f : Text} : ∀ (d : List (Text × List (Nat × Text))) (c : Option Text), isLookup i f c d = none →
    c = none ∧ ∀ nm l, (nm, l) ∈ d → (i, f) ∉ l
  | [], c, h => ⟨h, by simp⟩
  | (k, l) :: d, c, h => by
    rw [isLookup] at h
    obtain ⟨h1, h2⟩ := isLookup_none d _ h
    split at h1
    · cases h1
    · rename_i hc
      refine ⟨h1, fun nm l' hm => ?_⟩
      rcases List.mem_cons.1 hm with h | h
      · cases h; simpa using hc
      · exact h2 nm l' h

theorem isOf_some {sc : Scene F} {i : Nat} {f nm : Text} (h : sc.isOf i f = some nm) : IsMapped sc i f nm := by
  unfold Scene.isOf at h
  split at h
  · rename_i d hd
    rcases isLookup_some d _ h with h | ⟨l, h1, h2⟩
    · cases h
    · exact ⟨d, l, hd, h1, h2⟩
  · cases h

theorem isOf_none {sc : Scene F} {i : Nat} {f : Text} (h : sc.isOf i f = none) (nm : Text) : ¬ IsMapped sc i f nm := by
  rintro ⟨d, l, hd, h1, h2⟩
  unfold Scene.isOf at h
  rw [hd] at h
  exact (isLookup_none d _ h).2 nm l h1 h2

theorem isAppend_mem {nm nm' : Text} {e e' : Nat × Text} : ∀ d : List (Text × List (Nat × Text)),
    (∃ l, (nm', l) ∈ isAppend nm e d ∧ e' ∈ l) ↔ (∃ l, (nm', l) ∈ d ∧ e' ∈ l) ∨ (nm' = nm ∧ e' = e)
  | [] => by simp [isAppend]
  | (k, l) :: d => by
    rw [isAppend]
    split
    · rename_i hk
      subst hk
      constructor
      · rintro ⟨l', h1, h2⟩
        rcases List.mem_cons.1 h1 with h | h
        · cases h
          rcases List.mem_append.1 h2 with h | h
          · exact .inl ⟨l, by simp, h⟩
          · exact .inr ⟨rfl, by simpa using h⟩
        · exact .inl ⟨l', by simp [h], h2⟩
      · rintro (⟨l', h1, h2⟩ | ⟨h1, h2⟩)
        · rcases List.mem_cons.1 h1 with h | h
          · cases h; exact ⟨_, List.mem_cons_self, List.mem_append.2 (.inl h2)⟩
          · exact ⟨l', by simp [h], h2⟩
        · subst h1 h2; exact ⟨_, List.mem_cons_self, by simp⟩
    · have ih := isAppend_mem (nm := nm) (nm' := nm') (e := e) (e' := e') d
      constructor
      · rintro ⟨l', h1, h2⟩
        rcases List.mem_cons.1 h1 with h | h
        · cases h; exact .inl ⟨_, by simp, h2⟩
        · rcases ih.1 ⟨l', h, h2⟩ with ⟨l2, h3, h4⟩ | h
          · exact .inl ⟨l2, by simp [h3], h4⟩
          · exact .inr h
      · rintro (⟨l', h1, h2⟩ | h)
        · rcases List.mem_cons.1 h1 with h | h
          · cases h; exact ⟨_, by simp, h2⟩
          · obtain ⟨l2, h3, h4⟩ := ih.2 (.inl ⟨l', h, h2⟩)
            exact ⟨l2, by simp [h3], h4⟩
        · obtain ⟨l2, h3, h4⟩ := ih.2 (.inr h)
          exact ⟨l2, by simp [h3], h4⟩

theorem isAppend_full {nm : Text} {e : Nat × Text} : ∀ d : List (Text × List (Nat × Text)), (∀ k l, (k, l) ∈ d → l ≠ []) →
    ∀ k l, (k, l) ∈ isAppend nm e d → l ≠ []
  | [], _, k, l, h => by simp only [isAppend, List.mem_singleton, Prod.mk.injEq] at h; simp [h.2]
  | (k0, l0) :: d, hd, k, l, h => by
    rw [isAppend] at h
    split at h
    · rcases List.mem_cons.1 h with h | h
      · cases h; simp
      · exact hd k l (by simp [h])
    · rcases List.mem_cons.1 h with h | h
      · cases h; exact hd _ _ List.mem_cons_self
      · exact isAppend_full d (fun k l hk => hd k l (by simp [hk])) k l h

/-- What an IS entry adds. -/
theorem isMapped_append {sc : Scene F} {dict} (h : sc.is = some dict) {nm f nm' f' : Text} {i j : Nat} :
    IsMapped { sc with is := some (isAppend nm (i, f) dict) } j f' nm' ↔ IsMapped sc j f' nm' ∨ (j = i ∧ f' = f ∧ nm' = nm) := by
  have key := isAppend_mem (nm := nm) (nm' := nm') (e := (i, f)) (e' := (j, f')) dict
  constructor
  · rintro ⟨d, l, h1, h2, h3⟩
    cases h1
    rcases key.1 ⟨l, h2, h3⟩ with ⟨l', h4, h5⟩ | ⟨h4, h5⟩
    · exact .inl ⟨dict, l', h, h4, h5⟩
    · cases h5; exact .inr ⟨rfl, rfl, h4⟩
  · rintro (⟨d, l, h1, h2, h3⟩ | ⟨h1, h2, h3⟩)
    · rw [h] at h1; cases h1
      obtain ⟨l', h4, h5⟩ := key.2 (.inl ⟨l, h2, h3⟩)
      exact ⟨_, l', rfl, h4, h5⟩
    · subst h1 h2 h3
      obtain ⟨l', h4, h5⟩ := key.2 (.inr ⟨rfl, rfl⟩)
      exact ⟨_, l', rfl, h4, h5⟩

theorem isMapped_congr {a b : Scene F} (h : b.is = a.is) {i : Nat} {f nm : Text} : IsMapped b i f nm ↔ IsMapped a i f nm := by
  simp only [IsMapped, h]

theorem SameType.refl (d : FieldDecl F) : SameType d d := ⟨rfl, rfl, rfl, rfl, rfl⟩
theorem SameField.refl (d : FieldDecl F) : SameField d d := ⟨.refl d, rfl⟩
theorem SameClass.refl (c : Class F) : SameClass c c :=
  ⟨rfl, fun d hd _ => ⟨d, hd, .refl d, fun _ => .refl d⟩, fun d hd _ => ⟨d, hd, .refl d, fun _ => .refl d⟩, fun _ => Iff.rfl,
    fun _ _ _ => Iff.rfl, fun _ _ => Iff.rfl⟩

theorem FieldDecl.read_eq (e : FieldDecl F) (n : Node F) : e.read n = match n.dict e.name with | some v => some v | none => e.default := by
  unfold FieldDecl.read FieldDecl.default
  cases n.dict e.name with
  | some v => rfl
  | none => cases e.dflt.value <;> rfl

theorem SameField.read {d d' : FieldDecl F} (h : SameField d d') (n : Node F) : d'.read n = d.read n := by
  rw [FieldDecl.read_eq, FieldDecl.read_eq, h.name, h.dflt]

theorem SameType.store {d d' : FieldDecl F} (h : SameType d d') (rs : RSt F) (i : Nat) (v : Val F) : rs.store i d' v = rs.store i d v := by
  unfold RSt.store
  rw [h.kind, h.conv, h.name]

theorem mapRef_congr {φ φ' : Nat → Nat} (v : Val F) (h : ∀ j ∈ v.nodes, φ' j = φ j) : v.mapRef φ' = v.mapRef φ := by
  cases v with
  | ref o =>
    cases o with
    | none => rfl
    | some i => simp only [Val.mapRef, Option.map_some, h i (by simp [Val.nodes])]
  | refs l =>
    simp only [Val.mapRef, Val.refs.injEq]
    apply List.map_congr_left
    intro o ho
    cases o with
    | none => rfl
    | some i => simp only [Option.map_some, h i (by simp only [Val.nodes, List.mem_filterMap, id]; exact ⟨_, ho, rfl⟩)]
  | _ => rfl

theorem mapRef_none {φ : Nat → Nat} (v : Val F) (h : v.nodes = []) : v.mapRef φ = v := by
  have : v.mapRef φ = v.mapRef id := mapRef_congr v (by simp [h])
  rw [this]
  cases v with
  | ref o => cases o <;> rfl
  | refs l => simp [Val.mapRef]
  | _ => rfl

theorem toRows_flatten {α : Type} (k : Nat) (rows : List (List α)) (h : ∀ row ∈ rows, row.length = k) :
    toRows k rows.length rows.flatten = rows := by
  induction rows with
  | nil => rfl
  | cons row rows ih =>
    have hr : row.length = k := h row (by simp)
    simp only [List.length_cons, toRows, List.flatten_cons]
    rw [List.take_left' hr, List.drop_left' hr, ih (fun x hx => h x (by simp [hx]))]

theorem flatten_length {α : Type} (k : Nat) (rows : List (List α)) (h : ∀ row ∈ rows, row.length = k) :
    rows.flatten.length = rows.length * k := by
  induction rows with
  | nil => simp
  | cons row rows ih =>
    rw [List.flatten_cons, List.length_append, h row (by simp), ih (fun x hx => h x (by simp [hx])), List.length_cons, Nat.succ_mul]
    omega

/-- reading the texts of restorable numbers -/
theorem restore_list {fl : Floats F} {conv : F → F} {txt : F → Text} (l : List F) (h : ∀ x ∈ l, Restored fl conv (txt x) x) :
    ∃ ys, ParseVal.mfFloat fl.parse ((l.map txt).map (fun t => Tree.node NT.sfNumber t [])) = some ys ∧ ys.map conv = l := by
  induction l with
  | nil => exact ⟨[], rfl, rfl⟩
  | cons x l ih =>
    obtain ⟨ys, h1, h2⟩ := ih (fun y hy => h y (by simp [hy]))
    obtain ⟨-, y, hy, hc⟩ := h x (by simp)
    refine ⟨y :: ys, ?_, by simp [hc, h2]⟩
    simp only [ParseVal.mfFloat, List.map_cons, ParseVal.allSome, ParseVal.Tree.text] at h1 ⊢
    rw [hy, h1]

theorem restored_tok {fl : Floats F} {conv : F → F} {txt : F → Text} (l : List F) (h : ∀ x ∈ l, Restored fl conv (txt x) x) :
    ∀ t ∈ l.map txt, NumTok t := by
  intro t ht
  obtain ⟨x, hx, rfl⟩ := List.mem_map.1 ht
  exact (h x hx).1

/-! ### Texts of simple values -/

/-- A text that can follow an attribute's value. -/
def Sep (lv : LinValues) (w : Text) : Prop := ∃ w1, w = lv.fullSep ++ w1 ∧ Ignorable w1

theorem Sep.ign {lv : LinValues} (h : GoodOptions lv) {w} (hw : Sep lv w) : Ignorable w := by
  obtain ⟨w1, rfl, h1⟩ := hw; exact h.plain.fullSep.append h1
theorem Sep.ne {lv : LinValues} (h : GoodOptions lv) {w} (hw : Sep lv w) : w ≠ [] := by
  obtain ⟨w1, rfl, _⟩ := hw; simp [h.sep]

/-- How a value's text begins: not with anything that could be skipped, not with `{`, not with `IS`. -/
structure VStart (V : Text) : Prop where
  head : ∃ c s, V = c :: s ∧ isBlank c = false ∧ c ≠ '#' ∧ c ≠ '{'
  noIs : ∀ z, Der gram (kw "IS") (V ++ z) .fail

theorem VStart.mean {V : Text} (h : VStart V) (r : Text) : Meaningful (V ++ r) := by
  obtain ⟨c, s, rfl, h1, h2, -⟩ := h.head
  exact meaningful_head h1 h2

theorem vstart_char {c : Char} {s : Text} (h1 : isBlank c = false) (h2 : c ≠ '#') (h3 : c ≠ '{') (h4 : c ≠ 'I') : VStart (c :: s) :=
  ⟨⟨c, s, rfl, h1, h2, h3⟩, fun _ => lit_fail1 (Ne.symm h4)⟩

theorem vstart_num {c : Char} {s : Text} (h : isExpChar c = true) : VStart (c :: s) := by
  have := expChar_props h
  exact vstart_char this.1 this.2.1 (by intro h'; subst h'; exact absurd h (by decide)) (by intro h'; subst h'; exact absurd h (by decide))

theorem vstart_start {T : Text} (h : Start T) : VStart T := by
  obtain ⟨c, s, rfl, h1, h2⟩ := h.head
  have := h.mean []
  refine ⟨⟨c, s, rfl, ?_, ?_, h1⟩, h.noIs⟩
  · have := this.1 c s (by simp)
    cases hb : isBlank c with
    | false => rfl
    | true => exact absurd ((isBlank_iff c).1 hb) this
  · intro hc
    subst hc
    exact (h.mean ['\n']).2 (s ++ ['\n']) (by simp) (by simp)

/-- The text of a readable simple value is read back as a value that coerces to it. -/
theorem simple_read {lv : LinValues} (hlv : GoodOptions lv) {fl : Floats F} {d : FieldDecl F} {v : Val F} (hv : Readable fl d v)
    (hr : ∀ o, v ≠ .ref o) (hrs : ∀ l, v ≠ .refs l) (hstr : ∀ l, v ≠ .strs l) :
    ∃ T, simpleText lv d v = .ok T ∧ VStart T ∧ ∀ w r, Ignorable w → w ≠ [] → Next r → ∃ m kids,
      Der gram (.nt .field) (T ++ (w ++ r)) (.ok [.node .field m kids] (T ++ w) r) ∧
      (∀ t ∈ kids, isNodeTag (ParseVal.Tree.tag t) = false) ∧ d.kind ≠ .mfNode ∧ d.kind ≠ .sfNode ∧
      ∃ u, simpleValue fl d.kind kids = some u ∧ coerce d.kind d.conv u = some v := by
  cases v with
  | ref o => exact absurd rfl (hr o)
  | refs l => exact absurd rfl (hrs l)
  | strs l => exact absurd rfl (hstr l)
  | bool b =>
    simp only [Readable] at hv
    refine ⟨sfBoolStr b, rfl, ?_, fun w r hw hw0 hr => ⟨_, _, field_bool hw hr, by simp [ParseVal.Tree.tag, isNodeTag], by simp [hv], by simp [hv], .bool b, ?_, ?_⟩⟩
    · cases b <;> exact vstart_char (by decide) (by decide) (by decide) (by decide)
    · rw [hv]; cases b <;> rfl
    · simp [hv, coerce]
  | int n =>
    simp only [Readable] at hv
    have htok := intStr_numTok n
    obtain ⟨c, s, hs, hc⟩ := htok.head
    refine ⟨sfInt32Str n, rfl, ?_, fun w r hw hw0 hr => ?_⟩
    · simp only [sfInt32Str, hs]; exact vstart_num hc
    · have h := (field_numbers hlv.plain [intStr n] (by simp) (by simpa using htok) hw hw0 hr).1
      simp only [pyJoin, List.map_cons, List.map_nil] at h
      refine ⟨_, _, h, by simp [ParseVal.Tree.tag, isNodeTag], by simp [hv], by simp [hv], .int n, ?_, by simp [hv, coerce]⟩
      rw [hv]; simp [simpleValue, ParseVal.sfInt32, ParseVal.Tree.text, intBase0_intStr]
  | num x =>
    obtain ⟨hk, htok, y, hy, hc⟩ := hv
    obtain ⟨c, s, hs, hc'⟩ := htok.head
    refine ⟨sfFloatStr (d.str x), rfl, ?_, fun w r hw hw0 hr => ?_⟩
    · rw [hs]; exact vstart_num hc'
    · have h := (field_numbers hlv.plain [sfFloatStr (d.str x)] (by simp) (by simpa using htok) hw hw0 hr).1
      simp only [pyJoin, List.map_cons, List.map_nil] at h
      refine ⟨_, _, h, by simp [ParseVal.Tree.tag, isNodeTag], by simp [hk], by simp [hk], .num y, ?_, by simp [hk, coerce, hc]⟩
      rw [hk]; simp [simpleValue, ParseVal.sfFloat, ParseVal.Tree.text, hy]
  | str s =>
    simp only [Readable] at hv
    refine ⟨sfStringStr s, rfl, ?_, fun w r hw hw0 hr => ?_⟩
    · obtain ⟨t, ht⟩ := str_head s
      rw [ht]; exact vstart_char (by decide) (by decide) (by decide) (by decide)
    · obtain ⟨t, kids, h1, h2⟩ := field_string (s := s) hw hr
      refine ⟨_, _, h1, by simp [ParseVal.Tree.tag, isNodeTag], by simp [hv], by simp [hv], .str s, ?_, by simp [hv, coerce]⟩
      rw [hv]; simp [simpleValue, ParseVal.sfString, ParseVal.Tree.kids, h2]
  | ints l =>
    simp only [Readable] at hv
    obtain ⟨text, h1, h2⟩ := mfSimple_form hlv.plain (l.map intStr)
    have htok : ∀ t ∈ l.map intStr, NumTok t := by
      intro t ht; obtain ⟨n, -, rfl⟩ := List.mem_map.1 ht; exact intStr_numTok n
    refine ⟨text, by simp [simpleText, h1], ?_, fun w r hw hw0 hr => ?_⟩
    · obtain ⟨w0, m, w1, rfl, -⟩ := h2
      exact vstart_char (by decide) (by decide) (by decide) (by decide)
    · obtain ⟨t, h3, h4⟩ := h2.read htok hw hr.1
      obtain ⟨tg, m, kids⟩ := t
      have htg : tg = .field := by
        have := h3; cases this; rfl
      subst htg
      simp only [ParseVal.Tree.kids] at h4
      obtain ⟨s, hv, hin⟩ := hv
      refine ⟨m, kids, h3, ?_, by simp [hv], by simp [hv], .ints l, ?_, by simpa [hv, coerce] using hin⟩
      · subst h4; intro t ht; obtain ⟨x, -, rfl⟩ := List.mem_map.1 ht; rfl
      · rw [hv, h4]
        simp only [simpleValue, ParseVal.mfInt32, allSome_map, ParseVal.Tree.text]
        rw [allSome_of intBase0_intStr l]; rfl
  | nums l =>
    rcases hv with ⟨hk, hl⟩ | ⟨hk, h0, hl⟩
    · obtain ⟨text, h1, h2⟩ := mfSimple_form hlv.plain (l.map d.str)
      obtain ⟨ys, hy1, hy2⟩ := restore_list l hl
      refine ⟨text, by simp [simpleText, hk, h1], ?_, fun w r hw hw0 hr => ?_⟩
      · obtain ⟨w0, m, w1, rfl, -⟩ := h2
        exact vstart_char (by decide) (by decide) (by decide) (by decide)
      · obtain ⟨t, h3, h4⟩ := h2.read (restored_tok l hl) hw hr.1
        obtain ⟨tg, m, kids⟩ := t
        have htg : tg = .field := by
          have := h3; cases this; rfl
        subst htg
        simp only [ParseVal.Tree.kids] at h4
        refine ⟨m, kids, h3, ?_, by simp [hk], by simp [hk], .nums ys, ?_, by simp [hk, coerce, hy2]⟩
        · subst h4; intro t ht; obtain ⟨x, -, rfl⟩ := List.mem_map.1 ht; rfl
        · rw [hk, h4]; simp only [simpleValue, hy1, Option.map_some]
    · obtain ⟨ys, hy1, hy2⟩ := restore_list l hl
      have hlen : ys.length = l.length := by rw [← hy2]; simp
      have hh := fun w r hw hr => field_numbers hlv.plain (l.map (fun x => sfFloatStr (d.str x))) (by simpa using h0) (restored_tok l hl) (w := w) (r := r) hw hr
      refine ⟨pyJoin lv.numsep (l.map (fun x => sfFloatStr (d.str x))), by simp [simpleText, hk, sfVecStr, Function.comp_def], ?_, fun w r hw hw0 hr => ?_⟩
      · obtain ⟨-, c, s, hs, hc⟩ := hh lv.fullSep ['}'] hlv.plain.fullSep hlv.sep (next_brace [])
        rw [hs]; exact vstart_num hc
      · refine ⟨_, _, (hh w r hw hw0 hr).1, ?_, by simp [hk], by simp [hk], .nums ys, ?_, by simp [hk, coerce, hy2, hlen]⟩
        · intro t ht; obtain ⟨x, -, rfl⟩ := List.mem_map.1 ht; rfl
        · rw [hk]; simp only [simpleValue, hy1, Option.map_some]
  | rows l =>
    obtain ⟨n, hk, hn1, hn2, hl⟩ := hv
    have hlen : ∀ row ∈ l, row.length = n := fun row h => (hl row h).1
    obtain ⟨text, h1, h2⟩ := C05_every_component_written hlv.plain hn1 hn2 (l.map (List.map d.str)) (by
      intro row hrow
      obtain ⟨row', h, rfl⟩ := List.mem_map.1 hrow
      simpa using hlen row' h)
    have hfl : ∀ x ∈ l.flatten, Restored fl d.conv (d.str x) x := by
      intro x hx
      obtain ⟨row, hr, hx⟩ := List.mem_flatten.1 hx
      exact (hl row hr).2 x hx
    have hfe : (l.map (List.map d.str)).flatten = l.flatten.map d.str := by rw [List.map_flatten]
    rw [hfe] at h2
    obtain ⟨ys, hy1, hy2⟩ := restore_list l.flatten hfl
    have hylen : ys.length = l.length * n := by rw [← flatten_length n l hlen, ← hy2]; simp
    refine ⟨text, by simp [simpleText, hk, h1], ?_, fun w r hw hw0 hr => ?_⟩
    · obtain ⟨w0, m, w1, rfl, -⟩ := h2
      exact vstart_char (by decide) (by decide) (by decide) (by decide)
    · obtain ⟨t, h3, h4⟩ := h2.read (restored_tok _ hfl) hw hr.1
      obtain ⟨tg, m, kids⟩ := t
      have htg : tg = .field := by
        have := h3; cases this; rfl
      subst htg
      simp only [ParseVal.Tree.kids] at h4
      refine ⟨m, kids, h3, ?_, by simp [hk], by simp [hk], .nums ys, ?_, ?_⟩
      · subst h4; intro t ht; obtain ⟨x, -, rfl⟩ := List.mem_map.1 ht; rfl
      · rw [hk, h4]; simp only [simpleValue, hy1, Option.map_some]
      · have hn0 : n ≠ 0 := by omega
        simp only [hk, coerce, hylen, Nat.mul_mod_left, hn0, ne_eq, not_false_eq_true, and_self, if_true,
          Nat.mul_div_cancel _ (Nat.pos_of_ne_zero hn0), hy2, toRows_flatten n l hlen]

/-! ### Dispatching -/

section
variable (lk : Text → Option (Class F)) (fl : Floats F)

theorem disp_field_simple {m : Text} {kids : List PTree} {k : Kind} {cur : Option Nat} {rs : RSt F} {u : Val F}
    (hk : ∀ t ∈ kids, isNodeTag (ParseVal.Tree.tag t) = false) (h1 : k ≠ .mfNode) (hu : simpleValue fl k kids = some u) :
    disp lk fl (.node .field m kids) cur (some k) rs = some (.val u, rs) := by
  cases kids with
  | nil => simp [disp, h1, hu]
  | cons t rest =>
    obtain ⟨tg, tm, tk⟩ := t
    have : isNodeTag tg = false := hk (.node tg tm tk) (by simp)
    simp [disp, this, h1, hu]

theorem disp_field_one {m : Text} {t : PTree} {cur : Option Nat} {rs : RSt F} (ht : isNodeTag (ParseVal.Tree.tag t) = true) :
    disp lk fl (.node .field m [t]) cur (some .sfNode) rs = disp lk fl t cur (some .sfNode) rs := by
  obtain ⟨tg, tm, tk⟩ := t
  have : isNodeTag tg = true := ht
  simp [disp, this]

theorem disp_field_list {m : Text} {t : PTree} {ts : List PTree} {cur : Option Nat} {rs rs' : RSt F} {vs : List (RVal F)}
    (ht : isNodeTag (ParseVal.Tree.tag t) = true) (h : dispList lk fl (t :: ts) cur (some .mfNode) rs = some (vs, rs')) :
    disp lk fl (.node .field m (t :: ts)) cur (some .mfNode) rs = some (.vals vs, rs') := by
  obtain ⟨tg, tm, tk⟩ := t
  have : isNodeTag tg = true := ht
  simp [disp, this, h]

theorem disp_field_none {m : Text} {cur : Option Nat} {rs : RSt F} :
    disp lk fl (.node .field m []) cur (some .mfNode) rs = some (.val (.refs []), rs) := by
  simp [disp]

theorem disp_node {m p d : Text} {pk ts : List PTree} {cur : Option Nat} {k : Option Kind} {rs rs' : RSt F} {c : Class F}
    {vs : List (RVal F)} (hc : lk p = some c) (h : dispList lk fl ts (some rs.next) k (rs.newNode c d) = some (vs, rs')) :
    disp lk fl (.node .node m (defTrees d ++ (.node .nodegi p pk :: ts))) cur k rs = some (.ref (some rs.next), rs') := by
  by_cases h0 : d = []
  · subst h0
    simp [defTrees, disp, hc, h]
  · simp [defTrees, h0, disp, hc, h]

theorem disp_attr {m nm : Text} {nk : List PTree} {t : PTree} {i : Nat} {k : Option Kind} {rs rs1 rs2 : RSt F} {n : Node F}
    {d : FieldDecl F} {rv : RVal F} {u : Val F} (hn : rs.sc.heap i = some n) (hd : n.cls.getField nm = some (.inl d))
    (htag : isTarget t = none) (hmap : d.name ∉ n.cls.mapped)
    (ht : disp lk fl t (some i) (some d.kind) rs = some (rv, rs1)) (hu : rv.toVal = some u) (hs : rs1.store i d u = some rs2) :
    disp lk fl (.node .attr m [.node .name nm nk, t]) (some i) k rs = some (.nothing, rs2) := by
  simp [disp, hn, hd, htag, hmap, ht, hu, hs]

theorem disp_attr_is {m nm im : Text} {nk ik : List PTree} {i : Nat} {k : Option Kind} {rs : RSt F} {n : Node F}
    {d : FieldDecl F ⊕ EventDecl} {dict} (hn : rs.sc.heap i = some n) (hd : n.cls.getField nm = some d) (his : rs.sc.is = some dict) :
    disp lk fl (.node .attr m [.node .name nm nk, .node .is im ik]) (some i) k rs =
      some (.nothing, { rs with sc := { rs.sc with is := some (isAppend im (i, nm) dict) } }) := by
  simp [disp, hn, hd, isTarget, his]

/-- the entry for a field is never taken for an IS -/
theorem isTarget_field {X m r : Text} {t : PTree} (h : Der gram (.nt .field) X (.ok [t] m r)) : isTarget t = none := by
  cases h; rfl

theorem dispList_cons {t : PTree} {ts : List PTree} {cur : Option Nat} {k : Option Kind} {rs rs1 rs2 : RSt F} {v : RVal F} {vs : List (RVal F)}
    (h1 : disp lk fl t cur k rs = some (v, rs1)) (h2 : dispList lk fl ts cur k rs1 = some (vs, rs2)) :
    dispList lk fl (t :: ts) cur k rs = some (v :: vs, rs2) := by
  simp [dispList, h1, h2]

theorem toVal_refs (l : List Nat) : (RVal.vals (l.map (fun j => (.ref (some j) : RVal F)))).toVal = some (.refs (l.map some)) := by
  have : refList (l.map (fun j => (.ref (some j) : RVal F))) = some (l.map some) := by
    induction l with
    | nil => rfl
    | cons a l ih => simp only [List.map_cons, refList, ih, Option.map_some]
  simp only [RVal.toVal, this, Option.map_some]
end

/-! ### Effects of reading -/

section
variable (lk : Text → Option (Class F)) (fl : Floats F) (src : Scene F) (P : Nat → Prop)

/-- Reading the node's text rebuilds it. -/
def NodeEff (st st' : St) (i : Nat) (t : PTree) : Prop :=
  ∀ cur k rs φ, Inv src P st rs φ → ∃ rs' φ', disp lk fl t cur k rs = some (.ref (some (φ' i)), rs') ∧
    Inv src P st' rs' φ' ∧ Ext st φ φ' ∧ Frame rs rs'

/-- Reading a list of nodes. -/
def ElemsEff (st st' : St) (l : List Nat) (ts : List PTree) : Prop :=
  ∀ cur k rs φ, Inv src P st rs φ → ∃ rs' φ', dispList lk fl ts cur k rs = some (l.map (fun j => .ref (some (φ' j))), rs') ∧
    Inv src P st' rs' φ' ∧ Ext st φ φ' ∧ Frame rs rs'

/-- Reading a field's value. -/
def FieldEff (st st' : St) (d : FieldDecl F) (v : Val F) (t : PTree) : Prop :=
  ∀ cur rs φ, Inv src P st rs φ → ∃ rs' φ' rv u, disp lk fl t cur (some d.kind) rs = some (rv, rs') ∧ rv.toVal = some u ∧
    coerce d.kind d.conv u = some (v.mapRef φ') ∧ Inv src P st' rs' φ' ∧ Ext st φ φ' ∧ Frame rs rs'

/-- What is known of a function that writes nodes, when it gives no warning. -/
def Good (lv : LinValues) (lin : St → Nat → Res St) : Prop :=
  ∀ st i st', P i → lin st i = .ok st' → st'.warned = false →
    st.warned = false ∧ Grow st st' ∧ Done st' i ∧ ∃ C pre V, st'.out = st.out ++ C ∧ textOf C = pre ++ V ∧ Ignorable pre ∧ Start V ∧
      ∀ w r, Sep lv w → Meaningful r → ∃ t, Der gram X (V ++ (w ++ r)) (.ok [t] (V ++ w) r) ∧
        isNodeTag (ParseVal.Tree.tag t) = true ∧ NodeEff lk fl src P st st' i t
end

theorem cur_ign {lv : LinValues} (h : GoodOptions lv) (st : St) : Ignorable (st.cur lv) := by
  unfold St.cur
  induction st.level with
  | zero => exact .nil
  | succ n ih => rw [List.replicate_succ, List.flatten_cons]; exact h.plain.indent.append ih

section
variable {lk : Text → Option (Class F)} {fl : Floats F} {src : Scene F} {P : Nat → Prop} {lv : LinValues} {lin : St → Nat → Res St}

theorem Inv.write {st : St} {rs : RSt F} {φ : Nat → Nat} (h : Inv src P st rs φ) (t : Text) : Inv src P (st.write t) rs φ := h.of_done rfl

theorem NodeEff.of_done {a b st : St} {i : Nat} {t : PTree} (h : NodeEff lk fl src P a st i t) (hd : a.done = b.done) : NodeEff lk fl src P b st i t := by
  intro cur k rs φ hi
  obtain ⟨rs', φ', h1, h2, h3, h4⟩ := h cur k rs φ (hi.of_done hd)
  refine ⟨rs', φ', h1, h2, fun j hj => h3 j ?_, h4⟩
  obtain ⟨x, hx⟩ := hj
  exact ⟨x, by simpa [St.look, hd] using hx⟩

theorem write_out (st : St) (t : Text) : (st.write t).out = st.out ++ [Chunk.text t] := rfl

/-- The elements of a list of nodes. -/
theorem elems_read (hlv : GoodOptions lv) (hl : Good lk fl src P lv lin) : ∀ (l : List Nat) (st st' : St), l ≠ [] → (∀ j ∈ l, P j) →
    linElems lv lin st (l.map some) = .ok st' → st'.warned = false →
    st.warned = false ∧ Grow st st' ∧ (∀ j ∈ l, Done st' j) ∧ ∃ C w0 B, st'.out = st.out ++ C ∧ textOf C = lv.fullSep ++ w0 ++ B ∧
      Ignorable w0 ∧ Start B ∧ ∀ w r, Sep lv w → ∃ t ts, Der gram (.star (.seq fieldItem ws)) (B ++ (w ++ ']' :: r)) (.ok (t :: ts) (B ++ w) (']' :: r)) ∧
        isNodeTag (ParseVal.Tree.tag t) = true ∧ ElemsEff lk fl src P st st' l (t :: ts) := by
  intro l
  induction l with
  | nil => intro st st' h; exact absurd rfl h
  | cons i l ih =>
    intro st st' _ hP h hw
    simp only [List.map_cons, linElems] at h
    generalize hst0 : st.write (lv.fullSep ++ st.cur lv ++ lv.indent) = st0 at h
    have hd0 : st0.done = st.done := by subst hst0; rfl
    cases hlin : lin st0 i with
    | error e => rw [hlin] at h; cases h
    | ok st1 =>
      rw [hlin] at h
      simp only at h
      have hbm : ∀ s, Meaningful (']' :: s) := fun s => meaningful_head (by decide) (by decide)
      have hout0 : st0.out = st.out ++ [Chunk.text (lv.fullSep ++ st.cur lv ++ lv.indent)] := by subst hst0; rfl
      have hw00 : st0.warned = st.warned := by subst hst0; rfl
      have hind : Ignorable (st.cur lv ++ lv.indent) := (cur_ign hlv st).append hlv.plain.indent
      cases l with
      | nil =>
        simp only [List.map_nil, linElems, Except.ok.injEq] at h
        subst h
        obtain ⟨h1, h2, h3, C, pre, V, h4, hpv, hpre, h5, h6⟩ := hl _ _ _ (hP i (by simp)) hlin hw
        refine ⟨by rw [← hw00]; exact h1, (Grow.of_done hd0).trans h2, by simpa using h3, [Chunk.text (lv.fullSep ++ st.cur lv ++ lv.indent)] ++ C,
          st.cur lv ++ lv.indent ++ pre, V, by rw [h4, hout0]; simp, by simp [textOf_cons, Chunk.toText, hpv], hind.append hpre, h5, fun w r hw' => ?_⟩
        obtain ⟨t, h7, h8, h9⟩ := h6 w (']' :: r) hw' (hbm r)
        have h10 : Der gram (.seq fieldItem ws) (V ++ (w ++ ']' :: r)) (.ok ([t] ++ []) (V ++ w ++ []) (']' :: r)) :=
          .seq (fieldItem_X h5 h7) (C07_ignorable_skipped (s := []) .nil (hbm r))
        have h11 := Der.starCons h10 (by simp [hw'.ne hlv]) (.starNil (.seqFail1 (item_fail_bracket r)))
        refine ⟨t, [], by simpa using h11, h8, ?_⟩
        intro cur k rs φ hi
        obtain ⟨rs', φ', e1, e2, e3, e4⟩ := (h9.of_done hd0) cur k rs φ hi
        exact ⟨rs', φ', by simp [dispList, e1], e2, e3, e4⟩
      | cons i2 l2 =>
        obtain ⟨a1, a2, a3, C2, w02, B2, a4, a5, a6, a7, a8⟩ := ih st1 st' (by simp) (fun j hj => hP j (by simp only [List.mem_cons] at hj ⊢; exact Or.inr hj)) h hw
        obtain ⟨h1, h2, h3, C, pre, V, h4, hpv, hpre, h5, h6⟩ := hl _ _ _ (hP i (by simp)) hlin a1
        refine ⟨by rw [← hw00]; exact h1, ((Grow.of_done hd0).trans h2).trans a2, ?_, [Chunk.text (lv.fullSep ++ st.cur lv ++ lv.indent)] ++ C ++ C2,
          st.cur lv ++ lv.indent ++ pre, V ++ (lv.fullSep ++ w02) ++ B2, by rw [a4, h4, hout0]; simp, by simp [textOf_cons, textOf_append, Chunk.toText, a5, hpv], hind.append hpre, ?_, fun w r hw' => ?_⟩
        · intro j hj
          rcases List.mem_cons.1 hj with rfl | hj
          · exact a2.done h3
          · exact a3 j hj
        · have := h5.append (U := lv.fullSep ++ w02 ++ B2)
          simpa using this
        · obtain ⟨t2, ts2, b1, b2, b3⟩ := a8 w r hw'
          obtain ⟨t, h7, h8, h9⟩ := h6 (lv.fullSep ++ w02) (B2 ++ (w ++ ']' :: r)) ⟨w02, rfl, a6⟩ (a7.mean _)
          have h10 : Der gram (.seq fieldItem ws) (V ++ ((lv.fullSep ++ w02) ++ (B2 ++ (w ++ ']' :: r)))) (.ok ([t] ++ []) (V ++ (lv.fullSep ++ w02) ++ []) (B2 ++ (w ++ ']' :: r))) :=
            .seq (fieldItem_X h5 h7) (C07_ignorable_skipped (s := []) .nil (a7.mean _))
          have h11 := Der.starCons h10 (by simp [hlv.sep]) b1
          refine ⟨t, t2 :: ts2, by simpa using h11, h8, ?_⟩
          intro cur k rs φ hi
          obtain ⟨rs1, φ1, e1, e2, e3, e4⟩ := (h9.of_done hd0) cur k rs φ hi
          obtain ⟨rs2, φ2, f1, f2, f3, f4⟩ := b3 cur k rs1 φ1 e2
          refine ⟨rs2, φ2, ?_, f2, Ext.trans ((Grow.of_done hd0).trans h2) e3 f3, e4.trans f4⟩
          have := dispList_cons lk fl e1 f1
          rw [this, List.map_cons (l := i2 :: l2), f3 i h3]

theorem ElemsEff.of_done {a b st c : St} {l : List Nat} {ts : List PTree} (h : ElemsEff lk fl src P a st l ts) (hd : a.done = b.done)
    (hc : c.done = st.done) : ElemsEff lk fl src P b c l ts := by
  intro cur k rs φ hi
  obtain ⟨rs', φ', h1, h2, h3, h4⟩ := h cur k rs φ (hi.of_done hd)
  refine ⟨rs', φ', h1, h2.of_done hc, fun j hj => h3 j ?_, h4⟩
  obtain ⟨x, hx⟩ := hj
  exact ⟨x, by simpa [St.look, hd] using hx⟩

theorem all_some (l : List (Option Nat)) (h : none ∉ l) : ∃ l' : List Nat, l = l'.map some := by
  induction l with
  | nil => exact ⟨[], rfl⟩
  | cons o l ih =>
    obtain ⟨l', rfl⟩ := ih (fun hh => h (by simp [hh]))
    cases o with
    | none => exact absurd (by simp) h
    | some i => exact ⟨i :: l', rfl⟩

theorem nodes_refs (l : List Nat) : (Val.refs (l.map some) : Val F).nodes = l := by
  simp only [Val.nodes]
  induction l with
  | nil => rfl
  | cons a l ih =>
    show a :: List.filterMap id (l.map some) = _
    rw [ih]

/-- One field's value. -/
theorem field_read (hlv : GoodOptions lv) (hl : Good lk fl src P lv lin) {d : FieldDecl F} {v : Val F} (hv : Readable fl d v)
    (hP : ∀ j ∈ v.nodes, P j) {st st' : St} (h : linField lv lin st d v = .ok st') (hw : st'.warned = false) :
    st.warned = false ∧ Grow st st' ∧ (∀ j ∈ v.nodes, Done st' j) ∧ ∃ C pre V, st'.out = st.out ++ C ∧ textOf C = pre ++ V ∧
      Ignorable pre ∧ VStart V ∧ ∀ w r, Sep lv w → Next r → ∃ t, Der gram (.nt .field) (V ++ (w ++ r)) (.ok [t] (V ++ w) r) ∧
        FieldEff lk fl src P st st' d v t := by
  -- the simple values
  have simple : (∀ o, v ≠ .ref o) → (∀ l, v ≠ .refs l) → (∀ l, v ≠ .strs l) →
      (∀ T, simpleText lv d v = .ok T → linField lv lin st d v = .ok (st.write T)) → st.warned = false ∧ Grow st st' ∧ (∀ j ∈ v.nodes, Done st' j) ∧ ∃ C pre V, st'.out = st.out ++ C ∧ textOf C = pre ++ V ∧
      Ignorable pre ∧ VStart V ∧ ∀ w r, Sep lv w → Next r → ∃ t, Der gram (.nt .field) (V ++ (w ++ r)) (.ok [t] (V ++ w) r) ∧
        FieldEff lk fl src P st st' d v t := by
    intro h1 h2 h3 h4
    obtain ⟨T, e1, e2, e3⟩ := simple_read hlv hv h1 h2 h3
    rw [h4 T e1] at h
    cases h
    have hn : v.nodes = [] := by
      cases v with
      | ref o => exact absurd rfl (h1 o)
      | refs l => exact absurd rfl (h2 l)
      | _ => rfl
    refine ⟨hw, Grow.of_done rfl, by simp [hn], [Chunk.text T], [], T, rfl, textOf_text T, .nil, e2, fun w r hw' hr => ?_⟩
    obtain ⟨m, kids, f1, f2, f3, f4, u, f5, f6⟩ := e3 w r (hw'.ign hlv) (hw'.ne hlv) hr
    refine ⟨_, f1, fun cur rs φ hi => ⟨rs, φ, .val u, u, disp_field_simple lk fl f2 f3 f5, rfl, ?_, hi.write T, Ext.refl _ _, Frame.refl _⟩⟩
    rw [mapRef_none v hn]; exact f6
  -- an empty list
  have empty : linField lv lin st d v = .ok (st.write ([' ', '['] ++ lv.courtesyspace ++ [']'])) → v.nodes = [] →
      (∀ m cur rs, ∃ rv u, disp lk fl (.node .field m []) cur (some d.kind) rs = some (rv, rs) ∧ rv.toVal = some u ∧
        coerce d.kind d.conv u = some v) → st.warned = false ∧ Grow st st' ∧ (∀ j ∈ v.nodes, Done st' j) ∧ ∃ C pre V, st'.out = st.out ++ C ∧ textOf C = pre ++ V ∧
      Ignorable pre ∧ VStart V ∧ ∀ w r, Sep lv w → Next r → ∃ t, Der gram (.nt .field) (V ++ (w ++ r)) (.ok [t] (V ++ w) r) ∧
        FieldEff lk fl src P st st' d v t := by
    intro h1 hn h2
    rw [h1] at h
    cases h
    refine ⟨hw, Grow.of_done rfl, by simp [hn], [Chunk.text _], [' '], ['['] ++ lv.courtesyspace ++ [']'], rfl, by simp [textOf_text], sp_ign,
      vstart_char (by decide) (by decide) (by decide) (by decide), fun w r hw' hr => ?_⟩
    refine ⟨_, field_empty hlv.plain.courtesyspace (hw'.ign hlv) hr, fun cur rs φ hi => ?_⟩
    obtain ⟨rv, u, g1, g2, g3⟩ := h2 _ cur rs
    exact ⟨rs, φ, rv, u, g1, g2, by rw [mapRef_none v hn]; exact g3, hi.of_done rfl, Ext.refl _ _, Frame.refl _⟩
  cases v with
  | ref o =>
    have hk : d.kind = .sfNode := hv
    cases o with
    | none =>
      simp only [linField, Except.ok.injEq] at h
      subst h
      refine ⟨hw, Grow.of_done rfl, by simp [Val.nodes], [Chunk.text _], [], ['N', 'U', 'L', 'L'], rfl, by simp [textOf_text], .nil,
        vstart_char (by decide) (by decide) (by decide) (by decide), fun w r hw' hr => ?_⟩
      refine ⟨_, field_null (hw'.ign hlv) hr, fun cur rs φ hi => ⟨rs, φ, .ref none, .ref none, ?_, rfl, by simp [hk, coerce, Val.mapRef], hi.write _, Ext.refl _ _, Frame.refl _⟩⟩
      rw [hk, disp_field_one lk fl rfl]; simp [disp]
    | some i =>
      simp only [linField] at h
      obtain ⟨h1, h2, h3, C, pre, V, h4, hpv, hpre, h5, h6⟩ := hl _ _ _ (hP i (by simp [Val.nodes])) h hw
      refine ⟨h1, h2, by simpa [Val.nodes] using h3, C, pre, V, h4, hpv, hpre, vstart_start h5, fun w r hw' hr => ?_⟩
      obtain ⟨t, h7, h8, h9⟩ := h6 w r hw' hr.1
      obtain ⟨c, s, hcs, -, hcb⟩ := h5.head
      refine ⟨_, field_one ⟨c, s, hcs, hcb⟩ hr (fieldItem1_X h5 h7), fun cur rs φ hi => ?_⟩
      obtain ⟨rs', φ', e1, e2, e3, e4⟩ := h9 cur (some .sfNode) rs φ hi
      exact ⟨rs', φ', .ref (some (φ' i)), .ref (some (φ' i)), by rw [hk, disp_field_one lk fl h8]; exact e1, rfl, by simp [hk, coerce, Val.mapRef], e2, e3, e4⟩
  | refs l =>
    obtain ⟨hk, hno⟩ := hv
    obtain ⟨l, rfl⟩ := all_some l hno
    by_cases h0 : l = []
    · subst h0
      refine empty (by simp [linField, linMF]) rfl (fun m cur rs => ⟨.val (.refs []), .refs [], by rw [hk]; exact disp_field_none lk fl, rfl, by simp [hk, coerce]⟩)
    · simp only [linField, linMF, List.map_eq_nil_iff, h0, if_false] at h
      generalize hst0 : ({ st with level := st.level + 1 } : St).write ['[', ' '] = st0 at h
      have hd0 : st0.done = st.done := by subst hst0; rfl
      have hout0 : st0.out = st.out ++ [Chunk.text ['[', ' ']] := by subst hst0; rfl
      have hw00 : st0.warned = st.warned := by subst hst0; rfl
      cases he : linElems lv lin st0 (l.map some) with
      | error e => rw [he] at h; cases h
      | ok st1 =>
        rw [he] at h
        simp only [Except.ok.injEq] at h
        subst h
        simp only [St.write] at hw
        obtain ⟨a1, a2, a3, C, w0, B, a4, a5, a6, a7, a8⟩ := elems_read hlv hl l st0 st1 h0 (by rw [nodes_refs] at hP; exact hP) he hw
        rw [nodes_refs]
        have hg : Grow st1 { (st1.write (lv.fullSep ++ st1.cur lv ++ [']'])) with level := st1.level - 1 } := Grow.of_done rfl
        refine ⟨by rw [← hw00]; exact a1, ((Grow.of_done hd0).trans a2).trans hg, fun j hj => hg.done (a3 j hj),
          Chunk.text ['[', ' '] :: (C ++ [Chunk.text (lv.fullSep ++ st1.cur lv ++ [']'])]), [], '[' :: ([' '] ++ (lv.fullSep ++ w0) ++ (B ++ (lv.fullSep ++ st1.cur lv ++ [']']))), ?_, ?_, .nil,
          vstart_char (by decide) (by decide) (by decide) (by decide), fun w r hw' hr => ?_⟩
        · simp only [St.write, a4, hout0, List.append_assoc, List.cons_append, List.nil_append]
        · simp [textOf_cons, textOf_append, textOf_nil, Chunk.toText, a5]
        · obtain ⟨t, ts, b1, b2, b3⟩ := a8 (lv.fullSep ++ st1.cur lv) (w ++ r) ⟨_, rfl, cur_ign hlv st1⟩
          have hig : Ignorable ([' '] ++ (lv.fullSep ++ w0)) := sp_ign.append (hlv.plain.fullSep.append a6)
          have c1 : Der gram (gram .field) (['['] ++ (([' '] ++ (lv.fullSep ++ w0)) ++ (B ++ ((lv.fullSep ++ st1.cur lv) ++ ([']'] ++ (w ++ r)))))) _ :=
            .altL (.seq (.lit ['['] _) (.seq (C07_ignorable_skipped hig (a7.mean _)) (.seq b1
              (.seq (.cut (.lit [']'] _)) (C07_ignorable_skipped (hw'.ign hlv) hr.1)))))
          have c2 := Der.nt (g := gram) (n := NT.field) c1
          simp only [List.nil_append, List.append_nil] at c2
          refine ⟨_, by simpa using c2, fun cur rs φ hi => ?_⟩
          obtain ⟨rs', φ', e1, e2, e3, e4⟩ := (b3.of_done hd0 (c := { (st1.write (lv.fullSep ++ st1.cur lv ++ [']'])) with level := st1.level - 1 }) rfl) cur (some .mfNode) rs φ hi
          refine ⟨rs', φ', _, .refs ((l.map φ').map some), by rw [hk]; exact disp_field_list lk fl b2 e1, ?_, ?_, e2, e3, e4⟩
          · have := toVal_refs (F := F) (l.map φ')
            rw [List.map_map] at this
            exact this
          · simp [hk, coerce, Val.mapRef, Function.comp_def]
  | strs l =>
    obtain ⟨hk, rfl⟩ := hv
    refine empty (by simp [linField, linMF]) rfl (fun m cur rs => ⟨.val (.strs []), .strs [], ?_, rfl, by simp [hk, coerce]⟩)
    rw [hk]; simp [disp, simpleValue, ParseVal.mfString]
  | bool b => exact simple (by simp) (by simp) (by simp) (fun T hT => by simp only [linField, hT])
  | int b => exact simple (by simp) (by simp) (by simp) (fun T hT => by simp only [linField, hT])
  | num b => exact simple (by simp) (by simp) (by simp) (fun T hT => by simp only [linField, hT])
  | str b => exact simple (by simp) (by simp) (by simp) (fun T hT => by simp only [linField, hT])
  | ints b => exact simple (by simp) (by simp) (by simp) (fun T hT => by simp only [linField, hT])
  | nums b => exact simple (by simp) (by simp) (by simp) (fun T hT => by simp only [linField, hT])
  | rows b => exact simple (by simp) (by simp) (by simp) (fun T hT => by simp only [linField, hT])
end

end Verif.Lin
