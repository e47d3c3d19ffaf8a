import Verif.Lemmas.RoundTrip
/-!
Lemmas for C09 and C67: items between braces, and declarations of fields and events.
-/
namespace Verif.Lin
open Verif.Peg Verif.Grammar Verif.TextOut Verif.Text Verif.SceneText Verif.ListText
variable {F : Type}

/-! ### Lists -/

theorem forall2_split {α β : Type} {R : α → β → Prop} : ∀ (l1 l2 : List α) (l : List β), List.Forall₂ R (l1 ++ l2) l → ∃ m1 m2, l = m1 ++ m2 ∧ List.Forall₂ R l1 m1 ∧ List.Forall₂ R l2 m2 := by
  intro l1
  induction l1 with
  | nil => intro l2 l h; exact ⟨[], l, rfl, .nil, h⟩
  | cons a l1 ih =>
    intro l2 l h
    cases h with
    | cons h1 h2 =>
      obtain ⟨m1, m2, rfl, h3, h4⟩ := ih l2 _ h2
      exact ⟨_ :: m1, m2, rfl, .cons h1 h3, h4⟩

theorem forall2_join {α β : Type} {R : α → β → Prop} {l1 l2 : List α} {m1 m2 : List β} (h1 : List.Forall₂ R l1 m1) (h2 : List.Forall₂ R l2 m2) : List.Forall₂ R (l1 ++ l2) (m1 ++ m2) := by
  induction h1 with
  | nil => exact h2
  | cons h _ ih => exact .cons h ih

theorem forall2_mem_left {α β : Type} {R : α → β → Prop} {l : List α} {m : List β} (h : List.Forall₂ R l m) : ∀ a ∈ l, ∃ b ∈ m, R a b := by
  induction h with
  | nil => simp
  | cons h _ ih =>
    intro a ha
    rcases List.mem_cons.1 ha with rfl | ha
    · exact ⟨_, by simp, h⟩
    · obtain ⟨b, hb, hr⟩ := ih a ha; exact ⟨b, by simp [hb], hr⟩

theorem forall2_mem_right {α β : Type} {R : α → β → Prop} {l : List α} {m : List β} (h : List.Forall₂ R l m) : ∀ b ∈ m, ∃ a ∈ l, R a b := by
  induction h with
  | nil => simp
  | cons h _ ih =>
    intro a ha
    rcases List.mem_cons.1 ha with rfl | ha
    · exact ⟨_, by simp, h⟩
    · obtain ⟨b, hb, hr⟩ := ih a ha; exact ⟨b, by simp [hb], hr⟩

theorem insertBy_perm {α : Type} (le : α → α → Bool) (a : α) : ∀ l : List α, (insertBy le a l).Perm (a :: l)
  | [] => .refl _
  | b :: l => by
    rw [insertBy]; split
    · exact .refl _
    · exact ((insertBy_perm le a l).cons b).trans (.swap _ _ _)

theorem sortBy_perm {α : Type} (le : α → α → Bool) : ∀ l : List α, (sortBy le l).Perm l
  | [] => .refl _
  | a :: l => (insertBy_perm le a _).trans ((sortBy_perm le l).cons a)

theorem shownName_iff (t : Text) : shownName t = true ↔ t ≠ [] ∧ ∀ s, t ≠ ' ' :: s := by
  cases t with
  | nil => simp [shownName]
  | cons c s => simp [shownName]

/-! ### Texts of declarations -/

theorem type_mean {ty : Text} (h : TypeName ty) (r : Text) : Meaningful (ty ++ r) := by
  obtain ⟨s, -, rfl | rfl⟩ := h <;> exact meaningful_head (by decide) (by decide)

theorem type_head {ty : Text} (h : TypeName ty) : ∃ c s, ty = c :: s ∧ isBlank c = false ∧ c ≠ '#' ∧ c ≠ '{' := by
  obtain ⟨s, -, rfl | rfl⟩ := h <;> exact ⟨_, _, rfl, by decide, by decide, by decide⟩

theorem dataType_der {ty r : Text} (h : TypeName ty) (hr : NameEnd r) :
    ∃ k, Der gram (.nt .dataType) (ty ++ r) (.ok [.node .dataType ty k] ty r) := by
  obtain ⟨s, hs, rfl | rfl⟩ := h
  · have h1 : Der gram (gram .dataType) (['S', 'F'] ++ (s ++ r)) _ := .seq (.altL (.altL (.lit _ _))) (name_der hs hr)
    exact ⟨_, by simpa using Der.nt (g := gram) (n := NT.dataType) h1⟩
  · have h1 : Der gram (gram .dataType) (['M', 'F'] ++ (s ++ r)) _ := .seq (.altL (.altR (lit_fail1 (by decide)) (.lit _ _))) (name_der hs hr)
    exact ⟨_, by simpa using Der.nt (g := gram) (n := NT.dataType) h1⟩

/-- A text that begins with a word of a declaration and a type does not continue a value. -/
theorem next_decl {k ty r : Text} (hk : k ∈ [chars "field", chars "exposedField", chars "eventIn", chars "eventOut"]) (ht : TypeName ty) : Next (k ++ ([' '] ++ (ty ++ r))) := by
  obtain ⟨c, s, rfl, h1, h2, h3⟩ := type_head ht
  have hs : SafeName k := by
    simp only [List.mem_cons, List.not_mem_nil, or_false] at hk
    rcases hk with rfl | rfl | rfl | rfl <;> decide
  exact next_attr (s := s ++ r) hs sp_ign (by simp) h1 h2 h3

theorem mfString_vstart (lv : LinValues) (l : List Text) : VStart (mfStringStr lv l) := by
  have hb : ∀ s, VStart ('[' :: s) := fun s => vstart_char (by decide) (by decide) (by decide) (by decide)
  have hq : ∀ s, VStart (sfStringStr s) := fun s => by
    obtain ⟨t, ht⟩ := str_head s
    rw [ht]; exact vstart_char (by decide) (by decide) (by decide) (by decide)
  have one : l ≠ [] → ¬ (l.map sfStringStr).length > 1 → ∃ s, l = [s] := by
    intro h1 h2
    cases l with
    | nil => exact absurd rfl h1
    | cons a l => cases l with
      | nil => exact ⟨a, rfl⟩
      | cons b l => simp at h2
  unfold mfStringStr
  split
  · exact hb _
  · rename_i h0
    simp only
    split
    · split
      · simp only [List.append_assoc, List.cons_append, List.nil_append]; exact hb _
      · rename_i h1
        obtain ⟨s, rfl⟩ := one h0 h1
        simpa using hq s
    · split
      · simp only [List.append_assoc, List.cons_append, List.nil_append]; exact hb _
      · rename_i h1
        obtain ⟨s, rfl⟩ := one h0 h1
        simpa [pyJoin] using hq s

theorem dfltOf_value (v : Val F) : (dfltOf v).value = some v := by
  cases v with
  | ref o => cases o <;> rfl
  | _ => rfl

/-- What a list of field declarations does. -/
theorem fold_fields : ∀ (Gs : List (PField F)) (p : ProtoDef F), (Gs.map (fun f => f.decl.name)).Nodup →
    let q := (Gs.map (fun f (p : ProtoDef F) => p.addField f)).foldl (fun p u => u p) p
    q.fields = p.fields.filter (fun g => !(Gs.map (fun f => f.decl.name)).contains g.decl.name) ++ Gs ∧
    q.events = p.events.filter (fun e => !(Gs.map (fun f => f.decl.name)).contains e.name) ∧ q.name = p.name ∧ q.body = p.body ∧ q.free = p.free ∧
    q.url = (if chars "externalURL" ∈ Gs.map (fun f => f.decl.name) then .declared else p.url) := by
  intro Gs
  induction Gs with
  | nil => intro p _; simp
  | cons f Gs ih =>
    intro p hnd
    simp only [List.map_cons, List.nodup_cons] at hnd
    obtain ⟨h1, h2, h3, h4, h5, h6⟩ := ih (p.addField f) hnd.2
    simp only [List.map_cons, List.foldl_cons]
    refine ⟨?_, ?_, h3, h4, h5, ?_⟩
    · rw [h1]
      have hf : (Gs.map (fun f => f.decl.name)).contains f.decl.name = false := by simpa using hnd.1
      simp only [ProtoDef.addField, List.filter_append, List.filter_filter, List.filter_cons, hf, List.filter_nil, Bool.not_false, if_true, List.append_assoc, List.cons_append, List.nil_append]
      congr 1
      apply List.filter_congr
      intro x _
      by_cases hx : x.decl.name = f.decl.name <;> simp [hx]
    · rw [h2]
      simp only [ProtoDef.addField, List.filter_filter]
      apply List.filter_congr
      intro x _
      by_cases hx : x.name = f.decl.name <;> simp [hx]
    · rw [h6]
      simp only [ProtoDef.addField, List.mem_cons]
      by_cases h : chars "externalURL" ∈ Gs.map (fun f => f.decl.name)
      · simp [h]
      · by_cases hx : f.decl.name = chars "externalURL"
        · simp [hx]
        · simp [h, hx, Ne.symm hx]

/-- What a list of event declarations does. -/
theorem fold_events : ∀ (Es : List EventDecl) (p : ProtoDef F), (Es.map EventDecl.name).Nodup →
    let q := (Es.map (fun e (p : ProtoDef F) => p.addEvent e)).foldl (fun p u => u p) p
    q.fields = p.fields.filter (fun g => !(Es.map EventDecl.name).contains g.decl.name) ∧
    q.events = p.events.filter (fun e => !(Es.map EventDecl.name).contains e.name) ++ Es ∧ q.name = p.name ∧ q.body = p.body ∧ q.free = p.free ∧ q.url = p.url := by
  intro Es
  induction Es with
  | nil => intro p _; simp
  | cons e Es ih =>
    intro p hnd
    simp only [List.map_cons, List.nodup_cons] at hnd
    obtain ⟨h1, h2, h3, h4, h5, h6⟩ := ih (p.addEvent e) hnd.2
    simp only [List.map_cons, List.foldl_cons]
    refine ⟨?_, ?_, h3, h4, h5, h6⟩
    · rw [h1]
      simp only [ProtoDef.addEvent, List.filter_filter]
      apply List.filter_congr
      intro x _
      by_cases hx : x.decl.name = e.name <;> simp [hx]
    · rw [h2]
      have hf : (Es.map EventDecl.name).contains e.name = false := by simpa using hnd.1
      simp only [ProtoDef.addEvent, List.filter_append, List.filter_filter, List.filter_cons, hf, List.filter_nil, Bool.not_false, if_true, List.append_assoc, List.cons_append, List.nil_append]
      congr 1
      apply List.filter_congr
      intro x _
      by_cases hx : x.name = e.name <;> simp [hx]

/-! ### Items between braces -/

/-- A text that does not continue a value and does not begin with `IS`. -/
def NextS (r : Text) : Prop := Next r ∧ Der gram (kw "IS") r .fail

theorem nextS_brace (s : Text) : NextS ('}' :: s) := ⟨next_brace s, lit_fail1 (by decide)⟩

theorem nextS_decl {k ty r : Text} (hk : k ∈ [chars "field", chars "exposedField", chars "eventIn", chars "eventOut"]) (ht : TypeName ty) : NextS (k ++ ([' '] ++ (ty ++ r))) := by
  refine ⟨next_decl hk ht, ?_⟩
  simp only [List.mem_cons, List.not_mem_nil, or_false] at hk
  rcases hk with rfl | rfl | rfl | rfl <;> exact lit_fail1 (by decide)

/-- `T` is a separator and items of the kind `It`, or nothing; the trees of the items have the property `E`. -/
def Block (lv : LinValues) (It : E) (T : Text) (Eff : List PTree → Prop) : Prop :=
  (T = [] ∧ Eff []) ∨ ∃ w0 body, T = lv.fullSep ++ w0 ++ body ∧ Ignorable w0 ∧ (∀ z, NextS (body ++ z)) ∧
    ∀ w r, Sep lv w → NextS r → ∃ ts, (∀ ts' m r', Der gram (.star It) r (.ok ts' m r') →
      Der gram (.star It) (body ++ (w ++ r)) (.ok (ts ++ ts') (body ++ (w ++ m)) r')) ∧ Eff ts

theorem Block.mono {lv : LinValues} {It : E} {T : Text} {E1 E2 : List PTree → Prop} (h : Block lv It T E1) (he : ∀ ts, E1 ts → E2 ts) : Block lv It T E2 := by
  rcases h with ⟨h1, h2⟩ | ⟨w0, body, h1, h2, h3, h4⟩
  · exact .inl ⟨h1, he _ h2⟩
  · refine .inr ⟨w0, body, h1, h2, h3, fun w r hw hr => ?_⟩
    obtain ⟨ts, h5, h6⟩ := h4 w r hw hr
    exact ⟨ts, h5, he _ h6⟩

theorem Block.append {lv : LinValues} {It : E} {T U : Text} {E1 E2 : List PTree → Prop} (h : Block lv It T E1) (h' : Block lv It U E2) :
    Block lv It (T ++ U) (fun ts => ∃ a b, ts = a ++ b ∧ E1 a ∧ E2 b) := by
  rcases h with ⟨h1, h2⟩ | ⟨w0, body, h1, h2, h3, h4⟩
  · subst h1
    exact h'.mono (fun ts ht => ⟨[], ts, rfl, h2, ht⟩)
  · rcases h' with ⟨g1, g2⟩ | ⟨w0', body', g1, g2, g3, g4⟩
    · subst g1
      rw [List.append_nil]
      exact Block.mono (E1 := E1) (.inr ⟨w0, body, h1, h2, h3, h4⟩) (fun ts ht => ⟨ts, [], by simp, ht, g2⟩)
    · subst h1 g1
      refine .inr ⟨w0, body ++ (lv.fullSep ++ w0' ++ body'), by simp, h2, fun z => by simpa using h3 (lv.fullSep ++ w0' ++ body' ++ z), fun w r hw hr => ?_⟩
      obtain ⟨b, e1, e2⟩ := g4 w r hw hr
      obtain ⟨a, f1, f2⟩ := h4 (lv.fullSep ++ w0') (body' ++ (w ++ r)) ⟨w0', rfl, g2⟩ (g3 _)
      refine ⟨a ++ b, fun ts' m r' hd => ?_, a, b, rfl, f2, e2⟩
      have := f1 _ _ _ (e1 _ _ _ hd)
      simpa using this

/-- one item -/
theorem Block.item {lv : LinValues} {It : E} {w0 body : Text} {Eff : List PTree → Prop} (h0 : Ignorable w0) (hne : body ≠ []) (hb : ∀ z, NextS (body ++ z))
    (h : ∀ w r, Sep lv w → NextS r → ∃ t, Der gram It (body ++ (w ++ r)) (.ok [t] (body ++ w) r) ∧ Eff [t]) : Block lv It (lv.fullSep ++ w0 ++ body) Eff := by
  refine .inr ⟨w0, body, rfl, h0, hb, fun w r hw hr => ?_⟩
  obtain ⟨t, h1, h2⟩ := h w r hw hr
  refine ⟨[t], fun ts' m r' hd => ?_, h2⟩
  have := Der.starCons h1 (by simp [hne]) hd
  simpa using this

/-! ### Declarations of Scripts -/

theorem script_event_der {e : EventDecl} {w r : Text} (hn : LegalName e.name) (ht : TypeName e.type) (hw : Ignorable w) (h0 : w ≠ []) (hr : NextS r) :
    ∃ m k1 k2 k3, Der gram scriptItem (eventText e ++ (w ++ r))
      (.ok [.node .scriptEventDecl m [.node .eventDirection (if e.out then chars "eventOut" else chars "eventIn") k1, .node .dataType e.type k2, .node .name e.name k3]]
        (eventText e ++ w) r) := by
  obtain ⟨k2, hk⟩ := dataType_der (r := [' '] ++ (e.name ++ (w ++ r))) ht (nameEnd_cons (by decide))
  have main : ∀ dir : Text, Der gram (gram .eventDirection) (dir ++ ([' '] ++ (e.type ++ ([' '] ++ (e.name ++ (w ++ r)))))) (.ok [] dir ([' '] ++ (e.type ++ ([' '] ++ (e.name ++ (w ++ r)))))) →
      Der gram (gram .scriptEventDecl) (dir ++ ([' '] ++ (e.type ++ ([' '] ++ (e.name ++ (w ++ r)))))) _ := fun dir hd =>
    .seq (Der.nt (g := gram) (n := NT.eventDirection) hd) (.seq (C07_ignorable_skipped sp_ign (type_mean ht _)) (.seq (.cut hk)
      (.seq (.cut (C07_ignorable_skipped sp_ign (legal_mean hn _))) (.seq (.cut (name_der hn (nameEnd_ign hw h0))) (.seq (.cut (C07_ignorable_skipped hw hr.1.1))
        (.cut (.altR (.seqFail1 hr.2) (.eps _))))))))
  have hfail : ∀ s : Text, Der gram (.nt .scriptFieldDecl) ('e' :: 'v' :: s) .fail := fun s => run_sound 20 _ _ _ (by rfl)
  cases ho : e.out with
  | false =>
    have h1 := main (chars "eventIn") (.altL (.lit _ _))
    have h2 : Der gram scriptItem _ _ := .altR (hfail _) (.altL (Der.nt (g := gram) (n := NT.scriptEventDecl) h1))
    exact ⟨_, _, _, _, by simpa [eventText, ho] using h2⟩
  | true =>
    have h1 := main (chars "eventOut") (.altR (.litFail (by simp)) (.lit _ _))
    have h2 : Der gram scriptItem _ _ := .altR (hfail _) (.altL (Der.nt (g := gram) (n := NT.scriptEventDecl) h1))
    exact ⟨_, _, _, _, by simpa [eventText, ho] using h2⟩

theorem script_field_der {f : PField F} {pre V w r : Text} {t : PTree} (hn : LegalName f.decl.name) (ht : TypeName f.decl.cls) (hpre : Ignorable pre) (hV : VStart V)
    (hf : Der gram (.nt .field) (V ++ (w ++ r)) (.ok [t] (V ++ w) r)) (hr : Meaningful r) :
    ∃ m k1 k2 k3, Der gram scriptItem (fieldHead f ++ (pre ++ V) ++ (w ++ r))
      (.ok [.node .scriptFieldDecl m [.node .fieldExposure (if f.exposed then chars "exposedField" else chars "field") k1, .node .dataType f.decl.cls k2, .node .name f.decl.name k3, t]]
        (fieldHead f ++ (pre ++ V) ++ w) r) := by
  obtain ⟨k2, hk⟩ := dataType_der (r := [' '] ++ (f.decl.name ++ (([' '] ++ pre) ++ (V ++ (w ++ r))))) ht (nameEnd_cons (by decide))
  have main : ∀ dir : Text, Der gram (gram .fieldExposure) (dir ++ ([' '] ++ (f.decl.cls ++ ([' '] ++ (f.decl.name ++ (([' '] ++ pre) ++ (V ++ (w ++ r)))))))) (.ok [] dir ([' '] ++ (f.decl.cls ++ ([' '] ++ (f.decl.name ++ (([' '] ++ pre) ++ (V ++ (w ++ r)))))))) →
      Der gram (gram .scriptFieldDecl) (dir ++ ([' '] ++ (f.decl.cls ++ ([' '] ++ (f.decl.name ++ (([' '] ++ pre) ++ (V ++ (w ++ r)))))))) _ := fun dir hd =>
    .seq (Der.nt (g := gram) (n := NT.fieldExposure) hd) (.seq (C07_ignorable_skipped sp_ign (type_mean ht _)) (.seq (.cut hk)
      (.seq (.cut (C07_ignorable_skipped sp_ign (legal_mean hn _))) (.seq (.cut (name_der hn (nameEnd_cons (by decide))))
        (.seq (.cut (C07_ignorable_skipped (sp_ign.append hpre) (hV.mean _))) (.seq (.cut (.altR (.seqFail1 (hV.noIs _)) hf)) (.cut (C07_ignorable_skipped (s := []) .nil hr))))))))
  cases ho : f.exposed with
  | false =>
    have h1 := main (chars "field") (.altL (.lit _ _))
    have h2 : Der gram scriptItem _ _ := .altL (Der.nt (g := gram) (n := NT.scriptFieldDecl) h1)
    exact ⟨_, _, _, _, by simpa [fieldHead, ho] using h2⟩
  | true =>
    have h1 := main (chars "exposedField") (.altR (lit_fail1 (by decide)) (.lit _ _))
    have h2 : Der gram scriptItem _ _ := .altL (Der.nt (g := gram) (n := NT.scriptFieldDecl) h1)
    exact ⟨_, _, _, _, by simpa [fieldHead, ho] using h2⟩

theorem plain_cur {lv : LinValues} (hlv : GoodOptions lv) (st : St) : PlainOptions { lv with curindent := st.cur lv } :=
  ⟨hlv.plain.subelspacer, cur_ign hlv st, hlv.plain.indent, hlv.plain.numsep, hlv.plain.fullSep, hlv.plain.courtesyspace, hlv.plain.numsep_ne, hlv.plain.subelspacer_ne⟩

section
variable {lk : Text → Option (Class F)} {fl : Floats F} {src : Scene F} {P : Nat → Prop} {lv : LinValues} {lin : St → Nat → Res St}

/-- The default of a declared field. -/
theorem default_read (hlv : GoodOptions lv) (hl : Good lk fl src P lv lin) {d : FieldDecl F} {v : Val F} (hd : d.default = some v)
    (hv : (∃ l, v = .strs l ∧ d.kind = .mfString) ∨ Readable fl d v)
    (hP : ∀ j ∈ v.nodes, P j) {st st' : St} (h : linDefault lv lin st d = .ok st') (hw : st'.warned = false) :
    st.warned = false ∧ Grow st st' ∧ (∀ j ∈ v.nodes, Done st' j) ∧ ∃ C pre V, st'.out = st.out ++ C ∧ textOf C = pre ++ V ∧
      Ignorable pre ∧ VStart V ∧ ∀ w r, Sep lv w → Next r → ∃ t, Der gram (.nt .field) (V ++ (w ++ r)) (.ok [t] (V ++ w) r) ∧
        FieldEff lk fl src P st st' d v t := by
  obtain ⟨u0, hu0, hc0⟩ := Option.bind_eq_some_iff.1 hd
  have strs : ∀ l, v = .strs l → d.kind = .mfString → st.warned = false ∧ Grow st st' ∧ (∀ j ∈ v.nodes, Done st' j) ∧ ∃ C pre V, st'.out = st.out ++ C ∧ textOf C = pre ++ V ∧
      Ignorable pre ∧ VStart V ∧ ∀ w r, Sep lv w → Next r → ∃ t, Der gram (.nt .field) (V ++ (w ++ r)) (.ok [t] (V ++ w) r) ∧
        FieldEff lk fl src P st st' d v t := by
    rintro l rfl hk
    simp only [linDefault, hu0, hc0, Except.ok.injEq] at h
    subst h
    refine ⟨hw, Grow.of_done rfl, by simp [Val.nodes], [Chunk.text _], [], mfStringStr { lv with curindent := st.cur lv } l, rfl, by rw [textOf_text]; rfl, .nil, mfString_vstart _ l, fun w r hw' hr => ?_⟩
    obtain ⟨t, a1, a2, a3⟩ := mfstring_der (plain_cur hlv st) l (hw'.ign hlv) hr.1 (fun _ => hr.2)
    obtain ⟨m, kids, rfl⟩ : ∃ m kids, t = .node .field m kids := by cases a1; exact ⟨_, _, rfl⟩
    refine ⟨_, a1, fun cur rs φ hi => ⟨rs, φ, .val (.strs l), .strs l, ?_, rfl, by simp [coerce, hk, Val.mapRef], hi.write _, Ext.refl _ _, Frame.refl _⟩⟩
    refine disp_field_simple lk fl (fun k hkk => by rw [a3 k hkk]; rfl) (by simp [hk]) ?_
    rw [hk]
    simp only [ParseVal.Tree.kids] at a2
    simp only [simpleValue, a2]
  rcases hv with ⟨l, hl1, hl2⟩ | hv
  · exact strs l hl1 hl2
  · by_cases hs : ∃ l, v = .strs l
    · obtain ⟨l, rfl⟩ := hs
      exact strs l rfl hv.1
    · have : linDefault lv lin st d = linField lv lin st d v := by
        simp only [linDefault, hu0, hc0]
        cases v with
        | strs l => exact absurd ⟨l, rfl⟩ hs
        | _ => rfl
      rw [this] at h
      exact field_read hlv hl hv hP h hw

variable (lk fl src P)
/-- A field declaration and its copy. -/
structure SamePort (φ : Nat → Nat) (f g : PField F) : Prop where
  type : SameType f.decl g.decl
  exposed : g.exposed = f.exposed
  dflt : ∃ v, f.decl.default = some v ∧ g.decl.default = some (v.mapRef φ)

/-- What reading the declarations of a Script does: `Es` and copies of `Fs` are added to its class. -/
def DeclsEff (st st' : St) (Es : List EventDecl) (Fs : List (PField F)) (ts : List PTree) : Prop :=
  (∀ t ∈ ts, ParseVal.Tree.tag t = .scriptEventDecl ∨ ParseVal.Tree.tag t = .scriptFieldDecl) ∧
  ∀ i rs φ, Inv src P st rs φ → ∃ rs' φ' Gs, (∀ p is ts', dispDecls lk fl (ts ++ ts') i p is rs =
      dispDecls lk fl ts' i (Gs.foldl ProtoDef.addField (Es.foldl ProtoDef.addEvent p)) is rs') ∧
    Inv src P st' rs' φ' ∧ Ext st φ φ' ∧ Frame rs rs' ∧ List.Forall₂ (SamePort φ') Fs Gs
variable {lk fl src P}

theorem SamePort.congr {φ φ' : Nat → Nat} {f g : PField F} (h : SamePort φ f g) (hφ : ∀ v, f.decl.default = some v → ∀ j ∈ v.nodes, φ' j = φ j) : SamePort φ' f g := by
  obtain ⟨v, h1, h2⟩ := h.dflt
  exact ⟨h.type, h.exposed, v, h1, by rw [h2, mapRef_congr v (hφ v h1)]⟩

/-- The events of a Script. -/
theorem events_block (hlv : GoodOptions lv) {st st' : St} (hst : st'.done = st.done) {cur : Text} (hcur : Ignorable cur) : ∀ Es : List EventDecl,
    (∀ e ∈ Es, LegalName e.name ∧ reserved e.name = false ∧ TypeName e.type ∧ fl.types.event e.type = true ∧ e.name ≠ chars "externalURL") →
    Block lv scriptItem ((Es.map (fun e => lv.fullSep ++ cur ++ eventText e)).flatten) (DeclsEff lk fl src P st st' Es []) := by
  intro Es
  induction Es with
  | nil =>
    intro _
    exact .inl ⟨rfl, by simp, fun i rs φ hi => ⟨rs, φ, [], fun _ _ _ => rfl, hi.of_done hst, Ext.refl _ _, Frame.refl _, .nil⟩⟩
  | cons e Es ih =>
    intro h
    obtain ⟨h1, h2, h3, h4, h5⟩ := h e (by simp)
    have hne : eventText e ≠ [] := by cases ho : e.out <;> simp [eventText, ho]
    have hnext : ∀ z, NextS (eventText e ++ z) := fun z => by
      have := nextS_decl (k := if e.out then chars "eventOut" else chars "eventIn") (r := [' '] ++ e.name ++ z) (by split <;> simp) h3
      simpa [eventText] using this
    have b1 : Block lv scriptItem (lv.fullSep ++ cur ++ eventText e) (DeclsEff lk fl src P st st [e] []) := by
      refine Block.item hcur hne hnext (fun w r hw hr => ?_)
      obtain ⟨m, k1, k2, k3, hd⟩ := script_event_der h1 h3 (hw.ign hlv) (hw.ne hlv) hr
      refine ⟨_, hd, by simp [ParseVal.Tree.tag], fun i rs φ hi => ⟨rs, φ, [], fun p is ts' => ?_, hi, Ext.refl _ _, Frame.refl _, .nil⟩⟩
      have ho : decide ((if e.out = true then chars "eventOut" else chars "eventIn") = chars "eventOut") = e.out := by cases e.out <;> decide
      have h5' : (e.name == chars "externalURL") = false := by simpa using h5
      simp only [List.cons_append, List.nil_append, dispDecls, h2, h5', Bool.or_self, Bool.false_eq_true, if_false, h4, if_true, ho, List.foldl_cons, List.foldl_nil]
    have b2 := b1.append (ih (fun e' he' => h e' (by simp [he'])))
    rw [List.map_cons, List.flatten_cons]
    refine b2.mono (fun ts hts => ?_)
    obtain ⟨a, b, rfl, ha, hb⟩ := hts
    refine ⟨fun t ht => ?_, fun i rs φ hi => ?_⟩
    · rcases List.mem_append.1 ht with ht | ht
      · exact ha.1 t ht
      · exact hb.1 t ht
    · obtain ⟨rs1, φ1, G1, c1, c2, c3, c4, c5⟩ := ha.2 i rs φ hi
      obtain ⟨rs2, φ2, G2, d1, d2, d3, d4, d5⟩ := hb.2 i rs1 φ1 c2
      cases c5; cases d5
      refine ⟨rs2, φ2, [], fun p is ts' => ?_, d2, Ext.trans (Grow.refl _) c3 d3, c4.trans d4, .nil⟩
      rw [List.append_assoc, c1, d1]
      rfl

/-- The field declarations of a Script. -/
theorem decls_block (hlv : GoodOptions lv) (hl : Good lk fl src P lv lin) : ∀ (Fs : List (PField F)) (st st' : St),
    (∀ f ∈ Fs, LegalName f.decl.name ∧ reserved f.decl.name = false ∧ TypeName f.decl.cls ∧ fl.types.field f.decl.cls = some ⟨f.decl.kind, f.decl.str, f.decl.conv⟩ ∧
      ∃ v, f.decl.default = some v ∧ ((∃ l, v = .strs l ∧ f.decl.kind = .mfString) ∨ Readable fl f.decl v) ∧ ∀ j ∈ v.nodes, P j) →
    linDecls lv lin st Fs = .ok st' → st'.warned = false →
    st.warned = false ∧ Grow st st' ∧ (∀ f ∈ Fs, ∀ v, f.decl.default = some v → ∀ j ∈ v.nodes, Done st' j) ∧
      ∃ C, st'.out = st.out ++ C ∧ Block lv scriptItem (textOf C) (DeclsEff lk fl src P st st' [] Fs) := by
  intro Fs
  induction Fs with
  | nil =>
    intro st st' _ h hw
    simp only [linDecls, Except.ok.injEq] at h
    subst h
    exact ⟨hw, Grow.refl _, by simp, [], by simp, .inl ⟨rfl, by simp, fun i rs φ hi => ⟨rs, φ, [], fun _ _ _ => rfl, hi, Ext.refl _ _, Frame.refl _, .nil⟩⟩⟩
  | cons f Fs ih =>
    intro st st' hF h hw
    obtain ⟨h1, h2, h3, h4, v, hv1, hv2, hv3⟩ := hF f (by simp)
    simp only [linDecls] at h
    generalize hst0 : st.write (lv.fullSep ++ st.cur lv ++ fieldHead f) = st0 at h
    have hd0 : st0.done = st.done := by subst hst0; rfl
    have hout0 : st0.out = st.out ++ [Chunk.text (lv.fullSep ++ st.cur lv ++ fieldHead f)] := by subst hst0; rfl
    have hw00 : st0.warned = st.warned := by subst hst0; rfl
    have hgr0 : Grow st st0 := Grow.of_done hd0
    cases hdef : linDefault lv lin st0 f.decl with
    | error e => rw [hdef] at h; cases h
    | ok st1 =>
      rw [hdef] at h
      simp only at h
      obtain ⟨i1, i2, i3, C2, i4, i5⟩ := ih st1 st' (fun g hg => hF g (by simp [hg])) h hw
      obtain ⟨f1, f2, f3, C, pre, V, f4, f5, f6, f7, f8⟩ := default_read hlv hl hv1 hv2 hv3 hdef i1
      refine ⟨by rw [← hw00]; exact f1, (hgr0.trans f2).trans i2, ?_, Chunk.text (lv.fullSep ++ st.cur lv ++ fieldHead f) :: C ++ C2, by rw [i4, f4, hout0]; simp, ?_⟩
      · intro g hg v' hv' j hj
        rcases List.mem_cons.1 hg with rfl | hg
        · rw [hv1] at hv'; cases hv'
          exact i2.done (f3 j hj)
        · exact i3 g hg v' hv' j hj
      · have hne : fieldHead f ++ (pre ++ V) ≠ [] := by simp [fieldHead]
        have hnext : ∀ z, NextS (fieldHead f ++ (pre ++ V) ++ z) := fun z => by
          have := nextS_decl (k := if f.exposed then chars "exposedField" else chars "field") (r := [' '] ++ f.decl.name ++ [' '] ++ (pre ++ V) ++ z) (by split <;> simp) h3
          simpa [fieldHead] using this
        have b1 : Block lv scriptItem (lv.fullSep ++ st.cur lv ++ (fieldHead f ++ (pre ++ V))) (DeclsEff lk fl src P st st1 [] [f]) := by
          refine Block.item (cur_ign hlv st) hne hnext (fun w r hw hr => ?_)
          obtain ⟨t, g1, g2⟩ := f8 w r hw hr.1
          obtain ⟨m, k1, k2, k3, hd⟩ := script_field_der h1 h3 f6 f7 g1 hr.1.1
          refine ⟨_, hd, by simp [ParseVal.Tree.tag], fun i rs φ hi => ?_⟩
          obtain ⟨rs', φ', rv, u, e1, e2, e3, e4, e5, e6⟩ := g2 (some i) rs φ (hi.of_done hd0)
          refine ⟨rs', φ', [⟨⟨f.decl.name, f.decl.cls, f.decl.kind, f.decl.str, f.decl.conv, dfltOf u⟩, f.exposed⟩], fun p is ts' => ?_, e4, fun j hj => e5 j (hgr0.done hj), e6,
            .cons ⟨⟨rfl, rfl, rfl, rfl, rfl⟩, rfl, v, hv1, ?_⟩ .nil⟩
          · have he : decide ((if f.exposed = true then chars "exposedField" else chars "field") = chars "exposedField") = f.exposed := by cases f.exposed <;> decide
            simp only [List.cons_append, List.nil_append, dispDecls, h2, h4, isTarget_field g1, e1, e2, he, Bool.false_eq_true, if_false, List.foldl_cons, List.foldl_nil]
          · simp only [FieldDecl.default, dfltOf_value, Option.bind_some, e3]
        have hT : textOf (Chunk.text (lv.fullSep ++ st.cur lv ++ fieldHead f) :: C ++ C2) = lv.fullSep ++ st.cur lv ++ (fieldHead f ++ (pre ++ V)) ++ textOf C2 := by
          simp [textOf_cons, textOf_append, Chunk.toText, f5]
        rw [hT]
        refine (b1.append i5).mono (fun ts hts => ?_)
        obtain ⟨a, b, rfl, ha, hb⟩ := hts
        refine ⟨fun t ht => ?_, fun i rs φ hi => ?_⟩
        · rcases List.mem_append.1 ht with ht | ht
          · exact ha.1 t ht
          · exact hb.1 t ht
        · obtain ⟨rs1, φ1, G1, c1, c2, c3, c4, c5⟩ := ha.2 i rs φ hi
          obtain ⟨rs2, φ2, G2, d1, d2, d3, d4, d5⟩ := hb.2 i rs1 φ1 c2
          cases c5 with
          | @cons _ g _ _ c6 c7 =>
            cases c7
            refine ⟨rs2, φ2, g :: G2, fun p is ts' => ?_, d2, Ext.trans (hgr0.trans f2) c3 d3, c4.trans d4, .cons (c6.congr ?_) d5⟩
            · rw [List.append_assoc, c1, d1]; rfl
            · intro v' hv' j hj
              rw [hv1] at hv'; cases hv'
              exact d3 j (f3 j hj)
end

end Verif.Lin
