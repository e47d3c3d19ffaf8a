import Verif.Lemmas.Good3
/-!
Files with prototypes that are read: the parts of a file.
-/
namespace Verif.Full
open Verif.Peg Verif.Grammar Verif.TextOut Verif.SceneText Verif.Reader Verif.Scopes Verif.Shape
open Verif.Lin hiding disp dispList dispDecls dispAttrs disp_node disp_attr
variable {F : Type} {base : Text → Option (Class F)} {fl : Floats F}

theorem tagEntry (t : NT) (m : Text) (k : List PTree) : isNodeTag t = nodeEntry (.node t m k) := by cases t <;> rfl

theorem disp_text {m kids ss ps cur k} {w : World F} (h : ∀ t ∈ kids.head?, nodeEntry t = false) :
    disp base fl (.node .field m kids) ss ps cur (some k) w = (meant fl k (.text kids)).map (fun v => (.val v, w)) := by
  cases kids with
  | nil =>
    rw [disp]
    simp only [meant]
    split
    · rfl
    · cases simpleValue fl k [] <;> rfl
  | cons t ts =>
    obtain ⟨t, m', k'⟩ := t
    have := h _ rfl
    rw [← tagEntry] at this
    rw [disp]
    simp only [meant, this, Bool.false_eq_true, if_false]
    split
    · rfl
    · cases simpleValue fl k _ <;> rfl

theorem disp_one {m t kids ss ps cur} {w : World F} (h : nodeEntry t = true) :
    disp base fl (.node .field m (t :: kids)) ss ps cur (some .sfNode) w = disp base fl t ss ps cur (some .sfNode) w := by
  obtain ⟨t, m', k'⟩ := t
  rw [← tagEntry] at h
  rw [disp]
  simp only [h, if_true]

theorem disp_all {m t kids ss ps cur k} {w : World F} (h : nodeEntry t = true) (hk : k ≠ .sfNode) :
    disp base fl (.node .field m (t :: kids)) ss ps cur (some k) w = (dispList base fl (t :: kids) ss ps cur (some k) w).map (fun x => (.vals x.1, x.2)) := by
  obtain ⟨t, m', k'⟩ := t
  rw [← tagEntry] at h
  rw [disp]
  simp only [h, if_true, if_neg hk]
  cases dispList base fl (.node t m' k' :: kids) ss ps cur (some k) w with
  | none => rfl
  | some x => rfl

theorem dispAttrs_filter : ∀ (ts : List PTree) (ss ps : List Nat) (i : Nat) (fd) (w : World F),
    dispAttrs base fl ts ss ps i fd w = (dispList base fl (ts.filter (fun t => ParseVal.Tree.tag t = .attr)) ss ps (some i) fd w).map Prod.snd
  | [], ss, ps, i, fd, w => by simp [dispAttrs, dispList]
  | t :: ts, ss, ps, i, fd, w => by
    rw [dispAttrs]
    by_cases h : ParseVal.Tree.tag t = .attr
    · rw [if_pos h, List.filter_cons, if_pos (by simpa using h), dispList]
      cases disp base fl t ss ps (some i) fd w with
      | none => rfl
      | some x =>
        obtain ⟨v, w1⟩ := x
        simp only
        rw [dispAttrs_filter ts]
        cases dispList base fl (ts.filter (fun t => ParseVal.Tree.tag t = .attr)) ss ps (some i) fd w1 with
        | none => rfl
        | some y => rfl
    · rw [if_neg h, List.filter_cons, if_neg (by simpa using h)]
      exact dispAttrs_filter ts ss ps i fd w

theorem calm_kids {ts : List PTree} (h : allCalm ts = true) : ∀ t ∈ ts, calm t = true := by
  induction ts with
  | nil => intro t ht; cases ht
  | cons x xs ih =>
    rw [allCalm, Bool.and_eq_true] at h
    intro t ht
    rcases List.mem_cons.1 ht with rfl | ht
    · exact h.1
    · exact ih h.2 t ht

theorem calm_kid {t m} {kids : List PTree} (h : calm (.node t m kids) = true) {x} (hx : x ∈ kids) : calm x = true := by
  rw [calm, Bool.and_eq_true] at h
  exact calm_kids h.2 x hx

theorem calm_tag {t : PTree} (h : calm t = true) : ¬ (ParseVal.Tree.tag t = .route ∨ ParseVal.Tree.tag t = .proto ∨ ParseVal.Tree.tag t = .externProto) := by
  obtain ⟨t, m, k⟩ := t
  rintro (h' | h' | h') <;> simp only [ParseVal.Tree.tag] at h' <;> subst h' <;> cases h

/-! ### What is shown of each part -/

def MGood (base : Text → Option (Class F)) (fl : Floats F) (I : Option (Ports F)) (t : PTree) (e e' : List (Scope F)) : Prop :=
  ∀ Is pend ss ps (w : World F) cur fd, I = Is.head?.join → GSim Is e pend ss ps w → (nodeEntry t = true ∧ calm t = true ∨ pend = fun _ => none) →
    ∃ v w', disp base fl t ss ps cur fd w = some (v, w') ∧ GSim Is e' pend ss ps w' ∧ Stay w w' ∧ (nodeEntry t = true → ∃ o, v = .ref o)

def MAll (base : Text → Option (Class F)) (fl : Floats F) (I : Option (Ports F)) (ts : List PTree) (e e' : List (Scope F)) : Prop :=
  ∀ Is pend ss ps (w : World F) cur fd, I = Is.head?.join → GSim Is e pend ss ps w → ((∀ t ∈ ts, nodeEntry t = true ∧ calm t = true) ∨ pend = fun _ => none) →
    ∃ vs w', dispList base fl ts ss ps cur fd w = some (vs, w') ∧ GSim Is e' pend ss ps w' ∧ Stay w w' ∧ ((∀ t ∈ ts, nodeEntry t = true) → ∃ os, refList vs = some os ∧ os.length = ts.length)

def MValue (base : Text → Option (Class F)) (fl : Floats F) (I : Option (Ports F)) (k : Kind) (conv : Option (F → F)) (t : PTree) (e e' : List (Scope F)) : Prop :=
  isTarget t = none ∧ ∀ Is pend ss ps (w : World F) cur, I = Is.head?.join → GSim Is e pend ss ps w → (calm t = true ∨ pend = fun _ => none) →
    ∃ v u w', disp base fl t ss ps cur (some k) w = some (v, w') ∧ v.toVal = some u ∧ accepted k conv u = true ∧ GSim Is e' pend ss ps w' ∧ Stay w w'

def MAttrs (base : Text → Option (Class F)) (fl : Floats F) (I : Option (Ports F)) (ports : Ports F) (ts : List PTree) (e e' : List (Scope F)) : Prop :=
  ∀ Is pend ss ps (w : World F) i c fd, I = Is.head?.join → GSim Is e pend ss ps w → clsAt w i = some c → classPorts c = ports → pend i = none → i < w.next → ((∀ t ∈ ts, calm t = true) ∨ pend = fun _ => none) →
    ∃ vs w', dispList base fl ts ss ps (some i) fd w = some (vs, w') ∧ GSim Is e' pend ss ps w' ∧ Stay w w'

def MDecls (base : Text → Option (Class F)) (fl : Floats F) (I : Option (Ports F)) (ports : Ports F) (ts : List PTree) (e e' : List (Scope F)) : Prop :=
  ∀ Is pend ss ps (w : World F) i (p : ProtoDef F) is, I = Is.head?.join → GSim Is e pend ss ps w → clsAt w i = some p.cls → pend i = some ports → i < w.next → (∀ y ∈ is, MayBe I ports y.2 y.1) →
    ∃ is' w', ∃ p' : ProtoDef F, dispDecls base fl ts ss ps i p is w = some (is', w') ∧ GSim Is e' pend ss ps w' ∧ w.next ≤ w'.next ∧ (∀ j < w.next, j ≠ i → clsAt w' j = clsAt w j) ∧
      clsAt w' i = some p'.cls ∧ (∀ x, classPorts p'.cls x = over fl (lastItem ts x) (classPorts p.cls x)) ∧ ∀ y ∈ is', MayBe I ports y.2 y.1

def endsInURLs (parts : List PTree) : Prop := parts.getLast?.map ParseVal.Tree.tag = some .extProtoURL

def MParts (base : Text → Option (Class F)) (fl : Floats F) (P : Ports F) (parts : List PTree) (e : List (Scope F)) : Prop :=
  ∀ Is ss ps c (w : World F), GSim (none :: Is) e (fun _ => none) ss (c :: ps) w → (w.cls c).body = none → (w.cls c).is = [] → (∀ l, (w.cls c).decl.url ≠ .urls l) →
    (∀ f ∈ (w.cls c).decl.fields, f.decl.dfltNodes = []) → (∀ ev ∈ (w.cls c).decl.events, ev.name ≠ chars "externalURL") → ((∀ f ∈ (w.cls c).decl.fields, FieldFit f.decl) ∨ endsInURLs parts) →
    (∀ x, P x = if x = chars "externalURL" ∧ parts.getLast?.map ParseVal.Tree.tag = some .extProtoURL then none else over fl (lastDecl parts x) (classPorts (w.cls c).decl.cls x)) →
    ∃ w', dispProto base fl parts ss (c :: ps) c w = some w' ∧ GSim Is e (fun _ => none) ss ps w' ∧ ProtoOK w' (fun _ => none) ps c P ∧ Stay w w'

/-! ### Lists of entries and values -/

theorem mAll_nil {I e} : MAll base fl I [] e e := by
  intro Is pend ss ps w cur fd _ h _
  exact ⟨[], w, by rw [dispList], h, .refl w, fun _ => ⟨[], rfl, rfl⟩⟩

theorem mAll_cons {I t ts e e1 e'} (h1 : MGood base fl I t e e1) (h2 : MAll base fl I ts e1 e') : MAll base fl I (t :: ts) e e' := by
  intro Is pend ss ps w cur fd hI h hp
  obtain ⟨v, w1, a1, a2, a3, a4⟩ := h1 Is pend ss ps w cur fd hI h (hp.imp (fun h => h t (by simp)) id)
  obtain ⟨vs, w2, b1, b2, b3, b4⟩ := h2 Is pend ss ps w1 cur fd hI a2 (hp.imp (fun h x hx => h x (by simp [hx])) id)
  refine ⟨v :: vs, w2, ?_, b2, a3.trans b3, fun hn => ?_⟩
  · rw [dispList, a1]
    simp only [b1]
  · obtain ⟨o, rfl⟩ := a4 (hn t (by simp))
    obtain ⟨os, c1, c2⟩ := b4 (fun x hx => hn x (by simp [hx]))
    exact ⟨o :: os, by simp [refList, c1], by simp [c2]⟩

theorem mValue_text {I k conv m kids v e} (h1 : ∀ t ∈ kids.head?, nodeEntry t = false) (h2 : meant fl k (.text kids) = some v) (h3 : accepted k conv v = true) :
    MValue base fl I k conv (.node .field m kids) e e := by
  refine ⟨rfl, fun Is pend ss ps w cur hI h _ => ⟨.val v, v, w, ?_, rfl, h3, h, .refl w⟩⟩
  rw [disp_text h1, h2]; rfl

theorem mValue_one {I k conv m t kids e e'} (hk : k = .sfNode) (ht : nodeEntry t = true) (h1 : MGood base fl I t e e') : MValue base fl I k conv (.node .field m (t :: kids)) e e' := by
  subst hk
  refine ⟨rfl, fun Is pend ss ps w cur hI h hp => ?_⟩
  obtain ⟨v, w1, a1, a2, a3, a4⟩ := h1 Is pend ss ps w cur (some .sfNode) hI h (hp.imp (fun h => ⟨ht, calm_kid h (by simp)⟩) id)
  obtain ⟨o, rfl⟩ := a4 ht
  refine ⟨.ref o, .ref o, w1, by rw [disp_one ht, a1], rfl, ?_, a2, a3⟩
  cases conv with
  | none => rfl
  | some c => cases o <;> rfl

theorem mValue_all {I k conv m t kids e e'} (hk : k ≠ .sfNode) (ht : takes k (t :: kids).length ∨ conv.isNone = true) (hn : ∀ x ∈ t :: kids, nodeEntry x = true) (h1 : MAll base fl I (t :: kids) e e') :
    MValue base fl I k conv (.node .field m (t :: kids)) e e' := by
  refine ⟨rfl, fun Is pend ss ps w cur hI h hp => ?_⟩
  obtain ⟨vs, w1, a1, a2, a3, a4⟩ := h1 Is pend ss ps w cur (some k) hI h (hp.imp (fun h x hx => ⟨hn x hx, calm_kid h hx⟩) id)
  obtain ⟨os, b1, b2⟩ := a4 hn
  refine ⟨.vals vs, .refs os, w1, by rw [disp_all (hn t (by simp)) hk, a1]; rfl, by simp [RVal.toVal, b1], ?_, a2, a3⟩
  rw [coerce_refs conv os hk (by rintro rfl; simp at b2), b2]
  exact ht.imp id (fun h => ⟨h, hk⟩)

/-! ### Attributes -/

theorem mAttrs_nil {I ports e} : MAttrs base fl I ports [] e e := by
  intro Is pend ss ps w i c fd _ h _ _ _ _ _
  exact ⟨[], w, by rw [dispList], h, .refl w⟩

theorem mAttrs_is {I ports m nm a x kids ts e e'} (hm : MayBe I ports nm x) (h2 : MAttrs base fl I ports ts e e') :
    MAttrs base fl I ports (.node .attr m [.node .name nm a, .node .is x kids] :: ts) e e' := by
  intro Is pend ss ps w i c fd hI h hc hp pi hi hcm
  subst hp
  obtain ⟨P, a1, b1, -, -, q, -⟩ := id hm
  obtain ⟨p, hp, -⟩ := getField_of q
  obtain ⟨n, hn, hcn⟩ := Option.map_eq_some_iff.1 hc
  subst hcn
  obtain ⟨w1, r1, r2, r3, r4⟩ := h.addIs pi hc (hI ▸ hm)
  have hst : Stay w w1 := ⟨r4.ge, fun j _ => by simp only [clsAt, r3]⟩
  obtain ⟨vs, w2, s1, s2, s3⟩ := h2 Is pend ss ps w1 i n.cls fd hI r2 ((hst.2 i hi).trans hc) rfl pi (by rw [r4]; exact hi) (hcm.imp (fun h t ht => h t (by simp [ht])) id)
  refine ⟨.nothing :: vs, w2, ?_, s2, hst.trans s3⟩
  have hd : disp base fl (.node .attr m [.node .name nm a, .node .is x kids]) ss ps (some i) fd w = some (.nothing, w1) := by
    rw [disp, hn]
    simp only [hp, isTarget, r1]
  rw [dispList, hd]
  simp only [s1]

theorem mAttrs_attr {I} {ports : Ports F} {m nm a v k conv ts e e1 e'} (hr : resolveName ports nm = some (.field k conv)) (h1 : MValue base fl I k (some conv) v e e1) (h2 : MAttrs base fl I ports ts e1 e') :
    MAttrs base fl I ports (.node .attr m [.node .name nm a, v] :: ts) e e' := by
  intro Is pend ss ps w i c fd hI h hc hp pi hi hcm
  subst hp
  obtain ⟨p, hp, hpk⟩ := getField_of hr
  obtain ⟨d, rfl, rfl, rfl⟩ := portKind_field hpk
  obtain ⟨n, hn, hcn⟩ := Option.map_eq_some_iff.1 hc
  subst hcn
  obtain ⟨rv, u, w1, a1, a2, a3, a4, a5⟩ := h1.2 Is pend ss ps w (some i) hI h (hcm.imp (fun h => calm_kid (h _ List.mem_cons_self) (by simp)) id)
  have hc1 := (a5.2 i hi).trans hc
  obtain ⟨w2, b1, b2, b3⟩ := a4.setAttr hc1 hp a3
  obtain ⟨vs, w3, s1, s2, s3⟩ := h2 Is pend ss ps w2 i n.cls fd hI b2 ((b3.2 i (hi.trans_le a5.1)).trans hc1) rfl pi ((hi.trans_le a5.1).trans_le b3.1) (hcm.imp (fun h t ht => h t (by simp [ht])) id)
  refine ⟨.nothing :: vs, w3, ?_, s2, (a5.trans b3).trans s3⟩
  have hd : disp base fl (.node .attr m [.node .name nm a, v]) ss ps (some i) fd w = some (.nothing, w2) := by
    rw [disp, hn]
    simp only [hp, h1.1, a1, a2, b1]
  rw [dispList, hd]
  simp only [s1]

theorem mAttrs_entry {I} {ports : Ports F} {t ts e e1 e'} (ht : ParseVal.Tree.tag t = .route ∨ ParseVal.Tree.tag t = .proto ∨ ParseVal.Tree.tag t = .externProto) (h1 : MGood base fl I t e e1)
    (h2 : MAttrs base fl I ports ts e1 e') : MAttrs base fl I ports (t :: ts) e e' := by
  intro Is pend ss ps w i c fd hI h hc hp pi hi hcm
  have hpe : pend = fun _ => none := hcm.resolve_left (fun h => calm_tag (h t List.mem_cons_self) ht)
  obtain ⟨v, w1, a1, a2, a3, -⟩ := h1 Is pend ss ps w (some i) fd hI h (.inr hpe)
  obtain ⟨vs, w2, s1, s2, s3⟩ := h2 Is pend ss ps w1 i c fd hI a2 ((a3.2 i hi).trans hc) hp pi (hi.trans_le a3.1) (.inr hpe)
  refine ⟨v :: vs, w2, ?_, s2, a3.trans s3⟩
  rw [dispList, a1]
  simp only [s1]

end Verif.Full
