import Verif.Lemmas.Good5
/-!
Files with prototypes that are read: prototypes, and whole files.
-/
namespace Verif.Full
open Verif.Peg Verif.Grammar Verif.TextOut Verif.SceneText Verif.Reader Verif.Scopes Verif.Shape
open Verif.Lin hiding disp dispList dispDecls dispAttrs disp_node disp_attr
variable {F : Type} {base : Text → Option (Class F)} {fl : Floats F}

theorem GSim.curLt {I Is e pend ss c ps} {w : World F} (h : GSim (I :: Is) e pend ss (c :: ps) w) : c < w.nclasses := by
  cases h.cur with
  | cons h1 _ =>
    cases I with
    | none => exact h1
    | some P => exact h1.1

theorem lastDecl_body {m kids x} : lastDecl [.node .vrmlScene m kids] x = none := rfl
theorem lastDecl_urls {m kids x} : lastDecl [.node .extProtoURL m kids] x = none := rfl

theorem mParts_body {P : Ports F} {m kids s e} (h1 : MAll base fl (some P) kids (Scope.empty :: e) (s :: e)) : MParts base fl P [.node .vrmlScene m kids] e := by
  intro Is ss ps c w h hb his hu hn hev hf hP
  have hf' := hf.resolve_right (by simp [endsInURLs, ParseVal.Tree.tag])
  have hP' : classPorts (w.cls c).decl.cls = P := funext (fun x => by
    rw [hP, if_neg (by simp [ParseVal.Tree.tag]), lastDecl_body]; rfl)
  have h0 : GSim (some P :: Is) e (fun _ => none) ss (c :: ps) w := by
    refine ⟨h.fresh, h.later, h.wires, h.scopes, h.ssd, h.psd, ?_⟩
    cases h.cur with
    | cons h1 h2 => exact .cons ⟨h1, hb, hu, hP', fun f hf1 => ⟨hn f hf1, hf' f hf1⟩, by rw [his]; simp⟩ h2
  obtain ⟨vs, w', a1, a2, a3, -⟩ := h1 (some P :: Is) _ _ _ _ none none rfl (h0.newScene (some (ss.headD 0))) (.inr rfl)
  have := a2.endBody
  exact ⟨w'.setBody c w.nscenes, by rw [dispProto, a1], this.1, this.2, ⟨a3.1, a3.2⟩⟩

theorem setURL_ports (p : ProtoDef F) (l : List Text) (is) (hev : ∀ ev ∈ p.events, ev.name ≠ chars "externalURL") (x : Text) :
    classPorts (ClassObj.cls ⟨ProtoDef.setURL p l, is, none⟩) x = if x = chars "externalURL" then none else classPorts p.cls x := by
  simp only [classPorts, Class.port, ClassObj.cls, ProtoDef.setURL, ProtoDef.cls]
  by_cases hx : x = chars "externalURL"
  · subst hx
    rw [if_pos rfl]
    have h1 : p.events.find? (fun e => e.name == chars "externalURL") = none := by
      rw [List.find?_eq_none]
      intro e he
      simpa using hev e he
    rw [h1]
    have h2 : ((List.map PField.decl (externalURL :: p.fields.filter (fun f => f.decl.name != chars "externalURL"))).filter (fun d => d.name != chars "externalURL")).find? (fun d => d.name == chars "externalURL") = none := by
      rw [List.find?_eq_none]
      intro d hd
      have := (List.mem_filter.1 hd).2
      simpa using this
    rw [h2]; rfl
  · rw [if_neg hx, find_filter_ne _ FieldDecl.name hx, List.find?_map, List.find?_map]
    have h1 : (externalURL :: p.fields.filter (fun f => f.decl.name != chars "externalURL")).find? ((fun d => d.name == x) ∘ PField.decl) = p.fields.find? ((fun d => d.name == x) ∘ PField.decl) := by
      rw [List.find?_cons_of_neg (by simpa [externalURL] using Ne.symm hx)]
      exact find_filter_ne _ (fun f : PField F => f.decl.name) hx
    rw [h1]

theorem mParts_urls {P : Ports F} {m kids e} : MParts base fl P [.node .extProtoURL m kids] e := by
  intro Is ss ps c w h hb his hu hn hev hf hP
  have hlt := h.curLt
  have h1 : GSim (none :: Is) e (fun _ => none) ss (c :: ps) (w.onDecl c (ProtoDef.setURL · (ParseVal.mfString kids))) := h.clsChange (by exact hlt)
  have hd : (w.onDecl c (ProtoDef.setURL · (ParseVal.mfString kids))).cls c = ⟨ProtoDef.setURL (w.cls c).decl (ParseVal.mfString kids), [], none⟩ := by
    simp only [World.onDecl, upd, if_true]
    rw [his, hb]
  refine ⟨_, by rw [dispProto], h1.popClass, ⟨hlt, (List.nodup_cons.1 h.psd).1, ?_, fun d hd' => ?_, fun hi => ?_, fun e he => ?_⟩, ⟨le_rfl, fun _ _ => rfl⟩⟩
  · rw [hd]
    funext x
    rw [setURL_ports _ _ _ hev, hP]
    by_cases hx : x = chars "externalURL"
    · rw [if_pos hx, if_pos ⟨hx, rfl⟩]
    · rw [if_neg hx, if_neg (by simp [hx]), lastDecl_urls]; rfl
  · rw [hd] at hd'
    obtain ⟨f, hf', rfl⟩ := classObj_fields hd'
    simp only [ProtoDef.setURL] at hf'
    rcases List.mem_cons.1 hf' with rfl | hf'
    · rfl
    · exact hn f (List.mem_filter.1 hf').1
  · rw [hd] at hi; exact absurd rfl hi
  · rw [hd] at he; cases he

/-- a declaration of an interface that has been read; then the others -/
theorem parts_step {P : Ports F} {t ts e} (h2 : MParts base fl P ts e) {Is ss ps c} {w : World F} (h : GSim (none :: Is) e (fun _ => none) ss (c :: ps) w) (hb : (w.cls c).body = none) (his : (w.cls c).is = [])
    {g : ProtoDef F → ProtoDef F} (hne : ts ≠ []) (hu : ∀ l, (g (w.cls c).decl).url ≠ .urls l) (hn : ∀ f ∈ (g (w.cls c).decl).fields, f.decl.dfltNodes = []) (hev : ∀ ev ∈ (g (w.cls c).decl).events, ev.name ≠ chars "externalURL")
    (hf : (∀ f ∈ (g (w.cls c).decl).fields, FieldFit f.decl) ∨ endsInURLs ts)
    (hg : ∀ x, classPorts (g (w.cls c).decl).cls x = over fl ((written t).filter (fun d => d.name == x)) (classPorts (w.cls c).decl.cls x))
    (hP : ∀ x, P x = if x = chars "externalURL" ∧ (t :: ts).getLast?.map ParseVal.Tree.tag = some .extProtoURL then none else over fl (lastDecl (t :: ts) x) (classPorts (w.cls c).decl.cls x)) :
    ∃ w', dispProto base fl ts ss (c :: ps) c (w.onDecl c g) = some w' ∧ GSim Is e (fun _ => none) ss ps w' ∧ ProtoOK w' (fun _ => none) ps c P ∧ Stay w w' := by
  have hlt := h.curLt
  have h1 : GSim (none :: Is) e (fun _ => none) ss (c :: ps) (w.onDecl c g) := h.clsChange (by exact hlt)
  have hd : (w.onDecl c g).cls c = ⟨g (w.cls c).decl, [], none⟩ := by
    simp only [World.onDecl, upd, if_true]
    rw [his, hb]
  obtain ⟨w', a1, a2, a3, a4⟩ := h2 Is ss ps c _ h1 (by rw [hd]) (by rw [hd]) (by rw [hd]; exact hu) (by rw [hd]; exact hn) (by rw [hd]; exact hev) (by rw [hd]; exact hf) (fun x => by
    rw [hP, hd, hg, lastDecl_cons, over_or, List.getLast?_cons_of_ne_nil hne])
  exact ⟨w', a1, a2, a3, a4⟩

theorem goodDefault_read {ft : FieldType F} {v : PTree} (h : GoodDefault fl ft v) : ∃ rv u, (∀ ss ps cur (w : World F), disp base fl v ss ps cur (some ft.kind) w = some (rv, w)) ∧ RVal.toVal rv = some u ∧
    u.nodes = [] ∧ Fit ft.kind u := by
  cases h with
  | @text m kids v h1 h2 h3 =>
    refine ⟨.val v, v, fun ss ps cur w => by rw [disp_text h1, h2]; rfl, rfl, ?_, ?_⟩
    · simp only [meant] at h2
      split at h2
      · cases h2; rfl
      · exact simpleValue_nodes h2
    · simp only [accepted] at h3
      obtain ⟨u, hu⟩ := Option.isSome_iff_exists.1 h3
      exact Fit.of hu
  | @null m a b kids hk =>
    refine ⟨.ref none, .ref none, fun ss ps cur w => by rw [hk, disp_one rfl, disp], rfl, rfl, ?_⟩
    rw [hk]
    exact fun c => rfl

theorem addField_mem {p : ProtoDef F} {f g : PField F} (h : g ∈ (p.addField f).fields) : g ∈ p.fields ∨ g = f := by
  simp only [ProtoDef.addField, List.mem_append, List.mem_singleton] at h
  exact h.imp (fun h => (List.mem_filter.1 h).1) id

theorem addField_url {p : ProtoDef F} {f : PField F} (h : ∀ l, p.url ≠ .urls l) : ∀ l, (p.addField f).url ≠ .urls l := by
  intro l
  simp only [ProtoDef.addField]
  split
  · intro h; cases h
  · exact h l

theorem endsInURLs_cons {t ts} (hne : ts ≠ []) : endsInURLs (t :: ts) ↔ endsInURLs ts := by
  simp only [endsInURLs, List.getLast?_cons_of_ne_nil hne]

theorem mParts_field {P : Ports F} {m ex a ty b nm c v} {ft : FieldType F} {ts e} (hf : fl.types.field ty = some ft) (hr : reserved nm = false) (hv : GoodDefault fl ft v) (hne : ts ≠ []) (h2 : MParts base fl P ts e) :
    MParts base fl P (.node .fieldDecl m [.node .fieldExposure ex a, .node .dataType ty b, .node .name nm c, v] :: ts) e := by
  intro Is ss ps k w h hb his hu hn hev hfit hP
  obtain ⟨rv, u, a1, a2, a3, a4⟩ := goodDefault_read (base := base) hv
  have hd : ∀ f ∈ ((w.cls k).decl.addField ⟨⟨nm, ty, ft.kind, ft.str, ft.conv, dfltOf u⟩, decide (ex = chars "exposedField")⟩).fields, f ∈ (w.cls k).decl.fields ∨ f.decl = ⟨nm, ty, ft.kind, ft.str, ft.conv, dfltOf u⟩ :=
    fun f hf => (addField_mem hf).imp id (fun h => by rw [h])
  obtain ⟨w', q⟩ := parts_step h2 h hb his (g := fun p => p.addField ⟨⟨nm, ty, ft.kind, ft.str, ft.conv, dfltOf u⟩, decide (ex = chars "exposedField")⟩) hne (addField_url hu)
    (fun f hf => (hd f hf).elim (hn f) (fun h => by rw [h, FieldDecl.dfltNodes, Lin.dfltOf_value]; exact a3))
    (fun ev hev' => hev ev (List.mem_filter.1 hev').1)
    (hfit.imp (fun h f hf => (hd f hf).elim (h f) (fun h => by rw [h]; exact ⟨u, Lin.dfltOf_value u, a4⟩)) (fun h => (endsInURLs_cons hne).1 h))
    (fun x => over_field (ex := ex) (v := some v) hf) hP
  refine ⟨w', ?_, q.2⟩
  rw [dispProto, hf]
  simp only [a1, a2, mkField_ok hf hr]
  exact q.1

theorem mParts_extField (hT : ∀ ty v, (fl.types.dflt ty).value = some v → v.nodes = []) {P : Ports F} {m ex a ty b nm c} {ft : FieldType F} {ts e} (hf : fl.types.field ty = some ft) (hr : reserved nm = false)
    (hu' : ts.getLast?.map ParseVal.Tree.tag = some .extProtoURL) (hne : ts ≠ []) (h2 : MParts base fl P ts e) :
    MParts base fl P (.node .extFieldDecl m [.node .fieldExposure ex a, .node .dataType ty b, .node .name nm c] :: ts) e := by
  intro Is ss ps k w h hb his hu hn hev hfit hP
  have hd : ∀ f ∈ ((w.cls k).decl.addField ⟨⟨nm, ty, ft.kind, ft.str, ft.conv, fl.types.dflt ty⟩, decide (ex = chars "exposedField")⟩).fields, f ∈ (w.cls k).decl.fields ∨ f.decl = ⟨nm, ty, ft.kind, ft.str, ft.conv, fl.types.dflt ty⟩ :=
    fun f hf => (addField_mem hf).imp id (fun h => by rw [h])
  obtain ⟨w', q⟩ := parts_step h2 h hb his (g := fun p => p.addField ⟨⟨nm, ty, ft.kind, ft.str, ft.conv, fl.types.dflt ty⟩, decide (ex = chars "exposedField")⟩) hne (addField_url hu)
    (fun f hf => (hd f hf).elim (hn f) (fun h => by
      rw [h, FieldDecl.dfltNodes]
      cases hv : (fl.types.dflt ty).value with
      | none => rfl
      | some v => exact hT _ _ hv))
    (fun ev hev' => hev ev (List.mem_filter.1 hev').1)
    (.inr hu')
    (fun x => over_field (ex := ex) (v := none) hf) hP
  refine ⟨w', ?_, q.2⟩
  rw [dispProto]
  simp only [mkField_ok hf hr]
  exact q.1

theorem mParts_event {P : Ports F} {m dir a ty b nm c ts e} (hf : fl.types.event ty = true) (hr : reserved nm = false) (hx : nm ≠ chars "externalURL") (hne : ts ≠ []) (h2 : MParts base fl P ts e) :
    MParts base fl P (.node .eventDecl m [.node .eventDirection dir a, .node .dataType ty b, .node .name nm c] :: ts) e := by
  intro Is ss ps k w h hb his hu hn hev hfit hP
  have hd : ∀ f ∈ ((w.cls k).decl.addEvent ⟨nm, ty, decide (dir = chars "eventOut")⟩).fields, f ∈ (w.cls k).decl.fields := fun f hf => (List.mem_filter.1 hf).1
  obtain ⟨w', q⟩ := parts_step h2 h hb his (g := fun p => p.addEvent ⟨nm, ty, decide (dir = chars "eventOut")⟩) hne hu
    (fun f hf => hn f (hd f hf))
    (fun ev hev' => by
      simp only [ProtoDef.addEvent, List.mem_append, List.mem_singleton] at hev'
      rcases hev' with h | rfl
      · exact hev ev (List.mem_filter.1 h).1
      · exact hx)
    (hfit.imp (fun h f hf => h f (hd f hf)) (fun h => (endsInURLs_cons hne).1 h))
    (fun x => over_event (dir := dir)) hP
  refine ⟨w', ?_, q.2⟩
  rw [dispProto]
  simp only [mkEvent_ok hf hr hx]
  exact q.1

/-! ### Prototypes -/

theorem new_parts {rest : List PTree} {w : World F} {nm : Text} {s : Scope F} {e} (h1 : MParts base fl (protoPorts fl rest) rest (s :: e)) {Is ss ps} (h : GSim Is (s :: e) (fun _ => none) ss ps w) :
    ∃ w', dispProto base fl rest ss (w.nclasses :: ps) w.nclasses (w.newClass nm) = some w' ∧ GSim Is (s.proto nm (protoPorts fl rest) :: e) (fun _ => none) ss ps (w'.addProto (ss.headD 0) nm w.nclasses) ∧ Stay w w' := by
  have hd : (w.newClass nm).cls w.nclasses = ⟨ProtoDef.new nm, [], none⟩ := by simp [World.newClass, upd]
  obtain ⟨s0, ss', rfl⟩ := h.head
  obtain ⟨w', a1, a2, a3, a4⟩ := h1 Is (s0 :: ss') ps w.nclasses _ (h.newClass nm) (by rw [hd]) (by rw [hd]) (by rw [hd]; intro l hl; cases hl)
    (by rw [hd]; intro f hf; simp only [ProtoDef.new, List.mem_singleton] at hf; rw [hf]; rfl) (by rw [hd]; intro ev hev; cases hev)
    (.inl (by rw [hd]; intro f hf; simp only [ProtoDef.new, List.mem_singleton] at hf; rw [hf]; exact ⟨.strs [], rfl, fun c => rfl⟩)) (fun x => by
      rw [hd]
      simp only [protoPorts]
      split
      · rfl
      · cases lastDecl rest x with
        | some d => cases d <;> rfl
        | none =>
          simp only [over, ProtoDef.new, classPorts, Class.port, ProtoDef.cls, List.find?_nil, List.map_cons, List.map_nil]
          by_cases hx : x = chars "externalURL"
          · subst hx; rfl
          · rw [if_neg hx, List.find?_cons_of_neg (by simpa [externalURL] using Ne.symm hx)]; rfl)
  exact ⟨w', a1, a2.addProto a3 nm, ⟨a4.1, a4.2⟩⟩

theorem mGood_proto {I m nm a rest} {s : Scope F} {e} (hn : coreName nm = false) (h1 : MParts base fl (protoPorts fl rest) rest (s :: e)) :
    MGood base fl I (.node .proto m (.node .nodegi nm a :: rest)) (s :: e) (s.proto nm (protoPorts fl rest) :: e) := by
  intro Is pend ss ps w cur fd hI h hp
  have hp' : pend = fun _ => none := hp.resolve_left (by intro h; cases h.1)
  subst hp'
  obtain ⟨w', a1, a2, a3⟩ := new_parts (nm := nm) h1 h
  exact ⟨_, _, by rw [disp, hn]; simp only [a1]; rfl, a2, ⟨a3.1, a3.2⟩, fun h => by cases h⟩

theorem mGood_externProto {I m nm a rest} {s : Scope F} {e} (hn : coreName nm = false) (h1 : MParts base fl (protoPorts fl rest) rest (s :: e)) :
    MGood base fl I (.node .externProto m (.node .nodegi nm a :: rest)) (s :: e) (s.proto nm (protoPorts fl rest) :: e) := by
  intro Is pend ss ps w cur fd hI h hp
  have hp' : pend = fun _ => none := hp.resolve_left (by intro h; cases h.1)
  subst hp'
  obtain ⟨w', a1, a2, a3⟩ := new_parts (nm := nm) h1 h
  exact ⟨_, _, by rw [disp, hn]; simp only [a1]; rfl, a2, ⟨a3.1, a3.2⟩, fun h => by cases h⟩

/-! ### Everything -/

theorem good_all (hb : PlainBase base) (hT : ∀ ty v, (fl.types.dflt ty).value = some v → v.nodes = []) {I ts e e'} (h : GoodAll base fl I ts e e') : MAll base fl I ts e e' := by
  refine GoodAll.rec (motive_1 := fun I t e e' _ => MGood base fl I t e e') (motive_2 := fun I t e e' _ => MAll base fl I t e e')
    (motive_3 := fun I k conv t e e' _ => MValue base fl I k conv t e e') (motive_4 := fun I ports ts e e' _ => MAttrs base fl I ports ts e e')
    (motive_5 := fun I ports ts e e' _ => MDecls base fl I ports ts e e') (motive_6 := fun P ts e _ => ts ≠ [] ∧ MParts base fl P ts e) ?_ ?_ ?_ ?_ ?_ ?_ ?_ ?_ ?_ ?_ ?_ ?_ ?_ ?_ ?_ ?_ ?_ ?_ ?_ ?_ ?_ ?_ ?_ ?_ ?_ ?_ ?_ ?_ ?_ ?_ h
  · intros; exact mGood_item ‹_›
  · intro _ _ _ _ _ _ _ hn _ h; exact mGood_proto hn h.2
  · intro _ _ _ _ _ _ _ hn _ h; exact mGood_externProto hn h.2
  · intros; exact mGood_null
  · intros; exact mGood_use ‹_›
  · intros; exact mGood_route ‹_› ‹_› ‹_›
  · intros; exact mGood_node hb ‹_› ‹_›
  · intros; exact mGood_defNode hb ‹_› ‹_› ‹_›
  · intros; exact mGood_script ‹_› ‹_› ‹_›
  · intros; exact mGood_defScript ‹_› ‹_› ‹_›
  · intros; exact mAll_nil
  · intros; exact mAll_cons ‹_› ‹_›
  · intros; exact mValue_text ‹_› ‹_› ‹_›
  · intros; exact mValue_one ‹_› ‹_› ‹_›
  · intros; exact mValue_all ‹_› ‹_› ‹_› ‹_›
  · intros; exact mAttrs_nil
  · intros; exact mAttrs_is ‹_› ‹_›
  · intros; exact mAttrs_attr ‹_› ‹_› ‹_›
  · intros; exact mAttrs_entry ‹_› ‹_› ‹_›
  · intros; exact mDecls_nil
  · intros; exact mDecls_field ‹_› ‹_› ‹_› ‹_› ‹_›
  · intros; exact mDecls_fieldIs ‹_› ‹_› ‹_› ‹_›
  · intros; exact mDecls_event ‹_› ‹_› ‹_› ‹_›
  · intros; exact mDecls_eventIs ‹_› ‹_› ‹_› ‹_› ‹_›
  · intros; exact mDecls_attr ‹_›
  · intro _ _ _ _ _ _ h; exact ⟨by simp, mParts_body h⟩
  · intros; exact ⟨by simp, mParts_urls⟩
  · intro _ _ _ _ _ _ _ _ _ _ _ _ h1 h2 h3 _ h; exact ⟨by simp, mParts_field h1 h2 h3 h.1 h.2⟩
  · intro _ _ _ _ _ _ _ _ _ _ _ h1 h2 h3 _ h; exact ⟨by simp, mParts_extField hT h1 h2 h3 h.1 h.2⟩
  · intro _ _ _ _ _ _ _ _ _ _ h1 h2 h3 _ h; exact ⟨by simp, mParts_event h1 h2 h3 h.1 h.2⟩

end Verif.Full
