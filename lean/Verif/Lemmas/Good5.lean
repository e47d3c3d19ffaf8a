import Verif.Lemmas.Good4
/-!
Files with prototypes that are read: Scripts, nodes and prototypes.
-/
namespace Verif.Full
open Verif.Peg Verif.Grammar Verif.TextOut Verif.SceneText Verif.Reader Verif.Scopes Verif.Shape
open Verif.Lin hiding disp dispList dispDecls dispAttrs disp_node disp_attr
variable {F : Type} {base : Text → Option (Class F)} {fl : Floats F}

/-! ### Declarations in Scripts -/

theorem mDecls_nil {I ports e} : MDecls base fl I ports [] e e := by
  intro Is pend ss ps w i p is _ h hc _ _ his
  exact ⟨is, w, p, by rw [dispDecls], h, le_rfl, fun _ _ _ => rfl, hc, fun x => rfl, his⟩

/-- a declaration that has been read; then the others -/
theorem decls_step {I ports t ts e1 e'} (h2 : MDecls base fl I ports ts e1 e') {Is pend ss ps} {w w1 : World F} {i : Nat} {p p1 : ProtoDef F} {is1 : List (Text × Text)} (hI : I = Is.head?.join)
    (h : GSim Is e1 pend ss ps w1) (hc : clsAt w1 i = some p1.cls) (pi : pend i = some ports) (hi : i < w.next) (hn : w.next ≤ w1.next) (hst : ∀ j < w.next, j ≠ i → clsAt w1 j = clsAt w j)
    (his : ∀ y ∈ is1, MayBe I ports y.2 y.1) (hp1 : ∀ x, classPorts p1.cls x = over fl ((scriptWritten t).filter (fun d => d.name == x)) (classPorts p.cls x)) :
    ∃ is' w', ∃ p' : ProtoDef F, dispDecls base fl ts ss ps i p1 is1 w1 = some (is', w') ∧ GSim Is e' pend ss ps w' ∧ w.next ≤ w'.next ∧ (∀ j < w.next, j ≠ i → clsAt w' j = clsAt w j) ∧
      clsAt w' i = some p'.cls ∧ (∀ x, classPorts p'.cls x = over fl (lastItem (t :: ts) x) (classPorts p.cls x)) ∧ ∀ y ∈ is', MayBe I ports y.2 y.1 := by
  obtain ⟨is', w', p', r1, r2, r3, r4, r5, r6, r7⟩ := h2 Is pend ss ps w1 i p1 is1 hI h hc pi (hi.trans_le hn) his
  refine ⟨is', w', p', r1, r2, hn.trans r3, fun j hj hji => (r4 j (hj.trans_le hn) hji).trans (hst j hj hji), r5, fun x => ?_, r7⟩
  rw [r6, lastItem_cons, over_or, hp1]

theorem mkField_ok {ex ty nm : Text} {ft : FieldType F} (h1 : fl.types.field ty = some ft) (h2 : reserved nm = false) (d : Dflt F) :
    mkField fl ex ty nm d = some ⟨⟨nm, ty, ft.kind, ft.str, ft.conv, d⟩, decide (ex = chars "exposedField")⟩ := by
  rw [mkField, if_neg (by simp [h2]), h1]; rfl

theorem mkEvent_ok {dir ty nm : Text} (h1 : fl.types.event ty = true) (h2 : reserved nm = false) (h3 : nm ≠ chars "externalURL") : mkEvent fl dir ty nm = some ⟨nm, ty, decide (dir = chars "eventOut")⟩ := by
  have h4 : (nm == chars "externalURL") = false := by simpa using h3
  rw [mkEvent, h2, h4, h1]; rfl

theorem over_field {p : ProtoDef F} {ex ty nm x : Text} {ft : FieldType F} {d : Dflt F} {b : Bool} {v : Option PTree} (h1 : fl.types.field ty = some ft) :
    classPorts (p.addField ⟨⟨nm, ty, ft.kind, ft.str, ft.conv, d⟩, b⟩).cls x = over fl ((some (Written.field ex ty nm v)).filter (fun d => d.name == x)) (classPorts p.cls x) := by
  rw [addField_ports]
  by_cases hx : nm = x
  · subst hx; simp [Option.filter, Written.name, over, h1]
  · simp [Option.filter, Written.name, over, hx]

theorem over_event {p : ProtoDef F} {dir ty nm x : Text} {b : Bool} : classPorts (p.addEvent ⟨nm, ty, b⟩).cls x = over fl ((some (Written.event dir ty nm)).filter (fun d => d.name == x)) (classPorts p.cls x) := by
  rw [addEvent_ports]
  by_cases hx : nm = x
  · subst hx; simp [Option.filter, Written.name, over]
  · simp [Option.filter, Written.name, over, hx]

theorem mDecls_field {I} {ports : Ports F} {m ex a ty b nm c v} {ft : FieldType F} {ts e e1 e'} (hf : fl.types.field ty = some ft) (hr : reserved nm = false) (hcv : calm v = true) (h1 : MValue base fl I ft.kind none v e e1) (h2 : MDecls base fl I ports ts e1 e') :
    MDecls base fl I ports (.node .scriptFieldDecl m [.node .fieldExposure ex a, .node .dataType ty b, .node .name nm c, v] :: ts) e e' := by
  intro Is pend ss ps w i p is hI h hc pi hi his
  obtain ⟨rv, u, w1, a1, a2, a3, a4, a5⟩ := h1.2 Is pend ss ps w (some i) hI h (.inl hcv)
  have hc1 := (a5.2 i hi).trans hc
  obtain ⟨is', w', p', q⟩ := decls_step (p := p) (w := w) (t := .node .scriptFieldDecl m [.node .fieldExposure ex a, .node .dataType ty b, .node .name nm c, v]) h2 hI
    (a4.setClass pi (p.addField ⟨⟨nm, ty, ft.kind, ft.str, ft.conv, dfltOf u⟩, decide (ex = chars "exposedField")⟩).cls) (setClass_self hc1) pi hi a5.1
    (fun j hj hji => (setClass_clsAt _ _ _ _ hji).trans (a5.2 j hj)) his (fun x => by
      obtain ⟨t, m', k'⟩ := v
      cases t <;> first | (cases h1.1; done) | exact over_field hf)
  refine ⟨is', w', p', ?_, q.2⟩
  rw [dispDecls, hf]
  simp only [h1.1, a1, a2, mkField_ok hf hr]
  exact q.1

theorem mDecls_fieldIs {I} {ports : Ports F} {m ex a ty b nm c x kids} {ft : FieldType F} {ts e e'} (hf : fl.types.field ty = some ft) (hr : reserved nm = false) (hm : MayBe I ports nm x) (h2 : MDecls base fl I ports ts e e') :
    MDecls base fl I ports (.node .scriptFieldDecl m [.node .fieldExposure ex a, .node .dataType ty b, .node .name nm c, .node .is x kids] :: ts) e e' := by
  intro Is pend ss ps w i p is hI h hc pi hi his
  obtain ⟨is', w', p', q⟩ := decls_step (p := p) (w := w) (is1 := is ++ [(x, nm)]) (t := .node .scriptFieldDecl m [.node .fieldExposure ex a, .node .dataType ty b, .node .name nm c, .node .is x kids]) h2 hI
    (h.setClass pi (p.addField ⟨⟨nm, ty, ft.kind, ft.str, ft.conv, fl.types.dflt ty⟩, decide (ex = chars "exposedField")⟩).cls) (setClass_self hc) pi hi le_rfl
    (fun j hj hji => setClass_clsAt _ _ _ _ hji) (fun y hy => by
      rcases List.mem_append.1 hy with hy | hy
      · exact his y hy
      · simp only [List.mem_singleton] at hy; subst hy; exact hm) (fun x => over_field hf)
  refine ⟨is', w', p', ?_, q.2⟩
  rw [dispDecls, hf]
  simp only [isTarget, mkField_ok hf hr]
  exact q.1

theorem mDecls_event {I} {ports : Ports F} {m dir a ty b nm c ts e e'} (hf : fl.types.event ty = true) (hr : reserved nm = false) (hx : nm ≠ chars "externalURL") (h2 : MDecls base fl I ports ts e e') :
    MDecls base fl I ports (.node .scriptEventDecl m [.node .eventDirection dir a, .node .dataType ty b, .node .name nm c] :: ts) e e' := by
  intro Is pend ss ps w i p is hI h hc pi hi his
  obtain ⟨is', w', p', q⟩ := decls_step (p := p) (w := w) (is1 := is) (t := .node .scriptEventDecl m [.node .eventDirection dir a, .node .dataType ty b, .node .name nm c]) h2 hI
    (h.setClass pi (p.addEvent ⟨nm, ty, decide (dir = chars "eventOut")⟩).cls) (setClass_self hc) pi hi le_rfl
    (fun j hj hji => setClass_clsAt _ _ _ _ hji) his (fun x => over_event)
  refine ⟨is', w', p', ?_, q.2⟩
  rw [dispDecls]
  simp only [mkEvent_ok hf hr hx]
  exact q.1

theorem mDecls_eventIs {I} {ports : Ports F} {m dir a ty b nm c x kids more ts e e'} (hf : fl.types.event ty = true) (hr : reserved nm = false) (hx : nm ≠ chars "externalURL") (hm : MayBe I ports nm x) (h2 : MDecls base fl I ports ts e e') :
    MDecls base fl I ports (.node .scriptEventDecl m (.node .eventDirection dir a :: .node .dataType ty b :: .node .name nm c :: .node .is x kids :: more) :: ts) e e' := by
  intro Is pend ss ps w i p is hI h hc pi hi his
  obtain ⟨is', w', p', q⟩ := decls_step (p := p) (w := w) (is1 := is ++ [(x, nm)]) (t := .node .scriptEventDecl m (.node .eventDirection dir a :: .node .dataType ty b :: .node .name nm c :: .node .is x kids :: more)) h2 hI
    (h.setClass pi (p.addEvent ⟨nm, ty, decide (dir = chars "eventOut")⟩).cls) (setClass_self hc) pi hi le_rfl
    (fun j hj hji => setClass_clsAt _ _ _ _ hji) (fun y hy => by
      rcases List.mem_append.1 hy with hy | hy
      · exact his y hy
      · simp only [List.mem_singleton] at hy; subst hy; exact hm) (fun x => over_event)
  refine ⟨is', w', p', ?_, q.2⟩
  rw [dispDecls]
  simp only [mkEvent_ok hf hr hx, isTarget]
  exact q.1

theorem mDecls_attr {I} {ports : Ports F} {m kids ts e e'} (h2 : MDecls base fl I ports ts e e') : MDecls base fl I ports (.node .attr m kids :: ts) e e' := by
  intro Is pend ss ps w i p is hI h hc pi hi his
  obtain ⟨is', w', p', q⟩ := decls_step (p := p) (p1 := p) (w := w) (w1 := w) (t := .node .attr m kids) h2 hI h hc pi hi le_rfl (fun j hj hji => rfl) his (fun x => rfl)
  refine ⟨is', w', p', ?_, q.2⟩
  rw [dispDecls]
  exact q.1

/-! ### Nodes -/

theorem mGood_item {I m kids e e'} (h1 : MAll base fl I kids e e') : MGood base fl I (.node .rootItem m kids) e e' := by
  intro Is pend ss ps w cur fd hI h hp
  obtain ⟨vs, w1, a1, a2, a3, -⟩ := h1 Is pend ss ps w cur fd hI h (hp.imp (fun h => by cases h.1) id)
  have hd : disp base fl (.node .rootItem m kids) ss ps cur fd w = some (.nothing, { w1 with scene := upd w1.scene (ss.headD 0) (fun o =>
      { o with children := o.children ++ vs.filterMap (fun v => match v with | .ref (some r) => some r | _ => none) }) }) := by
    rw [disp]
    simp only [a1]
    rfl
  exact ⟨_, _, hd, a2.sceneChange _ (fun _ => ⟨rfl, rfl⟩), ⟨a3.1, a3.2⟩, fun h => by cases h⟩

theorem mGood_null {I m kids e} : MGood base fl I (.node .sfNull m kids) e e := by
  intro Is pend ss ps w cur fd hI h hp
  exact ⟨.ref none, w, by rw [disp], h, .refl w, fun _ => ⟨none, rfl⟩⟩

theorem GSim.name {Is sc e pend ss ps} {w : World F} (h : GSim Is (sc :: e) pend ss ps w) {nm : Text} {p : Ports F} (hn : sc.names.lookup nm = some p) :
    ∃ i, w.getDEF (ss.headD 0) nm = some i ∧ portsAt pend w i = some p := by
  cases h.scopes with
  | cons h1 _ => exact h1.names nm p hn

theorem mGood_use {I nm kids} {s : Scope F} {e p} (hn : s.names.lookup nm = some p) : MGood base fl I (.node .use nm kids) (s :: e) (s :: e) := by
  intro Is pend ss ps w cur fd hI h hp
  obtain ⟨i, h1, -⟩ := h.name hn
  exact ⟨.ref (some i), w, by rw [disp, h1], h, .refl w, fun _ => ⟨some i, rfl⟩⟩

theorem portsAt_none {w : World F} {i p} (h : portsAt (fun _ => none) w i = some p) : ∃ c, clsAt w i = some c ∧ classPorts c = p := Option.map_eq_some_iff.1 h

theorem mGood_route {I m x xf y yf a b c d} {s : Scope F} {e p q} (h1 : s.names.lookup x = some p) (h2 : s.names.lookup y = some q) (h3 : MayRoute p xf q yf) :
    MGood base fl I (.node .route m [.node .name x a, .node .name xf b, .node .name y c, .node .name yf d]) (s :: e) (s :: e) := by
  intro Is pend ss ps w cur fd hI h hp
  rcases hp with hp | rfl
  · cases hp.1
  · obtain ⟨i, a1, a2⟩ := h.name h1
    obtain ⟨j, b1, b2⟩ := h.name h2
    obtain ⟨ci, hci, rfl⟩ := portsAt_none a2
    obtain ⟨cj, hcj, rfl⟩ := portsAt_none b2
    refine ⟨.nothing, w.addRoute (ss.headD 0) ⟨i, xf, j, yf⟩, by rw [disp, a1, b1], h.addRoute _ (r := ⟨i, xf, j, yf⟩) hci hcj rfl rfl h3, ?_, fun h => by cases h⟩
    have hq := bind_quiet w i xf j yf
    exact ⟨hq.next.ge, fun k _ => hq.clsAt k⟩

theorem GSim.head {Is sc e pend ss ps} {w : World F} (h : GSim Is (sc :: e) pend ss ps w) : ∃ s ss', ss = s :: ss' := by
  cases h.scopes with
  | cons => exact ⟨_, _, rfl⟩

theorem new_clsAt {w : World F} {i : Nat} {c : Class F} {D : Text} {f} (h : w.heap i = some ⟨c, D, f⟩) : clsAt w i = some c := by simp [clsAt, h]

theorem mGood_node (hb : PlainBase base) {I m gi a rest p e e'} (ht : typeOf base e gi = some p) (h1 : MAttrs base fl I p rest e e') : MGood base fl I (.node .node m (.node .nodegi gi a :: rest)) e e' := by
  intro Is pend ss ps w cur fd hI h hp
  obtain ⟨c, w1, q1, q2, q3, q4, q5, q6⟩ := h.create hb ht
  obtain ⟨vs, w2, r1, r2, r3⟩ := h1 Is pend ss ps w1 w.next c fd hI q2 (new_clsAt q3) q6 (h.later _ le_rfl) (by omega) (hp.imp (fun h t ht => calm_kid h.2 (by simp [ht])) id)
  refine ⟨.ref (some w.next), w2, ?_, r2, q5.trans r3, fun _ => ⟨_, rfl⟩⟩
  rw [node_eq, q1, if_pos rfl, Option.bind_some, r1]
  rfl

theorem regDef_stay (w : World F) (s nm i) : Stay w (w.regDef s nm i) := ⟨le_rfl, fun j _ => regDef_clsAt w s nm i j⟩

theorem mGood_defNode (hb : PlainBase base) {I m DEF a gi b rest p} {s : Scope F} {e e'} (hD : DEF ≠ []) (ht : typeOf base (s :: e) gi = some p) (h1 : MAttrs base fl I p rest (s.def DEF p :: e) e') :
    MGood base fl I (.node .node m (.node .name DEF a :: .node .nodegi gi b :: rest)) (s :: e) e' := by
  intro Is pend ss ps w cur fd hI h hp
  obtain ⟨s0, ss', rfl⟩ := h.head
  obtain ⟨c, w1, q1, q2, q3, q4, q5, q6⟩ := h.create hb ht
  have pn : pend w.next = none := h.later _ le_rfl
  have q7 := q2.regDef hD q3 rfl (p := p) (by simp only [portsAt, pn, new_clsAt q3, Option.map_some, q6])
  obtain ⟨vs, w2, r1, r2, r3⟩ := h1 Is pend (s0 :: ss') ps (w1.regDef s0 DEF w.next) w.next c fd hI q7 ((regDef_clsAt _ _ _ _ _).trans (new_clsAt q3)) q6 pn (by
    show w.next < w1.next
    omega) (hp.imp (fun h t ht => calm_kid h.2 (by simp [ht])) id)
  refine ⟨.ref (some w.next), w2, ?_, r2, (q5.trans (regDef_stay _ _ _ _)).trans r3, fun _ => ⟨_, rfl⟩⟩
  rw [defNode_eq, q1, if_neg hD, Option.bind_some]
  simp only [List.headD_cons, r1, Option.map_some]

/-- the items of a Script -/
theorem script_items {I ts e e1 e'} (h1 : MDecls base fl I (scriptPorts fl ts) ts e e1) (h2 : MAttrs base fl I (scriptPorts fl ts) (ts.filter (fun t => ParseVal.Tree.tag t = .attr)) e1 e')
    {Is pend pend' ss ps} {w : World F} {i : Nat} (hI : I = Is.head?.join) (h : GSim Is e pend' ss ps w) (hp : ∀ j, j ≠ i → pend' j = pend j) (pi : pend i = none) (pi' : pend' i = some (scriptPorts fl ts))
    (hc : clsAt w i = some (scriptProto : ProtoDef F).cls) (hi : i < w.next) (hcm : (∀ t ∈ ts, calm t = true) ∨ pend = fun _ => none) (fd) :
    ∃ is w2 w3 w', dispDecls base fl ts ss ps i scriptProto [] w = some (is, w2) ∧ w2.addAllIs ps i is = some w3 ∧ dispAttrs base fl ts ss ps i fd w3 = some w' ∧ GSim Is e' pend ss ps w' ∧
      w.next ≤ w'.next ∧ ∀ j < w.next, j ≠ i → clsAt w' j = clsAt w j := by
  obtain ⟨is, w2, p', a1, a2, a3, a4, a5, a6, a7⟩ := h1 Is pend' ss ps w i scriptProto [] hI h hc pi' hi (fun y hy => by cases hy)
  have hports : classPorts p'.cls = scriptPorts fl ts := by
    funext x
    rw [a6, scriptPorts_eq]
  have h2' := a2.settle (pend' := pend) (fun j hj => (hp j hj).symm) pi a5 (by rw [hports]; exact pi')
  obtain ⟨w3, b1, b2, b3, b4⟩ := addAllIs_gsim pi is w2 h2' a5 (fun y hy => by rw [hports, ← hI]; exact a7 y hy)
  have hc3 : clsAt w3 i = some p'.cls := by simpa only [clsAt, b3] using a5
  obtain ⟨vs, w', c1, c2, c3⟩ := h2 Is pend ss ps w3 i p'.cls fd hI b2 hc3 hports pi (by omega) (hcm.imp (fun h t ht => h t (List.mem_filter.1 ht).1) id)
  refine ⟨is, w2, w3, w', a1, b1, by rw [dispAttrs_filter, c1]; rfl, c2, by have := c3.1; omega, fun j hj hji => ?_⟩
  rw [c3.2 j (by omega)]
  simp only [clsAt, b3]
  exact a4 j hj hji

theorem mGood_script {I m rest e e1 e'} (hh : ∀ t ∈ rest.head?, ParseVal.Tree.tag t ≠ .name) (h1 : MDecls base fl I (scriptPorts fl rest) rest e e1)
    (h2 : MAttrs base fl I (scriptPorts fl rest) (rest.filter (fun t => ParseVal.Tree.tag t = .attr)) e1 e') : MGood base fl I (.node .script m rest) e e' := by
  intro Is pend ss ps w cur fd hI h hp
  obtain ⟨w1, q1, q2, q3, q4, q5⟩ := h.fresh_node (pend' := fun j => if j = w.next then some (scriptPorts fl rest) else pend j) (scriptProto : ProtoDef F).cls none
    (fun i hi => by simp [hi]) scriptProto_fields (fun k' hk' => by cases hk')
  obtain ⟨is, w2, w3, w', a1, a2, a3, a4, a5, a6⟩ := script_items h1 h2 (pend := pend) hI q2 (fun j hj => by simp [hj]) (h.later _ le_rfl) (by simp) (new_clsAt q3) (by omega) (hp.imp (fun h t ht => calm_kid h.2 ht) id) fd
  refine ⟨.ref (some w.next), w', ?_, a4, ⟨by omega, fun j hj => (a6 j (by omega) (by omega)).trans (q5.2 j hj)⟩, fun _ => ⟨_, rfl⟩⟩
  have hd : disp base fl (.node .script m rest) ss ps cur fd w = match w.newNode ss (scriptProto : ProtoDef F).cls none [] with
      | none => none
      | some w1 =>
        match dispDecls base fl rest ss ps w.next scriptProto [] w1 with
        | none => none
        | some (is, w2) =>
          match w2.addAllIs ps w.next is with
          | none => none
          | some w3 =>
            match dispAttrs base fl rest ss ps w.next fd w3 with
            | none => none
            | some w' => some (.ref (some w.next), w') := by
    cases rest with
    | nil => rw [disp] <;> first | rfl | (intro _ _ _ hc; cases hc)
    | cons t ts =>
      obtain ⟨t, m', k'⟩ := t
      have ht : t ≠ .name := hh _ rfl
      cases t <;> first | exact absurd rfl ht | (rw [disp] <;> first | rfl | (intro _ _ _ hc; cases hc))
  rw [hd, q1, if_pos rfl]
  simp only [a1, a2, a3]

theorem mGood_defScript {I m DEF a rest} {s : Scope F} {e e1 e'} (hD : DEF ≠ []) (h1 : MDecls base fl I (scriptPorts fl rest) rest (s.def DEF (scriptPorts fl rest) :: e) e1)
    (h2 : MAttrs base fl I (scriptPorts fl rest) (rest.filter (fun t => ParseVal.Tree.tag t = .attr)) e1 e') : MGood base fl I (.node .script m (.node .name DEF a :: rest)) (s :: e) e' := by
  intro Is pend ss ps w cur fd hI h hp
  obtain ⟨s0, ss', rfl⟩ := h.head
  obtain ⟨w1, q1, q2, q3, q4, q5⟩ := h.fresh_node (pend' := fun j => if j = w.next then some (scriptPorts fl rest) else pend j) (scriptProto : ProtoDef F).cls none
    (fun i hi => by simp [hi]) scriptProto_fields (fun k' hk' => by cases hk')
  have q7 := q2.regDef hD q3 rfl (p := scriptPorts fl rest) (by simp [portsAt])
  obtain ⟨is, w2, w3, w', a1, a2, a3, a4, a5, a6⟩ := script_items h1 h2 (pend := pend) hI q7 (fun j hj => by simp [hj]) (h.later _ le_rfl) (by simp) ((regDef_clsAt _ _ _ _ _).trans (new_clsAt q3)) (by
    show w.next < w1.next
    omega) (hp.imp (fun h t ht => calm_kid h.2 (by simp [ht])) id) fd
  have hnx : (w1.regDef s0 DEF w.next).next = w1.next := rfl
  refine ⟨.ref (some w.next), w', ?_, a4, ⟨by omega, fun j hj => (a6 j (by omega) (by omega)).trans ((regDef_clsAt _ _ _ _ _).trans (q5.2 j hj))⟩, fun _ => ⟨_, rfl⟩⟩
  rw [disp, q1, if_neg hD]
  simp only [List.headD_cons, a1, a2, a3]

end Verif.Full
