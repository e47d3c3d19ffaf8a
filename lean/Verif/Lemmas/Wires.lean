import Verif.Lemmas.Linked
/-!
Every connection comes from a ROUTE of some scene, or from IS in the body of the prototype of some node.
-/
namespace Verif.Full
open Verif.Peg Verif.Grammar Verif.TextOut Verif.SceneText Verif.Reader Verif.Scopes
open Verif.Lin hiding disp dispList dispDecls dispAttrs disp_node disp_attr
variable {F : Type} {base : Text → Option (Class F)} {fl : Floats F}

/-- the connection `x` is for a ROUTE, or for IS -/
def Origin (w : World F) (x : Wire) : Prop :=
  (∃ s r, s < w.nscenes ∧ r ∈ (w.scene s).routes ∧ x.src = r.src ∧ x.dst = r.dst ∧ x.dstField = r.dstField) ∨
  ∃ i k nm ends t g, w.inst i = some k ∧ (nm, ends) ∈ (w.cls k).isMaps ∧ (t, g) ∈ ends ∧
    ((x.src = i ∧ x.dst = t ∧ x.dstField = g) ∨ (x.src = t ∧ x.dst = i ∧ x.dstField = nm))

theorem bind_old {w : World F} {i f d g} {x : Wire} (h : x ∈ (w.bind i f d g).wires) : x ∈ w.wires ∨ (x.src = i ∧ x.dst = d ∧ x.dstField = g) := by
  unfold World.bind at h
  split at h
  · exact .inl h
  · rcases List.mem_append.1 h with h | h
    · exact .inl h
    · cases List.mem_singleton.1 h; exact .inr ⟨rfl, rfl, rfl⟩
  · rcases List.mem_append.1 h with h | h
    · exact .inl h
    · cases List.mem_singleton.1 h; exact .inr ⟨rfl, rfl, rfl⟩

theorem bindAll_old (i : Nat) (nm : Text) {x : Wire} : ∀ (l : List (Nat × Text)) (w : World F),
    x ∈ (l.foldl (fun w x => (w.bind i nm x.1 x.2).bind x.1 x.2 i nm) w).wires → x ∈ w.wires ∨ ∃ y ∈ l, (x.src = i ∧ x.dst = y.1 ∧ x.dstField = y.2) ∨ (x.src = y.1 ∧ x.dst = i ∧ x.dstField = nm)
  | [], _, h => .inl h
  | y :: l, w, h => by
    rcases bindAll_old i nm l _ h with h | ⟨z, hz, h⟩
    · rcases bind_old h with h | h
      · rcases bind_old h with h | h
        · exact .inl h
        · exact .inr ⟨y, by simp, .inl h⟩
      · exact .inr ⟨y, by simp, .inr h⟩
    · exact .inr ⟨z, by simp [hz], h⟩

theorem bindIs_old {w w' : World F} {i c e} (h : w.bindIs i c e = some w') {x : Wire} (hx : x ∈ w'.wires) :
    x ∈ w.wires ∨ ∃ y ∈ e.2, (x.src = i ∧ x.dst = y.1 ∧ x.dstField = y.2) ∨ (x.src = y.1 ∧ x.dst = i ∧ x.dstField = e.1) := by
  unfold World.bindIs at h
  split at h
  · cases h
  · simp only at h
    have hq := bindAll_old i e.1 (x := x) e.2 w
    split at h
    · split at h
      · cases h
      · split at h
        · cases h; exact hq hx
        · cases h
      · cases h; exact hq hx
    · cases h; exact hq hx

theorem bindIsAll_old {i c} {x : Wire} : ∀ (l : List (Text × List (Nat × Text))) (w w' : World F), l.foldlM (fun w' e => w'.bindIs i c e) w = some w' → x ∈ w'.wires →
    x ∈ w.wires ∨ ∃ e ∈ l, ∃ y ∈ e.2, (x.src = i ∧ x.dst = y.1 ∧ x.dstField = y.2) ∨ (x.src = y.1 ∧ x.dst = i ∧ x.dstField = e.1)
  | [], w, w', h, hx => by cases h; exact .inl hx
  | e :: l, w, w', h, hx => by
    rw [List.foldlM_cons] at h
    cases h1 : w.bindIs i c e with
    | none => rw [h1] at h; cases h
    | some w1 =>
      rw [h1] at h
      rcases bindIsAll_old l w1 w' h hx with h2 | ⟨e', he', h2⟩
      · rcases bindIs_old h1 h2 with h3 | h3
        · exact .inl h3
        · exact .inr ⟨e, by simp, h3⟩
      · exact .inr ⟨e', by simp [he'], h2⟩

theorem newNode_old {w w' : World F} {ss : List Nat} {ps} (hw : Inv base w ps) {c : Class F} {k : Option Nat} {DEF : Text}
    (hc : ∀ d ∈ c.fields, ∀ j ∈ d.dfltNodes, j < w.next)
    (hk : ∀ k', k = some k' → k' < w.nclasses ∧ k' ∉ ps ∧ c = (w.cls k').cls) (hb : k = none → (∃ t, base t = some c) ∨ c.proto = scriptName)
    (hn : w.newNode ss c k DEF = some w') {x : Wire} (hx : x ∈ w'.wires) : x ∈ w.wires ∨
    ∃ k', k = some k' ∧ ∃ e ∈ (w.cls k').isMaps, ∃ y ∈ e.2, (x.src = w.next ∧ x.dst = y.1 ∧ x.dstField = y.2) ∨ (x.src = y.1 ∧ x.dst = w.next ∧ x.dstField = e.1) := by
  unfold World.newNode at hn
  simp only at hn
  split at hn
  · cases hn
  · next w1 hw1 =>
    split at hn
    · cases hn
    · next w2 hw2 =>
      have ha := hw.alloc hc hk hb
      have his : ∀ e ∈ (match k with | some k => (w.cls k).isMaps | none => []), ∀ x ∈ e.2, x.1 < w.next := by
        intro e he x hx
        cases k with
        | none => cases he
        | some k =>
          simp only [ClassObj.isMaps] at he
          split at he
          · exact hw.is k e he x hx
          · cases he
      obtain ⟨i1, nx⟩ : Inv base w1 ps ∧ w1.next = w.next + 1 := by
        refine foldlM_inv (P := fun p : World F => Inv base p ps ∧ p.next = w.next + 1) (fun e he a b ha hb => ?_) ⟨ha, rfl⟩ hw1
        refine ⟨ha.1.bindIs (by omega) (fun x hx => ?_) (fun d hd j hj => ?_) hb, (bindIs_quiet hb).next.trans ha.2⟩
        · have := his e he x hx; omega
        · have := hc d hd j hj; omega
      obtain ⟨i2, t2⟩ := rootSet_inv _ _ _ _ _ i1 hw2
      have hwr : w'.wires = w1.wires := by
        have : w2.wires = w1.wires := t2.wires
        split at hn
        · cases hn; exact this
        · cases hn; exact this
      rw [hwr] at hx
      rcases bindIsAll_old _ _ _ hw1 hx with h | ⟨e, he, h⟩
      · exact .inl h
      · cases k with
        | none => cases he
        | some k => exact .inr ⟨k, rfl, e, he, h⟩

theorem create_old (hb : PlainBase base) {w w' : World F} {ps ss : List Nat} (h : Inv base w ps) {gi DEF}
    (hn : w.create base ss gi DEF = some w') {x : Wire} (hx : x ∈ w'.wires) : x ∈ w.wires ∨
    ∃ k', w'.inst w.next = some k' ∧ ∃ e ∈ (w.cls k').isMaps, ∃ y ∈ e.2, (x.src = w.next ∧ x.dst = y.1 ∧ x.dstField = y.2) ∨ (x.src = y.1 ∧ x.dst = w.next ∧ x.dstField = e.1) := by
  obtain ⟨-, c0, k0, hnew, hk0, -⟩ := create_inv hb h hn
  have hin : w'.inst w.next = k0 := by rw [hnew.inst, if_pos rfl]
  unfold World.create at hn
  cases hg : w.getProto ss gi with
  | some k =>
    rw [hg] at hn
    obtain ⟨s, hs⟩ := getProto_mem hg
    obtain ⟨h1, h2, h3⟩ := h.protos s gi k hs
    rcases newNode_old h (fun d hd j hj => by
      obtain ⟨f, hf, rfl⟩ := classObj_fields hd
      exact h.decls k f hf j hj) (fun k' hk' => by cases hk'; exact ⟨h1, h2, rfl⟩) (fun hk => by cases hk) hn hx with h4 | ⟨k', hk', h4⟩
    · exact .inl h4
    · cases hk'
      exact .inr ⟨k, by rw [hin, ← hk0, hg], h4⟩
  | none =>
    rw [hg] at hn
    simp only at hn
    split at hn
    · cases hn
    · next c hc =>
      rcases newNode_old h (fun d hd j hj => by rw [hb gi c hc d hd] at hj; cases hj) (fun k' hk' => by cases hk') (fun _ => .inl ⟨gi, hc⟩) hn hx with h4 | ⟨k', hk', h4⟩
      · exact .inl h4
      · cases hk'

theorem Origin.ext {w w' : World F} {ps} (h : Inv base w ps) (e : Ext ps w w') (hr : ∀ s, s < w.nscenes → ∀ r ∈ (w.scene s).routes, r ∈ (w'.scene s).routes) {x : Wire}
    (hx : Origin w x) : Origin w' x := by
  rcases hx with ⟨s, r, h1, h2, h3⟩ | ⟨i, k, nm, ends, t, g, h1, h2, h3, h4⟩
  · exact .inl ⟨s, r, h1.trans_le e.nscenes, hr s h1 r h2, h3⟩
  · obtain ⟨a, b, n, c, -⟩ := h.inst i k h1
    have hi := (h.ids i).1 (by rw [c]; rfl)
    exact .inr ⟨i, k, nm, ends, t, g, by rw [e.inst i hi]; exact h1, by rw [e.cls k a b]; exact h2, h3, h4⟩

def OriginInv (w : World F) : Prop := ∀ x ∈ w.wires, Origin w x

theorem Run.origins (hb : PlainBase base) {plain : Bool} {ss ps l} {w w' : World F} (hr : Run base fl plain ss ps l w w') :
    Inv base w ps → ss.headD 0 < w.nscenes → OriginInv w → OriginInv w' ∧ ∀ s, s < w.nscenes → ∀ r ∈ (w.scene s).routes, r ∈ (w'.scene s).routes := by
  induction hr with
  | nil => exact fun _ _ h => ⟨h, fun _ _ _ h => h⟩
  | trans r1 r2 ih1 ih2 =>
    intro hw hs h
    obtain ⟨a1, b1⟩ := ih1 hw hs h
    obtain ⟨i1, e1⟩ := r1.inv hb hw
    obtain ⟨a2, b2⟩ := ih2 i1 (hs.trans_le e1.nscenes) a1
    exact ⟨a2, fun s hs r hr => b2 s (hs.trans_le e1.nscenes) r (b1 s hs r hr)⟩
  | @create ss ps gi DEF w w' hD hc =>
    intro hw hs h
    obtain ⟨hw', e⟩ := (Run.create (fl := fl) (plain := plain) (ps := ps) hD hc).inv hb hw
    obtain ⟨-, c, k, hnew, -⟩ := create_inv hb hw hc
    have hro : ∀ s, s < w.nscenes → ∀ r ∈ (w.scene s).routes, r ∈ (w'.scene s).routes := fun s _ r hr => by rw [(hnew.same s).2.2.1]; exact hr
    refine ⟨fun x hx => ?_, hro⟩
    rcases create_old hb hw hc hx with h1 | ⟨k', h1, en, h2, y, h3, h4⟩
    · exact (h x h1).ext hw e hro
    · exact .inr ⟨w.next, k', en.1, en.2, y.1, y.2, h1, by rw [hnew.cls]; exact h2, h3, h4⟩
  | @script ss ps DEF w w' hD hc =>
    intro hw hs h
    obtain ⟨hw', e⟩ := (Run.script (base := base) (fl := fl) (plain := plain) (ps := ps) hD hc).inv hb hw
    have hnew := (script_inv hw hc).2
    have hro : ∀ s, s < w.nscenes → ∀ r ∈ (w.scene s).routes, r ∈ (w'.scene s).routes := fun s _ r hr => by rw [(hnew.same s).2.2.1]; exact hr
    refine ⟨fun x hx => ?_, hro⟩
    rcases newNode_old hw (fun d hd j hj => by rw [scriptProto_fields d hd] at hj; cases hj) (fun k' hk' => by cases hk') (fun _ => .inr rfl) hc hx with h1 | ⟨k', h1, -⟩
    · exact (h x h1).ext hw e hro
    · cases h1
  | @setClass ss ps w i n c h1 h2 h3 h4 h5 _ =>
    intro hw hs h
    obtain ⟨hw', e⟩ := hw.setClass h1 h2 h3 h4 h5
    exact ⟨fun x hx => (h x hx).ext hw e (fun _ _ _ h => h), fun _ _ _ h => h⟩
  | use _ => exact fun _ _ h => ⟨h, fun _ _ _ h => h⟩
  | @route ss ps s sf d df si di w h1 h2 h3 h4 =>
    intro hw hs h
    obtain ⟨hw', e⟩ := (Run.route (base := base) (fl := fl) (plain := plain) (ps := ps) h1 h2 h3 h4).inv hb hw
    have hq := bind_quiet w si sf di df
    have hro : ∀ t, t < w.nscenes → ∀ r ∈ (w.scene t).routes, r ∈ ((w.addRoute (ss.headD 0) ⟨si, sf, di, df⟩).scene t).routes := fun t _ r hr => by
      simp only [World.addRoute, upd, hq.scene]
      split
      · next ht => subst ht; exact List.mem_append_left _ hr
      · exact hr
    refine ⟨fun x hx => ?_, hro⟩
    rcases bind_old (x := x) (by exact hx) with h5 | h5
    · exact (h x h5).ext hw e hro
    · exact .inl ⟨ss.headD 0, ⟨si, sf, di, df⟩, by simp only [World.addRoute, hq.nscenes]; exact hs, by simp [World.addRoute, upd], h5⟩
  | @is ss ps m i n nm w w' h1 h2 =>
    intro hw hs h
    obtain ⟨hw', e⟩ := (Run.is (base := base) (fl := fl) (plain := plain) (ss := ss) h1 h2).inv hb hw
    have : w'.scene = w.scene ∧ w'.wires = w.wires := by
      unfold World.addIs at h2
      split at h2
      · cases h2
      · cases h2; exact ⟨rfl, rfl⟩
    have hro : ∀ s, s < w.nscenes → ∀ r ∈ (w.scene s).routes, r ∈ (w'.scene s).routes := fun s _ r hr => by rw [this.1]; exact hr
    exact ⟨fun x hx => (h x (by rw [← this.2]; exact hx)).ext hw e hro, hro⟩
  | @attr ss ps i n d v w w' h1 h2 h3 h4 =>
    intro hw hs h
    obtain ⟨hw', e⟩ := (Run.attr (base := base) (fl := fl) (plain := plain) (ss := ss) (ps := ps) h1 h2 h3 h4).inv hb hw
    have := setAttr_wires h4
    have hro : ∀ s, s < w.nscenes → ∀ r ∈ (w.scene s).routes, r ∈ (w'.scene s).routes := fun s _ r hr => by rw [(setAttr_quiet h4).scene]; exact hr
    exact ⟨fun x hx => (h x (by rw [← this]; exact hx)).ext hw e hro, hro⟩
  | @children ss ps l w h1 =>
    intro hw hs h
    obtain ⟨hw', e⟩ := (Run.children (base := base) (fl := fl) (plain := plain) (ss := ss) (ps := ps) h1).inv hb hw
    have hro : ∀ t, t < w.nscenes → ∀ r ∈ (w.scene t).routes, r ∈ (upd w.scene (ss.headD 0) (fun o => { o with children := o.children ++ l }) t).routes := fun t _ r hr => by
      simp only [upd]
      split
      · next ht => subst ht; exact hr
      · exact hr
    exact ⟨fun x hx => (h x hx).ext hw e hro, hro⟩
  | @decl ss ps c g w h1 h2 =>
    intro hw hs h
    obtain ⟨hw', e⟩ := (Run.decl (base := base) (fl := fl) (plain := plain) (ss := ss) (ps := ps) h1 h2).inv hb hw
    exact ⟨fun x hx => (h x hx).ext hw e (fun _ _ _ h => h), fun _ _ _ h => h⟩
  | @body ss ps c l w w' hr ih =>
    intro hw hs h
    obtain ⟨h1, e1⟩ := hw.newScene (some (ss.headD 0))
    have hro : ∀ t, t < w.nscenes → ∀ r ∈ (w.scene t).routes, r ∈ ((w.newScene (some (ss.headD 0))).scene t).routes := fun t ht r hr => by
      simp only [World.newScene, upd, if_neg (show t ≠ w.nscenes by omega)]; exact hr
    obtain ⟨a, b⟩ := ih h1 (by simp [World.newScene]) (fun x hx => (h x hx).ext hw e1 hro)
    obtain ⟨h2, e2⟩ := hr.inv hb h1
    obtain ⟨h3, e3⟩ := h2.onCls (c := c) (g := fun o => { o with body := some w.nscenes }) (by simp) rfl (h2.decls _) (h2.is _)
      (fun s hs => by cases hs; exact lt_of_lt_of_le (Nat.lt_succ_self _) e2.nscenes)
    exact ⟨fun x hx => (a x hx).ext h2 e3 (fun _ _ _ h => h), fun s hs r hr => b s (by simp only [World.newScene]; omega) r (hro s hs r hr)⟩
  | @proto ss ps nm rest l w w' hr hI ih =>
    intro hw hs h
    obtain ⟨h1, e1⟩ := hw.newClass nm
    have hl1 : OriginInv (w.newClass nm) := fun x hx => (h x hx).ext hw e1 (fun _ _ _ h => h)
    obtain ⟨a, b⟩ := ih h1 hs hl1
    have hro : ∀ t r, r ∈ (w'.scene t).routes → r ∈ ((w'.addProto (ss.headD 0) nm w.nclasses).scene t).routes := fun t r hr => by
      simp only [World.addProto, upd]
      split
      · next ht => subst ht; exact hr
      · exact hr
    refine ⟨fun x hx => ?_, fun s hs r hr => hro s r (b s hs r hr)⟩
    rcases a x hx with ⟨s, r, q1, q2, q3⟩ | q
    · exact .inl ⟨s, r, q1, hro s r q2, q3⟩
    · exact .inr q

theorem init_origins : OriginInv (World.init fl : World F) := by intro x h; cases h

/-! ### Names in IS mappings -/

theorem isAppend_keys (nm : Text) (e : Nat × Text) : ∀ l : List (Text × List (Nat × Text)), (isAppend nm e l).map Prod.fst = if nm ∈ l.map Prod.fst then l.map Prod.fst else l.map Prod.fst ++ [nm]
  | [] => by simp [isAppend]
  | (m, x) :: l => by
    simp only [isAppend]
    by_cases h : m = nm
    · subst h; simp
    · rw [if_neg (by simpa using h)]
      simp only [List.map_cons, isAppend_keys nm e l, List.mem_cons, show nm ≠ m from fun h' => h h'.symm, false_or]
      split <;> rfl

def KeyInv (w : World F) : Prop := ∀ k, ((w.cls k).is.map Prod.fst).Nodup

theorem Run.keys (hb : PlainBase base) {plain : Bool} {ss ps l} {w w' : World F} (hr : Run base fl plain ss ps l w w') : Inv base w ps → KeyInv w → KeyInv w' := by
  induction hr with
  | nil => exact fun _ h => h
  | trans r1 r2 ih1 ih2 => exact fun hw h => ih2 (r1.inv hb hw).1 (ih1 hw h)
  | @create ss ps gi DEF w w' hD hc =>
    intro hw h k
    obtain ⟨-, c, k0, hnew, -⟩ := create_inv hb hw hc
    rw [hnew.cls]; exact h k
  | @script ss ps DEF w w' hD hc =>
    intro hw h k
    rw [(script_inv hw hc).2.cls]; exact h k
  | setClass _ _ _ _ _ _ => exact fun _ h => h
  | use _ => exact fun _ h => h
  | @route ss ps s sf d df si di w h1 h2 h3 h4 =>
    intro hw h k
    simp only [World.addRoute]
    rw [(bind_quiet w si sf di df).cls]; exact h k
  | @is ss ps m i n nm w w' h1 h2 =>
    intro hw h k
    unfold World.addIs at h2
    split at h2
    · cases h2
    · cases h2
      simp only [upd]
      split
      · next hk =>
        subst hk
        rw [isAppend_keys]
        split
        · exact h _
        · next hm => exact List.nodup_append.2 ⟨h _, by simp, fun a ha b hb => by cases List.mem_singleton.1 hb; exact fun e => hm (e ▸ ha)⟩
      · exact h k
  | @attr ss ps i n d v w w' h1 h2 h3 h4 =>
    intro hw h k
    rw [(setAttr_quiet h4).cls]; exact h k
  | children _ => exact fun _ h => h
  | @decl ss ps c g w h1 h2 =>
    intro hw h k
    simp only [World.onDecl, upd]
    split
    · next hk => subst hk; exact h _
    · exact h k
  | @body ss ps c l w w' hr ih =>
    intro hw h k
    have := ih (hw.newScene (some (ss.headD 0))).1 h k
    simp only [World.setBody, upd]
    split
    · next hk => subst hk; exact this
    · exact this
  | @proto ss ps nm rest l w w' hr hI ih =>
    intro hw h
    refine ih (hw.newClass nm).1 (fun k => ?_)
    simp only [World.newClass, upd]
    split
    · exact List.nodup_nil
    · exact h k

theorem init_keys : KeyInv (World.init fl : World F) := fun k => by simp [World.init]

theorem lookup_of_mem {l : List (Text × List (Nat × Text))} (h : (l.map Prod.fst).Nodup) {nm ends} (hm : (nm, ends) ∈ l) : l.lookup nm = some ends := by
  induction l with
  | nil => cases hm
  | cons e l ih =>
    simp only [List.map_cons, List.nodup_cons] at h
    rcases List.mem_cons.1 hm with rfl | hm
    · simp [List.lookup]
    · have : nm ≠ e.1 := fun h' => h.1 (h' ▸ List.mem_map.2 ⟨_, hm, rfl⟩)
      rw [List.lookup_cons, show (nm == e.1) = false by simpa using this]
      exact ih h.2 hm

end Verif.Full
