import Verif.Lemmas.Wires
import Verif.Lemmas.Refine
/-!
The connections of a loaded file are those of its ROUTEs, and those made for IS.
-/
namespace Verif.Full
open Verif.Peg Verif.Grammar Verif.TextOut Verif.SceneText Verif.Reader Verif.Scopes
open Verif.Lin hiding disp dispList dispDecls dispAttrs disp_node disp_attr
variable {F : Type} {base : Text → Option (Class F)} {fl : Floats F}

def NoScriptAt (w : World F) (i : Nat) : Prop := ∀ n, w.heap i = some n → n.cls.proto ≠ scriptName

/-- every ROUTE has its connection -/
def RoutesDone (w : World F) : Prop := ∀ s r p, r ∈ (w.scene s).routes → PortAt w r.src r.srcField p → NoScriptAt w r.src → (⟨r.src, portName p, r.dst, r.dstField⟩ : Wire) ∈ w.wires

/-- every connection has its ROUTE, or is for IS -/
def FromRoute (w : World F) (x : Wire) : Prop :=
  (∃ s r p, s < w.nscenes ∧ r ∈ (w.scene s).routes ∧ PortAt w r.src r.srcField p ∧ x = ⟨r.src, portName p, r.dst, r.dstField⟩) ∨ ∃ i k, w.inst i = some k ∧ (x.src = i ∨ x.dst = i)

def WiresFrom (w : World F) : Prop := ∀ x ∈ w.wires, NoScriptAt w x.src → FromRoute w x

theorem NoScriptAt.back {w w' : World F} {ps} (e : Ext ps w w') {i} (h : NoScriptAt w' i) : NoScriptAt w i := fun n hn => by
  obtain ⟨n', h1, -, h2, -⟩ := e.node i n hn
  rw [← h2]; exact h n' h1

theorem RoutesDone.ext {w w' : World F} {ps} (h : Inv base w ps) (e : Ext ps w w') (hw : w.wires ⊆ w'.wires) (hr : ∀ s, ∀ r ∈ (w'.scene s).routes, r ∈ (w.scene s).routes) (hd : RoutesDone w) : RoutesDone w' := by
  intro s r p h1 h2 h3
  have h1 := hr s r h1
  obtain ⟨k1, k2⟩ := back_port h e (h.routes s r h1).1 h2 h3
  exact hw (hd s r p h1 k1 k2)

theorem FromRoute.ext {w w' : World F} {ps} (h : Inv base w ps) (e : Ext ps w w') (hr : ∀ s, s < w.nscenes → ∀ r ∈ (w.scene s).routes, r ∈ (w'.scene s).routes) {x : Wire}
    (hs : NoScriptAt w x.src) (hx : FromRoute w x) : FromRoute w' x := by
  rcases hx with ⟨s, r, p, h1, h2, ⟨n, h3, h3'⟩, rfl⟩ | ⟨i, k, h1, h2⟩
  · obtain ⟨n', k1, -, -, k2⟩ := e.node _ n h3
    exact .inl ⟨s, r, p, h1.trans_le e.nscenes, hr s h1 r h2, ⟨n', k1, by rw [k2 (hs n h3)]; exact h3'⟩, rfl⟩
  · obtain ⟨a, b, n, c, -⟩ := h.inst i k h1
    exact .inr ⟨i, k, by rw [e.inst i ((h.ids i).1 (by rw [c]; rfl))]; exact h1, h2⟩

theorem WiresFrom.ext {w w' : World F} {ps} (h : Inv base w ps) (e : Ext ps w w') (hw : w'.wires = w.wires) (hr : ∀ s, s < w.nscenes → ∀ r ∈ (w.scene s).routes, r ∈ (w'.scene s).routes) (hd : WiresFrom w) : WiresFrom w' :=
  fun x hx hs => (hd x (by rw [← hw]; exact hx) (hs.back e)).ext h e hr (hs.back e)

theorem Run.routeWires (hb : PlainBase base) {plain : Bool} {ss ps l} {w w' : World F} (hr : Run base fl plain ss ps l w w') :
    Inv base w ps → ss.headD 0 < w.nscenes → RoutesDone w → WiresFrom w → RoutesDone w' ∧ WiresFrom w' := by
  induction hr with
  | nil => exact fun _ _ h k => ⟨h, k⟩
  | trans r1 r2 ih1 ih2 =>
    intro hw hs h k
    obtain ⟨a1, b1⟩ := ih1 hw hs h k
    obtain ⟨i1, e1⟩ := r1.inv hb hw
    exact ih2 i1 (hs.trans_le e1.nscenes) a1 b1
  | @create ss ps gi DEF w w' hD hc =>
    intro hw hs h k
    obtain ⟨hw', e⟩ := (Run.create (fl := fl) (plain := plain) (ps := ps) hD hc).inv hb hw
    obtain ⟨-, c, k0, hnew, -⟩ := create_inv hb hw hc
    refine ⟨h.ext hw e (create_wires hb hw hc).1 (fun s r hr => by rw [← (hnew.same s).2.2.1]; exact hr), fun x hx hns => ?_⟩
    rcases create_old hb hw hc hx with h1 | ⟨k', h1, en, h2, y, h3, h4⟩
    · exact (k x h1 (hns.back e)).ext hw e (fun s _ r hr => by rw [(hnew.same s).2.2.1]; exact hr) (hns.back e)
    · exact .inr ⟨w.next, k', h1, h4.imp (fun h => h.1) (fun h => h.2.1)⟩
  | @script ss ps DEF w w' hD hc =>
    intro hw hs h k
    obtain ⟨hw', e⟩ := (Run.script (base := base) (fl := fl) (plain := plain) (ps := ps) hD hc).inv hb hw
    have hnew := (script_inv hw hc).2
    refine ⟨h.ext hw e (script_wires hw hc).1 (fun s r hr => by rw [← (hnew.same s).2.2.1]; exact hr), fun x hx hns => ?_⟩
    rcases newNode_old hw (fun d hd j hj => by rw [scriptProto_fields d hd] at hj; cases hj) (fun k' hk' => by cases hk') (fun _ => .inr rfl) hc hx with h1 | ⟨k', h1, -⟩
    · exact (k x h1 (hns.back e)).ext hw e (fun s _ r hr => by rw [(hnew.same s).2.2.1]; exact hr) (hns.back e)
    · cases h1
  | @setClass ss ps w i n c h1 h2 h3 h4 h5 _ =>
    intro hw hs h k
    obtain ⟨hw', e⟩ := hw.setClass h1 h2 h3 h4 h5
    exact ⟨h.ext hw e (fun _ h => h) (fun _ _ h => h), k.ext hw e rfl (fun _ _ _ h => h)⟩
  | use _ => exact fun _ _ h k => ⟨h, k⟩
  | @route ss ps s sf d df si di w h1 h2 h3 h4 =>
    intro hw hs h k
    obtain ⟨hw', e⟩ := (Run.route (base := base) (fl := fl) (plain := plain) (ps := ps) h1 h2 h3 h4).inv hb hw
    have hq := bind_quiet w si sf di df
    have hsc : ∀ t r, r ∈ ((w.addRoute (ss.headD 0) ⟨si, sf, di, df⟩).scene t).routes ↔ r ∈ (w.scene t).routes ∨ (t = ss.headD 0 ∧ r = ⟨si, sf, di, df⟩) := fun t r => by
      simp only [World.addRoute, upd, hq.scene]
      split
      · next ht => subst ht; simp only [List.mem_append, List.mem_singleton, true_and]
      · next ht => exact ⟨.inl, fun h => h.resolve_right (fun h => ht h.1)⟩
    have hhe : (w.addRoute (ss.headD 0) ⟨si, sf, di, df⟩).heap = w.heap := by
      simp only [World.addRoute, World.bind]; split <;> rfl
    have hwi : ∀ x, x ∈ (w.addRoute (ss.headD 0) ⟨si, sf, di, df⟩).wires ↔ x ∈ (w.bind si sf di df).wires := fun x => Iff.rfl
    refine ⟨fun t r p hr hp hns => ?_, fun x hx hns => ?_⟩
    · rw [hwi]
      have hp' : PortAt w r.src r.srcField p := by obtain ⟨n, a, b⟩ := hp; exact ⟨n, by rw [← hhe]; exact a, b⟩
      rcases (hsc t r).1 hr with hr | ⟨-, rfl⟩
      · exact bind_wires _ _ _ _ _ (h t r p hr hp' (hns.back e))
      · exact bind_new hp'
    · rcases bind_old ((hwi x).1 hx) with h5 | ⟨h5, h6, h7⟩
      · exact (k x h5 (hns.back e)).ext hw e (fun t _ r hr => (hsc t r).2 (.inl hr)) (hns.back e)
      · rcases bind_srcs w si sf di df x ((hwi x).1 hx) with h8 | ⟨-, n, p, h9, h10, h11⟩
        · exact (k x h8 (hns.back e)).ext hw e (fun t _ r hr => (hsc t r).2 (.inl hr)) (hns.back e)
        · refine .inl ⟨ss.headD 0, ⟨si, sf, di, df⟩, p, hs.trans_le e.nscenes, (hsc _ _).2 (.inr ⟨rfl, rfl⟩), ⟨n, by rw [hhe]; exact h9, h10⟩, ?_⟩
          obtain ⟨a, b, c, d⟩ := x
          simp only at h5 h6 h7 h11
          subst h5 h6 h7 h11; rfl
  | @is ss ps m i n nm w w' h1 h2 =>
    intro hw hs h k
    obtain ⟨hw', e⟩ := (Run.is (base := base) (fl := fl) (plain := plain) (ss := ss) h1 h2).inv hb hw
    have : w'.scene = w.scene ∧ w'.wires = w.wires := by
      unfold World.addIs at h2
      split at h2
      · cases h2
      · cases h2; exact ⟨rfl, rfl⟩
    exact ⟨h.ext hw e (by rw [this.2]; exact fun _ h => h) (by rw [this.1]; exact fun _ _ h => h), k.ext hw e this.2 (by rw [this.1]; exact fun _ _ _ h => h)⟩
  | @attr ss ps i n d v w w' h1 h2 h3 h4 =>
    intro hw hs h k
    obtain ⟨hw', e⟩ := (Run.attr (base := base) (fl := fl) (plain := plain) (ss := ss) (ps := ps) h1 h2 h3 h4).inv hb hw
    have := setAttr_wires h4
    exact ⟨h.ext hw e (by rw [this]; exact fun _ h => h) (by rw [(setAttr_quiet h4).scene]; exact fun _ _ h => h), k.ext hw e this (by rw [(setAttr_quiet h4).scene]; exact fun _ _ _ h => h)⟩
  | @children ss ps l w h1 =>
    intro hw hs h k
    obtain ⟨hw', e⟩ := (Run.children (base := base) (fl := fl) (plain := plain) (ss := ss) (ps := ps) h1).inv hb hw
    have hro : ∀ t r, r ∈ (upd w.scene (ss.headD 0) (fun o => { o with children := o.children ++ l }) t).routes ↔ r ∈ (w.scene t).routes := fun t r => by
      simp only [upd]
      split
      · next ht => subst ht; exact Iff.rfl
      · exact Iff.rfl
    exact ⟨h.ext hw e (fun _ h => h) (fun t r hr => (hro t r).1 hr), k.ext hw e rfl (fun t _ r hr => (hro t r).2 hr)⟩
  | @decl ss ps c g w h1 h2 =>
    intro hw hs h k
    obtain ⟨hw', e⟩ := (Run.decl (base := base) (fl := fl) (plain := plain) (ss := ss) (ps := ps) h1 h2).inv hb hw
    exact ⟨h.ext hw e (fun _ h => h) (fun _ _ h => h), k.ext hw e rfl (fun _ _ _ h => h)⟩
  | @body ss ps c l w w' hr ih =>
    intro hw hs h k
    obtain ⟨h1, e1⟩ := hw.newScene (some (ss.headD 0))
    have hro : ∀ t r, r ∈ ((w.newScene (some (ss.headD 0))).scene t).routes → r ∈ (w.scene t).routes := fun t r hr => by
      simp only [World.newScene, upd] at hr
      split at hr
      · cases hr
      · exact hr
    have hro' : ∀ t, t < w.nscenes → ∀ r ∈ (w.scene t).routes, r ∈ ((w.newScene (some (ss.headD 0))).scene t).routes := fun t ht r hr => by
      simp only [World.newScene, upd, if_neg (show t ≠ w.nscenes by omega)]; exact hr
    obtain ⟨a, b⟩ := ih h1 (by simp [World.newScene]) (h.ext hw e1 (fun _ h => h) hro) (k.ext hw e1 rfl hro')
    obtain ⟨h2, e2⟩ := hr.inv hb h1
    obtain ⟨h3, e3⟩ := h2.onCls (c := c) (g := fun o => { o with body := some w.nscenes }) (by simp) rfl (h2.decls _) (h2.is _)
      (fun s hs => by cases hs; exact lt_of_lt_of_le (Nat.lt_succ_self _) e2.nscenes)
    exact ⟨a.ext h2 e3 (fun _ h => h) (fun _ _ h => h), b.ext h2 e3 rfl (fun _ _ _ h => h)⟩
  | @proto ss ps nm rest l w w' hr hI ih =>
    intro hw hs h k
    obtain ⟨h1, e1⟩ := hw.newClass nm
    obtain ⟨a, b⟩ := ih h1 hs (h.ext hw e1 (fun _ h => h) (fun _ _ h => h)) (k.ext hw e1 rfl (fun _ _ _ h => h))
    have hro : ∀ t r, r ∈ ((w'.addProto (ss.headD 0) nm w.nclasses).scene t).routes ↔ r ∈ (w'.scene t).routes := fun t r => by
      simp only [World.addProto, upd]
      split
      · next ht => subst ht; exact Iff.rfl
      · exact Iff.rfl
    refine ⟨fun s r p hr hp hns => a s r p ((hro s r).1 hr) hp hns, fun x hx hns => ?_⟩
    rcases b x hx hns with ⟨s, r, p, q1, q2, q3⟩ | q
    · exact .inl ⟨s, r, p, q1, (hro s r).2 q2, q3⟩
    · exact .inr q

theorem init_routeWires : RoutesDone (World.init fl : World F) ∧ WiresFrom (World.init fl : World F) :=
  ⟨(by intro s r p h; simp only [World.init] at h; cases h), (by intro x h; cases h)⟩

end Verif.Full
