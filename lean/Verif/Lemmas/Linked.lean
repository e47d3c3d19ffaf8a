import Verif.Lemmas.Forward
import Verif.Lemmas.FullRun5
/-!
Instances of a prototype stay connected with its body.
-/
namespace Verif.Full
open Verif.Peg Verif.Grammar Verif.TextOut Verif.SceneText Verif.Reader Verif.Scopes
open Verif.Lin hiding disp dispList dispDecls dispAttrs disp_node disp_attr
variable {F : Type} {base : Text → Option (Class F)} {fl : Floats F}

theorem bind_wires (w : World F) (i f d g) : w.wires ⊆ (w.bind i f d g).wires := by
  unfold World.bind
  split
  · exact fun _ h => h
  · exact fun _ h => List.mem_append_left _ h
  · exact fun _ h => List.mem_append_left _ h

theorem bind_new {w : World F} {i f d g} {e : FieldDecl F ⊕ EventDecl} (h : PortAt w i f e) : (⟨i, portName e, d, g⟩ : Wire) ∈ (w.bind i f d g).wires := by
  obtain ⟨n, h1, h2⟩ := h
  unfold World.bind
  rw [h1, Option.bind_some, h2]
  cases e <;> simp [portName]

/-- names mean the same in both stores -/
def SamePorts (w w' : World F) : Prop := ∀ i f (d : FieldDecl F ⊕ EventDecl), PortAt w i f d → PortAt w' i f d

theorem Quiet.ports {w w' : World F} (h : Quiet w w') : SamePorts w w' := by
  rintro i f d ⟨n, h1, h2⟩
  have := h.node i
  rw [h1] at this
  obtain ⟨n', h3, h4⟩ := Option.map_eq_some_iff.1 this
  exact ⟨n', h3, by rw [show n'.cls = n.cls from congrArg Prod.fst h4]; exact h2⟩

theorem bindAll_wires (i : Nat) (nm : Text) : ∀ (l : List (Nat × Text)) (w : World F),
    w.wires ⊆ (l.foldl (fun w x => (w.bind i nm x.1 x.2).bind x.1 x.2 i nm) w).wires ∧
    (∀ x ∈ l, (∀ d, PortAt w i nm d → (⟨i, portName d, x.1, x.2⟩ : Wire) ∈ (l.foldl (fun w x => (w.bind i nm x.1 x.2).bind x.1 x.2 i nm) w).wires) ∧
      ∀ d, PortAt w x.1 x.2 d → (⟨x.1, portName d, i, nm⟩ : Wire) ∈ (l.foldl (fun w x => (w.bind i nm x.1 x.2).bind x.1 x.2 i nm) w).wires)
  | [], w => ⟨fun _ h => h, by simp⟩
  | y :: l, w => by
    obtain ⟨h1, h2⟩ := bindAll_wires i nm l ((w.bind i nm y.1 y.2).bind y.1 y.2 i nm)
    have q1 := bind_quiet w i nm y.1 y.2
    have q2 := bind_quiet (w.bind i nm y.1 y.2) y.1 y.2 i nm
    refine ⟨fun x hx => h1 (bind_wires _ _ _ _ _ (bind_wires _ _ _ _ _ hx)), fun x hx => ?_⟩
    rcases List.mem_cons.1 hx with rfl | hx
    · exact ⟨fun d hd => h1 (bind_wires _ _ _ _ _ (bind_new hd)), fun d hd => h1 (bind_new (q1.ports _ _ _ hd))⟩
    · obtain ⟨a, b⟩ := h2 x hx
      exact ⟨fun d hd => a d ((q1.trans q2).ports _ _ _ hd), fun d hd => b d ((q1.trans q2).ports _ _ _ hd)⟩

theorem bindIs_wires {w w' : World F} {i c e} (h : w.bindIs i c e = some w') : w.wires ⊆ w'.wires ∧
    ∀ x ∈ e.2, (∀ d, PortAt w i e.1 d → (⟨i, portName d, x.1, x.2⟩ : Wire) ∈ w'.wires) ∧ ∀ d, PortAt w x.1 x.2 d → (⟨x.1, portName d, i, e.1⟩ : Wire) ∈ w'.wires := by
  unfold World.bindIs at h
  split at h
  · cases h
  · simp only at h
    have hq := bindAll_wires i e.1 e.2 w
    split at h
    · split at h
      · cases h
      · split at h
        · cases h; exact hq
        · cases h
      · cases h; exact hq
    · cases h; exact hq

theorem bindIsAll_wires {i c} : ∀ (l : List (Text × List (Nat × Text))) (w w' : World F), l.foldlM (fun w' e => w'.bindIs i c e) w = some w' → w.wires ⊆ w'.wires ∧
    ∀ e ∈ l, ∀ x ∈ e.2, (∀ d, PortAt w i e.1 d → (⟨i, portName d, x.1, x.2⟩ : Wire) ∈ w'.wires) ∧ ∀ d, PortAt w x.1 x.2 d → (⟨x.1, portName d, i, e.1⟩ : Wire) ∈ w'.wires
  | [], w, w', h => by cases h; exact ⟨fun _ h => h, by simp⟩
  | e :: l, w, w', h => by
    rw [List.foldlM_cons] at h
    cases h1 : w.bindIs i c e with
    | none => rw [h1] at h; cases h
    | some w1 =>
      rw [h1] at h
      obtain ⟨a, b⟩ := bindIsAll_wires l w1 w' h
      obtain ⟨a1, b1⟩ := bindIs_wires h1
      have hp := (bindIs_quiet h1).ports
      refine ⟨fun _ h => a (a1 h), fun e' he' x hx => ?_⟩
      rcases List.mem_cons.1 he' with rfl | he'
      · exact ⟨fun d hd => a ((b1 x hx).1 d hd), fun d hd => a ((b1 x hx).2 d hd)⟩
      · exact ⟨fun d hd => (b e' he' x hx).1 d (hp _ _ _ hd), fun d hd => (b e' he' x hx).2 d (hp _ _ _ hd)⟩

theorem newNode_wires {w w' : World F} {ss : List Nat} {ps} (hw : Inv base w ps) {c : Class F} {k : Option Nat} {DEF : Text}
    (hc : ∀ d ∈ c.fields, ∀ j ∈ d.dfltNodes, j < w.next)
    (hk : ∀ k', k = some k' → k' < w.nclasses ∧ k' ∉ ps ∧ c = (w.cls k').cls) (hb : k = none → (∃ t, base t = some c) ∨ c.proto = scriptName)
    (hn : w.newNode ss c k DEF = some w') : w.wires ⊆ w'.wires ∧
    ∀ k', k = some k' → ∀ e ∈ (w.cls k').isMaps, ∀ x ∈ e.2, (∀ d, c.getField e.1 = some d → (⟨w.next, portName d, x.1, x.2⟩ : Wire) ∈ w'.wires) ∧
      ∀ d, PortAt w x.1 x.2 d → (⟨x.1, portName d, w.next, e.1⟩ : Wire) ∈ w'.wires := by
  unfold World.newNode at hn
  simp only at hn
  split at hn
  · cases hn
  · next w1 hw1 =>
    split at hn
    · cases hn
    · next w2 hw2 =>
      have ha := hw.alloc hc hk hb
      have his : ∀ e ∈ (match k with | some k => (w.cls k).isMaps | none => []), ∀ x ∈ e.2, x.1 < w.next := by
        intro e he x hx
        cases k with
        | none => cases he
        | some k =>
          simp only [ClassObj.isMaps] at he
          split at he
          · exact hw.is k e he x hx
          · cases he
      obtain ⟨i1, nx⟩ : Inv base w1 ps ∧ w1.next = w.next + 1 := by
        refine foldlM_inv (P := fun p : World F => Inv base p ps ∧ p.next = w.next + 1) (fun e he a b ha hb => ?_) ⟨ha, rfl⟩ hw1
        refine ⟨ha.1.bindIs (by omega) (fun x hx => ?_) (fun d hd j hj => ?_) hb, (bindIs_quiet hb).next.trans ha.2⟩
        · have := his e he x hx; omega
        · have := hc d hd j hj; omega
      obtain ⟨i2, t2⟩ := rootSet_inv _ _ _ _ _ i1 hw2
      have hwr : w'.wires = w1.wires := by
        have : w2.wires = w1.wires := t2.wires
        split at hn
        · cases hn; exact this
        · cases hn; exact this
      obtain ⟨a, b⟩ := bindIsAll_wires _ _ _ hw1
      rw [hwr]
      refine ⟨a, fun k' hk' e he x hx => ?_⟩
      subst hk'
      obtain ⟨b1, b2⟩ := b e he x hx
      refine ⟨fun d hd => b1 d ⟨⟨c, [], fun _ => none⟩, by simp [World.alloc], hd⟩, fun d hd => b2 d ?_⟩
      obtain ⟨n, h1, h2⟩ := hd
      refine ⟨n, ?_, h2⟩
      have := his e he x hx
      simp only [World.alloc, if_neg (show x.1 ≠ w.next by omega), h1]

theorem create_wires (hb : PlainBase base) {w w' : World F} {ps ss : List Nat} (h : Inv base w ps) {gi DEF}
    (hn : w.create base ss gi DEF = some w') : w.wires ⊆ w'.wires ∧
    ∀ k', w'.inst w.next = some k' → ∀ e ∈ (w.cls k').isMaps, ∀ x ∈ e.2, (∀ d, (w.cls k').cls.getField e.1 = some d → (⟨w.next, portName d, x.1, x.2⟩ : Wire) ∈ w'.wires) ∧
      ∀ d, PortAt w x.1 x.2 d → (⟨x.1, portName d, w.next, e.1⟩ : Wire) ∈ w'.wires := by
  obtain ⟨-, c0, k0, hnew, hk0, -⟩ := create_inv hb h hn
  have hin : w'.inst w.next = k0 := by rw [hnew.inst, if_pos rfl]
  unfold World.create at hn
  cases hg : w.getProto ss gi with
  | some k =>
    rw [hg] at hn
    obtain ⟨s, hs⟩ := getProto_mem hg
    obtain ⟨h1, h2, h3⟩ := h.protos s gi k hs
    obtain ⟨a, b⟩ := newNode_wires h (fun d hd j hj => by
      obtain ⟨f, hf, rfl⟩ := classObj_fields hd
      exact h.decls k f hf j hj) (fun k' hk' => by cases hk'; exact ⟨h1, h2, rfl⟩) (fun hk => by cases hk) hn
    refine ⟨a, fun k' hk' => ?_⟩
    rw [hin, ← hk0, hg] at hk'
    cases hk'
    exact b k rfl
  | none =>
    rw [hg] at hn
    simp only at hn
    split at hn
    · cases hn
    · next c hc =>
      obtain ⟨a, b⟩ := newNode_wires h (fun d hd j hj => by rw [hb gi c hc d hd] at hj; cases hj) (fun k' hk' => by cases hk') (fun _ => .inl ⟨gi, hc⟩) hn
      refine ⟨a, fun k' hk' => ?_⟩
      rw [hin, ← hk0, hg] at hk'
      cases hk'

theorem script_wires {w w' : World F} {ps ss : List Nat} (h : Inv base w ps) {DEF}
    (hn : w.newNode ss scriptProto.cls none DEF = some w') : w.wires ⊆ w'.wires ∧ w'.inst w.next = none :=
  ⟨(newNode_wires h (fun d hd j hj => by rw [scriptProto_fields d hd] at hj; cases hj) (fun k' hk' => by cases hk') (fun _ => .inr rfl) hn).1,
    by rw [(script_inv h hn).2.inst, if_pos rfl]⟩

/-! ### The invariant -/

/-- Instances are connected with the nodes of the body (those that are not Scripts) that IS leads to, in both directions. -/
def LinkInv (w : World F) : Prop := ∀ i k, w.inst i = some k → ∀ e ∈ (w.cls k).isMaps, ∀ x ∈ e.2, (∀ d, (w.cls k).cls.getField e.1 = some d → (⟨i, portName d, x.1, x.2⟩ : Wire) ∈ w.wires) ∧
  ∀ d, PortAt w x.1 x.2 d → (∀ n, w.heap x.1 = some n → n.cls.proto ≠ scriptName) → (⟨x.1, portName d, i, e.1⟩ : Wire) ∈ w.wires

theorem isMaps_lt {w : World F} {ps} (h : Inv base w ps) {k e x} (he : e ∈ (w.cls k).isMaps) (hx : x ∈ e.2) : x.1 < w.next := by
  simp only [ClassObj.isMaps] at he
  split at he
  · exact h.is k e he x hx
  · cases he

theorem back_port {w w' : World F} {ps} (h : Inv base w ps) (e : Ext ps w w') {i f} {d : FieldDecl F ⊕ EventDecl} (hi : i < w.next) (hd : PortAt w' i f d)
    (hs : ∀ n, w'.heap i = some n → n.cls.proto ≠ scriptName) : PortAt w i f d ∧ ∀ n, w.heap i = some n → n.cls.proto ≠ scriptName := by
  obtain ⟨n', h1, h2⟩ := hd
  obtain ⟨n, hn⟩ := Option.isSome_iff_exists.1 ((h.ids i).2 hi)
  obtain ⟨n2, h3, -, h4, h5⟩ := e.node i n hn
  rw [h1] at h3; cases h3
  have hns : n.cls.proto ≠ scriptName := by rw [← h4]; exact hs _ h1
  refine ⟨⟨n, hn, by rw [← h5 hns]; exact h2⟩, fun m hm => ?_⟩
  rw [hn] at hm; cases hm; exact hns

theorem LinkInv.ext {w w' : World F} {ps} (h : Inv base w ps) (e : Ext ps w w') (hw : w.wires ⊆ w'.wires) (hl : LinkInv w)
    (hnew : ∀ i k, w.next ≤ i → w'.inst i = some k → ∀ e ∈ (w'.cls k).isMaps, ∀ x ∈ e.2, (∀ d, (w'.cls k).cls.getField e.1 = some d → (⟨i, portName d, x.1, x.2⟩ : Wire) ∈ w'.wires) ∧
      ∀ d, PortAt w' x.1 x.2 d → (∀ n, w'.heap x.1 = some n → n.cls.proto ≠ scriptName) → (⟨x.1, portName d, i, e.1⟩ : Wire) ∈ w'.wires) : LinkInv w' := by
  intro i k hk
  by_cases hi : w.next ≤ i
  · exact hnew i k hi hk
  · rw [e.inst i (by omega)] at hk
    obtain ⟨hk1, hk2, -⟩ := h.inst i k hk
    rw [e.cls k hk1 hk2]
    intro en hen x hx
    obtain ⟨a, b⟩ := hl i k hk en hen x hx
    refine ⟨fun d hd => hw (a d hd), fun d hd hs => ?_⟩
    obtain ⟨h1, h2⟩ := back_port h e (isMaps_lt h hen hx) hd hs
    exact hw (b d h1 h2)

theorem LinkInv.ext' {w w' : World F} {ps} (h : Inv base w ps) (h' : Inv base w' ps) (e : Ext ps w w') (hw : w.wires ⊆ w'.wires) (hl : LinkInv w) (hn : w'.next = w.next) : LinkInv w' :=
  hl.ext h e hw (fun i k hi hk => by
    obtain ⟨-, -, n, h1, -⟩ := h'.inst i k hk
    have := (h'.ids i).1 (by rw [h1]; rfl)
    omega)

theorem setAttr_wires {w w' : World F} {i d v} (h : w.setAttr i d v = some w') : w'.wires = w.wires := by
  have hf : ∀ (fuel : Nat) (vis : List (Nat × Text)) (w : World F) (i : Nat) (f : Text) (v : Option (Val F)) (r : List (Nat × Text) × World F),
      forward fuel vis w i f v = some r → r.2.wires = w.wires := fun fuel vis w i f v r h =>
    forward_keeps (P := fun w' => w'.wires = w.wires) (Q := fun _ => True) (E := fun _ _ => True) trivial (fun _ _ _ _ => trivial)
      (fun _ _ _ _ _ _ hw _ _ _ _ => ⟨hw, trivial⟩) fuel vis w i f v r rfl trivial trivial h
  unfold World.setAttr at h
  split at h
  · cases h
  · simp only at h
    split at h
    · refine foldlM_inv (P := fun p : World F => p.wires = w.wires) (fun x _ a b ha hb => ?_) ?_ h
      · obtain ⟨r, hr, rfl⟩ := Option.map_eq_some_iff.1 hb
        exact (hf _ _ _ _ _ _ _ hr).trans ha
      · rfl
    · cases h; rfl

theorem Run.links (hb : PlainBase base) {plain : Bool} {ss ps l} {w w' : World F} (hr : Run base fl plain ss ps l w w') :
    Inv base w ps → LinkInv w → LinkInv w' ∧ w.wires ⊆ w'.wires := by
  induction hr with
  | nil => exact fun _ h => ⟨h, fun _ h => h⟩
  | trans r1 r2 ih1 ih2 =>
    intro hw h
    obtain ⟨a1, b1⟩ := ih1 hw h
    obtain ⟨a2, b2⟩ := ih2 (r1.inv hb hw).1 a1
    exact ⟨a2, fun _ h => b2 (b1 h)⟩
  | @create ss ps gi DEF w w' hD hc =>
    intro hw h
    obtain ⟨hw', e⟩ := (Run.create (fl := fl) (plain := plain) (ps := ps) hD hc).inv hb hw
    obtain ⟨-, c, k, hnew, -⟩ := create_inv hb hw hc
    obtain ⟨a, b⟩ := create_wires hb hw hc
    refine ⟨h.ext hw e a (fun i k' hi hk' en hen x hx => ?_), a⟩
    have hcl : w'.cls = w.cls := hnew.cls
    have hin : i = w.next := by
      obtain ⟨-, -, n, h1, -⟩ := hw'.inst i k' hk'
      have := (hw'.ids i).1 (by rw [h1]; rfl)
      have := hnew.next
      omega
    subst hin
    rw [hcl] at hen ⊢
    obtain ⟨b1, b2⟩ := b k' hk' en hen x hx
    exact ⟨b1, fun d hd hs => b2 d (back_port hw e (isMaps_lt hw hen hx) hd hs).1⟩
  | @script ss ps DEF w w' hD hc =>
    intro hw h
    obtain ⟨hw', e⟩ := (Run.script (base := base) (fl := fl) (plain := plain) (ps := ps) hD hc).inv hb hw
    obtain ⟨a, b⟩ := script_wires hw hc
    refine ⟨h.ext hw e a (fun i k' hi hk' => ?_), a⟩
    have hin : i = w.next := by
      obtain ⟨-, -, n, h1, -⟩ := hw'.inst i k' hk'
      have := (hw'.ids i).1 (by rw [h1]; rfl)
      have := (script_inv hw hc).2.next
      omega
    subst hin
    rw [b] at hk'; cases hk'
  | @setClass ss ps w i n c h1 h2 h3 h4 h5 _ =>
    intro hw h
    obtain ⟨hw', e⟩ := hw.setClass h1 h2 h3 h4 h5
    exact ⟨h.ext' hw hw' e (fun _ h => h) rfl, fun _ h => h⟩
  | use _ => exact fun _ h => ⟨h, fun _ h => h⟩
  | @route ss ps s sf d df si di w h1 h2 h3 h4 =>
    intro hw h
    obtain ⟨hw', e⟩ := (Run.route (base := base) (fl := fl) (plain := plain) (ps := ps) h1 h2 h3 h4).inv hb hw
    have hq := bind_quiet w si sf di df
    exact ⟨h.ext' hw hw' e (bind_wires _ _ _ _ _) hq.next, bind_wires _ _ _ _ _⟩
  | @is ss ps m i n nm w w' h1 h2 =>
    intro hw h
    obtain ⟨hw', e⟩ := (Run.is (base := base) (fl := fl) (plain := plain) (ss := ss) h1 h2).inv hb hw
    have : w'.next = w.next ∧ w'.wires = w.wires := by
      unfold World.addIs at h2
      split at h2
      · cases h2
      · cases h2; exact ⟨rfl, rfl⟩
    exact ⟨h.ext' hw hw' e (by rw [this.2]; exact fun _ h => h) this.1, by rw [this.2]; exact fun _ h => h⟩
  | @attr ss ps i n d v w w' h1 h2 h3 h4 =>
    intro hw h
    obtain ⟨hw', e⟩ := (Run.attr (base := base) (fl := fl) (plain := plain) (ss := ss) (ps := ps) h1 h2 h3 h4).inv hb hw
    have := setAttr_wires h4
    exact ⟨h.ext' hw hw' e (by rw [this]; exact fun _ h => h) (setAttr_quiet h4).next, by rw [this]; exact fun _ h => h⟩
  | @children ss ps l w h1 =>
    intro hw h
    obtain ⟨hw', e⟩ := (Run.children (base := base) (fl := fl) (plain := plain) (ss := ss) (ps := ps) h1).inv hb hw
    exact ⟨h.ext' hw hw' e (fun _ h => h) rfl, fun _ h => h⟩
  | @decl ss ps c g w h1 h2 =>
    intro hw h
    obtain ⟨hw', e⟩ := (Run.decl (base := base) (fl := fl) (plain := plain) (ss := ss) (ps := ps) h1 h2).inv hb hw
    exact ⟨h.ext' hw hw' e (fun _ h => h) rfl, fun _ h => h⟩
  | @body ss ps c l w w' hr ih =>
    intro hw h
    obtain ⟨h1, e1⟩ := hw.newScene (some (ss.headD 0))
    obtain ⟨a, b⟩ := ih h1 (h.ext' hw h1 e1 (fun _ h => h) rfl)
    obtain ⟨h2, e2⟩ := hr.inv hb h1
    obtain ⟨h3, e3⟩ := h2.onCls (c := c) (g := fun o => { o with body := some w.nscenes }) (by simp) rfl (h2.decls _) (h2.is _)
      (fun s hs => by cases hs; exact lt_of_lt_of_le (Nat.lt_succ_self _) e2.nscenes)
    exact ⟨a.ext' h2 h3 e3 (fun _ h => h) rfl, b⟩
  | @proto ss ps nm rest l w w' hr hI ih =>
    intro hw h
    obtain ⟨h1, e1⟩ := hw.newClass nm
    have hl1 : LinkInv (w.newClass nm) := by
      have h1' : Inv base (w.newClass nm) ps := { h1 with
        protos := fun s x k hk => ⟨(h1.protos s x k hk).1, fun hp => (h1.protos s x k hk).2.1 (by simp [hp]), (h1.protos s x k hk).2.2⟩
        stack := fun k hk => h1.stack k (by simp [hk])
        inst := fun i k hk => ⟨(h1.inst i k hk).1, fun hp => (h1.inst i k hk).2.1 (by simp [hp]), (h1.inst i k hk).2.2⟩ }
      exact h.ext' hw h1' e1 (fun _ h => h) rfl
    obtain ⟨a, b⟩ := ih h1 hl1
    exact ⟨a, b⟩

theorem init_links : LinkInv (World.init fl : World F) := by intro i k h; cases h

end Verif.Full
