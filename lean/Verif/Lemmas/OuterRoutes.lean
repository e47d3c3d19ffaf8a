import Verif.Lemmas.RouteWires
import Verif.Lemmas.FullRun4
import Verif.Spec.OuterRoutes
/-!
If the ROUTEs of a file stand outside the nodes, the connections are the ROUTEs, also those that start at Scripts.
-/
namespace Verif.Full
open Verif.Peg Verif.Grammar Verif.TextOut Verif.SceneText Verif.Reader Verif.Scopes
open Verif.Lin hiding disp dispList dispDecls dispAttrs disp_node disp_attr
variable {F : Type} {base : Text → Option (Class F)} {fl : Floats F}

/-- no prototypes, no instances, no nodes above the next one -/
structure Bare (w : World F) : Prop where
  bound : ∀ j, w.next ≤ j → w.heap j = none
  protos : ∀ s, (w.scene s).protos = []
  inst : ∀ i, w.inst i = none

/-- Connections and ROUTEs stay, and so do the types of all nodes but `off`. -/
structure KeepsTypes (off : Option Nat) (w w' : World F) : Prop where
  next : w.next ≤ w'.next
  wires : w'.wires = w.wires
  routes : ∀ s, (w'.scene s).routes = (w.scene s).routes
  cls : ∀ i n, w.heap i = some n → ∃ n', w'.heap i = some n' ∧ (off ≠ some i → n'.cls = n.cls)

theorem KeepsTypes.refl (off) (w : World F) : KeepsTypes off w w := ⟨le_refl _, rfl, fun _ => rfl, fun _ n hn => ⟨n, hn, fun _ => rfl⟩⟩

theorem KeepsTypes.trans {off} {a b c : World F} (h : KeepsTypes off a b) (k : KeepsTypes off b c) : KeepsTypes off a c :=
  ⟨h.next.trans k.next, k.wires.trans h.wires, fun s => (k.routes s).trans (h.routes s), fun i n hn => by
    obtain ⟨n', e1, e2⟩ := h.cls i n hn
    obtain ⟨n'', e3, e4⟩ := k.cls i n' e1
    exact ⟨n'', e3, fun ho => (e4 ho).trans (e2 ho)⟩⟩

theorem KeepsTypes.weaken {off} {w w' : World F} (h : KeepsTypes none w w') : KeepsTypes off w w' :=
  ⟨h.next, h.wires, h.routes, fun i n hn => by obtain ⟨n', e1, e2⟩ := h.cls i n hn; exact ⟨n', e1, fun _ => e2 (by simp)⟩⟩

/-- the one node that may have changed is new -/
theorem KeepsTypes.fresh {w a b : World F} (hb : Bare w) (h : KeepsTypes none w a) (k : KeepsTypes (some w.next) a b) : KeepsTypes none w b :=
  ⟨h.next.trans k.next, k.wires.trans h.wires, fun s => (k.routes s).trans (h.routes s), fun i n hn => by
    obtain ⟨n', e1, e2⟩ := h.cls i n hn
    obtain ⟨n'', e3, e4⟩ := k.cls i n' e1
    refine ⟨n'', e3, fun _ => (e4 fun he => ?_).trans (e2 (by simp))⟩
    cases he
    rw [hb.bound _ (le_refl _)] at hn; cases hn⟩

theorem newNode_bare {w w' : World F} {ss : List Nat} {c : Class F} {DEF : Text} (hb : Bare w) (hp : ∀ d ∈ c.fields, d.dfltNodes = []) (h : w.newNode ss c none DEF = some w') :
    KeepsTypes none w w' ∧ Bare w' := by
  have hnew : (w.alloc c none).heap w.next = some ⟨c, [], fun _ => none⟩ := by simp [World.alloc]
  have ka : KeepsTypes none w (w.alloc c none) := by
    refine ⟨Nat.le_succ _, rfl, fun _ => rfl, fun i n hn => ⟨n, ?_, fun _ => rfl⟩⟩
    have : i ≠ w.next := fun e => by rw [e, hb.bound _ (le_refl _)] at hn; cases hn
    simp only [World.alloc, if_neg this]; exact hn
  have ba : Bare (w.alloc c none) := by
    refine ⟨fun j hj => ?_, hb.protos, fun i => ?_⟩
    · have hj : w.next + 1 ≤ j := hj
      simp only [World.alloc, if_neg (show j ≠ w.next by omega)]
      exact hb.bound j (by omega)
    · simp only [World.alloc]; split
      · rfl
      · exact hb.inst i
  unfold World.newNode at h
  simp only [List.foldlM_nil] at h
  split at h
  · cases h
  · next w1 hw1 =>
    cases hw1
    split at h
    · cases h
    · next w2 hw2 =>
      simp only [rootSet, hnew, if_true, nodeRefs_dflt hp, List.foldlM_nil] at hw2
      cases hw2
      cases h
      split
      · exact ⟨ka, ba⟩
      · refine ⟨ka.trans ⟨le_refl _, rfl, fun s => (regDef_scene _ _ _ _ s).2.2.1, fun i n hn => ?_⟩, ⟨fun j hj => ?_, fun s => ?_, ba.inst⟩⟩
        · rw [regDef_node]
          split
          · next he =>
            subst he
            rw [hn]; exact ⟨_, rfl, fun _ => rfl⟩
          · exact ⟨n, hn, fun _ => rfl⟩
        · rw [regDef_node]
          have := ba.bound j hj
          split
          · next he => rw [← he, this]; rfl
          · exact this
        · rw [(regDef_scene _ _ _ _ s).1]; exact ba.protos s

theorem create_bare (hpb : PlainBase base) {w w' : World F} {ss : List Nat} {gi DEF : Text} (hb : Bare w) (h : w.create base ss gi DEF = some w') : KeepsTypes none w w' ∧ Bare w' := by
  unfold World.create at h
  have hn : w.getProto ss gi = none := by
    unfold World.getProto
    rw [List.findSome?_eq_none_iff]
    intro s _
    rw [hb.protos s]; rfl
  rw [hn] at h
  dsimp only at h
  split at h
  · cases h
  · next c hc => exact newNode_bare hb (hpb gi c hc) h

theorem quiet_bare {w w' : World F} (hb : Bare w) (h : Quiet w w') (hw : w'.wires = w.wires) : KeepsTypes none w w' ∧ Bare w' := by
  refine ⟨⟨h.next.ge, hw, fun s => by rw [h.scene], fun i n hn => ?_⟩, ⟨fun j hj => ?_, fun s => by rw [h.scene]; exact hb.protos s, fun i => by rw [h.inst]; exact hb.inst i⟩⟩
  · obtain ⟨n', e1, e2⟩ := pair_node (h.node i) hn
    exact ⟨n', e1, fun _ => by first | exact e2 | exact e2.1⟩
  · have := h.node j
    rw [hb.bound j (by rw [← h.next]; exact hj)] at this
    cases hx : w'.heap j with
    | none => rfl
    | some n => rw [hx] at this; cases this

theorem addIs_bare {w w' : World F} {ps m i f} (hb : Bare w) (h : w.addIs ps m i f = some w') : KeepsTypes none w w' ∧ Bare w' := by
  unfold World.addIs at h
  split at h
  · cases h
  · cases h
    exact ⟨⟨le_refl _, rfl, fun _ => rfl, fun _ n hn => ⟨n, hn, fun _ => rfl⟩⟩, ⟨hb.bound, hb.protos, hb.inst⟩⟩

theorem addAllIs_bare {ps : List Nat} {i : Nat} {l : List (Text × Text)} {w w' : World F} (hb : Bare w) (h : w.addAllIs ps i l = some w') : KeepsTypes none w w' ∧ Bare w' :=
  foldlM_inv (P := fun p : World F => KeepsTypes none w p ∧ Bare p) (fun x _ a b ha hb => by
    obtain ⟨k1, k2⟩ := addIs_bare ha.2 hb
    exact ⟨ha.1.trans k1, k2⟩) ⟨.refl _ _, hb⟩ h

theorem setClass_bare {w : World F} {i : Nat} {c : Class F} (hb : Bare w) : KeepsTypes (some i) w (w.setClass i c) ∧ Bare (w.setClass i c) := by
  refine ⟨⟨le_refl _, rfl, fun _ => rfl, fun j n hn => ?_⟩, ⟨fun j hj => ?_, hb.protos, hb.inst⟩⟩
  · simp only [World.setClass]
    split
    · next he => subst he; rw [hn]; exact ⟨_, rfl, fun h => absurd rfl h⟩
    · exact ⟨n, hn, fun _ => rfl⟩
  · have : w.heap j = none := hb.bound j hj
    simp only [World.setClass]
    split
    · next he => rw [← he, this]; rfl
    · exact this

section main
variable (hpb : PlainBase base)
include hpb

mutual
theorem disp_bare : ∀ (t : PTree) (ss ps cur fd) (w : World F) (v w'), noRoutes t = true → disp base fl t ss ps cur fd w = some (v, w') → Bare w → KeepsTypes none w w' ∧ Bare w'
  | t, ss, ps, cur, fd, w, v, w', hf, h, hb => by
    unfold disp at h
    split at h
    · -- root item
      next m kids =>
      split at h
      · cases h
      · next items w1 h1 =>
        cases h
        simp only [noRoutes, Bool.and_eq_true] at hf
        obtain ⟨k, b⟩ := dispList_bare kids _ _ _ _ _ _ _ hf.2 h1 hb
        have hr : ∀ (l : List Nat) s, (upd w1.scene (ss.headD 0) (fun o => { o with children := o.children ++ l }) s).routes = (w1.scene s).routes ∧
            (upd w1.scene (ss.headD 0) (fun o => { o with children := o.children ++ l }) s).protos = (w1.scene s).protos := fun l s => by
          simp only [upd]; split
          · next he => subst he; exact ⟨rfl, rfl⟩
          · exact ⟨rfl, rfl⟩
        exact ⟨k.trans ⟨le_refl _, rfl, fun s => (hr _ s).1, fun i n hn => ⟨n, hn, fun _ => rfl⟩⟩, ⟨b.bound, fun s => ((hr _ s).2).trans (b.protos s), b.inst⟩⟩
    · simp [noRoutes] at hf
    · simp [noRoutes] at hf
    · -- node with a name
      next m nm a gi b rest =>
      split at h
      · cases h
      · next w1 h1 =>
        split at h
        · cases h
        · next vs w2 h2 =>
          cases h
          simp only [noRoutes, noRoutesAll, Bool.and_eq_true] at hf
          obtain ⟨k1, b1⟩ := create_bare hpb hb h1
          obtain ⟨k2, b2⟩ := dispList_bare rest _ _ _ _ _ _ _ hf.2.2.2 h2 b1
          exact ⟨k1.trans k2, b2⟩
    · -- node
      next m gi b rest =>
      split at h
      · cases h
      · next w1 h1 =>
        split at h
        · cases h
        · next vs w2 h2 =>
          cases h
          simp only [noRoutes, noRoutesAll, Bool.and_eq_true] at hf
          obtain ⟨k1, b1⟩ := create_bare hpb hb h1
          obtain ⟨k2, b2⟩ := dispList_bare rest _ _ _ _ _ _ _ hf.2.2 h2 b1
          exact ⟨k1.trans k2, b2⟩
    · -- Script with a name
      next m nm a rest =>
      split at h
      · cases h
      · next w1 h1 =>
        split at h
        · cases h
        · next is w2 h2 =>
          split at h
          · cases h
          · next w3 h3 =>
            split at h
            · cases h
            · next w4 h4 =>
              cases h
              simp only [noRoutes, noRoutesAll, Bool.and_eq_true] at hf
              obtain ⟨k1, b1⟩ := newNode_bare hb scriptProto_fields h1
              obtain ⟨k2, b2⟩ := dispDecls_bare rest _ _ _ _ _ _ _ _ hf.2.2 h2 b1
              obtain ⟨k3, b3⟩ := addAllIs_bare b2 h3
              obtain ⟨k4, b4⟩ := dispAttrs_bare rest _ _ _ _ _ _ hf.2.2 h4 b3
              exact ⟨.fresh hb k1 (k2.trans (k3.weaken.trans k4.weaken)), b4⟩
    · -- Script
      next m rest _ =>
      split at h
      · cases h
      · next w1 h1 =>
        split at h
        · cases h
        · next is w2 h2 =>
          split at h
          · cases h
          · next w3 h3 =>
            split at h
            · cases h
            · next w4 h4 =>
              cases h
              simp only [noRoutes, Bool.and_eq_true] at hf
              obtain ⟨k1, b1⟩ := newNode_bare hb scriptProto_fields h1
              obtain ⟨k2, b2⟩ := dispDecls_bare rest _ _ _ _ _ _ _ _ hf.2 h2 b1
              obtain ⟨k3, b3⟩ := addAllIs_bare b2 h3
              obtain ⟨k4, b4⟩ := dispAttrs_bare rest _ _ _ _ _ _ hf.2 h4 b3
              exact ⟨.fresh hb k1 (k2.trans (k3.weaken.trans k4.weaken)), b4⟩
    · cases h; exact ⟨.refl _ _, hb⟩
    · split at h
      · cases h
      · cases h; exact ⟨.refl _ _, hb⟩
    · simp [noRoutes] at hf
    · -- attribute
      next m nm a value i =>
      split at h
      · cases h
      · next n hnn =>
        split at h
        · cases h
        · next m' _ hm =>
          split at h
          · cases h
          · next w1 h1 =>
            cases h
            exact addIs_bare hb h1
        · cases h
        · next d hd hm =>
          split at h
          · cases h
          · next v1 w1 h1 =>
            split at h
            · cases h
            · next v2 hv2 =>
              split at h
              · cases h
              · next w2 h2 =>
                cases h
                simp only [noRoutes, noRoutesAll, Bool.and_eq_true] at hf
                obtain ⟨k1, b1⟩ := disp_bare value _ _ _ _ _ _ _ hf.2.2.1 h1 hb
                obtain ⟨k2, b2⟩ := quiet_bare b1 (setAttr_quiet h2) (setAttr_wires h2)
                exact ⟨k1.trans k2, b2⟩
    · -- field value
      next m kids k _ =>
      split at h
      · split at h
        · cases h; exact ⟨.refl _ _, hb⟩
        · split at h
          · cases h
          · cases h; exact ⟨.refl _ _, hb⟩
      · next t' m' tk rest =>
        simp only [noRoutes, noRoutesAll, Bool.and_eq_true] at hf
        split at h
        · split at h
          · exact disp_bare _ _ _ _ _ _ _ _ (by simp only [noRoutes, Bool.and_eq_true]; exact hf.2.1) h hb
          · split at h
            · cases h
            · next vs w2 h2 =>
              cases h
              exact dispList_bare _ _ _ _ _ _ _ _ (by simp only [noRoutesAll, noRoutes, Bool.and_eq_true]; exact hf.2) h2 hb
        · split at h
          · cases h; exact ⟨.refl _ _, hb⟩
          · split at h
            · cases h
            · cases h; exact ⟨.refl _ _, hb⟩
    · cases h
termination_by t => sizeOf t
theorem dispList_bare : ∀ (ts : List PTree) (ss ps cur fd) (w : World F) (vs w'), noRoutesAll ts = true → dispList base fl ts ss ps cur fd w = some (vs, w') → Bare w → KeepsTypes none w w' ∧ Bare w'
  | [], ss, ps, cur, fd, w, vs, w', hf, h, hb => by unfold dispList at h; cases h; exact ⟨.refl _ _, hb⟩
  | t :: ts, ss, ps, cur, fd, w, vs, w', hf, h, hb => by
    unfold dispList at h
    split at h
    · cases h
    · next v1 w1 h1 =>
      split at h
      · cases h
      · next vs1 w2 h2 =>
        cases h
        simp only [noRoutesAll, Bool.and_eq_true] at hf
        obtain ⟨k1, b1⟩ := disp_bare t _ _ _ _ _ _ _ hf.1 h1 hb
        obtain ⟨k2, b2⟩ := dispList_bare ts _ _ _ _ _ _ _ hf.2 h2 b1
        exact ⟨k1.trans k2, b2⟩
termination_by ts => sizeOf ts
theorem dispDecls_bare : ∀ (ts : List PTree) (ss ps : List Nat) (i : Nat) (p : ProtoDef F) (is is' : List (Text × Text)) (w w' : World F), noRoutesAll ts = true →
    dispDecls base fl ts ss ps i p is w = some (is', w') → Bare w → KeepsTypes (some i) w w' ∧ Bare w'
  | [], ss, ps, i, p, is, is', w, w', hf, h, hb => by unfold dispDecls at h; cases h; exact ⟨.refl _ _, hb⟩
  | t :: ts, ss, ps, i, p, is, is', w, w', hf, h, hb => by
    simp only [noRoutesAll, Bool.and_eq_true] at hf
    unfold dispDecls at h
    split at h
    · cases ‹_ = []›
    · -- field
      next ss ps i p is w _ _ _ _ _ _ _ m ex _ ty _ nm _ value ts' heq =>
      cases heq
      split at h
      · cases h
      · next ft hft =>
        split at h
        · next m' hm =>
          split at h
          · cases h
          · next f hf' =>
            obtain ⟨k1, b1⟩ := setClass_bare (i := i) (c := (p.addField f).cls) hb
            obtain ⟨k2, b2⟩ := dispDecls_bare ts _ _ _ _ _ _ _ _ hf.2 h b1
            exact ⟨k1.trans k2, b2⟩
        · split at h
          · cases h
          · next v1 w1 h1 =>
            split at h
            · cases h
            · next v2 hv2 =>
              split at h
              · cases h
              · next f hf' =>
                simp only [noRoutes, noRoutesAll, Bool.and_eq_true] at hf
                obtain ⟨k0, b0⟩ := disp_bare _ _ _ _ _ _ _ _ hf.1.2.2.2.2.1 h1 hb
                obtain ⟨k1, b1⟩ := setClass_bare (i := i) (c := (p.addField f).cls) b0
                obtain ⟨k2, b2⟩ := dispDecls_bare ts _ _ _ _ _ _ _ _ hf.2 h b1
                exact ⟨k0.weaken.trans (k1.trans k2), b2⟩
    · -- event
      next ss ps i p is w _ _ _ _ _ _ _ m dir _ ty _ nm _ rest ts' heq =>
      cases heq
      split at h
      · cases h
      · next e he =>
        obtain ⟨k1, b1⟩ := setClass_bare (i := i) (c := (p.addEvent e).cls) hb
        split at h
        · obtain ⟨k2, b2⟩ := dispDecls_bare ts _ _ _ _ _ _ _ _ hf.2 h b1
          exact ⟨k1.trans k2, b2⟩
        · split at h
          · obtain ⟨k2, b2⟩ := dispDecls_bare ts _ _ _ _ _ _ _ _ hf.2 h b1
            exact ⟨k1.trans k2, b2⟩
          · cases h
    · next ss ps i p is w _ _ _ _ _ _ _ m kids ts' heq =>
      cases heq
      exact dispDecls_bare ts _ _ _ _ _ _ _ _ hf.2 h hb
    · next ss ps i p is w _ _ _ _ _ _ _ m kids ts' heq =>
      cases heq
      simp [noRoutes] at hf
    · next ss ps i p is w _ _ _ _ _ _ _ m kids ts' heq =>
      cases heq
      simp [noRoutes] at hf
    · next ss ps i p is w _ _ _ _ _ _ _ m kids ts' heq =>
      cases heq
      simp [noRoutes] at hf
    · cases h
termination_by ts => sizeOf ts
theorem dispAttrs_bare : ∀ (ts : List PTree) (ss ps : List Nat) (i : Nat) (fd) (w w' : World F), noRoutesAll ts = true →
    dispAttrs base fl ts ss ps i fd w = some w' → Bare w → KeepsTypes none w w' ∧ Bare w'
  | [], ss, ps, i, fd, w, w', hf, h, hb => by unfold dispAttrs at h; cases h; exact ⟨.refl _ _, hb⟩
  | t :: ts, ss, ps, i, fd, w, w', hf, h, hb => by
    simp only [noRoutesAll, Bool.and_eq_true] at hf
    unfold dispAttrs at h
    split at h
    · split at h
      · cases h
      · next v1 w1 h1 =>
        obtain ⟨k1, b1⟩ := disp_bare t _ _ _ _ _ _ _ hf.1 h1 hb
        obtain ⟨k2, b2⟩ := dispAttrs_bare ts _ _ _ _ _ _ hf.2 h b1
        exact ⟨k1.trans k2, b2⟩
    · exact dispAttrs_bare ts _ _ _ _ _ _ hf.2 h hb
termination_by ts => sizeOf ts
end

end main

/-- the connections are the ROUTEs -/
structure Settled (w : World F) : Prop where
  done : ∀ s r p, r ∈ (w.scene s).routes → PortAt w r.src r.srcField p → (⟨r.src, portName p, r.dst, r.dstField⟩ : Wire) ∈ w.wires
  made : ∀ x ∈ w.wires, ∃ s r p, r ∈ (w.scene s).routes ∧ PortAt w r.src r.srcField p ∧ x = ⟨r.src, portName p, r.dst, r.dstField⟩
  src : ∀ s r, r ∈ (w.scene s).routes → (w.heap r.src).isSome
  zero : ∀ s, s ≠ 0 → (w.scene s).routes = []

theorem KeepsTypes.settled {w w' : World F} (k : KeepsTypes none w w') (h : Settled w) : Settled w' := by
  refine ⟨fun s r p hr hp => ?_, fun x hx => ?_, fun s r hr => ?_, fun s hs => by rw [k.routes, h.zero s hs]⟩
  · rw [k.routes] at hr
    obtain ⟨n, hn⟩ := Option.isSome_iff_exists.1 (h.src s r hr)
    obtain ⟨n', e1, e2⟩ := k.cls _ n hn
    obtain ⟨m, e3, e4⟩ := hp
    rw [e1] at e3; cases e3
    rw [k.wires]
    exact h.done s r p hr ⟨n, hn, by rw [← e2 (by simp)]; exact e4⟩
  · rw [k.wires] at hx
    obtain ⟨s, r, p, h1, ⟨n, hn, h2⟩, h3⟩ := h.made x hx
    obtain ⟨n', e1, e2⟩ := k.cls _ n hn
    exact ⟨s, r, p, by rw [k.routes]; exact h1, ⟨n', e1, by rw [e2 (by simp)]; exact h2⟩, h3⟩
  · rw [k.routes] at hr
    obtain ⟨n, hn⟩ := Option.isSome_iff_exists.1 (h.src s r hr)
    obtain ⟨n', e1, -⟩ := k.cls _ n hn
    rw [e1]; rfl

theorem Settled.addRoute {w : World F} (h : Settled w) {s : Nat} {r : Rt} (hs : (w.heap r.src).isSome) (h0 : s = 0) : Settled (w.addRoute s r) := by
  have hhe : (w.addRoute s r).heap = w.heap := by
    simp only [World.addRoute, World.bind]; split <;> rfl
  have hq := bind_quiet w r.src r.srcField r.dst r.dstField
  have hsc : ∀ t x, x ∈ ((w.addRoute s r).scene t).routes ↔ x ∈ (w.scene t).routes ∨ (t = s ∧ x = r) := fun t x => by
    simp only [World.addRoute, upd, hq.scene]
    split
    · next ht => subst ht; simp only [List.mem_append, List.mem_singleton, true_and]
    · next ht => exact ⟨.inl, fun h => h.resolve_right (fun h => ht h.1)⟩
  have hpt : ∀ i f p, PortAt (w.addRoute s r) i f p ↔ PortAt w i f p := fun i f p => by simp only [PortAt, hhe]
  have hwi : (w.addRoute s r).wires = (w.bind r.src r.srcField r.dst r.dstField).wires := rfl
  refine ⟨fun t x p hx hp => ?_, fun x hx => ?_, fun t x hx => ?_, fun t ht => List.eq_nil_iff_forall_not_mem.2 fun x hx => ?_⟩
  rotate_left 3
  · rcases (hsc t x).1 hx with hx | ⟨e, -⟩
    · rw [h.zero t ht] at hx; cases hx
    · exact ht (e.trans h0)
  · rw [hpt] at hp
    rw [hwi]
    rcases (hsc t x).1 hx with hx | ⟨-, rfl⟩
    · exact bind_wires _ _ _ _ _ (h.done t x p hx hp)
    · exact bind_new hp
  · rw [hwi] at hx
    have hold : x ∈ w.wires → ∃ s' r' p, r' ∈ ((w.addRoute s r).scene s').routes ∧ PortAt (w.addRoute s r) r'.src r'.srcField p ∧ x = ⟨r'.src, portName p, r'.dst, r'.dstField⟩ := fun hx => by
      obtain ⟨t, y, p, h1, h2, h3⟩ := h.made x hx
      exact ⟨t, y, p, (hsc t y).2 (.inl h1), (hpt _ _ _).2 h2, h3⟩
    rcases bind_old hx with h1 | ⟨h5, h6, h7⟩
    · exact hold h1
    · rcases bind_srcs w _ _ _ _ x hx with h8 | ⟨-, n, p, h9, h10, h11⟩
      · exact hold h8
      · refine ⟨s, r, p, (hsc _ _).2 (.inr ⟨rfl, rfl⟩), (hpt _ _ _).2 ⟨n, h9, h10⟩, ?_⟩
        obtain ⟨a, b, c, d⟩ := x
        simp only at h5 h6 h7 h11
        subst h5 h6 h7 h11; rfl
  · rw [hhe]
    rcases (hsc t x).1 hx with hx | ⟨-, rfl⟩
    · exact h.src t x hx
    · exact hs

theorem bare_addRoute {w : World F} (hb : Bare w) {s : Nat} {r : Rt} : Bare (w.addRoute s r) := by
  have hhe : (w.addRoute s r).heap = w.heap := by
    simp only [World.addRoute, World.bind]; split <;> rfl
  have hq := bind_quiet w r.src r.srcField r.dst r.dstField
  refine ⟨fun j hj => ?_, fun t => ?_, fun i => ?_⟩
  · rw [hhe]
    exact hb.bound j (by rw [← hq.next]; exact hj)
  · simp only [World.addRoute, upd, hq.scene]
    split
    · next ht => subst ht; exact hb.protos _
    · exact hb.protos t
  · show (w.bind _ _ _ _).inst i = none
    rw [hq.inst]; exact hb.inst i

theorem route_step {t : PTree} (ht : ParseVal.Tree.tag t = .route) {ss ps : List Nat} {cur fd} {w w' : World F} {v : RVal F} (h : disp base fl t ss ps cur fd w = some (v, w')) (hw : Inv base w ps) :
    ∃ r, w' = w.addRoute (ss.headD 0) r ∧ (w.heap r.src).isSome := by
  unfold disp at h
  split at h
  case h_10 =>
    split at h
    · next si di h1 h2 =>
      cases h
      obtain ⟨-, n, hn, -⟩ := hw.table _ _ _ h1
      exact ⟨_, rfl, by show (_ : Option _).isSome = true; rw [hn]; rfl⟩
    · cases h
  all_goals first | (cases ht; done) | (cases h; done)

theorem item_settled (hpb : PlainBase base) {t : PTree} {ss ps : List Nat} {cur fd} {w w' : World F} {v : RVal F}
    (ho : outerItem t = true) (h : disp base fl t ss ps cur fd w = some (v, w')) (hw : Inv base w ps) (hb : Bare w) (hs : Settled w) (h0 : ss.headD 0 = 0) : Bare w' ∧ Settled w' := by
  obtain ⟨tag, m, kids⟩ := t
  simp only [outerItem, Bool.or_eq_true, beq_iff_eq] at ho
  rcases ho with rfl | ho
  · obtain ⟨r, rfl, hr⟩ := route_step rfl h hw
    exact ⟨bare_addRoute hb, hs.addRoute hr h0⟩
  · obtain ⟨k, b⟩ := disp_bare hpb _ _ _ _ _ _ _ _ (by simpa only [noRoutes] using ho) h hb
    exact ⟨b, k.settled hs⟩

theorem items_settled (hpb : PlainBase base) (hty : ∀ ty v, (fl.types.dflt ty).value = some v → v.nodes = []) {ss ps : List Nat} {fd} (h0 : ss.headD 0 = 0) : ∀ (ts : List PTree) (w : World F) (vs w'), ts.all outerItem = true →
    dispList base fl ts ss ps none fd w = some (vs, w') → Nameds ts → Inv base w ps → Bare w → Settled w → Inv base w' ps ∧ Bare w' ∧ Settled w'
  | [], w, vs, w', _, h, _, hw, hb, hs => by unfold dispList at h; cases h; exact ⟨hw, hb, hs⟩
  | t :: ts, w, vs, w', hf, h, hn, hw, hb, hs => by
    unfold dispList at h
    split at h
    · cases h
    · next v1 w1 h1 =>
      split at h
      · cases h
      · next vs1 w2 h2 =>
        cases h
        simp only [List.all_cons, Bool.and_eq_true] at hf
        simp only [Nameds] at hn
        obtain ⟨b1, s1⟩ := item_settled hpb hf.1 h1 hw hb hs h0
        obtain ⟨l, -, r1, -⟩ := disp_run hpb hty false t _ _ _ _ _ _ _ h1 hw hn.1 (fun i hi => by cases hi) (by simp)
        exact items_settled hpb hty h0 ts _ _ _ hf.2 h2 hn.2 (r1.inv hpb hw).1 b1 s1

theorem Settled.addChildren {w : World F} (h : Settled w) (hb : Bare w) (s : Nat) (l : List Nat) :
    Bare { w with scene := upd w.scene s (fun o => { o with children := o.children ++ l }) } ∧ Settled { w with scene := upd w.scene s (fun o => { o with children := o.children ++ l }) } := by
  have hr : ∀ t, (upd w.scene s (fun o => { o with children := o.children ++ l }) t).routes = (w.scene t).routes ∧
      (upd w.scene s (fun o => { o with children := o.children ++ l }) t).protos = (w.scene t).protos := fun t => by
    simp only [upd]; split
    · next he => subst he; exact ⟨rfl, rfl⟩
    · exact ⟨rfl, rfl⟩
  have k : KeepsTypes none w { w with scene := upd w.scene s (fun o => { o with children := o.children ++ l }) } := ⟨le_refl _, rfl, fun t => (hr t).1, fun i n hn => ⟨n, hn, fun _ => rfl⟩⟩
  exact ⟨⟨hb.bound, fun t => (hr t).2.trans (hb.protos t), hb.inst⟩, k.settled h⟩

theorem root_step {t : PTree} {m ks} (ht : t = .node .rootItem m ks) {ss ps : List Nat} {cur fd} {w w' : World F} {v : RVal F} (h : disp base fl t ss ps cur fd w = some (v, w')) :
    ∃ vs w1 l, dispList base fl ks ss ps cur fd w = some (vs, w1) ∧ w' = { w1 with scene := upd w1.scene (ss.headD 0) (fun o => { o with children := o.children ++ l }) } := by
  subst ht
  unfold disp at h
  split at h
  · cases h
  · next items w1 h1 => cases h; exact ⟨_, _, _, h1, rfl⟩

theorem file_settled (hpb : PlainBase base) (hty : ∀ ty v, (fl.types.dflt ty).value = some v → v.nodes = []) {ss ps : List Nat} {fd} (h0 : ss.headD 0 = 0) : ∀ (ts : List PTree) (w : World F) (vs w'), outerRoutes ts = true →
    dispList base fl ts ss ps none fd w = some (vs, w') → Nameds ts → Inv base w ps → Bare w → Settled w → Bare w' ∧ Settled w'
  | [], w, vs, w', _, h, _, hw, hb, hs => by unfold dispList at h; cases h; exact ⟨hb, hs⟩
  | t :: ts, w, vs, w', hf, h, hn, hw, hb, hs => by
    unfold dispList at h
    split at h
    · cases h
    · next v1 w1 h1 =>
      split at h
      · cases h
      · next vs1 w2 h2 =>
        cases h
        simp only [outerRoutes, List.all_cons, Bool.and_eq_true] at hf
        simp only [Nameds] at hn
        obtain ⟨l, -, r1, -⟩ := disp_run hpb hty false t _ _ _ _ _ _ _ h1 hw hn.1 (fun i hi => by cases hi) (by simp)
        have hi := (r1.inv hpb hw).1
        have ht := hf.1
        split at ht
        case h_2 => cases ht
        rename_i m ks
        obtain ⟨vs2, w3, l, e1, rfl⟩ := root_step rfl h1
        have hn1 := hn.1
        simp only [Named] at hn1
        obtain ⟨-, b1, s1⟩ := items_settled hpb hty h0 ks _ _ _ ht e1 hn1.2 hw hb hs
        obtain ⟨b2, s2⟩ := s1.addChildren b1 (ss.headD 0) l
        exact file_settled hpb hty h0 ts _ _ _ hf.2 h2 hn.2 hi b2 s2

theorem init_bare : Bare (World.init fl : World F) := ⟨fun _ _ => rfl, fun _ => rfl, fun _ => rfl⟩
theorem init_settled : Settled (World.init fl : World F) := ⟨(by intro s r p h; simp only [World.init] at h; cases h), (by intro x h; cases h), (by intro s r h; simp only [World.init] at h; cases h), fun _ _ => rfl⟩

end Verif.Full
