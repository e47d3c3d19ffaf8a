import Verif.Lemmas.FullLoops
import Verif.Props.Instances
/-!
C87: files whose values would go round for ever.
-/
namespace Verif.Full
open Verif.Peg Verif.Grammar Verif.TextOut Verif.SceneText Verif.Reader Verif.Scopes
open Verif.Lin hiding disp dispList dispDecls dispAttrs disp_node disp_attr
variable {F : Type}

/-- the depth stays the same while values are forwarded -/
theorem depth_same {w : World F} {u : Val F} : ∀ (l : List Wire) (a : World F), a.wires = w.wires → l.foldlM (fun w x => (forward w.depth [] w x.dst x.dstField (some u)).map Prod.snd) a =
    l.foldlM (fun a x => (forward w.depth [] a x.dst x.dstField (some u)).map Prod.snd) a := by
  intro l
  induction l with
  | nil => exact fun _ _ => rfl
  | cons x l ih =>
    intro a ha
    have hd : a.depth = w.depth := by simp only [World.depth, ha]
    rw [List.foldlM_cons, List.foldlM_cons, hd]
    cases hf : forward w.depth [] a x.dst x.dstField (some u) with
    | none => rfl
    | some r => exact ih r.2 ((forward_wires _ _ _ _ _ _ _ hf).trans ha)

/-- storing a value in an instance -/
theorem setAttr_inst {w : World F} {i : Nat} {d : FieldDecl F} {v u : Val F} (hi : (w.inst i).isSome = true) (hk : d.kind ≠ .mfNode)
    (hu : coerce d.kind d.conv v = some u) : w.setAttr i d v = (w.out i d.name).foldlM (fun a x => (forward w.depth [] a x.dst x.dstField (some u)).map Prod.snd) (w.setField i d.name u) := by
  unfold World.setAttr
  simp only [hu]
  have hi' : ((w.setField i d.name u).inst i).isSome = true := hi
  have hk' : (d.kind != .mfNode) = true := by simpa using hk
  rw [if_pos (by rw [hi', hk']; rfl)]
  exact depth_same _ _ rfl

theorem first_step {w : World F} {p q : Place} (h : Onwards w p q) : q = p ∨ ∃ r, Onward w p r ∧ Onwards w r q := by
  cases h with
  | here => exact .inl rfl
  | step h1 h2 => exact .inr ⟨_, h1, h2⟩

/-- **C87** If connections lead from a field of a prototype's instance to an event on a cycle of connections, or to a name that the node there does not know, then giving that field a
value fails: no recursion depth is enough. -/
theorem C87_event_loops_never_end {w : World F} {i : Nat} {d : FieldDecl F} {v u : Val F} (hi : (w.inst i).isSome = true) (hk : d.kind ≠ .mfNode)
    (hu : coerce d.kind d.conv v = some u) {q : Place} (hq : Onwards w (i, d.name) q) (hl : LoopAt w q ∨ DeadEnd w q) :
    (∀ fuel, (w.out i d.name).foldlM (fun w x => (forward fuel [] w x.dst x.dstField (some u)).map Prod.snd) (w.setField i d.name u) = none) ∧
    w.setAttr i d v = none := by
  have key : ∀ fuel, (w.out i d.name).foldlM (fun w x => (forward fuel [] w x.dst x.dstField (some u)).map Prod.snd) (w.setField i d.name u) = none := by
    intro fuel
    cases h : (w.out i d.name).foldlM (fun w x => (forward fuel [] w x.dst x.dstField (some u)).map Prod.snd) (w.setField i d.name u) with
    | none => rfl
    | some r =>
      obtain ⟨-, m⟩ := visits_fresh (forward_visits w fuel) _ _ _ _ ((setField_quiet w i d.name u).like rfl (.refl w)) h
      have after : ∀ {p z}, Onward w z p → z = (i, d.name) → ∀ q, Onwards w p q → ¬ LoopAt w q ∧ ¬ DeadEnd w q := by
        intro p z hp hz q hq
        obtain ⟨h1, h2⟩ := hp
        rename_i x p
        obtain ⟨p', h3, h4⟩ := m x (mem_out.2 ⟨h1, hz⟩)
        rw [h3.inj h2] at h4
        exact h4 q hq
      exfalso
      rcases first_step hq with rfl | ⟨p, hp, hq⟩
      · rcases hl with ⟨he, p, hp, hq⟩ | ⟨x, h1, h2, h3⟩
        · exact (after hp rfl _ hq).1 ⟨he, p, hp, hq⟩
        · obtain ⟨p', h4, -⟩ := m x (mem_out.2 ⟨h1, h2⟩)
          exact h3 _ h4
      · have := after hp rfl q hq
        tauto
  exact ⟨key, by rw [setAttr_inst hi hk hu]; exact key _⟩

/-- **C87** These are the only reasons: as long as no coercion raises anything but ValueError and TypeError, giving a value that its type accepts to a field of an instance fails exactly if
connections lead on to an event on a cycle of connections or to a name that the node there does not know. -/
theorem C87_value_refused_iff {w : World F} (ht : ∀ d v, w.take d v ≠ none) {i : Nat} {d : FieldDecl F} {v u : Val F} (hi : (w.inst i).isSome = true) (hk : d.kind ≠ .mfNode)
    (hu : coerce d.kind d.conv v = some u) :
    w.setAttr i d v = none ↔ ∃ q, Onwards w (i, d.name) q ∧ (LoopAt w q ∨ DeadEnd w q) := by
  refine ⟨fun h => ?_, fun ⟨q, hq, hl⟩ => (C87_event_loops_never_end hi hk hu hq hl).2⟩
  by_contra hg
  have hg' : ∀ q, Onwards w (i, d.name) q → ¬ LoopAt w q ∧ ¬ DeadEnd w q := fun q hq => ⟨fun hl => hg ⟨q, hq, .inl hl⟩, fun hl => hg ⟨q, hq, .inr hl⟩⟩
  have key : ∀ (l : List Wire), (∀ x ∈ l, x ∈ w.out i d.name) → ∀ a : World F, Like w a → a.cross = w.cross →
      ∃ r, l.foldlM (fun a x => (forward w.depth [] a x.dst x.dstField (some u)).map Prod.snd) a = some r := by
    intro l
    induction l with
    | nil => exact fun _ a _ _ => ⟨a, rfl⟩
    | cons x l ih =>
      intro hs a ha hac
      obtain ⟨h1, h2⟩ := mem_out.1 (hs x (by simp))
      obtain ⟨p, hp⟩ : ∃ p, PortAt w x.dst x.dstField p := by
        by_contra hc
        exact (hg' _ (.here _)).2 ⟨x, h1, h2, fun q hq => hc ⟨q, hq⟩⟩
      have ho : Onward w (i, d.name) (x.dst, portName p) := by rw [← h2]; exact .wire h1 hp
      obtain ⟨b, hb⟩ := forward_ends ht w.wires.length w.wires.length w.depth [] a x.dst x.dstField (some u) p ha hac hp (mem_ends h1 hp) (fun q hq => hg' q (.step ho hq))
        (eventsBelow_le w _) (unvisited_le w []) (by simp only [World.depth, Nat.succ_mul]; omega)
      obtain ⟨r, hr⟩ := ih (fun y hy => hs y (by simp [hy])) b.2 (forward_visits w _ _ _ _ _ _ _ ha hb).1 ((forward_cross _ _ _ _ _ _ _ hb).trans hac)
      exact ⟨r, by rw [List.foldlM_cons, hb]; exact hr⟩
  rw [setAttr_inst hi hk hu] at h
  obtain ⟨r, hr⟩ := key _ (fun _ h => h) (w.setField i d.name u) ((setField_quiet w i d.name u).like rfl (.refl w)) rfl
  rw [hr] at h; cases h

theorem DoublyMapped.ext {w w' : World F} {ps} (e : Ext ps w w') {k nm} (hk : k < w.nclasses) (hps : k ∉ ps) (h : DoublyMapped w k nm) :
    DoublyMapped w' k nm := by
  obtain ⟨d, ev, t, g, g2, d2, ends, ends2, h1, h2, h3, h4, h5, h6, h7, h8, ⟨n, hn, h9⟩, ⟨n', hn', h10⟩, h11⟩ := h
  rw [hn] at hn'; cases hn'
  have hc := e.cls k hk hps
  obtain ⟨m, hm, -, hm2, hm3⟩ := e.node t n hn
  have hcl := hm3 (h11 n hn)
  refine ⟨d, ev, t, g, g2, d2, ends, ends2, by rw [hc]; exact h1, by rw [hc]; exact h2, h3, by rw [hc]; exact h4, h5, by rw [hc]; exact h6, h7, by rw [hc]; exact h8,
    ⟨m, hm, by rw [hcl]; exact h9⟩, ⟨m, hm, by rw [hcl]; exact h10⟩, fun x hx => ?_⟩
  rw [hm] at hx; cases hx
  rw [hm2]; exact h11 n hn

/-- no value can be given to a doubly mapped field of an instance -/
theorem doubly_mapped_fails {base : Text → Option (Class F)} {w : World F} {ps} (hw : Inv base w ps) (hl : LinkInv w) {k nm} (h : DoublyMapped w k nm) {i : Nat} (hi : w.inst i = some k)
    {d : FieldDecl F} (hd : (w.cls k).cls.getField nm = some (.inl d)) (v : Val F) : w.setAttr i d v = none := by
  obtain ⟨d', ev, t, g, g2, d2, ends, ends2, h1, h2, h3, h4, h5, h6, h7, h8, h9, h10, h11⟩ := h
  rw [hd] at h6; cases h6
  have he : ∀ e ∈ (w.cls k).is, e ∈ (w.cls k).isMaps := fun e he => by simp only [ClassObj.isMaps, h1, if_true]; exact he
  obtain ⟨a1, a2⟩ := hl i k hi _ (he _ h2) _ h3
  obtain ⟨b1, b2⟩ := hl i k hi _ (he _ h4) _ h5
  obtain ⟨-, -, n, hn, hc⟩ := hw.inst i k hi
  have o1 : Onward w (i, d.name) (t, d2.name) := .wire (x := ⟨i, d.name, t, g⟩) (a1 _ hd) h9
  have o2 : Onward w (i, ev.name) (t, d2.name) := .wire (x := ⟨i, ev.name, t, g2⟩) (b1 _ h8) h10
  have o3 : Onward w (t, d2.name) (i, ev.name) := .wire (x := ⟨t, d2.name, i, ev.name⟩) (q := .inr ev) (b2 _ h10 h11) ⟨n, hn, by rw [hc]; exact h8⟩
  cases hu : coerce d.kind d.conv v with
  | none => unfold World.setAttr; rw [hu]
  | some u =>
    refine (C87_event_loops_never_end (by rw [hi]; rfl) h7 hu (.step o1 (.step o3 (.here _))) (.inl ⟨⟨n, ev, hn, ?_, rfl⟩, _, o2, .step o3 (.here _)⟩)).2
    rw [hc]; exact getField_inr h8

section
variable {base : Text → Option (Class F)} {fl : Floats F}

theorem dispList_append (a b : List PTree) (ss ps cur fd) (w : World F) : dispList base fl (a ++ b) ss ps cur fd w =
    (dispList base fl a ss ps cur fd w).bind (fun r => (dispList base fl b ss ps cur fd r.2).map (fun s => (r.1 ++ s.1, s.2))) := by
  induction a generalizing w with
  | nil => simp only [List.nil_append, dispList, Option.bind_some]; cases dispList base fl b ss ps cur fd w <;> rfl
  | cons t a ih =>
    simp only [List.cons_append, dispList]
    cases disp base fl t ss ps cur fd w with
    | none => rfl
    | some r =>
      simp only [ih]
      cases dispList base fl a ss ps cur fd r.2 with
      | none => rfl
      | some s =>
        simp only [Option.bind_some]
        cases dispList base fl b ss ps cur fd s.2 with
        | none => rfl
        | some t => rfl

/-- the attributes of such an instance cannot be read -/
theorem attrs_fail (hB : Builtins base fl) {w : World F} {ss ps : List Nat} (hw : Inv base w ps) (hl : LinkInv w) {k nm} (h : DoublyMapped w k nm) {i : Nat} (hi : w.inst i = some k)
    {rest : List PTree} (hn : Nameds rest) {m : Text} {z : List PTree} {value : PTree} (hr : (.node .attr m [.node .name nm z, value] : PTree) ∈ rest) (hv : isTarget value = none)
    (fd) : dispList base fl rest ss ps (some i) fd w = none := by
  obtain ⟨a, b, rfl⟩ := List.append_of_mem hr
  rw [dispList_append]
  cases h1 : dispList base fl a ss ps (some i) fd w with
  | none => rfl
  | some r =>
    obtain ⟨vs, w1⟩ := r
    obtain ⟨hi1, hi2, n, hnd, hcl⟩ := hw.inst i k hi
    rw [Nameds_append] at hn
    obtain ⟨l, -, r1, -⟩ := dispList_run hB.plain hB.types false a _ _ _ _ _ _ _ h1 hw hn.1 (fun j hj => by cases hj; exact ⟨n, hnd⟩) (by simp)
    obtain ⟨w1i, e1⟩ := r1.inv hB.plain hw
    have l1 := (r1.links hB.plain hw hl).1
    have hilt : i < w.next := (hw.ids i).1 (by rw [hnd]; rfl)
    have hi' : w1.inst i = some k := (e1.inst i hilt).trans hi
    obtain ⟨n1, hn1, -, -, -⟩ := e1.node i n hnd
    simp only [Option.bind_some]
    have hattr : disp base fl (.node .attr m [.node .name nm z, value]) ss ps (some i) fd w1 = none := by
      unfold disp
      simp only [hn1, hv]
      obtain ⟨d, hd⟩ : ∃ d, (w1.cls k).cls.getField nm = some (.inl d) := by
        obtain ⟨d, _, _, _, _, _, _, _, _, _, _, _, _, h6, _⟩ := h.ext e1 hi1 hi2
        exact ⟨d, h6⟩
      obtain ⟨-, -, n1', hn1', hc1⟩ := w1i.inst i k hi'
      rw [hn1] at hn1'; cases hn1'
      rw [hc1, hd]
      simp only
      cases h2 : disp base fl value ss ps (some i) (some d.kind) w1 with
      | none => rfl
      | some r2 =>
        obtain ⟨v, w2⟩ := r2
        simp only
        cases hv2 : v.toVal with
        | none => rfl
        | some v2 =>
          have hnv : Named value := by
            have := hn.2
            simp only [Nameds, Named] at this
            exact this.1.2.2.1
          obtain ⟨l', -, r2, -⟩ := disp_run hB.plain hB.types false value _ _ _ _ _ _ _ h2 w1i hnv (fun j hj => by cases hj; exact ⟨n1, hn1⟩) (by simp)
          obtain ⟨w2i, e2⟩ := r2.inv hB.plain w1i
          have l2 := (r2.links hB.plain w1i l1).1
          obtain ⟨hk1, hk2, -⟩ := w1i.inst i k hi'
          have hi2' : w2.inst i = some k := (e2.inst i ((w1i.ids i).1 (by rw [hn1]; rfl))).trans hi'
          simp only [doubly_mapped_fails w2i l2 ((h.ext e1 hi1 hi2).ext e2 hk1 hk2) hi2' (by rw [e2.cls k hk1 hk2]; exact hd) v2]
    simp only [dispList, hattr, Option.map_none]

/-- **C87** When a prototype of a file maps one of its fields and one of its events to the same field of a node in its body (`x IS c` and `set_x IS set_c`), every continuation of
the file with an instance that gives that field a value is refused, whatever the value. -/
theorem C87_no_value_for_doubly_mapped_field (hB : Builtins base fl) {text0 text : Text} {w : World F} (h0 : ReadsWorld base fl text0 w) {kids more rest : List PTree} {gi nm m1 m2 m : Text}
    {pre x z : List PTree} {value : PTree} (hk0 : ItemsOf text0 kids) (hpre : pre = [] ∨ ∃ DEF y, pre = [.node .name DEF y])
    (hk : ItemsOf text (kids ++ .node .rootItem m1 [.node .node m2 (pre ++ .node .nodegi gi x :: rest)] :: more)) {k : Nat} (hg : w.getProto [0] gi = some k) (h : DoublyMapped w k nm)
    (hr : (.node .attr m [.node .name nm z, value] : PTree) ∈ rest) (hv : isTarget value = none) : ∀ w', ¬ ReadsWorld base fl text w' := by
  rintro w' ⟨hdr, sm, kids', eof, m', vs', hd, hr'⟩
  obtain ⟨hdr2, sm2, eof2, m2', hd2⟩ := hk
  cases hd.det _ hd2
  obtain ⟨hdr3, sm3, kids3, eof3, m3, vs, hd3, hr0⟩ := h0
  obtain ⟨hdr4, sm4, eof4, m4, hd4⟩ := hk0
  cases hd3.det _ hd4
  have hn := (der_named hd _ _ _ rfl).2.1.2
  rw [Nameds_append] at hn
  obtain ⟨l, -, r, -⟩ := dispList_run hB.plain hB.types false kids _ _ _ _ _ _ _ hr0 init_inv hn.1 (fun i hi => by cases hi) (by simp)
  have hi := (r.inv hB.plain init_inv).1
  have hl := (r.links hB.plain init_inv init_links).1
  -- the new instance
  have key : ∀ DEF, (DEF = [] ∨ LegalName DEF) → Nameds rest → ∀ fd w1, w.create base [0] gi DEF = some w1 → dispList base fl rest [0] [] (some w.next) fd w1 = none := by
    intro DEF hDEF hnr fd w1 hc
    have r1 : Run base fl false [0] [] [.node gi DEF] w w1 := .create hDEF hc
    obtain ⟨i1, e1⟩ := r1.inv hB.plain hi
    have l1 := (r1.links hB.plain hi hl).1
    obtain ⟨-, c, k', hnew, hk', -⟩ := create_inv hB.plain hi hc
    rw [hg] at hk'; subst hk'
    obtain ⟨s, hs⟩ := getProto_mem hg
    obtain ⟨hk1, hk2, -⟩ := hi.protos s gi k hs
    exact attrs_fail hB i1 l1 (h.ext e1 hk1 hk2) (by rw [hnew.inst, if_pos rfl]) hnr hr hv fd
  have hitem : disp base fl (.node .rootItem m1 [.node .node m2 (pre ++ .node .nodegi gi x :: rest)]) [0] [] none none w = none := by
    have hnn := hn.2
    simp only [Nameds, Named] at hnn
    have hnd : disp base fl (.node .node m2 (pre ++ .node .nodegi gi x :: rest)) [0] [] none none w = none := by
      rcases hpre with rfl | ⟨DEF, y, rfl⟩
      · simp only [List.nil_append, Nameds, Named] at hnn ⊢
        unfold disp
        cases hc : w.create base [0] gi [] with
        | none => rfl
        | some w1 => simp only [key [] (.inl rfl) (by tauto) none w1 hc]
      · simp only [List.cons_append, List.nil_append, Nameds, Named] at hnn ⊢
        unfold disp
        cases hc : w.create base [0] gi DEF with
        | none => rfl
        | some w1 => simp only [key DEF (.inr (by tauto)) (by tauto) none w1 hc]
    unfold disp
    simp only [dispList, hnd]
  rw [dispList_append, hr0, Option.bind_some] at hr'
  simp only [dispList, hitem, Option.map_none] at hr'
  cases hr'

end

/-! ### Examples -/

def exLoopProto : Text := chars "PROTO A [ field SFFloat c 7 eventIn SFTime set_c ] { Group { x IS c set_x IS set_c } } "

/-- Without a value in the instance the file is read: the prototype's own default does not go round. -/
example : ∃ w, ReadsWorld exLookup exFloats (file (exLoopProto ++ chars "A { }")) w ∧ w.getProto [0] (chars "A") = some 0 ∧ w.inst 1 = some 0 ∧ (w.cls 0).body = some 1 ∧
    (w.cls 0).is = [(chars "c", [(0, chars "x")]), (chars "set_c", [(0, chars "set_x")])] ∧ DoublyMapped w 0 (chars "c") := by
  obtain ⟨w, h1, h2⟩ := world_fact (base := exLookup) (fl := exFloats) (fuel := 400) (text := file (exLoopProto ++ chars "A { }"))
    (f := fun w => decide (w.getProto [0] (chars "A") = some 0) && decide (w.inst 1 = some 0) && decide (w.inst 0 = none) && decide ((w.cls 0).body = some 1) &&
      decide ((w.cls 0).is = [(chars "c", [(0, chars "x")]), (chars "set_c", [(0, chars "set_x")])]) &&
      (match (w.cls 0).cls.getField (chars "c") with | some (.inl d) => decide (d.kind ≠ .mfNode) | _ => false) &&
      (match (w.cls 0).cls.getField (chars "set_c") with | some (.inr e) => decide (e.name = chars "set_c") | _ => false) &&
decide ((w.heap 0).map (fun n => n.cls.proto) = some (chars "Group"))) (x := true) (by decide +kernel)
  simp only [Bool.and_eq_true, decide_eq_true_eq] at h2
  obtain ⟨⟨⟨⟨⟨⟨⟨a, b⟩, b'⟩, c⟩, d⟩, e⟩, g⟩, h⟩ := h2
  refine ⟨w, h1, a, b, c, d, ?_⟩
  obtain ⟨l, r⟩ := reads_steps exBuiltins h1
  obtain ⟨n, hn, hp⟩ := Option.map_eq_some_iff.1 h
  have hc : n.cls = exClass := by
    rcases (r.inv exBuiltins.plain init_inv).1.built 0 n hn b' with ⟨t, ht⟩ | hs
    · unfold exLookup at ht
      split at ht
      · exact (Option.some.inj ht).symm
      · cases ht
    · rw [hp] at hs; exact absurd hs (by decide)
  split at e
  · next dd hdd =>
    split at g
    · next ev hev =>
      have hen : ev.name = chars "set_c" := by simpa using g
      obtain ⟨d2, h3, h4⟩ : ∃ d2, exClass.getField (chars "x") = some (.inl d2) ∧ exClass.getField (chars "set_x") = some (.inl d2) := by
        have hx : exClass.getField (chars "x") = some (.inl ⟨chars "x", chars "SFFloat", .sfFloat, intStr, id, .scalar (.num 0)⟩) := by
          unfold Class.getField; rw [resolveName]; rfl
        refine ⟨_, hx, ?_⟩
        rw [← hx]
        unfold Class.getField
        conv_lhs => rw [resolveName]
        rfl
      refine ⟨dd, ev, 0, chars "x", chars "set_x", d2, _, _, by rw [c]; rfl, by rw [d]; exact List.mem_cons_self, List.mem_cons_self,
        by rw [d, hen]; exact List.mem_cons_of_mem _ List.mem_cons_self, List.mem_cons_self, hdd, by simpa using e, by rw [hen]; exact hev,
        ⟨n, hn, by rw [hc]; exact h3⟩, ⟨n, hn, by rw [hc]; exact h4⟩, fun n' hn' => ?_⟩
      rw [hn] at hn'; cases hn'; rw [hp]; decide
    · cases g
  · cases e

/-- With a value it is refused. -/
example : ∀ w, ¬ ReadsWorld exLookup exFloats (file (exLoopProto ++ chars "A { c 3 }")) w := not_reads (fuel := 400) (by decide +kernel)

/-- A node connected with itself and with a second one, which is connected back: no coercion raises other exceptions, and a value can be given (`C87_value_refused_iff`: there is no event). -/
def exRing : World Int :=
  { World.init exFloats with
    heap := fun i => if i < 2 then some (exNode [] 5 [] none) else none
    next := 2
    inst := fun i => if i = 0 then some 0 else none
    wires := [⟨0, chars "x", 0, chars "x"⟩, ⟨0, chars "x", 1, chars "set_x"⟩, ⟨1, chars "x", 0, chars "x_changed"⟩] }

example : (∀ d v, exRing.take d v ≠ none) ∧ (exRing.inst 0).isSome = true ∧
    ((exRing.setAttr 0 ⟨chars "x", chars "SFFloat", .sfFloat, intStr, id, .scalar (.num 0)⟩ (.num 3)).map (fun w => numIn w 1 (chars "x"))) = some (some 3) := by
  refine ⟨fun d v => ?_, rfl, by decide +kernel⟩
  unfold World.take
  split
  · simp
  · have hc : exRing.cross d.kind d.conv v = some none := rfl
    rw [hc]
    simp

end Verif.Full
