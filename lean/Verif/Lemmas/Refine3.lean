import Verif.Lemmas.Refine2
/-!
The two readers side by side: the other steps.
-/
namespace Verif.Full
open Verif.Peg Verif.Grammar Verif.TextOut Verif.SceneText Verif.Reader
open Verif.Lin hiding disp dispList dispDecls dispAttrs disp_node disp_attr
variable {F : Type} {base : Text → Option (Class F)}

theorem frame_heap {ρ : Nat → Nat} {s ps} {w : World F} {h' : Nat → Option (Node F)} {i : Nat} (hh : ∀ j, j ≠ ρ i → h' j = w.heap j) : Frame ρ s ps w { w with heap := h' } :=
  ⟨le_rfl, rfl, rfl, fun _ _ => rfl, fun _ => ⟨rfl, rfl⟩, fun _ _ => rfl, rfl, fun j n hn hj => ⟨n, by simp only [hh j (hj i)]; exact hn, rfl, rfl, fun _ _ => rfl⟩, fun _ _ => rfl⟩

/-- storing a value -/
theorem store_sim {ρ X s ps} {rs rs' : RSt F} {w : World F} (hw : Inv base w ps) (hs : Sim ρ X s ps rs w) {i n} (hn : rs.sc.heap i = some n) {d : FieldDecl F}
    (hout : (w.inst (ρ i)).isSome = true → w.out (ρ i) d.name = []) (hmem : ∀ n', w.heap (ρ i) = some n' → d.rename ρ ∈ n'.cls.fields ∨ n'.cls.proto = scriptName) {v : Val F} (hv : ∀ j ∈ (v.rename ρ).nodes, j < w.next) (h : rs.store i d v = some rs') :
    ∃ w', w.setAttr (ρ i) (d.rename ρ) (v.rename ρ) = some w' ∧ Step base ρ X s ps rs' w w' ∧ NoWires ρ w w' := by
  obtain ⟨n', a1, a2, a3, a4⟩ := hs.node i n hn
  unfold RSt.store at h
  cases hc : coerce d.kind d.conv v with
  | none => rw [hc] at h; cases h
  | some u =>
    rw [hc] at h
    simp only [Option.some.injEq] at h
    subst h
    have hc' : coerce (d.rename ρ).kind (d.rename ρ).conv (v.rename ρ) = some (u.rename ρ) := by
      change coerce d.kind d.conv (v.rename ρ) = _
      rw [coerce_rename, hc]; rfl
    have hset : w.setAttr (ρ i) (d.rename ρ) (v.rename ρ) = some (w.setField (ρ i) d.name (u.rename ρ)) := by
      unfold World.setAttr
      rw [hc']
      simp only
      split
      · next hcond =>
        simp only [Bool.and_eq_true] at hcond
        have := hout hcond.1
        have ho : ∀ u, (w.setField (ρ i) (d.rename ρ).name u).out (ρ i) (d.rename ρ).name = [] := fun _ => this
        rw [ho]
        rfl
      · rfl
    refine ⟨_, hset, ⟨?_, ?_, hw.setAttr a1 (hmem n' a1) hv hset, (setAttr_quiet hset).ext _⟩, fun x hx => .inl hx⟩
    · refine ⟨hs.mono, hs.next, fun j => ?_, fun j m hm => ?_, hs.fresh, hs.children, hs.routes, hs.defs, hs.is⟩
      · simp only
        split
        · subst_vars; rw [← hs.ids j, hn]; simp
        · exact hs.ids j
      · simp only at hm
        split at hm
        · next hj =>
          subst hj
          rw [hn] at hm; simp only [Option.map_some, Option.some.injEq] at hm; subst hm
          refine ⟨n'.set d.name (u.rename ρ), by simp [World.setField, a1], a2, a3, fun g => ?_⟩
          simp only [Node.set]
          split
          · rfl
          · exact a4 g
        · next hj =>
          obtain ⟨m', b1, b2, b3, b4⟩ := hs.node j m hm
          exact ⟨m', by simp only [World.setField]; rw [if_neg (fun e => hj (hs.inj e))]; exact b1, b2, b3, b4⟩
    · exact frame_heap (i := i) (fun j hj => by simp only [if_neg hj])

/-- an IS mapping -/
theorem addIs_sim {ρ X s ps} {rs : RSt F} {w : World F} (hw : Inv base w ps) (hs : Sim ρ X s ps rs w) {i n} (hn : rs.sc.heap i = some n) {dict} (hd : rs.sc.is = some dict) (nm f : Text) :
    ∃ w', w.addIs ps nm (ρ i) f = some w' ∧ Step base ρ X s ps { rs with sc := { rs.sc with is := some (isAppend nm (i, f) dict) } } w w' ∧ NoWires ρ w w' := by
  rcases hs.is with ⟨h1, h2⟩ | ⟨c, l, h1, h2, h3⟩
  · rw [h2] at hd; cases hd
  · rw [h2] at hd; cases hd
    subst h1
    obtain ⟨n', a1, -⟩ := hs.node i n hn
    have hi : ρ i < w.next := (hw.ids _).1 (by rw [a1]; rfl)
    have hadd : w.addIs [c] nm (ρ i) f = some { w with cls := upd w.cls c (fun o => { o with is := isAppend nm (ρ i, f) o.is }) } := rfl
    obtain ⟨b1, b2⟩ := hw.addIs hi hadd
    refine ⟨_, hadd, ⟨?_, ?_, b1, b2⟩, fun x hx => .inl hx⟩
    · refine ⟨hs.mono, hs.next, hs.ids, hs.node, hs.fresh, hs.children, hs.routes, hs.defs, .inr ⟨c, _, rfl, rfl, ?_⟩⟩
      simp only [upd, if_true, h3, isAppend_rename]
    · refine ⟨le_rfl, rfl, rfl, fun k hk => ?_, fun k => ?_, fun _ _ => rfl, rfl, fun j n hn _ => ⟨n, hn, rfl, rfl, fun _ _ => rfl⟩, fun _ _ => rfl⟩
      · have : k ≠ c := by simpa using hk
        simp only [upd, if_neg this]
      · simp only [upd]
        split
        · subst_vars; exact ⟨rfl, rfl⟩
        · exact ⟨rfl, rfl⟩

/-- several -/
theorem addAllIs_sim {ρ X s ps} {i n} : ∀ (l : List (Text × Text)) {rs rs' : RSt F} {w : World F}, Inv base w ps → Sim ρ X s ps rs w → rs.sc.heap i = some n → rs.addIs i l = some rs' →
    ∃ w', w.addAllIs ps (ρ i) l = some w' ∧ Step base ρ X s ps rs' w w' ∧ NoWires ρ w w'
  | [], rs, rs', w, hw, hs, hn, h => by
    simp only [RSt.addIs, if_true, Option.some.injEq] at h
    subst h
    exact ⟨w, rfl, .refl hs hw, .refl _ _⟩
  | e :: l, rs, rs', w, hw, hs, hn, h => by
    simp only [RSt.addIs, reduceCtorEq, if_false] at h
    cases hd : rs.sc.is with
    | none => rw [hd] at h; cases h
    | some dict =>
      rw [hd] at h
      simp only [Option.some.injEq, List.foldl_cons] at h
      obtain ⟨w1, a1, a2, a3⟩ := addIs_sim hw hs hn hd e.1 e.2
      obtain ⟨w2, b1, b2, b3⟩ := addAllIs_sim (i := i) (n := n) l (rs' := rs') a2.inv a2.sim hn (by
        simp only [RSt.addIs]
        split
        · next hl => subst hl; rw [← h]; rfl
        · rw [← h])
      refine ⟨w2, ?_, a2.trans hw b2, a3.trans a2.frame.next b3⟩
      unfold World.addAllIs
      rw [List.foldlM_cons, a1]
      exact b1

/-- a route -/
theorem route_sim {ρ X s ps} {rs : RSt F} {w : World F} (hw : Inv base w ps) (hs : Sim ρ X s ps rs w) {a af b bf} {si di : Nat} (ha : a ≠ []) (hb : b ≠ [])
    (h1 : rs.sc.getDEF a = some si) (h2 : rs.sc.getDEF b = some di) :
    w.getDEF s a = some (ρ si) ∧ w.getDEF s b = some (ρ di) ∧
      Step base ρ X s ps { rs with sc := { rs.sc with routes := rs.sc.routes ++ [⟨si, af, di, bf⟩] } } w (w.addRoute s ⟨ρ si, af, ρ di, bf⟩) := by
  have hget : ∀ nm, w.getDEF s nm = (w.scene s).defs.lookup nm := fun _ => rfl
  have g1 : w.getDEF s a = some (ρ si) := by rw [hget, hs.defs a ha]; exact congrArg _ h1
  have g2 : w.getDEF s b = some (ρ di) := by rw [hget, hs.defs b hb]; exact congrArg _ h2
  refine ⟨g1, g2, ?_⟩
  obtain ⟨-, n1, t1, -⟩ := hw.table s a _ g1
  obtain ⟨-, n2, t2, -⟩ := hw.table s b _ g2
  obtain ⟨c1, c2⟩ := hw.addRoute (s := s) (r := ⟨ρ si, af, ρ di, bf⟩) ((hw.ids _).1 (by rw [t1]; rfl)) ((hw.ids _).1 (by rw [t2]; rfl))
  have hq := bind_quiet w (ρ si) af (ρ di) bf
  have hh := bind_heap w (ρ si) af (ρ di) bf
  have hsc : ∀ t, ((w.addRoute s ⟨ρ si, af, ρ di, bf⟩).scene t) = if t = s then { w.scene s with routes := (w.scene s).routes ++ [⟨ρ si, af, ρ di, bf⟩] } else w.scene t := by
    intro t
    simp only [World.addRoute, upd, hq.scene]
  refine ⟨?_, ?_, c1, c2⟩
  · refine ⟨hs.mono, fun j => ?_, hs.ids, fun j n hn => ?_, hs.fresh, ?_, ?_, fun nm hnm => ?_, ?_⟩
    · simp only [World.addRoute, hq.next]; exact hs.next j
    · simp only [World.addRoute, hh]; exact hs.node j n hn
    · rw [hsc, if_pos rfl]; exact hs.children
    · rw [hsc, if_pos rfl]; simp [hs.routes, Rt.rename]
    · rw [hsc, if_pos rfl]; exact hs.defs nm hnm
    · simp only [World.addRoute, hq.cls]; exact hs.is
  · refine ⟨hq.next.ge, hq.nclasses, hq.nscenes, fun k _ => by simp only [World.addRoute, hq.cls], fun k => by simp only [World.addRoute, hq.cls]; exact ⟨trivial, trivial⟩,
      fun t ht => by rw [hsc, if_neg ht], by rw [hsc, if_pos rfl], fun j n hn _ => ⟨n, by simp only [World.addRoute, hh]; exact hn, rfl, rfl, fun _ _ => rfl⟩, fun j _ => by simp only [World.addRoute, hq.inst]⟩

/-- new children -/
theorem children_sim {ρ X s ps} {rs : RSt F} {w : World F} (hw : Inv base w ps) (hs : Sim ρ X s ps rs w) (l : List Nat) (hl : ∀ i ∈ l.map ρ, i < w.next) :
    Step base ρ X s ps { rs with sc := { rs.sc with children := rs.sc.children ++ l } } w { w with scene := upd w.scene s (fun o => { o with children := o.children ++ l.map ρ }) } := by
  refine ⟨⟨hs.mono, hs.next, hs.ids, hs.node, hs.fresh, ?_, ?_, fun nm hnm => ?_, hs.is⟩, ⟨le_rfl, rfl, rfl, fun _ _ => rfl, fun _ => ⟨rfl, rfl⟩, fun t ht => by simp [upd, ht], by simp [upd],
    fun j n hn _ => ⟨n, hn, rfl, rfl, fun _ _ => rfl⟩, fun _ _ => rfl⟩, hw.addChildren hl, ext_scene _ _ _⟩
  · simp [upd, hs.children]
  · simp [upd, hs.routes]
  · simp only [upd, if_true]; exact hs.defs nm hnm

/-- a declaration of a Script -/
theorem setClass_sim {ρ X s ps} {rs : RSt F} {w : World F} (hw : Inv base w ps) (hb : PlainBase base) (hs : Sim ρ X s ps rs w) {i n} (hn : rs.sc.heap i = some n) (hi : IsScript w (ρ i))
    {p : ProtoDef F} (hp : p.name = scriptName) (hf : PFields p w.next) :
    Step base ρ (fun j => if j = i then some p.cls else X j) s ps rs w (w.setClass (ρ i) p.cls) ∧ NoWires ρ w (w.setClass (ρ i) p.cls) ∧ IsScript (w.setClass (ρ i) p.cls) (ρ i) := by
  obtain ⟨n0, hn0, hs0⟩ := hi.node
  obtain ⟨i1, e1⟩ := hw.setClass (c := p.cls) hn0 hs0 hi.inst hp (fun d hd j hj => by
    obtain ⟨f, h1, rfl⟩ := cls_fields hd
    exact hf f h1 j hj)
  refine ⟨⟨?_, frame_heap (i := i) (fun j hj => by simp only [if_neg hj]), i1, e1⟩, fun x hx => .inl hx, hi.ext hw e1⟩
  refine ⟨hs.mono, hs.next, hs.ids, fun j m hm => ?_, fun j hj => ?_, hs.children, hs.routes, hs.defs, hs.is⟩
  · obtain ⟨m', b1, b2, b3, b4⟩ := hs.node j m hm
    by_cases hj : j = i
    · subst hj
      exact ⟨{ m' with cls := p.cls }, by simp [World.setClass, b1], by simp, b3, b4⟩
    · exact ⟨m', by simp only [World.setClass]; rw [if_neg (fun e => hj (hs.inj e))]; exact b1, by rw [if_neg hj]; exact b2, b3, b4⟩
  · have : i < rs.next := (hs.ids i).1 (by rw [hn]; rfl)
    rw [if_neg (by omega)]; exact hs.fresh j hj

/-- the end of the declarations: the class is given to the node -/
theorem Sim.declared {ρ X s ps} {rs : RSt F} {w : World F} {i n} {c : Class F} (hs : Sim ρ (fun j => if j = i then some (c.rename ρ) else X j) s ps rs w) (hn : rs.sc.heap i = some n) (hX : X i = none) :
    Sim ρ X s ps (rs.setClass i c) w := by
  refine ⟨hs.mono, hs.next, fun j => ?_, fun j m hm => ?_, fun j hj => ?_, hs.children, hs.routes, hs.defs, hs.is⟩
  · simp only [RSt.setClass]
    split
    · subst_vars; rw [← hs.ids j, hn]; simp
    · exact hs.ids j
  · simp only [RSt.setClass] at hm
    split at hm
    · next hj =>
      subst hj
      rw [hn] at hm; simp only [Option.map_some, Option.some.injEq] at hm; subst hm
      obtain ⟨m', b1, b2, b3, b4⟩ := hs.node j n hn
      rw [if_pos rfl] at b2
      exact ⟨m', b1, by rw [hX]; exact b2, b3, b4⟩
    · next hj =>
      obtain ⟨m', b1, b2, b3, b4⟩ := hs.node j m hm
      rw [if_neg hj] at b2
      exact ⟨m', b1, b2, b3, b4⟩
  · have := hs.fresh j hj
    split at this
    · cases this
    · exact this

end Verif.Full
