import Verif.Lemmas.Content
/-!
What the single steps of the reader do to the contents of the objects.
-/
namespace Verif.Full
open Verif.Peg Verif.Grammar Verif.TextOut Verif.SceneText Verif.Reader Verif.Scopes
open Verif.Lin hiding disp dispList dispDecls dispAttrs disp_node disp_attr
variable {F : Type} {base : Text → Option (Class F)} {fl : Floats F}

theorem resolveName_leads {c : Class F} (nm : Text) {d : FieldDecl F} (h : resolveName c.port nm = some (.inl d)) : Leads nm d.name := by
  induction hl : nm.length using Nat.strong_induction_on generalizing nm with
  | _ n ih =>
    rw [resolveName] at h
    split at h
    · next a ha =>
      cases h
      unfold Class.port at ha
      split at ha
      · cases ha
      · obtain ⟨d', hd', he⟩ := Option.map_eq_some_iff.1 ha
        cases he
        have := List.find?_some hd'
        rw [show nm = d.name from (eq_of_beq this).symm]
        exact .same
    · split at h
      · next hp =>
        obtain ⟨t, rfl⟩ := List.isPrefixOf_iff_prefix.mp hp
        have h' : resolveName c.port t = some (.inl d) := h
        exact .pre (ih t.length (by simp at hl; omega) t h' rfl)
      · split at h
        · next hp =>
          obtain ⟨t, rfl⟩ := List.isSuffixOf_iff_suffix.mp hp
          rw [List.length_append, show (['_', 'c', 'h', 'a', 'n', 'g', 'e', 'd'] : Text).length = 8 from rfl, Nat.add_sub_cancel, List.take_left'  rfl] at h
          exact .post (ih t.length (by simp at hl; omega) t h rfl)
        · cases h

theorem getField_leads {c : Class F} {nm : Text} {d : FieldDecl F} (h : c.getField nm = some (.inl d)) : Leads nm d.name := resolveName_leads nm h

theorem setField_dict (w : World F) (i : Nat) (f : Text) (v : Val F) (j : Nat) (g : Text) :
    dictAt (w.setField i f v) j g = if j = i ∧ g = f then (w.heap i).map (fun _ => v) else dictAt w j g := by
  unfold dictAt World.setField
  by_cases hj : j = i
  · subst hj
    cases hh : w.heap j with
    | none => simp
    | some n => by_cases hg : g = f <;> simp [Node.set, hg]
  · simp [hj]

theorem setField_other {w : World F} {i : Nat} {f : Text} {v : Val F} {j : Nat} {g : Text} (h : ¬ (j = i ∧ g = f)) : dictAt (w.setField i f v) j g = dictAt w j g := by
  rw [setField_dict, if_neg h]

theorem forward_dict (fuel : Nat) (vis : List (Nat × Text)) (w : World F) (i : Nat) (f : Text) (v : Option (Val F)) (r : List (Nat × Text) × World F)
    (h : forward fuel vis w i f v = some r) : r.2.wires = w.wires ∧ ∀ j g, ¬ (∃ x ∈ w.wires, x.dst = j ∧ Leads x.dstField g) → ¬ (j = i ∧ Leads f g) → dictAt r.2 j g = dictAt w j g := by
  refine forward_keeps (P := fun w' => w'.wires = w.wires ∧ ∀ j g, ¬ (∃ x ∈ w.wires, x.dst = j ∧ Leads x.dstField g) → ¬ (j = i ∧ Leads f g) → dictAt w' j g = dictAt w j g) (Q := fun _ => True)
    (E := fun i' f' => (i' = i ∧ f' = f) ∨ ∃ x ∈ w.wires, i' = x.dst ∧ f' = x.dstField) trivial ?_ ?_ fuel vis w i f v r ⟨rfl, fun _ _ _ _ => rfl⟩ (.inl ⟨rfl, rfl⟩) trivial h
  · intro w' hw' x hx
    exact .inr ⟨x, by rw [hw'.1] at hx; exact hx, rfl, rfl⟩
  · intro w' i' f' d v u hw' he _ hd _
    refine ⟨⟨hw'.1, fun j g hc hn => ?_⟩, trivial⟩
    rw [← hw'.2 j g hc hn]
    refine setField_other (fun hjg => ?_)
    obtain ⟨n, hn1, hn2⟩ := Option.bind_eq_some_iff.1 hd
    have hl := getField_leads hn2
    obtain ⟨rfl, rfl⟩ := hjg
    rcases he with ⟨rfl, rfl⟩ | ⟨x, hx, rfl, rfl⟩
    · exact hn ⟨rfl, hl⟩
    · exact hc ⟨x, hx, rfl, hl⟩

/-- changes of wires, tables and of what is stored at the ends of wires -/
theorem Effect.quietly {X C : Nat → Prop} {w w' : World F} (hw : (∀ x ∈ w.wires, x ∈ w'.wires) ∧ (Sending w → Sending w')) (hn : w.next ≤ w'.next) (hc : ∀ i, i < w.next → clsAt w' i = clsAt w i)
    (hs : ∀ s, (w'.scene s).children = (w.scene s).children) (hns : w'.nscenes = w.nscenes) (hcl : w'.cls = w.cls) (hnc : w'.nclasses = w.nclasses)
    (hd : ∀ i f, ¬ Connected w' i f → dictAt w' i f = dictAt w i f) : Effect fl X C [] w w' := by
  refine ⟨hw, hn, fun i hi _ => hc i hi, fun hf => ⟨fun s h => ?_, fun k h => ?_⟩, fun s => ?_, fun k nm => ?_, by simp, fun i f h => ?_, fun k f hf => ?_, by simp, by simp⟩
  · rw [hs]; exact hf.scene s (by rwa [hns] at h)
  · rw [hcl]; exact hf.cls k (by rwa [hnc] at h)
  · rw [hs]; simp [childrenIn]
  · rw [hcl]; simp [mappedTo]
  · simp only [valuesFor, List.filterMap_nil, List.getLast?_nil]; exact hd i f h
  · rw [hcl] at hf; exact .inl hf

theorem pair_cls {a b : Option (Node F)} (h : b.map (fun n => (n.cls, n.DEF)) = a.map (fun n => (n.cls, n.DEF))) : b.map (fun n => n.cls) = a.map (fun n => n.cls) := by
  cases a <;> cases b <;> simp_all

theorem Quiet.clsAt {w w' : World F} (h : Quiet w w') (i : Nat) : clsAt w' i = clsAt w i := pair_cls (h.node i)

theorem Quiet.effect {X C : Nat → Prop} {w w' : World F} (h : Quiet w w') (hw : ∀ x ∈ w.wires, x ∈ w'.wires)
    (hd : ∀ i f, ¬ Connected w' i f → dictAt w' i f = dictAt w i f) : Effect fl X C [] w w' :=
  .quietly ⟨hw, by unfold Sending; rw [h.inst]; exact id⟩ h.next.ge (fun i _ => h.clsAt i) (fun s => by rw [h.scene]) h.nscenes h.cls h.nclasses hd

theorem bind_dict (w : World F) (i f d g) (j : Nat) (e : Text) : dictAt (w.bind i f d g) j e = dictAt w j e := by
  unfold World.bind dictAt
  split <;> rfl

theorem bindAll_dict (i : Nat) (nm : Text) (j : Nat) (e : Text) : ∀ (l : List (Nat × Text)) (w : World F),
    dictAt (l.foldl (fun w x => (w.bind i nm x.1 x.2).bind x.1 x.2 i nm) w) j e = dictAt w j e
  | [], w => rfl
  | x :: l, w => by
    rw [List.foldl_cons, bindAll_dict i nm j e l, bind_dict, bind_dict]

theorem bind_end {w : World F} {i f d g} {n p} (h : w.heap i = some n) (hg : n.cls.getField f = some p) : ∃ x ∈ (w.bind i f d g).wires, x.dst = d ∧ x.dstField = g := by
  unfold World.bind
  rw [h]
  simp only [Option.bind_some, hg]
  cases p <;> exact ⟨_, List.mem_append_right _ (List.mem_singleton.2 rfl), rfl, rfl⟩

theorem bindAll_end {i : Nat} {nm : Text} {c : Class F} {p} (hp : c.getField nm = some p) : ∀ (l : List (Nat × Text)) (w : World F), clsAt w i = some c → ∀ y ∈ l,
    ∃ x ∈ (l.foldl (fun w x => (w.bind i nm x.1 x.2).bind x.1 x.2 i nm) w).wires, x.dst = y.1 ∧ x.dstField = y.2
  | [], w, _, _, h => by cases h
  | z :: l, w, hc, y, hy => by
    have hq := (bind_quiet w i nm z.1 z.2).trans (bind_quiet (w.bind i nm z.1 z.2) z.1 z.2 i nm)
    rw [List.foldl_cons]
    rcases List.mem_cons.1 hy with rfl | hy
    · obtain ⟨n, hn, rfl⟩ := Option.map_eq_some_iff.1 hc
      obtain ⟨x, hx, h1⟩ := bind_end (w := w) (d := y.1) (g := y.2) hn hp
      exact ⟨x, (bindAll_wires i nm l _).1 (bind_wires _ _ _ _ _ hx), h1⟩
    · exact bindAll_end hp l _ ((hq.clsAt i).trans hc) y hy

theorem bindIs_effect {X C : Nat → Prop} {w w' : World F} {i} {c : Class F} {e} (h : w.bindIs i c e = some w') (hc : clsAt w i = some c) (hs : Sending w) : Effect fl X C [] w w' := by
  have hs' : Sending w' := by unfold Sending; rw [(bindIs_quiet h).inst]; exact hs
  refine (bindIs_quiet h).effect (bindIs_wires h).1 (fun j f hj => ?_)
  unfold World.bindIs at h
  split at h
  · cases h
  · next p hp =>
    simp only at h
    have hd := bindAll_dict i e.1 (l := e.2) (w := w)
    split at h
    · next d j' f' hl =>
      split at h
      · cases h
      · next d2 v hg _ =>
        split at h
        swap
        · cases h
        cases h
        rw [setField_other, hd]
        rintro ⟨rfl, rfl⟩
        apply hj
        obtain ⟨x, hx, h1, h2⟩ := bindAll_end hp e.2 w hc _ (List.mem_of_getLast? hl)
        refine ⟨hs', x, hx, h1, ?_⟩
        obtain ⟨n, hn1, hn2⟩ := Option.bind_eq_some_iff.1 hg
        rw [h2]
        exact getField_leads hn2
      · cases h; exact hd _ _
    · cases h; exact hd _ _

theorem bindIsAll_effect {C : Nat → Prop} {i} {c : Class F} : ∀ (l : List (Text × List (Nat × Text))) (w w' : World F), l.foldlM (fun w' e => w'.bindIs i c e) w = some w' →
    clsAt w i = some c → (l ≠ [] → Sending w) → Effect fl (fun _ => False) C [] w w'
  | [], w, w', h, _, _ => by cases h; exact .refl _ _ _
  | e :: l, w, w', h, hc, hs => by
    rw [List.foldlM_cons] at h
    cases h1 : w.bindIs i c e with
    | none => rw [h1] at h; cases h
    | some w1 =>
      rw [h1] at h
      have := (bindIs_effect (fl := fl) (X := fun _ => False) (C := C) h1 hc (hs (by simp))).trans (bindIsAll_effect (C := C) l w1 w' h (((bindIs_quiet h1).clsAt i).trans hc) (fun _ => by unfold Sending; rw [(bindIs_quiet h1).inst]; exact hs (by simp))) (fun _ h => .inl h)
      simpa using this

theorem Tabled.effect {X C : Nat → Prop} {s : Nat} {w w' : World F} (h : Tabled s w w') : Effect fl X C [] w w' :=
  .quietly ⟨fun x hx => by rw [h.wires]; exact hx, by unfold Sending; rw [h.inst]; exact id⟩ h.next.ge (fun i _ => by simp only [clsAt, h.heap]) (fun s => (h.same s).2.1) h.nscenes h.cls h.nclasses
    (fun i f _ => by simp only [dictAt, h.heap])

theorem regDef_effect {X C : Nat → Prop} (w : World F) (s : Nat) (nm : Text) (i : Nat) : Effect fl X C [] w (w.regDef s nm i) := by
  have hh : ∀ j, clsAt (w.regDef s nm i) j = clsAt w j ∧ ∀ f, dictAt (w.regDef s nm i) j f = dictAt w j f := by
    intro j
    unfold clsAt dictAt
    rw [regDef_node]
    split
    · next h => subst h; cases w.heap j <;> exact ⟨rfl, fun _ => rfl⟩
    · exact ⟨rfl, fun _ => rfl⟩
  exact .quietly ⟨fun x hx => hx, id⟩ le_rfl (fun j _ => (hh j).1) (fun t => (regDef_scene w s nm i t).2.1) rfl rfl rfl (fun j f _ => (hh j).2 f)

theorem rootSet_effect {C : Nat → Prop} (s : Nat) : ∀ (fuel : Nat) (w w' : World F) (i : Nat), rootSet s fuel w i = some w' → Effect fl (fun _ => False) C [] w w'
  | 0, _, _, _, h => by cases h
  | fuel + 1, w, w', i, h => by
    simp only [rootSet] at h
    split at h
    · cases h
    · refine foldlM_inv (P := fun p : World F => Effect fl (fun _ => False) C [] w p) (fun x _ a b ha hb => ?_) ?_ h
      · have := ha.trans (rootSet_effect (C := C) s fuel _ _ _ hb) (fun _ h => .inl h)
        simpa using this
      · split
        · exact .refl _ _ _
        · exact regDef_effect _ _ _ _

theorem alloc_effect {C : Nat → Prop} (w : World F) (c : Class F) (k : Option Nat) (hw : w.heap w.next = none ∧ w.inst w.next = none) : Effect fl (fun _ => False) C [] w (w.alloc c k) := by
  refine .quietly ⟨fun x hx => hx, fun ⟨i, hi⟩ => ⟨i, by
    simp only [World.alloc]; rw [if_neg (fun h => by rw [h, hw.2] at hi; cases hi)]; exact hi⟩⟩ (Nat.le_succ _) (fun i hi => ?_) (fun s => rfl) rfl rfl rfl (fun i f _ => ?_)
  · simp only [clsAt, World.alloc]; rw [if_neg (by omega)]
  · simp only [dictAt, World.alloc]
    split
    · next h => subst h; rw [hw.1]; rfl
    · rfl

theorem newNode_effect {C : Nat → Prop} {w w' : World F} {ss : List Nat} {c : Class F} {k : Option Nat} {DEF : Text} (hw : w.heap w.next = none ∧ w.inst w.next = none)
    (h : w.newNode ss c k DEF = some w') : Effect fl (fun _ => False) C [] w w' := by
  unfold World.newNode at h
  simp only at h
  split at h
  · cases h
  · next w1 h1 =>
    split at h
    · cases h
    · next w2 h2 =>
      cases h
      have e1 := alloc_effect (fl := fl) (C := C) w c k hw
      have e2 := bindIsAll_effect (fl := fl) (C := C) _ _ _ h1 (by simp [clsAt, World.alloc]) (fun hne => by
        cases k with
        | none => exact absurd rfl hne
        | some k => exact ⟨w.next, by simp [World.alloc]⟩)
      have e3 := rootSet_effect (fl := fl) (C := C) _ _ _ _ _ h2
      have e := (e1.trans e2 (fun _ h => .inl h)).trans e3 (fun _ h => .inl h)
      split
      · simpa using e
      · simpa using e.trans (regDef_effect (X := fun _ => False) (C := C) w2 (ss.headD 0) DEF w.next) (fun _ h => .inl h)

theorem create_effect {C : Nat → Prop} {w w' : World F} {ss : List Nat} {gi DEF : Text} (hw : w.heap w.next = none ∧ w.inst w.next = none)
    (h : w.create base ss gi DEF = some w') : Effect fl (fun _ => False) C [] w w' := by
  unfold World.create at h
  split at h
  · exact newNode_effect hw h
  · split at h
    · cases h
    · exact newNode_effect hw h

theorem Inv.unused {w : World F} {ps : List Nat} (h : Inv base w ps) : w.heap w.next = none ∧ w.inst w.next = none := by
  have h1 : w.heap w.next = none := by
   cases hh : w.heap w.next with
   | none => rfl
   | some n => exact absurd ((h.ids w.next).1 (by rw [hh]; rfl)) (lt_irrefl _)
  refine ⟨h1, ?_⟩
  cases hk : w.inst w.next with
  | none => rfl
  | some k =>
    obtain ⟨-, -, n, hn, -⟩ := h.inst _ _ hk
    rw [h1] at hn; cases hn

/-! ### Statements -/

/-- the class of a Script changes -/
theorem setClass_effect {w : World F} {i : Nat} (hi : i < w.next) (c : Class F) (l : List Said) (hl : ∀ e ∈ l, ∃ nm g, e = .own i nm g) :
    Effect fl (fun j => j = i) (fun _ => False) l w (w.setClass i c) := by
  have nov : ∀ j nm g, .value j nm g ∉ l := fun j nm g h => by obtain ⟨_, _, e⟩ := hl _ h; cases e
  have nos : ∀ j items, .script j items ∉ l := fun j items h => by obtain ⟨_, _, e⟩ := hl _ h; cases e
  have h1 : ∀ s, childrenIn s l = [] := fun s => List.filterMap_eq_nil_iff.2 (fun e he => by obtain ⟨_, _, rfl⟩ := hl e he; rfl)
  have h2 : ∀ k nm, mappedTo k nm l = [] := fun k nm => List.filterMap_eq_nil_iff.2 (fun e he => by obtain ⟨_, _, rfl⟩ := hl e he; rfl)
  have h3 : ∀ k nm, lastDflt k nm l = none := fun k nm => by
    unfold lastDflt
    rw [List.getLast?_eq_none_iff, List.filterMap_eq_nil_iff]
    exact fun e he => by obtain ⟨_, _, rfl⟩ := hl e he; rfl
  have h4 : ∀ (w' : World F) j f, valuesFor w' j f l = [] := fun w' j f => List.filterMap_eq_nil_iff.2 (fun e he => by obtain ⟨_, _, rfl⟩ := hl e he; rfl)
  refine ⟨⟨fun _ h => h, id⟩, le_rfl, fun j hj hx => ?_, fun hf => ⟨hf.scene, hf.cls⟩, fun s => by rw [h1]; simp [World.setClass], fun k nm => by rw [h2]; simp [World.setClass],
    fun j nm g h => absurd h (nov j nm g), fun j f hc => ?_, fun k f hf => by rw [h3]; exact .inl hf, fun j nm g h => ?_, fun j items h => absurd h (nos j items)⟩
  · simp only [clsAt, World.setClass, if_neg hx]
  · rw [h4]
    simp only [List.getLast?_nil, dictAt, World.setClass]
    split
    · next h => subst h; cases w.heap j <;> rfl
    · rfl
  · obtain ⟨nm', g', e⟩ := hl _ h
    cases e
    exact ⟨.inr rfl, hi⟩

theorem addRoute_effect {C : Nat → Prop} (w : World F) (s : Nat) (r : Rt) : Effect fl (fun _ => False) C [] w (w.addRoute s r) := by
  refine .quietly ⟨bind_wires _ _ _ _ _, by unfold Sending; rw [(bind_quiet w r.src r.srcField r.dst r.dstField).inst.symm]; exact id⟩ (bind_quiet w r.src r.srcField r.dst r.dstField).next.ge (fun i _ => (bind_quiet w r.src r.srcField r.dst r.dstField).clsAt i) (fun t => ?_)
    (bind_quiet w r.src r.srcField r.dst r.dstField).nscenes (bind_quiet w r.src r.srcField r.dst r.dstField).cls (bind_quiet w r.src r.srcField r.dst r.dstField).nclasses (fun i f _ => bind_dict w _ _ _ _ i f)
  simp only [World.addRoute, upd, (bind_quiet w r.src r.srcField r.dst r.dstField).scene]
  split
  · next h => subst h; rfl
  · rfl

theorem isAppend_lookup (nm m : Text) (e : Nat × Text) : ∀ l : List (Text × List (Nat × Text)),
    ((isAppend m e l).lookup nm).getD [] = (l.lookup nm).getD [] ++ (if m = nm then [e] else [])
  | [] => by
    by_cases h : m = nm
    · subst h; simp [isAppend, List.lookup]
    · have : (nm == m) = false := by simpa using Ne.symm h
      simp [isAppend, List.lookup, h, this]
  | (k, x) :: l => by
    simp only [isAppend]
    split
    · next h =>
      subst h
      by_cases h' : k = nm
      · subst h'; simp [List.lookup]
      · have : (nm == k) = false := by simpa using Ne.symm h'
        simp [List.lookup, this, h']
    · next h =>
      by_cases h' : nm = k
      · subst h'; simp [List.lookup, Ne.symm h]
      · have : (nm == k) = false := by simpa using h'
        simp only [List.lookup, this]
        exact isAppend_lookup nm m e l

theorem addIs_effect {C : Nat → Prop} {w w' : World F} {k : Nat} {ps : List Nat} {m : Text} {i : Nat} {nm : Text} (hk : k < w.nclasses) (h : w.addIs (k :: ps) m i nm = some w') :
    Effect fl (fun _ => False) C [.is k m i nm] w w' := by
  cases h
  refine ⟨⟨fun _ h => h, id⟩, le_rfl, fun j hj hx => rfl, fun hf => ⟨hf.scene, fun c hc => ?_⟩, fun s => by simp [childrenIn], fun c x => ?_,
    fun j nm g h => by simp at h, fun j f hc => by simp [valuesFor, dictAt], fun c f hf => .inl ?_, fun j nm g h => by simp at h, fun j items h => by simp at h⟩
  · simp only [upd]
    split
    · next h => subst h; exact absurd hk (not_lt.2 hc)
    · exact hf.cls c hc
  · simp only [upd, mappedTo]
    by_cases hc : c = k
    · subst hc
      simp only [if_true]
      rw [isAppend_lookup]
      by_cases hx : m = x <;> simp [hx]
    · simp [hc, Ne.symm hc]
  · simp only [upd] at hf
    split at hf
    · next h => subst h; exact hf
    · exact hf

theorem setAttr_dict {w w' : World F} {i : Nat} {d : FieldDecl F} {v : Val F} (h : w.setAttr i d v = some w') : ∃ u, coerce d.kind d.conv v = some u ∧ w'.wires = w.wires ∧
    ∀ j g, ¬ Connected w j g → dictAt w' j g = if j = i ∧ g = d.name then (w.heap i).map (fun _ => u) else dictAt w j g := by
  unfold World.setAttr at h
  split at h
  · cases h
  · next u hu =>
    refine ⟨u, hu, ?_⟩
    simp only at h
    split at h
    · next hif =>
      have hsd : Sending w := ⟨i, by
        simp only [Bool.and_eq_true] at hif
        exact hif.1⟩
      have key := foldlM_inv (P := fun p : World F => p.wires = w.wires ∧ ∀ j g, ¬ Connected w j g → dictAt p j g = dictAt (w.setField i d.name u) j g) (fun x hx a b ha hb => ?_)
        (a := w.setField i d.name u) ⟨rfl, fun _ _ _ => rfl⟩ h
      · exact ⟨key.1, fun j g hc => by rw [key.2 j g hc, setField_dict]⟩
      · obtain ⟨r, hr, rfl⟩ := Option.map_eq_some_iff.1 hb
        obtain ⟨h1, h2⟩ := forward_dict _ _ _ _ _ _ _ hr
        refine ⟨h1.trans ha.1, fun j g hc => ?_⟩
        rw [← ha.2 j g hc]
        refine h2 j g (fun hc' => hc ?_) (fun hn' => hc ⟨hsd, x, ?_, hn'.1.symm, hn'.2⟩)
        · obtain ⟨y, hy, hy'⟩ := hc'
          exact ⟨hsd, y, by rw [ha.1] at hy; exact hy, hy'⟩
        · exact (List.mem_filter.1 hx).1
    · cases h
      exact ⟨rfl, fun j g _ => setField_dict _ _ _ _ _ _⟩

theorem attr_effect {w w' : World F} {i : Nat} {n : Node F} {nm : Text} {d : FieldDecl F} {v : Val F} {g : Given} (hi : i < w.next) (hn : w.heap i = some n) (hd : n.cls.getField nm = some (.inl d))
    (hm : meant fl d.kind g = some v) (h : w.setAttr i d v = some w') : Effect fl (fun _ => False) (fun j => j = i) [.value i nm g] w w' := by
  obtain ⟨u, hu, hwi, hdict⟩ := setAttr_dict h
  have hq := setAttr_quiet h
  have hf : fieldAt w' i nm = some d := by
    rw [fieldAt_congr (hq.clsAt i)]; simp [fieldAt, hn, hd]
  refine ⟨⟨fun x hx => by rw [hwi]; exact hx, by unfold Sending; rw [hq.inst]; exact id⟩, hq.next.ge, fun j _ _ => hq.clsAt j, fun hf => ⟨fun s hs => ?_, fun k hk => ?_⟩, fun s => by rw [hq.scene]; simp [childrenIn], fun k x => by rw [hq.cls]; simp [mappedTo],
    fun j nm' g' hj => ?_, fun j f hc => ?_, fun k f hf => .inl (by rw [hq.cls] at hf; exact hf), fun j nm g h => by simp at h, fun j items h => by simp at h⟩
  · rw [hq.scene]; exact hf.scene s (by rwa [hq.nscenes] at hs)
  · rw [hq.cls]; exact hf.cls k (by rwa [hq.nclasses] at hk)
  · simp only [List.mem_singleton, Said.value.injEq] at hj
    obtain ⟨rfl, rfl, rfl⟩ := hj
    exact ⟨id, .inr rfl, by rw [hq.next]; exact hi, _, hf, by rw [hm]; rfl⟩
  · have hd' := hdict j f (fun hc' => hc (by obtain ⟨hs, x, hx, hx'⟩ := hc'; exact ⟨by unfold Sending; rw [hq.inst]; exact hs, x, by rw [hwi]; exact hx, hx'⟩))
    by_cases hj : i = j
    · subst hj
      by_cases hff : d.name = f
      · have : valuesFor w' i f [.value i nm g] = [(d, g)] := by simp [valuesFor, hf, hff]
        rw [this]
        refine ⟨v, u, hm, hu, ?_⟩
        rw [hd', if_pos ⟨rfl, hff.symm⟩, hn]; rfl
      · have : valuesFor w' i f [.value i nm g] = [] := by simp [valuesFor, hf, hff]
        rw [this]
        simp only [List.getLast?_nil]
        rw [hd', if_neg (fun h => hff h.2.symm)]
    · have : valuesFor w' j f [.value i nm g] = [] := by simp [valuesFor, hj]
      rw [this]
      simp only [List.getLast?_nil]
      rw [hd', if_neg (fun h => hj h.1.symm)]

theorem childrenIn_map (s t : Nat) (l : List Nat) : childrenIn s (l.map (Said.child t)) = if t = s then l else [] := by
  unfold childrenIn
  rw [List.filterMap_map]
  by_cases h : t = s
  · simp only [h, if_true]
    conv_rhs => rw [← List.filterMap_some (l := l)]
    exact List.filterMap_congr (fun x _ => by simp)
  · simp only [h, if_false]
    exact List.filterMap_eq_nil_iff.2 (fun x _ => by simp [h])

theorem children_effect {C : Nat → Prop} {w : World F} {s : Nat} (hs : s < w.nscenes) (l : List Nat) :
    Effect fl (fun _ => False) C (l.map (Said.child s)) w { w with scene := upd w.scene s (fun o => { o with children := o.children ++ l }) } := by
  refine ⟨⟨fun _ h => h, id⟩, le_rfl, fun j hj hx => rfl, fun hf => ⟨fun t ht => ?_, hf.cls⟩, fun t => ?_, fun c x => ?_,
    fun j nm g h => by simp at h, fun j f hc => ?_, fun c f hf => ?_, fun j nm g h => by simp at h, fun j items h => by simp at h⟩
  · simp only [upd]
    split
    · next h => subst h; exact absurd hs (not_lt.2 ht)
    · exact hf.scene t ht
  · rw [childrenIn_map]
    simp only [upd]
    by_cases h : t = s
    · subst h; simp
    · simp [h, Ne.symm h]
  · rw [show mappedTo c x (l.map (Said.child s)) = [] from List.filterMap_eq_nil_iff.2 (by simp), List.append_nil]
  · rw [show valuesFor _ j f (l.map (Said.child s)) = [] from List.filterMap_eq_nil_iff.2 (by simp)]
    rfl
  · rw [show lastDflt c f.decl.name (l.map (Said.child s)) = none from by
      unfold lastDflt
      rw [List.getLast?_eq_none_iff, List.filterMap_eq_nil_iff]
      simp]
    exact .inl hf

theorem newScene_effect {C : Nat → Prop} {w : World F} (hf : Fresh w) (o : Option Nat) : Effect fl (fun _ => False) C [] w (w.newScene o) := by
  have hch : ∀ s, ((w.newScene o).scene s).children = (w.scene s).children := fun s => by
    simp only [World.newScene, upd]
    split
    · next h => subst h; rw [hf.scene _ le_rfl]; rfl
    · rfl
  refine ⟨⟨fun _ h => h, id⟩, le_rfl, fun j hj hx => rfl, fun _ => ⟨fun t ht => ?_, hf.cls⟩, fun s => by rw [hch]; simp [childrenIn], fun c x => by simp [mappedTo, World.newScene],
    by simp, fun j f hc => by simp [valuesFor, dictAt, World.newScene], fun c f hf => .inl hf, by simp, by simp⟩
  rw [hch]
  simp only [World.newScene] at ht
  exact hf.scene t (by omega)

/-- changes of a prototype that keep its IS mappings -/
theorem onCls_effect {C : Nat → Prop} {w : World F} {c : Nat} {g : ClassObj F → ClassObj F} (hg : (g (w.cls c)).is = (w.cls c).is) (log : List Said)
    (hl : ∀ e ∈ log, ∃ nm g, e = .dflt c nm g)
    (hd : ∀ f ∈ (g (w.cls c)).decl.fields, match lastDflt c f.decl.name log with
      | none => f ∈ (w.cls c).decl.fields ∨ f = externalURL
      | some g => DfltSaid fl f.decl g ∨ f = externalURL) : Effect fl (fun _ => False) C log w { w with cls := upd w.cls c g } := by
  have h1 : ∀ s, childrenIn s log = [] := fun s => List.filterMap_eq_nil_iff.2 (fun e he => by obtain ⟨_, _, rfl⟩ := hl e he; rfl)
  have h2 : ∀ k nm, mappedTo k nm log = [] := fun k nm => List.filterMap_eq_nil_iff.2 (fun e he => by obtain ⟨_, _, rfl⟩ := hl e he; rfl)
  have h4 : ∀ (w' : World F) j f, valuesFor w' j f log = [] := fun w' j f => List.filterMap_eq_nil_iff.2 (fun e he => by obtain ⟨_, _, rfl⟩ := hl e he; rfl)
  have h3 : ∀ k nm, k ≠ c → lastDflt k nm log = none := fun k nm hk => by
    unfold lastDflt
    rw [List.getLast?_eq_none_iff, List.filterMap_eq_nil_iff]
    exact fun e he => by obtain ⟨_, _, rfl⟩ := hl e he; simp [Ne.symm hk]
  have his : ∀ k, ((upd w.cls c g) k).is = (w.cls k).is := fun k => by
    simp only [upd]; split
    · next h => subst h; exact hg
    · rfl
  refine ⟨⟨fun _ h => h, id⟩, le_rfl, fun j hj hx => rfl, fun hf => ⟨hf.scene, fun k hk => by rw [his]; exact hf.cls k hk⟩, fun s => by rw [h1]; simp, fun k x => by rw [h2, his]; simp,
    fun j nm g h => ?_, fun j f hc => by rw [h4]; rfl, fun k f hf => ?_, fun j nm g h => ?_, fun j items h => ?_⟩
  · obtain ⟨_, _, e⟩ := hl _ h; cases e
  · simp only [upd] at hf
    split at hf
    · next h => subst h; exact hd f hf
    · next h => rw [h3 k _ h]; exact .inl hf
  · obtain ⟨_, _, e⟩ := hl _ h; cases e
  · obtain ⟨_, _, e⟩ := hl _ h; cases e

theorem setBody_effect {C : Nat → Prop} (w : World F) (c s : Nat) : Effect fl (fun _ => False) C [] w (w.setBody c s) :=
  onCls_effect rfl [] (by simp) (fun f hf => .inl hf)

theorem newClass_effect {C : Nat → Prop} {w : World F} (hf : Fresh w) (nm : Text) : Effect fl (fun _ => False) C [] w (w.newClass nm) := by
  have his : ∀ k, ((w.newClass nm).cls k).is = (w.cls k).is := fun k => by
    simp only [World.newClass, upd]; split
    · next h => subst h; rw [hf.cls _ le_rfl]
    · rfl
  refine ⟨⟨fun _ h => h, id⟩, le_rfl, fun j hj hx => rfl, fun _ => ⟨hf.scene, fun k hk => ?_⟩, fun s => by simp [childrenIn, World.newClass], fun c x => by rw [his]; simp [mappedTo],
    by simp, fun j f hc => by simp [valuesFor, dictAt, World.newClass], fun c f hf => ?_, by simp, by simp⟩
  · rw [his]; simp only [World.newClass] at hk; exact hf.cls k (by omega)
  · simp only [lastDflt, List.filterMap_nil, List.getLast?_nil]
    simp only [World.newClass, upd] at hf
    split at hf
    · right; simpa [ProtoDef.new] using hf
    · exact .inl hf

theorem addProto_effect {C : Nat → Prop} (w : World F) (s : Nat) (nm : Text) (c : Nat) : Effect fl (fun _ => False) C [] w (w.addProto s nm c) := by
  refine .quietly ⟨fun x hx => hx, id⟩ le_rfl (fun i _ => rfl) (fun t => ?_) rfl rfl rfl (fun i f _ => rfl)
  simp only [World.addProto, upd]
  split
  · next h => subst h; rfl
  · rfl

end Verif.Full
