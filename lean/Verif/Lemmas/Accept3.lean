import Verif.Lemmas.Accept2
/-!
Which files are read: the induction.
-/
namespace Verif.Full
open Verif.Peg Verif.Grammar Verif.TextOut Verif.SceneText Verif.Reader Verif.Scopes Verif.Shape
open Verif.Lin hiding disp dispList dispDecls dispAttrs disp_node disp_attr
variable {F : Type} {base : Text → Option (Class F)} {fl : Floats F}

theorem noProtosAll_mem : ∀ {l : List PTree}, noProtosAll l = true → ∀ t ∈ l, noProtos t = true
  | [], _, _, h => by cases h
  | t :: l, h, x, hx => by
    simp only [noProtosAll, Bool.and_eq_true] at h
    rcases List.mem_cons.1 hx with rfl | hx
    · exact h.1
    · exact noProtosAll_mem h.2 x hx

/-- the declarations of a Script, if there is no IS -/
def declsOf (base : Text → Option (Class F)) (fl : Floats F) (ts : List PTree) (i : Nat) (p : ProtoDef F) (w : World F) : Option (World F) :=
  (dispDecls base fl ts [0] [] i p [] w).bind (fun x => if x.1 = [] then some x.2 else none)

theorem dispDecls_is : ∀ (ts : List PTree) (ss ps : List Nat) (i : Nat) (p : ProtoDef F) (is : List (Text × Text)) (w : World F) (is' w'), dispDecls base fl ts ss ps i p is w = some (is', w') →
    is <+: is'
  | [], _, _, _, _, _, _, _, _, h => by unfold dispDecls at h; cases h; exact List.prefix_rfl
  | t :: ts, ss, ps, i, p, is, w, is', w', h => by
    unfold dispDecls at h
    repeat' split at h
    all_goals first
      | (cases h; done)
      | (rename_i heq; cases heq; done)
      | exact dispDecls_is _ _ _ _ _ _ _ _ _ h
      | exact (List.prefix_append _ _).trans (dispDecls_is _ _ _ _ _ _ _ _ _ h)
termination_by ts => ts.length
decreasing_by all_goals (have hl := congrArg List.length ‹(_ :: _ : List PTree) = _ :: _›; simp only [List.length_cons] at hl ⊢; omega)

theorem Nameds_mem {l : List PTree} (h : Nameds l) : ∀ t ∈ l, Named t := by
  induction l with
  | nil => simp
  | cons t l ih =>
    intro x hx
    simp only [Nameds] at h
    rcases List.mem_cons.1 hx with rfl | hx
    · exact h.1
    · exact ih h.2 x hx

theorem defNode_eq {m DEF a gi b rest ss ps cur fd} {w : World F} : disp base fl (.node .node m (.node .name DEF a :: .node .nodegi gi b :: rest)) ss ps cur fd w =
    (w.create base ss gi DEF).bind (fun w1 => (dispList base fl rest ss ps (some w.next) fd w1).map (fun x => (.ref (some w.next), x.2))) := by
  rw [disp]
  cases w.create base ss gi DEF with
  | none => rfl
  | some w1 =>
    simp only [Option.bind_some]
    cases dispList base fl rest ss ps (some w.next) fd w1 <;> rfl

theorem node_eq {m a gi rest ss ps cur fd} {w : World F} : disp base fl (.node .node m (.node .nodegi gi a :: rest)) ss ps cur fd w =
    (w.create base ss gi []).bind (fun w1 => (dispList base fl rest ss ps (some w.next) fd w1).map (fun x => (.ref (some w.next), x.2))) := by
  rw [disp]
  cases w.create base ss gi [] with
  | none => rfl
  | some w1 =>
    simp only [Option.bind_some]
    cases dispList base fl rest ss ps (some w.next) fd w1 <;> rfl

theorem script_bind (ts : List PTree) (i : Nat) (p : ProtoDef F) (fd) (w : World F) (r : RVal F) :
    (match dispDecls base fl ts [0] [] i p [] w with
      | none => none
      | some (is, w2) =>
        match w2.addAllIs [] i is with
        | none => none
        | some w3 =>
          match dispAttrs base fl ts [0] [] i fd w3 with
          | none => none
          | some w' => some (r, w')) = (declsOf base fl ts i p w).bind (fun w3 => (dispAttrs base fl ts [0] [] i fd w3).map (fun w' => (r, w'))) := by
  unfold declsOf
  cases dispDecls base fl ts [0] [] i p [] w with
  | none => rfl
  | some x =>
    obtain ⟨is, w2⟩ := x
    simp only [Option.bind_some]
    cases is with
    | nil =>
      simp only [if_true, Option.bind_some, World.addAllIs, List.foldlM_nil]
      show (match dispAttrs base fl ts [0] [] i fd w2 with | none => none | some w' => some (r, w')) = _
      cases dispAttrs base fl ts [0] [] i fd w2 <;> rfl
    | cons e l => simp [World.addAllIs, World.addIs]

theorem coerce_refs {k : Kind} (conv : Option (F → F)) (l) (h : k ≠ .sfNode) (hl : l ≠ []) : accepted (F := F) k conv (.refs l) = true ↔ (takes k l.length ∨ conv.isNone = true ∧ k ≠ .sfNode) := by
  cases conv with
  | none => simp [accepted, h]
  | some c =>
    cases k <;> simp_all [accepted, coerce, takes]
    match l, hl with
    | [o], _ => simp
    | _ :: _ :: _, _ => simp

theorem refList_length : ∀ {vs : List (RVal F)} {os : List (Option Nat)}, refList vs = some os → os.length = vs.length
  | [], os, h => by cases h; rfl
  | .ref o :: vs, os, h => by
    simp only [refList] at h
    obtain ⟨l, hl, rfl⟩ := Option.map_eq_some_iff.1 h
    simp [refList_length hl]

theorem refList_of {t : PTree} {ts : List PTree} {v : RVal F} {vs : List (RVal F)} (h1 : nodeEntry t = true ↔ ∃ o, v = .ref o) (h2 : (∀ x ∈ ts, nodeEntry x = true) ↔ ∃ os, refList vs = some os) :
    (∀ x ∈ t :: ts, nodeEntry x = true) ↔ ∃ os, refList (v :: vs) = some os := by
  simp only [List.mem_cons, forall_eq_or_imp]
  rw [h1, h2]
  constructor
  · rintro ⟨⟨o, rfl⟩, os, h⟩
    exact ⟨o :: os, by simp [refList, h]⟩
  · rintro ⟨os, h⟩
    cases v with
    | ref o =>
      simp only [refList] at h
      obtain ⟨l, hl, -⟩ := Option.map_eq_some_iff.1 h
      exact ⟨⟨o, rfl⟩, l, hl⟩
    | _ => cases h

section main
variable (hb : PlainBase base)
include hb

set_option maxRecDepth 4000 in
set_option maxHeartbeats 1600000 in
mutual
theorem disp_acc : ∀ (t : PTree) (cur fd) (w : World F) (s : List Text), Ok w s → Named t → Shaped t → noProtos t = true → ParseVal.Tree.tag t ≠ .field → ParseVal.Tree.tag t ≠ .attr →
    Sync (disp base fl t [0] [] cur fd w) (Fine base fl t s) (fun x s' => After w x.2 s' ∧ (nodeEntry t = true ↔ ∃ o, x.1 = .ref o))
  | .node n m kids, cur, fd, w, s, hw, hn, hsh, hp, h1, h2 => by
    change n ≠ .field at h1
    change n ≠ .attr at h2
    by_cases hr : readTag n = true
    swap
    · rw [Bool.not_eq_true] at hr
      rw [disp_other hr h1 h2 (by rintro rfl; simp [noProtos] at hp) (by rintro rfl; simp [noProtos] at hp)]
      exact Sync.never (fun s' => fine_other hr)
    by_cases h3 : n = .rootItem
    · subst h3
      have hk := item_kids hsh
      simp only [Named] at hn
      simp only [Shaped] at hsh
      simp only [noProtos, Bool.and_eq_true] at hp
      have := dispList_acc kids cur fd w s hw hn.2 hsh.2 hp.2 (fun t ht => ⟨(hk t ht).1, (hk t ht).2.1⟩)
      have e : disp base fl (.node .rootItem m kids) [0] [] cur fd w = (dispList base fl kids [0] [] cur fd w).map (fun x => ((.nothing : RVal F),
          { x.2 with scene := upd x.2.scene 0 (fun o => { o with children := o.children ++ x.1.filterMap (fun v => match v with | .ref (some i) => some i | _ => none) }) })) := by
        rw [disp]
        cases dispList base fl kids [0] [] cur fd w <;> rfl
      rw [e]
      refine Sync.iff (P := FineAll base fl kids s) (this.map (fun x s1 hq => ?_)) (fun s' => ⟨fun h => by cases h; assumption, .item⟩)
      exact ⟨⟨children_ok hq.1.1 (fun l => l ++ _), hq.1.2⟩, by simp [nodeEntry]⟩
    by_cases h4 : n = .route
    · subst h4
      exact route_acc hw |>.weaken (fun x s1 hq => ⟨hq.1, by simp [nodeEntry, hq.2]⟩)
    by_cases h5 : n = .sfNull
    · subst h5
      rw [disp]
      exact Sync.only (s := s) (fun s' => ⟨fun h => by cases h; rfl, fun h => by subst h; exact .null⟩) ⟨⟨hw, .refl _⟩, by simp [nodeEntry]⟩
    by_cases h6 : n = .use
    · subst h6
      rw [disp]
      have hx := hw.names m
      simp only [List.headD_cons]
      cases hg : w.getDEF 0 m with
      | none =>
        rw [hg] at hx
        refine Sync.never (fun s' h => ?_)
        cases h with
        | use h => have := hx.2 h; cases this
      | some i =>
        rw [hg] at hx
        exact Sync.only (s := s) (fun s' => ⟨fun h => by cases h; rfl, fun h => by subst h; exact .use (hx.1 rfl)⟩) ⟨⟨hw, .refl _⟩, by simp [nodeEntry]⟩
    by_cases h7 : n = .node
    · subst h7
      rcases node_split hsh with ⟨gi, a, rest, rfl, ht⟩ | ⟨DEF, a, gi, b, rest, rfl, ht⟩
      · simp only [Named, Nameds] at hn
        simp only [Shaped, Shapeds] at hsh
        simp only [noProtos, noProtosAll, Bool.and_eq_true] at hp
        rw [node_eq, create_made hb hw]
        cases hg : base gi with
        | none =>
          refine Sync.never (fun s' h => ?_)
          cases h with
          | node h => rw [hg] at h; cases h
        | some c =>
          have hw1 := made_ok hw c []
          have ha := attrs_acc rest w.next c fd _ _ hw1 hn.2.2 hsh.2.2 hp.2.2 ht (made_cls w c []) (by rw [made_next]; omega)
          simp only [Option.map_some, if_true, Option.bind_some] at ha hw1 ⊢
          refine Sync.iff (P := FineAttrs base fl (classPorts c) rest s) (ha.map (fun x s1 hq => ?_)) (fun s' => ⟨fun h => ?_, fun h => .node hg h⟩)
          · exact ⟨After.trans ⟨hw1, made_stay _ _ _⟩ hq, by simp [nodeEntry]⟩
          · cases h with
            | node h h' => rw [hg] at h; cases h; exact h'
      · simp only [Named, Nameds] at hn
        simp only [Shaped, Shapeds] at hsh
        simp only [noProtos, noProtosAll, Bool.and_eq_true] at hp
        have hD : DEF ≠ [] := by
          obtain ⟨x, y, h, -⟩ := hn.2.1.1 trivial
          rw [h]; simp
        rw [defNode_eq, create_made hb hw]
        cases hg : base gi with
        | none =>
          refine Sync.never (fun s' h => ?_)
          cases h with
          | defNode h => rw [hg] at h; cases h
        | some c =>
          have hw1 := made_ok hw c DEF
          have ha := attrs_acc rest w.next c fd _ _ hw1 hn.2.2.2 hsh.2.2.2 hp.2.2.2 ht (made_cls w c DEF) (by rw [made_next]; omega)
          simp only [Option.map_some, if_neg hD, Option.bind_some] at ha hw1 ⊢
          refine Sync.iff (P := FineAttrs base fl (classPorts c) rest (DEF :: s)) (ha.map (fun x s1 hq => ?_)) (fun s' => ⟨fun h => ?_, fun h => .defNode hg h⟩)
          · exact ⟨After.trans ⟨hw1, made_stay _ _ _⟩ hq, by simp [nodeEntry]⟩
          · cases h with
            | defNode h h' => rw [hg] at h; cases h; exact h'
    · have h8 : n = .script := by cases n <;> simp_all [readTag]
      subst h8
      rcases script_split hsh with ht | ⟨DEF, a, rest, rfl, ht⟩
      · simp only [Named] at hn
        simp only [Shaped] at hsh
        simp only [noProtos, Bool.and_eq_true] at hp
        have hnot : ∀ nm a rest, kids ≠ .node .name nm a :: rest := fun nm a rest h => by
          have := ht (.node .name nm a) (by rw [h]; simp)
          cases this
        have hw1 := made_ok hw (scriptProto : ProtoDef F).cls []
        have e0 : disp base fl (.node .script m kids) [0] [] cur fd w = (declsOf base fl kids w.next scriptProto (made w (scriptProto : ProtoDef F).cls [])).bind
            (fun w3 => (dispAttrs base fl kids [0] [] w.next fd w3).map (fun w' => ((.ref (some w.next) : RVal F), w'))) := by
          rw [disp, newNode_madeAs w scriptProto_fields]
          · exact script_bind _ _ _ _ _ _
          · exact hnot
        rw [e0]
        rw [if_pos rfl] at hw1
        have hd := decls_acc kids w.next scriptProto _ _ hw1 hn.2 hsh.2 hp.2 ht (made_cls w _ []) (by rw [made_next]; omega)
        refine Sync.iff (P := fun s' => ∃ s1, FineDecls base fl kids s s1 ∧ FineLater base fl (scriptPorts fl kids) kids s1 s') (hd.bind (fun w3 s1 hq => ?_)) (fun s' => ⟨fun h => ?_, fun ⟨s1, q1, q2⟩ => .script ?_ q1 q2⟩)
        · obtain ⟨hok, hnx, hcl, p', hc, hpo⟩ := hq
          refine (later_acc kids w.next p'.cls (scriptPorts fl kids) fd w3 s1 hok hn.2 hsh.2 hp.2 hc (by rw [made_next] at hnx; omega) (fun x => by rw [scriptPorts_eq, hpo])).map (fun x s2 hq2 => ?_)
          refine ⟨⟨hq2.1, ?_⟩, by simp [nodeEntry]⟩
          rw [made_next] at hnx hcl
          refine ⟨by show w.next ≤ x.next; have := hq2.2.1; omega, fun j hj => ?_⟩
          show clsAt x j = _
          rw [hq2.2.2 j (by omega), hcl j (by omega) (by omega), (made_stay w _ []).2 j hj]
        · cases h with
          | script _ q1 q2 => exact ⟨_, q1, q2⟩
          | defScript _ _ => exact absurd rfl (hnot _ _ _)
        · intro t htt htag
          have := ht t (List.mem_of_mem_head? htt)
          rw [htag] at this; cases this
      · simp only [Named, Nameds] at hn
        simp only [Shaped, Shapeds] at hsh
        simp only [noProtos, noProtosAll, Bool.and_eq_true] at hp
        have hD : DEF ≠ [] := by
          obtain ⟨x, y, h, -⟩ := hn.2.1.1 trivial
          rw [h]; simp
        have hw1 := made_ok hw (scriptProto : ProtoDef F).cls DEF
        have e0 : disp base fl (.node .script m (.node .name DEF a :: rest)) [0] [] cur fd w = (declsOf base fl rest w.next scriptProto (made w (scriptProto : ProtoDef F).cls DEF)).bind
            (fun w3 => (dispAttrs base fl rest [0] [] w.next fd w3).map (fun w' => ((.ref (some w.next) : RVal F), w'))) := by
          rw [disp, newNode_madeAs w scriptProto_fields]
          exact script_bind _ _ _ _ _ _
        rw [e0]
        rw [if_neg hD] at hw1
        have hd := decls_acc rest w.next scriptProto _ _ hw1 hn.2.2 hsh.2.2 hp.2.2 ht (made_cls w _ DEF) (by rw [made_next]; omega)
        refine Sync.iff (P := fun s' => ∃ s1, FineDecls base fl rest (DEF :: s) s1 ∧ FineLater base fl (scriptPorts fl rest) rest s1 s') (hd.bind (fun w3 s1 hq => ?_)) (fun s' => ⟨fun h => ?_, fun ⟨s1, q1, q2⟩ => .defScript q1 q2⟩)
        · obtain ⟨hok, hnx, hcl, p', hc, hpo⟩ := hq
          refine (later_acc rest w.next p'.cls (scriptPorts fl rest) fd w3 s1 hok hn.2.2 hsh.2.2 hp.2.2 hc (by rw [made_next] at hnx; omega) (fun x => by rw [scriptPorts_eq, hpo])).map (fun x s2 hq2 => ?_)
          refine ⟨⟨hq2.1, ?_⟩, by simp [nodeEntry]⟩
          rw [made_next] at hnx hcl
          refine ⟨by show w.next ≤ x.next; have := hq2.2.1; omega, fun j hj => ?_⟩
          show clsAt x j = _
          rw [hq2.2.2 j (by omega), hcl j (by omega) (by omega), (made_stay w _ DEF).2 j hj]
        · cases h with
          | script q0 q1 q2 => exact absurd rfl (q0 _ rfl)
          | defScript q1 q2 => exact ⟨_, q1, q2⟩
termination_by t => sizeOf t
theorem value_acc : ∀ (m : Text) (kids : List PTree), Named (.node .field m kids) → Shaped (.node .field m kids) → noProtosAll kids = true → ValueAcc base fl (.node .field m kids)
  | m, kids, hn, hsh, hp => by
    intro cur k conv w s hw
    unfold valueOf
    have htext : (∀ t ∈ kids.head?, nodeEntry t = false) → disp base fl (.node .field m kids) [0] [] cur (some k) w = (meant fl k (.text kids)).map (fun v => (.val v, w)) →
        Sync ((disp base fl (.node .field m kids) [0] [] cur (some k) w).bind (fun x => x.1.toVal.bind (fun u => if accepted k conv u = true then some (u, x.2) else none)))
          (FineValue base fl k conv (.node .field m kids) s) (fun x s' => After w x.2 s' ∧ accepted k conv x.1 = true) := by
      intro hh e
      rw [e]
      have hf : ∀ s', FineValue base fl k conv (.node .field m kids) s s' ↔ ∃ v, meant fl k (.text kids) = some v ∧ accepted k conv v = true ∧ s' = s := by
        intro s'
        constructor
        · intro h
          cases h with
          | text _ h1 h2 => exact ⟨_, h1, h2, rfl⟩
          | one _ h1 _ => have := hh _ rfl; rw [h1] at this; cases this
          | all _ h1 _ => have := hh _ rfl; rw [h1 _ (by simp)] at this; cases this
        · rintro ⟨v, h1, h2, rfl⟩
          exact .text hh h1 h2
      cases hv : meant fl k (.text kids) with
      | none =>
        refine Sync.never (fun s' h => ?_)
        obtain ⟨v, h1, -⟩ := (hf s').1 h
        rw [hv] at h1; cases h1
      | some v =>
        simp only [Option.map_some, Option.bind_some, RVal.toVal]
        by_cases ha : accepted k conv v = true
        · rw [if_pos ha]
          refine Sync.only (s := s) (fun s' => ?_) ⟨⟨hw, .refl _⟩, ha⟩
          rw [hf]
          exact ⟨fun ⟨_, _, _, h⟩ => h, fun h => ⟨v, hv, ha, h⟩⟩
        · rw [if_neg ha]
          refine Sync.never (fun s' h => ?_)
          obtain ⟨v', h1, h2, -⟩ := (hf s').1 h
          rw [hv] at h1; cases h1; exact ha h2
    match kids, hn, hsh, hp, htext with
    | [], hn, hsh, hp, htext =>
      refine htext (by simp) ?_
      rw [disp]
      by_cases hk : k = .mfNode
      · simp [hk, meant]
      · simp only [hk, if_false, meant]
        cases simpleValue fl k [] <;> rfl
    | .node t m' tk :: rest, hn, hsh, hp, htext =>
      by_cases ht : isNodeTag t = true
      swap
      · refine htext (by simpa using not_nodeTag_entry ht) ?_
        rw [disp]
        simp only [if_neg ht]
        by_cases hk : k = .mfNode
        · simp [hk, meant]
        · simp only [hk, if_false, meant]
          cases simpleValue fl k (.node t m' tk :: rest) <;> rfl
      · have he := nodeTag_entry (m := m') (tk := tk) ht
        have hkid := field_kids hsh
        simp only [Named] at hn
        simp only [Shaped] at hsh
        by_cases hk : k = .sfNode
        · subst hk
          simp only [Nameds] at hn
          simp only [Shapeds] at hsh
          simp only [noProtosAll, Bool.and_eq_true] at hp
          have h1 := disp_acc (.node t m' tk) cur (some .sfNode) w s hw hn.2.1 hsh.2.1 hp.1 (hkid _ (by simp)).1 (hkid _ (by simp)).2.1
          have e : disp base fl (.node .field m (.node t m' tk :: rest)) [0] [] cur (some .sfNode) w = disp base fl (.node t m' tk) [0] [] cur (some .sfNode) w := by
            rw [disp]; simp [ht]
          rw [e]
          have h2 : Sync ((disp base fl (.node t m' tk) [0] [] cur (some .sfNode) w).bind (fun x => x.1.toVal.bind (fun u => if accepted .sfNode conv u = true then some (u, x.2) else none)))
              (fun s' => ∃ s1, Fine base fl (.node t m' tk) s s1 ∧ s' = s1) (fun x s' => After w x.2 s' ∧ accepted .sfNode conv x.1 = true) := by
            refine h1.bind (fun x s1 hq => ?_)
            obtain ⟨o, ho⟩ := hq.2.1 he
            have ha : accepted (F := F) .sfNode conv (.ref o) = true := by cases conv <;> simp [accepted, coerce]
            rw [ho]
            simp only [RVal.toVal, Option.bind_some, if_pos ha]
            exact Sync.only (s := s1) (fun s' => Iff.rfl) ⟨hq.1, ha⟩
          refine h2.iff (fun s' => ⟨fun h => ?_, fun ⟨s1, h, hs⟩ => by subst hs; exact .one rfl he h⟩)
          cases h with
          | text h3 => have := h3 _ rfl; rw [he] at this; cases this
          | one _ _ h3 => exact ⟨_, h3, rfl⟩
          | all h3 => rcases h3 with h3 | h3
                      · simp [takes] at h3
                      · exact absurd rfl h3.2
        · have h1 := dispList_acc (.node t m' tk :: rest) cur (some k) w s hw hn.2 hsh.2 hp (fun t ht => ⟨(hkid t ht).1, (hkid t ht).2.1⟩)
          have e : disp base fl (.node .field m (.node t m' tk :: rest)) [0] [] cur (some k) w = (dispList base fl (.node t m' tk :: rest) [0] [] cur (some k) w).map (fun x => (.vals x.1, x.2)) := by
            rw [disp]
            simp only [if_pos ht, if_neg hk]
            cases dispList base fl (.node t m' tk :: rest) [0] [] cur (some k) w <;> rfl
          rw [e]
          have h2 : Sync ((dispList base fl (.node t m' tk :: rest) [0] [] cur (some k) w).bind (fun x => (RVal.vals x.1).toVal.bind (fun u => if accepted k conv u = true then some (u, x.2) else none)))
              (fun s' => ∃ s1, FineAll base fl (.node t m' tk :: rest) s s1 ∧ (takes k (.node t m' tk :: rest).length ∨ conv.isNone = true ∧ k ≠ .sfNode) ∧ (∀ x ∈ .node t m' tk :: rest, nodeEntry x = true) ∧ s' = s1)
              (fun x s' => After w x.2 s' ∧ accepted k conv x.1 = true) := by
            refine h1.bind (P2 := fun s1 s' => (takes k (.node t m' tk :: rest).length ∨ conv.isNone = true ∧ k ≠ .sfNode) ∧ (∀ x ∈ .node t m' tk :: rest, nodeEntry x = true) ∧ s' = s1) (fun x s1 hq => ?_)
            cases hl : refList x.1 with
            | none =>
              simp only [RVal.toVal, hl]
              refine Sync.never (fun s' h => ?_)
              obtain ⟨os, ho⟩ := hq.2.1.1 h.2.1
              rw [hl] at ho; cases ho
            | some os =>
              simp only [RVal.toVal, hl, Option.map_some, Option.bind_some]
              have hlen : os.length = (.node t m' tk :: rest).length := by rw [refList_length hl, hq.2.2]
              have hne : os ≠ [] := by rintro rfl; cases hlen
              rw [← hlen]
              by_cases ha : accepted k conv (.refs os) = true
              · rw [if_pos ha]
                exact Sync.only (s := s1) (fun s' => ⟨fun h => h.2.2, fun h => ⟨(coerce_refs conv os hk hne).1 ha, hq.2.1.2 ⟨os, hl⟩, h⟩⟩) ⟨hq.1, ha⟩
              · rw [if_neg ha]
                exact Sync.never (fun s' h => ha ((coerce_refs conv os hk hne).2 h.1))
          rw [Option.bind_map]
          refine h2.iff (fun s' => ⟨fun h => ?_, fun ⟨s1, h, h3, h4, hs⟩ => by subst hs; exact .all h3 h4 h⟩)
          cases h with
          | text h3 => have := h3 _ rfl; rw [he] at this; cases this
          | one h3 => exact absurd h3 hk
          | all h3 h4 h5 => exact ⟨_, h5, h3, h4, rfl⟩
termination_by m kids => sizeOf (Tree.node NT.field m kids)
theorem dispList_acc : ∀ (ts : List PTree) (cur fd) (w : World F) (s : List Text), Ok w s → Nameds ts → Shapeds ts → noProtosAll ts = true →
    (∀ t ∈ ts, ParseVal.Tree.tag t ≠ .field ∧ ParseVal.Tree.tag t ≠ .attr) →
    Sync (dispList base fl ts [0] [] cur fd w) (FineAll base fl ts s) (fun x s' => After w x.2 s' ∧ ((∀ t ∈ ts, nodeEntry t = true) ↔ ∃ os, refList x.1 = some os) ∧ x.1.length = ts.length)
  | [], cur, fd, w, s, hw, hn, hsh, hp, ht => by
    rw [dispList]
    exact Sync.only (s := s) (fun s' => ⟨fun h => by cases h; rfl, fun h => by subst h; exact .nil⟩) ⟨⟨hw, .refl _⟩, by simp [refList]⟩
  | t :: ts, cur, fd, w, s, hw, hn, hsh, hp, ht => by
    simp only [Nameds] at hn
    simp only [Shapeds] at hsh
    simp only [noProtosAll, Bool.and_eq_true] at hp
    have e : dispList base fl (t :: ts) [0] [] cur fd w = (disp base fl t [0] [] cur fd w).bind (fun x => (dispList base fl ts [0] [] cur fd x.2).map (fun y => (x.1 :: y.1, y.2))) := by
      rw [dispList]
      cases disp base fl t [0] [] cur fd w with
      | none => rfl
      | some x =>
        obtain ⟨v, w1⟩ := x
        simp only [Option.bind_some]
        cases dispList base fl ts [0] [] cur fd w1 <;> rfl
    rw [e]
    refine Sync.iff (P := fun s' => ∃ s1, Fine base fl t s s1 ∧ FineAll base fl ts s1 s') ((disp_acc t cur fd w s hw hn.1 hsh.1 hp.1 (ht t (by simp)).1 (ht t (by simp)).2).bind (fun x s1 hq => ?_))
      (fun s' => ⟨fun h => by cases h; exact ⟨_, ‹_›, ‹_›⟩, fun ⟨s1, q1, q2⟩ => .cons q1 q2⟩)
    refine (dispList_acc ts cur fd x.2 s1 hq.1.1 hn.2 hsh.2 hp.2 (fun t h => ht t (by simp [h]))).map (fun y s2 hq2 => ?_)
    exact ⟨hq.1.trans hq2.1, refList_of hq.2 hq2.2.1, by simp [hq2.2.2]⟩
termination_by ts => sizeOf ts
theorem attrs_acc : ∀ (ts : List PTree) (i : Nat) (c : Class F) (fd) (w : World F) (s : List Text), Ok w s → Nameds ts → Shapeds ts → noProtosAll ts = true →
    (∀ t ∈ ts, nodeTag (ParseVal.Tree.tag t) = true) → clsAt w i = some c → i < w.next →
    Sync (dispList base fl ts [0] [] (some i) fd w) (FineAttrs base fl (classPorts c) ts s) (fun x s' => After w x.2 s')
  | [], i, c, fd, w, s, hw, hn, hsh, hp, ht, hc, hi => by
    rw [dispList]
    exact Sync.only (s := s) (fun s' => ⟨fun h => by cases h; rfl, fun h => by subst h; exact .nil⟩) ⟨hw, .refl _⟩
  | .node n m kids :: ts, i, c, fd, w, s, hw, hn, hsh, hp, ht, hc, hi => by
    simp only [Nameds] at hn
    simp only [Shapeds] at hsh
    simp only [noProtosAll, Bool.and_eq_true] at hp
    have e : dispList base fl (.node n m kids :: ts) [0] [] (some i) fd w = (disp base fl (.node n m kids) [0] [] (some i) fd w).bind
        (fun x => (dispList base fl ts [0] [] (some i) fd x.2).map (fun y => (x.1 :: y.1, y.2))) := by
      rw [dispList]
      cases disp base fl (.node n m kids) [0] [] (some i) fd w with
      | none => rfl
      | some x =>
        obtain ⟨v, w1⟩ := x
        simp only [Option.bind_some]
        cases dispList base fl ts [0] [] (some i) fd w1 <;> rfl
    rw [e]
    have hrec : ∀ (x : RVal F × World F) (s1 : List Text), After w x.2 s1 →
        Sync ((dispList base fl ts [0] [] (some i) fd x.2).map (fun y => (x.1 :: y.1, y.2))) (FineAttrs base fl (classPorts c) ts s1) (fun x s' => After w x.2 s') := fun x s1 hq =>
      (attrs_acc ts i c fd x.2 s1 hq.1 hn.2 hsh.2 hp.2 (fun t h => ht t (by simp [h])) ((hq.2.2 i hi).trans hc) (hi.trans_le hq.2.1)).map (fun y s2 hq2 => hq.trans hq2)
    have htag : nodeTag n = true := ht (.node n m kids) (by simp)
    have hn4 : n = .attr ∨ n = .route := by
      have := hp.1
      cases n <;> first | (cases htag; done) | simp_all [noProtos]
    rcases hn4 with rfl | rfl
    · refine Sync.iff ((attr_acc (fd := fd) (base := base) (fl := fl) hw hsh.1 hc (fun _ => rfl) (fun m' k hmem => ?_)).bind (fun x s1 hq => hrec x s1 hq)) (fun s' => ⟨fun h => ?_, fun h => ?_⟩)
      · have h1 := hn.1
        have h2 := hsh.1
        have h3 := hp.1
        simp only [Named] at h1
        simp only [Shaped] at h2
        simp only [noProtos, Bool.and_eq_true] at h3
        have h4 := noProtosAll_mem h3.2 _ hmem
        simp only [noProtos, Bool.and_eq_true] at h4
        have hlt : 2 + sizeOf m' + sizeOf k < sizeOf kids := by have := List.sizeOf_lt_of_mem hmem; simp at this ⊢; omega
        exact value_acc m' k (Nameds_mem h1.2 _ hmem) (Shapeds_mem h2.2 _ hmem) h4.2
      · cases h with
        | attr q1 q2 q3 => exact ⟨_, ⟨_, _, _, _, _, rfl, q1, q2⟩, q3⟩
      · obtain ⟨s1, ⟨nm, a, v, k, conv, rfl, q1, q2⟩, q3⟩ := h
        exact .attr q1 q2 q3
    · refine Sync.iff ((route_acc (cur := some i) (fd := fd) (base := base) (fl := fl) hw).bind (fun x s1 hq => hrec x s1 hq.1)) (fun s' => ⟨fun h => ?_, fun h => ?_⟩)
      · cases h with
        | route q1 q2 => exact ⟨_, q1, q2⟩
      · obtain ⟨s1, q1, q2⟩ := h
        exact .route q1 q2
termination_by ts => sizeOf ts
theorem decls_acc : ∀ (ts : List PTree) (i : Nat) (p : ProtoDef F) (w : World F) (s : List Text), Ok w s → Nameds ts → Shapeds ts → noProtosAll ts = true →
    (∀ t ∈ ts, scriptTag (ParseVal.Tree.tag t) = true) → clsAt w i = some p.cls → i < w.next →
    Sync (declsOf base fl ts i p w) (FineDecls base fl ts s) (fun w' s' => Ok w' s' ∧ w.next ≤ w'.next ∧ (∀ j < w.next, j ≠ i → clsAt w' j = clsAt w j) ∧
      ∃ p' : ProtoDef F, clsAt w' i = some p'.cls ∧ ∀ x, classPorts p'.cls x = over fl (lastItem ts x) (classPorts p.cls x))
  | [], i, p, w, s, hw, hn, hsh, hp, ht, hc, hi => by
    rw [declsOf, dispDecls]
    exact Sync.only (s := s) (fun s' => ⟨fun h => by cases h; rfl, fun h => by subst h; exact .nil⟩) ⟨hw, le_rfl, fun _ _ _ => rfl, p, hc, fun x => rfl⟩
  | .node n m kids :: ts, i, p, w, s, hw, hn, hsh, hp, ht, hc, hi => by
    simp only [Nameds] at hn
    simp only [Shapeds] at hsh
    simp only [noProtosAll, Bool.and_eq_true] at hp
    have hset : ∀ (w : World F) (c c' : Class F), clsAt w i = some c → clsAt (w.setClass i c') i = some c' := fun w c c' h => by
      obtain ⟨n0, hn0, -⟩ := Option.map_eq_some_iff.1 h
      simp [clsAt, World.setClass, hn0]
    have hrec : ∀ (w1 : World F) (p1 : ProtoDef F) (s1 : List Text), Ok w1 s1 → w.next ≤ w1.next → (∀ j < w.next, j ≠ i → clsAt w1 j = clsAt w j) → clsAt w1 i = some p1.cls →
        (∀ x, over fl ((scriptWritten (.node n m kids)).filter (fun d => d.name == x)) (classPorts p.cls x) = classPorts p1.cls x) →
        Sync (declsOf base fl ts i p1 w1) (FineDecls base fl ts s1) (fun w' s' => Ok w' s' ∧ w.next ≤ w'.next ∧ (∀ j < w.next, j ≠ i → clsAt w' j = clsAt w j) ∧
      ∃ p' : ProtoDef F, clsAt w' i = some p'.cls ∧ ∀ x, classPorts p'.cls x = over fl (lastItem (.node n m kids :: ts) x) (classPorts p.cls x)) := by
      intro w1 p1 s1 h1 h2 h3 h4 h5
      refine (decls_acc ts i p1 w1 s1 h1 hn.2 hsh.2 hp.2 (fun t h => ht t (by simp [h])) h4 (hi.trans_le h2)).weaken (fun x s2 hq => ?_)
      obtain ⟨q1, q2, q3, p', q4, q5⟩ := hq
      refine ⟨q1, h2.trans q2, fun j hj hji => (q3 j (hj.trans_le h2) hji).trans (h3 j hj hji), p', q4, fun x => ?_⟩
      rw [lastItem_cons, over_or, h5, q5]
    have htag : scriptTag n = true := ht (.node n m kids) (by simp)
    have hn4 : n = .scriptFieldDecl ∨ n = .scriptEventDecl ∨ n = .attr ∨ n = .route := by
      have := hp.1
      cases n <;> first | (cases htag; done) | simp_all [noProtos]
    rcases hn4 with rfl | rfl | rfl | rfl
    · -- field
      obtain ⟨ex, a, ty, b, nm, c, ⟨m', k, rfl⟩ | ⟨m', k, rfl⟩⟩ := scriptField_split hsh.1
      · have e : declsOf base fl (.node .scriptFieldDecl m [.node .fieldExposure ex a, .node .dataType ty b, .node .name nm c, .node .is m' k] :: ts) i p w = none := by
          unfold declsOf
          rw [dispDecls]
          cases hft : fl.types.field ty with
          | none => rfl
          | some ft =>
            simp only [isTarget]
            cases hmk : mkField fl ex ty nm (fl.types.dflt ty) with
            | none => rfl
            | some f =>
              simp only
              cases hr : dispDecls base fl ts [0] [] i (p.addField f) ([] ++ [(m', nm)]) (w.setClass i (p.addField f).cls) with
              | none => rfl
              | some x =>
                obtain ⟨is', w'⟩ := x
                have := dispDecls_is _ _ _ _ _ _ _ _ _ hr
                have hne : is' ≠ [] := by rintro rfl; simp at this
                simp [hne]
        rw [e]
        refine Sync.never (fun s' h => ?_)
        cases h with
        | field _ _ q _ => cases q
      · have hn1 := hn.1
        have hsh1 := hsh.1
        have hp1 := hp.1
        simp only [Named, Nameds] at hn1
        simp only [Shaped, Shapeds] at hsh1
        simp only [noProtos, noProtosAll, Bool.and_eq_true] at hp1
        have hv : ValueAcc base fl (.node .field m' k) := value_acc m' k (by simp only [Named]; exact hn1.2.2.2.2.1) (by simp only [Shaped]; exact hsh1.2.2.2.2.1) hp1.2.2.2.2.1.2
        have hinv : ∀ s', FineDecls base fl (.node .scriptFieldDecl m [.node .fieldExposure ex a, .node .dataType ty b, .node .name nm c, .node .field m' k] :: ts) s s' ↔
            ∃ ft s1, fl.types.field ty = some ft ∧ reserved nm = false ∧ FineValue base fl ft.kind none (.node .field m' k) s s1 ∧ FineDecls base fl ts s1 s' := by
          intro s'
          constructor
          · intro h
            cases h with
            | field q1 q2 q3 q4 => exact ⟨_, _, q1, q2, q3, q4⟩
          · rintro ⟨ft, s1, q1, q2, q3, q4⟩
            exact .field q1 q2 q3 q4
        cases hft : fl.types.field ty with
        | none =>
          have e : declsOf base fl (.node .scriptFieldDecl m [.node .fieldExposure ex a, .node .dataType ty b, .node .name nm c, .node .field m' k] :: ts) i p w = none := by
            unfold declsOf
            rw [dispDecls, hft]; rfl
          rw [e]
          refine Sync.never (fun s' h => ?_)
          obtain ⟨ft, s1, q1, -⟩ := (hinv s').1 h
          rw [hft] at q1; cases q1
        | some ft =>
          by_cases hres : reserved nm = true
          · have e : declsOf base fl (.node .scriptFieldDecl m [.node .fieldExposure ex a, .node .dataType ty b, .node .name nm c, .node .field m' k] :: ts) i p w = none := by
              unfold declsOf
              rw [dispDecls, hft]
              simp only [isTarget, mkField, if_pos hres]
              cases disp base fl (.node .field m' k) [0] [] (some i) (some ft.kind) w with
              | none => rfl
              | some x =>
                simp only
                cases x.1.toVal <;> rfl
            rw [e]
            refine Sync.never (fun s' h => ?_)
            obtain ⟨ft, s1, -, q1, -⟩ := (hinv s').1 h
            rw [hres] at q1; cases q1
          · have hmk : ∀ d, mkField fl ex ty nm d = some ⟨⟨nm, ty, ft.kind, ft.str, ft.conv, d⟩, decide (ex = chars "exposedField")⟩ := fun d => by
              rw [mkField, if_neg hres, hft]; rfl
            have e : declsOf base fl (.node .scriptFieldDecl m [.node .fieldExposure ex a, .node .dataType ty b, .node .name nm c, .node .field m' k] :: ts) i p w =
                (valueOf base fl (.node .field m' k) (some i) ft.kind none w).bind (fun x => declsOf base fl ts i (p.addField ⟨⟨nm, ty, ft.kind, ft.str, ft.conv, dfltOf x.1⟩, decide (ex = chars "exposedField")⟩)
                  (x.2.setClass i (p.addField ⟨⟨nm, ty, ft.kind, ft.str, ft.conv, dfltOf x.1⟩, decide (ex = chars "exposedField")⟩).cls)) := by
              unfold declsOf valueOf
              rw [dispDecls, hft]
              simp only [isTarget]
              cases disp base fl (.node .field m' k) [0] [] (some i) (some ft.kind) w with
              | none => rfl
              | some x =>
                simp only [Option.bind_some]
                cases x.1.toVal with
                | none => rfl
                | some u =>
                  simp only [Option.bind_some, hmk, accepted, if_true]
            rw [e]
            refine Sync.iff ((hv (some i) ft.kind none w s hw).bind (P2 := fun s1 s' => FineDecls base fl ts s1 s') (fun x s1 hq => ?_)) (fun s' => ?_)
            · refine hrec _ _ s1 (setClass_ok hq.1.1 _ _) hq.1.2.1 (fun j hj hji => ?_) (hset _ _ _ ((hq.1.2.2 i hi).trans hc)) (fun y => ?_)
              · rw [← hq.1.2.2 j hj]
                simp [clsAt, World.setClass, hji]
              · rw [addField_ports, scriptWritten_field rfl]
                by_cases hy : nm = y
                · simp [Option.filter, Written.name, hy, over, hft]
                · simp [Option.filter, Written.name, hy, over]
            · rw [hinv]
              constructor
              · rintro ⟨ft', s1, q1, q2, q3, q4⟩
                rw [hft] at q1; cases q1
                exact ⟨s1, q3, q4⟩
              · rintro ⟨s1, q3, q4⟩
                exact ⟨ft, s1, hft, by simpa using hres, q3, q4⟩
    · -- event
      by_cases hk : ∃ dir a ty b nm c rest, kids = .node .eventDirection dir a :: .node .dataType ty b :: .node .name nm c :: rest
      · obtain ⟨dir, a, ty, b, nm, c, rest, rfl⟩ := hk
        have hinv : ∀ s', FineDecls base fl (.node .scriptEventDecl m (.node .eventDirection dir a :: .node .dataType ty b :: .node .name nm c :: rest) :: ts) s s' ↔
            rest = [] ∧ fl.types.event ty = true ∧ reserved nm = false ∧ nm ≠ chars "externalURL" ∧ FineDecls base fl ts s s' := by
          intro s'
          constructor
          · intro h
            cases h with
            | event q1 q2 q3 q4 => exact ⟨rfl, q1, q2, q3, q4⟩
          · rintro ⟨rfl, q1, q2, q3, q4⟩
            exact .event q1 q2 q3 q4
        cases hmk : mkEvent fl dir ty nm with
        | none =>
          have e : declsOf base fl (.node .scriptEventDecl m (.node .eventDirection dir a :: .node .dataType ty b :: .node .name nm c :: rest) :: ts) i p w = none := by
            unfold declsOf
            rw [dispDecls, hmk]; rfl
          rw [e]
          refine Sync.never (fun s' h => ?_)
          obtain ⟨-, q1, q2, q3, -⟩ := (hinv s').1 h
          simp [mkEvent, q1, q2, q3] at hmk
        | some ev =>
          obtain ⟨he, h5, h6⟩ := mkEvent_as hmk
          have h7 : reserved nm = false := by
            unfold mkEvent at hmk
            split at hmk
            · cases hmk
            · next h => simp at h; exact h.1
          cases rest with
          | nil =>
            have e : declsOf base fl (.node .scriptEventDecl m [.node .eventDirection dir a, .node .dataType ty b, .node .name nm c] :: ts) i p w =
                declsOf base fl ts i (p.addEvent ev) (w.setClass i (p.addEvent ev).cls) := by
              unfold declsOf
              rw [dispDecls, hmk]
            rw [e]
            refine Sync.iff (hrec _ _ s (setClass_ok hw _ _) le_rfl (fun j hj hji => ?_) (hset _ _ _ hc) (fun y => ?_)) (fun s' => ?_)
            · simp [clsAt, World.setClass, hji]
            · rw [addEvent_ports]
              have : scriptWritten (.node .scriptEventDecl m [.node .eventDirection dir a, .node .dataType ty b, .node .name nm c]) = some (.event dir ty nm) := rfl
              rw [this, he]
              by_cases hy : nm = y
              · simp [Option.filter, Written.name, hy, over]
              · simp [Option.filter, Written.name, hy, over]
            · rw [hinv]
              exact ⟨fun h => h.2.2.2.2, fun h => ⟨rfl, h6, h7, h5, h⟩⟩
          | cons t' rest' =>
            have e : declsOf base fl (.node .scriptEventDecl m (.node .eventDirection dir a :: .node .dataType ty b :: .node .name nm c :: t' :: rest') :: ts) i p w = none := by
              unfold declsOf
              rw [dispDecls, hmk]
              simp only
              cases isTarget t' with
              | none => rfl
              | some m' =>
                simp only
                cases hr : dispDecls base fl ts [0] [] i (p.addEvent ev) ([] ++ [(m', nm)]) (w.setClass i (p.addEvent ev).cls) with
                | none => rfl
                | some x =>
                  obtain ⟨is', w'⟩ := x
                  have := dispDecls_is _ _ _ _ _ _ _ _ _ hr
                  have hne : is' ≠ [] := by rintro rfl; simp at this
                  simp [hne]
            rw [e]
            refine Sync.never (fun s' h => ?_)
            have := ((hinv s').1 h).1
            cases this
      · have e : declsOf base fl (.node .scriptEventDecl m kids :: ts) i p w = none := by
          unfold declsOf
          rw [dispDecls]
          · rfl
          all_goals (intros; simp_all)
        rw [e]
        refine Sync.never (fun s' h => ?_)
        cases h
        exact hk ⟨_, _, _, _, _, _, _, rfl⟩
    · -- attribute
      have e : declsOf base fl (.node .attr m kids :: ts) i p w = declsOf base fl ts i p w := by
        unfold declsOf
        rw [dispDecls]
      rw [e]
      refine Sync.iff (hrec w p s hw le_rfl (fun _ _ _ => rfl) hc (fun y => by simp [scriptWritten, over])) (fun s' => ⟨fun h => ?_, .attr⟩)
      cases h with
      | attr h => exact h
    · -- ROUTE
      have e : declsOf base fl (.node .route m kids :: ts) i p w = (disp base fl (.node .route m kids) [0] [] (some i) none w).bind (fun x => declsOf base fl ts i p x.2) := by
        unfold declsOf
        rw [dispDecls]
        cases disp base fl (.node .route m kids) [0] [] (some i) none w <;> rfl
      rw [e]
      refine Sync.iff ((route_acc (cur := some i) (fd := none) (base := base) (fl := fl) hw).bind (P2 := fun s1 s' => FineDecls base fl ts s1 s') (fun x s1 hq => ?_)) (fun s' => ⟨fun h => ?_, fun ⟨s1, q1, q2⟩ => .route q1 q2⟩)
      · exact hrec _ _ s1 hq.1.1 hq.1.2.1 (fun j hj _ => hq.1.2.2 j hj) ((hq.1.2.2 i hi).trans hc) (fun y => by simp [scriptWritten, over])
      · cases h with
        | route q1 q2 => exact ⟨_, q1, q2⟩
termination_by ts => sizeOf ts
theorem later_acc : ∀ (ts : List PTree) (i : Nat) (c : Class F) (ports : Text → Option (PortKind F)) (fd) (w : World F) (s : List Text), Ok w s → Nameds ts → Shapeds ts → noProtosAll ts = true →
    clsAt w i = some c → i < w.next → (∀ x, ports x = classPorts c x) →
    Sync (dispAttrs base fl ts [0] [] i fd w) (FineLater base fl ports ts s) (fun w' s' => After w w' s')
  | [], i, c, ports, fd, w, s, hw, hn, hsh, hp, hc, hi, hpo => by
    rw [dispAttrs]
    exact Sync.only (s := s) (fun s' => ⟨fun h => by cases h; rfl, fun h => by subst h; exact .nil⟩) ⟨hw, .refl _⟩
  | .node n m kids :: ts, i, c, ports, fd, w, s, hw, hn, hsh, hp, hc, hi, hpo => by
    simp only [Nameds] at hn
    simp only [Shapeds] at hsh
    simp only [noProtosAll, Bool.and_eq_true] at hp
    by_cases hna : n = .attr
    · subst hna
      have e : dispAttrs base fl (.node .attr m kids :: ts) [0] [] i fd w = (disp base fl (.node .attr m kids) [0] [] (some i) fd w).bind (fun x => dispAttrs base fl ts [0] [] i fd x.2) := by
        rw [dispAttrs, if_pos (by rfl)]
        cases disp base fl (.node .attr m kids) [0] [] (some i) fd w <;> rfl
      rw [e]
      refine Sync.iff ((attr_acc (fd := fd) (base := base) (fl := fl) hw hsh.1 hc hpo (fun m' k hmem => ?_)).bind (P2 := fun s1 s' => FineLater base fl ports ts s1 s') (fun x s1 hq => ?_)) (fun s' => ⟨fun h => ?_, fun h => ?_⟩)
      · have h1 := hn.1
        have h2 := hsh.1
        have h3 := hp.1
        simp only [Named] at h1
        simp only [Shaped] at h2
        simp only [noProtos, Bool.and_eq_true] at h3
        have h4 := noProtosAll_mem h3.2 _ hmem
        simp only [noProtos, Bool.and_eq_true] at h4
        have hlt : 2 + sizeOf m' + sizeOf k < sizeOf kids := by have := List.sizeOf_lt_of_mem hmem; simp at this ⊢; omega
        exact value_acc m' k (Nameds_mem h1.2 _ hmem) (Shapeds_mem h2.2 _ hmem) h4.2
      · exact (later_acc ts i c ports fd x.2 s1 hq.1 hn.2 hsh.2 hp.2 ((hq.2.2 i hi).trans hc) (hi.trans_le hq.2.1) hpo).weaken (fun y s2 hq2 => hq.trans hq2)
      · cases h with
        | attr q1 q2 q3 => exact ⟨_, ⟨_, _, _, _, _, rfl, q1, q2⟩, q3⟩
        | other q _ => exact absurd rfl q
      · obtain ⟨s1, ⟨nm, a, v, k, conv, rfl, q1, q2⟩, q3⟩ := h
        exact .attr q1 q2 q3
    · have e : dispAttrs base fl (.node n m kids :: ts) [0] [] i fd w = dispAttrs base fl ts [0] [] i fd w := by
        rw [dispAttrs, if_neg (by simpa [ParseVal.Tree.tag] using hna)]
      rw [e]
      refine Sync.iff (later_acc ts i c ports fd w s hw hn.2 hsh.2 hp.2 hc hi hpo) (fun s' => ⟨fun h => ?_, fun h => .other (by simpa [ParseVal.Tree.tag] using hna) h⟩)
      cases h with
      | attr _ _ _ => exact absurd rfl hna
      | other _ h => exact h
termination_by ts => sizeOf ts
end
end main

end Verif.Full
