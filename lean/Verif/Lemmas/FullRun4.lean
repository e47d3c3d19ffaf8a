import Verif.Lemmas.Interface
/-!
The reader takes these steps.
-/
namespace Verif.Full
open Verif.Peg Verif.Grammar Verif.TextOut Verif.SceneText Verif.Reader Verif.Scopes
open Verif.Lin hiding disp dispList dispDecls dispAttrs disp_node disp_attr
variable {F : Type} {base : Text → Option (Class F)} {fl : Floats F}

theorem okVal_val {v : Val F} {N} (h : v.nodes = []) : okVal (.val v) N := by
  intro u hu j hj; cases hu; rw [h] at hj; cases hj
theorem okVal_nothing {N} : okVal (.nothing : RVal F) N := by intro u hu; cases hu
theorem okVal_ref {i N : Nat} (h : i < N) : okVal (.ref (some i) : RVal F) N := by
  intro u hu j hj; cases hu; simp [Val.nodes] at hj; omega
theorem okVal_null {N : Nat} : okVal (.ref none : RVal F) N := by
  intro u hu j hj; cases hu; simp [Val.nodes] at hj

mutual
/-- no nodes come from entries without nodes -/
theorem disp_free {fl : Floats F} : ∀ (t : PTree) (ss ps cur fd) (w : World F) (v w'), nodeFree t = true → disp base fl t ss ps cur fd w = some (v, w') → okVal v 0
  | t, ss, ps, cur, fd, w, v, w', hf, h => by
    unfold disp at h
    split at h
    · split at h
      · cases h
      · cases h; exact okVal_nothing
    · split at h
      · cases h
      · split at h
        · cases h
        · cases h; exact okVal_nothing
    · split at h
      · cases h
      · split at h
        · cases h
        · cases h; exact okVal_nothing
    · simp [nodeFree] at hf
    · simp [nodeFree] at hf
    · simp [nodeFree] at hf
    · simp [nodeFree] at hf
    · cases h; exact okVal_null
    · simp [nodeFree] at hf
    · split at h
      · cases h; exact okVal_nothing
      · cases h
    · split at h
      · cases h
      · split at h
        · cases h
        · split at h
          · cases h
          · cases h; exact okVal_nothing
        · cases h
        · split at h
          · cases h
          · split at h
            · cases h
            · split at h
              · cases h
              · cases h; exact okVal_nothing
    · split at h
      · split at h
        · cases h; exact okVal_val rfl
        · split at h
          · cases h
          · cases h; exact okVal_val (simpleValue_nodes ‹_›)
      · next t' m tk rest =>
        split at h
        · split at h
          · exact disp_free _ _ _ _ _ _ _ _ (by simp only [nodeFree, nodesFree, Bool.and_eq_true] at hf ⊢; exact hf.2.1) h
          · split at h
            · cases h
            · next vs w2 hl =>
              cases h
              exact okVal_vals (dispList_free _ _ _ _ _ _ _ _ (by simp only [nodeFree, Bool.and_eq_true] at hf; exact hf.2) hl)
        · split at h
          · cases h; exact okVal_val rfl
          · split at h
            · cases h
            · cases h; exact okVal_val (simpleValue_nodes ‹_›)
    · cases h
termination_by t => sizeOf t
theorem dispList_free {fl : Floats F} : ∀ (ts : List PTree) (ss ps cur fd) (w : World F) (vs w'), nodesFree ts = true → dispList base fl ts ss ps cur fd w = some (vs, w') → ∀ v ∈ vs, okVal v 0
  | [], ss, ps, cur, fd, w, vs, w', hf, h => by unfold dispList at h; cases h; simp
  | t :: ts, ss, ps, cur, fd, w, vs, w', hf, h => by
    unfold dispList at h
    split at h
    · cases h
    · next v1 w1 h1 =>
      split at h
      · cases h
      · next vs1 w2 h2 =>
        cases h
        simp only [nodesFree, Bool.and_eq_true] at hf
        intro v hv
        rcases List.mem_cons.1 hv with rfl | hv
        · exact disp_free t _ _ _ _ _ _ _ hf.1 h1
        · exact dispList_free ts _ _ _ _ _ _ _ hf.2 h2 v hv
termination_by ts => sizeOf ts
end

theorem isTarget_some {t : PTree} {m} (h : isTarget t = some m) : ∃ k, t = .node .is m k := by
  unfold isTarget at h
  split at h
  · cases h; exact ⟨_, rfl⟩
  · cases h

/-- the node that is being read exists -/
def Cur (cur : Option Nat) (w : World F) : Prop := ∀ i, cur = some i → ∃ n, w.heap i = some n

theorem Cur.ext {cur : Option Nat} {w w' : World F} {ps} (h : Cur cur w) (e : Ext ps w w') : Cur cur w' := fun i hi => by
  obtain ⟨n, hn⟩ := h i hi
  obtain ⟨n', h1, -⟩ := e.node i n hn
  exact ⟨n', h1⟩

theorem New.cur {ss : List Nat} {c : Class F} {k DEF} {w w' : World F} (h : New ss c k DEF w w') :
    ∃ n, w'.heap w.next = some n ∧ n.cls = c ∧ n.DEF = DEF := by
  have := h.node w.next
  rw [if_pos rfl] at this
  obtain ⟨n, h1, h2⟩ := Option.map_eq_some_iff.1 this
  exact ⟨n, h1, congrArg Prod.fst h2, congrArg Prod.snd h2⟩

/-- Script `i` is being read -/
structure IsScript (w : World F) (i : Nat) : Prop where
  node : ∃ n, w.heap i = some n ∧ n.cls.proto = scriptName
  inst : w.inst i = none

theorem IsScript.ext {w w' : World F} {ps i} (h : IsScript w i) (hw : Inv base w ps) (e : Ext ps w w') : IsScript w' i := by
  obtain ⟨n, hn, hs⟩ := h.node
  obtain ⟨n', h1, -, h3, -⟩ := e.node i n hn
  exact ⟨⟨n', h1, h3.trans hs⟩, by rw [e.inst i ((hw.ids i).1 (by rw [hn]; rfl))]; exact h.inst⟩

theorem addAllIs_run {plain : Bool} {ss ps : List Nat} (hb : PlainBase base) {i : Nat} : ∀ (l : List (Text × Text)) (w w' : World F), Inv base w ps → Cur (some i) w → w.addAllIs ps i l = some w' →
    Run base fl plain ss ps [] w w'
  | [], w, w', _, _, h => by cases h; exact .nil
  | e :: l, w, w', hw, hi, h => by
    unfold World.addAllIs at h
    rw [List.foldlM_cons] at h
    cases h1 : w.addIs ps e.1 i e.2 with
    | none => rw [h1] at h; cases h
    | some w1 =>
      rw [h1] at h
      obtain ⟨n, hn⟩ := hi i rfl
      have r1 : Run base fl plain ss ps [] w w1 := .is hn h1
      obtain ⟨i1, e1⟩ := r1.inv hb hw
      exact .trans r1 (addAllIs_run hb l w1 w' i1 (hi.ext e1) h)

/-- the fields of an interface have defaults in the store -/
def PFields (p : ProtoDef F) (N : Nat) : Prop := ∀ f ∈ p.fields, ∀ j ∈ f.decl.dfltNodes, j < N

theorem PFields.mono {p : ProtoDef F} {N M : Nat} (h : PFields p N) (hl : N ≤ M) : PFields p M := fun f hf j hj => lt_of_lt_of_le (h f hf j hj) hl

theorem addField_fields {p : ProtoDef F} {f g : PField F} (h : g ∈ (p.addField f).fields) : g ∈ p.fields ∨ g = f := by
  simp only [ProtoDef.addField, List.mem_append, List.mem_filter, List.mem_singleton] at h
  rcases h with h | h
  · exact .inl h.1
  · exact .inr h

theorem addEvent_fields {p : ProtoDef F} {e : EventDecl} {g : PField F} (h : g ∈ (p.addEvent e).fields) : g ∈ p.fields := by
  simp only [ProtoDef.addEvent, List.mem_filter] at h
  exact h.1

theorem setURL_fields {p : ProtoDef F} {l : List Text} {g : PField F} (h : g ∈ (ProtoDef.setURL p l).fields) : g ∈ p.fields ∨ g = externalURL := by
  simp only [ProtoDef.setURL, List.mem_cons, List.mem_filter] at h
  rcases h with h | h
  · exact .inr h
  · exact .inl h.1

theorem mkField_dflt {fl : Floats F} {ex ty nm dflt f} (h : mkField fl ex ty nm dflt = some f) : f.decl.dflt = dflt := by
  unfold mkField at h
  split at h
  · cases h
  · obtain ⟨ft, -, rfl⟩ := Option.map_eq_some_iff.1 h
    rfl

theorem mkField_nodes {fl : Floats F} {ex ty nm f} {v : Val F} (h : mkField fl ex ty nm (dfltOf v) = some f) : f.decl.dfltNodes = v.nodes := by
  rw [FieldDecl.dfltNodes, mkField_dflt h, Lin.dfltOf_value]; rfl

theorem mkField_nodes' {fl : Floats F} (hty : ∀ ty v, (fl.types.dflt ty).value = some v → v.nodes = []) {ex ty nm f} (h : mkField fl ex ty nm (fl.types.dflt ty) = some f) :
    f.decl.dfltNodes = [] := by
  rw [FieldDecl.dfltNodes, mkField_dflt h]
  cases hv : (fl.types.dflt ty).value with
  | none => rfl
  | some v => exact hty ty v hv

theorem cls_fields {p : ProtoDef F} {d : FieldDecl F} (h : d ∈ p.cls.fields) : ∃ f ∈ p.fields, f.decl = d := by
  simpa [ProtoDef.cls] using h

/-- What is declared of a Script. -/
structure ScriptLike (fl : Floats F) (p : ProtoDef F) : Prop where
  name : p.name = scriptName
  body : p.body = none
  cls : ScriptClass fl p.cls

theorem ScriptLike.start {fl : Floats F} : ScriptLike fl scriptProto :=
  ⟨rfl, rfl, rfl, fun d hd => .inl hd, ⟨externalURL.decl, by simp [ProtoDef.cls, scriptProto], rfl⟩, fun e he => by cases he⟩

theorem ScriptLike.addField {fl : Floats F} {p : ProtoDef F} (h : ScriptLike fl p) {ex ty nm : Text} {d : Dflt F} {f : PField F} (hn : LegalName nm) (hf : mkField fl ex ty nm d = some f) :
    ScriptLike fl (p.addField f) := by
  unfold mkField at hf
  split at hf
  · cases hf
  next hr =>
  obtain ⟨ft, hft, rfl⟩ := Option.map_eq_some_iff.1 hf
  refine ⟨h.name, h.body, mapped_nil h.body, fun e he => ?_, ?_, fun e he => ?_⟩
  · simp only [ProtoDef.cls, List.mem_map] at he
    obtain ⟨g, hg, rfl⟩ := he
    rcases addField_fields hg with hg | rfl
    · exact h.cls.fields _ (List.mem_map_of_mem hg)
    · exact .inr ⟨hn, by simpa using hr, hft⟩
  · obtain ⟨e, he, hx⟩ := h.cls.external
    simp only [ProtoDef.cls, List.mem_map] at he
    obtain ⟨g, hg, rfl⟩ := he
    simp only [ProtoDef.cls, ProtoDef.addField, List.map_append, List.mem_append, List.mem_map, List.mem_filter, bne_iff_ne]
    by_cases hc : g.decl.name = nm
    · exact ⟨_, .inr ⟨_, List.mem_singleton_self _, rfl⟩, by rw [← hx]; exact hc.symm⟩
    · exact ⟨_, .inl ⟨g, ⟨hg, hc⟩, rfl⟩, hx⟩
  · exact h.cls.events e (List.mem_filter.1 he).1

theorem ScriptLike.addEvent {fl : Floats F} {p : ProtoDef F} (h : ScriptLike fl p) {dir ty nm : Text} {e : EventDecl} (hn : LegalName nm) (he : mkEvent fl dir ty nm = some e) :
    ScriptLike fl (p.addEvent e) := by
  unfold mkEvent at he
  split at he
  · cases he
  next hr =>
  split at he
  · next ht =>
    cases he
    simp only [Bool.or_eq_true, beq_iff_eq, not_or] at hr
    refine ⟨h.name, h.body, mapped_nil h.body, fun d hd => ?_, ?_, fun e he => ?_⟩
    · simp only [ProtoDef.cls, List.mem_map] at hd
      obtain ⟨g, hg, rfl⟩ := hd
      exact h.cls.fields _ (List.mem_map_of_mem (addEvent_fields hg))
    · obtain ⟨d, hd, hx⟩ := h.cls.external
      simp only [ProtoDef.cls, List.mem_map] at hd
      obtain ⟨g, hg, rfl⟩ := hd
      simp only [ProtoDef.cls, ProtoDef.addEvent, List.mem_map, List.mem_filter, bne_iff_ne]
      exact ⟨_, ⟨g, ⟨hg, by rw [hx]; exact fun hc => hr.2 hc.symm⟩, rfl⟩, hx⟩
    · rcases List.mem_append.1 he with he | he
      · exact h.cls.events e (List.mem_filter.1 he).1
      · rw [List.mem_singleton] at he
        subst he
        exact ⟨hn, by simpa using hr.1, ht⟩
  · cases he

/-- a declaration of Script `i` -/
theorem script_decl {plain : Bool} {ss ps : List Nat} {w : World F} {i : Nat} (hi : IsScript w i) {p : ProtoDef F}
    (hp : ScriptLike fl p) (hf : PFields p w.next) : Run base fl plain ss ps [] w (w.setClass i p.cls) := by
  obtain ⟨n, hn, hs⟩ := hi.node
  refine .setClass hn hs hi.inst hp.name (fun d hd j hj => ?_) hp.cls
  obtain ⟨f, h1, rfl⟩ := cls_fields hd
  exact hf f h1 j hj

theorem nodeTag_entry {t m tk} (h : isNodeTag t = true) : nodeEntry (.node t m tk) = true := by cases t <;> first | rfl | cases h
theorem not_nodeTag_entry {t m tk} (h : ¬ isNodeTag t = true) : nodeEntry (.node t m tk) = false := by cases t <;> first | rfl | exact absurd rfl h

theorem ref_lt {v : RVal F} {i N} (h : okVal v N) (hv : v = .ref (some i)) : i < N := by
  subst hv; exact h _ rfl i (by simp [Val.nodes])

section main
variable (hb : PlainBase base) (hty : ∀ ty v, (fl.types.dflt ty).value = some v → v.nodes = []) (plain : Bool)
include hb hty

set_option maxHeartbeats 1600000 in
mutual
theorem disp_run : ∀ (t : PTree) (ss ps cur fd) (w : World F) (v w'), disp base fl t ss ps cur fd w = some (v, w') → Inv base w ps → Named t → Cur cur w →
    (plain = true → plainDefaults t = true) → ∃ l, Places t l ∧ Run base fl plain ss ps l w w' ∧ okVal v w'.next
  | t, ss, ps, cur, fd, w, v, w', h, hw, hn, hc, hp => by
    unfold disp at h
    split at h
    · -- root item
      next m kids =>
      split at h
      · cases h
      · next items w1 h1 =>
        cases h
        obtain ⟨l, p1, r1, o1⟩ := dispList_run kids _ _ _ _ _ _ _ h1 hw (by simp only [Named] at hn; exact hn.2) hc (fun hpl => by have := hp hpl; simp only [plainDefaults, Bool.and_eq_true] at this; exact this.2)
        refine ⟨l, .item p1, ?_, okVal_nothing⟩
        rw [← List.append_nil l]
        refine Run.trans r1 (.children (fun i hi => ?_))
        · obtain ⟨x, hx, hxi⟩ := List.mem_filterMap.1 hi
          split at hxi
          · cases hxi; exact ref_lt (o1 _ hx) rfl
          · cases hxi
    · -- PROTO
      next m nm a rest =>
      split at h
      · cases h
      · split at h
        · cases h
        · next w1 h1 =>
          cases h
          obtain ⟨l, p1, r1⟩ := dispProto_run rest _ _ _ _ _ h1 (hw.newClass nm).1 (by simp only [Named, Nameds] at hn; exact hn.2.2) (fun hpl => by have := hp hpl; simp only [plainDefaults, allPlain, Bool.and_eq_true] at this; exact this.2.2)
          exact ⟨_, .proto p1, .proto r1 (dispProto_declared h1), okVal_nothing⟩
    · -- EXTERNPROTO
      next m nm a rest =>
      split at h
      · cases h
      · split at h
        · cases h
        · next w1 h1 =>
          cases h
          obtain ⟨l, p1, r1⟩ := dispProto_run rest _ _ _ _ _ h1 (hw.newClass nm).1 (by simp only [Named, Nameds] at hn; exact hn.2.2) (fun hpl => by have := hp hpl; simp only [plainDefaults, allPlain, Bool.and_eq_true] at this; exact this.2.2)
          exact ⟨_, .extern p1, .proto r1 (dispProto_declared h1), okVal_nothing⟩
    · -- node with a name
      next m nm a gi b rest =>
      split at h
      · cases h
      · next w1 h1 =>
        split at h
        · cases h
        · next vs w2 h2 =>
          cases h
          simp only [Named, Nameds] at hn
          obtain ⟨i1, c, k, n1, -⟩ := create_inv hb hw h1
          obtain ⟨l, p1, r1, o1⟩ := dispList_run rest _ _ _ _ _ _ _ h2 i1 hn.2.2.2 (fun i hi => by cases hi; obtain ⟨n, hn, -⟩ := n1.cur; exact ⟨n, hn⟩)
            (fun hpl => by have := hp hpl; simp only [plainDefaults, allPlain, Bool.and_eq_true] at this; exact this.2.2.2)
          refine ⟨_, .defNode p1, .trans (.create (.inr (hn.2.1.1 trivial)) h1) r1, okVal_ref ?_⟩
          have := (r1.inv hb i1).2.next
          have := n1.next
          omega
    · -- node
      next m gi b rest =>
      split at h
      · cases h
      · next w1 h1 =>
        split at h
        · cases h
        · next vs w2 h2 =>
          cases h
          simp only [Named, Nameds] at hn
          obtain ⟨i1, c, k, n1, -⟩ := create_inv hb hw h1
          obtain ⟨l, p1, r1, o1⟩ := dispList_run rest _ _ _ _ _ _ _ h2 i1 hn.2.2 (fun i hi => by cases hi; obtain ⟨n, hn, -⟩ := n1.cur; exact ⟨n, hn⟩)
            (fun hpl => by have := hp hpl; simp only [plainDefaults, allPlain, Bool.and_eq_true] at this; exact this.2.2)
          refine ⟨_, .node p1, .trans (.create (.inl rfl) h1) r1, okVal_ref ?_⟩
          have := (r1.inv hb i1).2.next
          have := n1.next
          omega
    · -- Script with a name
      next m nm a rest =>
      split at h
      · cases h
      · next w1 h1 =>
        split at h
        · cases h
        · next is w2 h2 =>
          split at h
          · cases h
          · next w3 h3 =>
            split at h
            · cases h
            · next w4 h4 =>
              cases h
              simp only [Named, Nameds] at hn
              have hpl : plain = true → allPlain rest = true := fun hpl => by have := hp hpl; simp only [plainDefaults, allPlain, Bool.and_eq_true] at this; exact this.2.2
              obtain ⟨i1, n1⟩ := script_inv hw h1
              obtain ⟨n, hnn, hnc, -⟩ := n1.cur
              have hs : IsScript w1 w.next := ⟨⟨n, hnn, by rw [hnc]; rfl⟩, by rw [n1.inst, if_pos rfl]⟩
              obtain ⟨l, p1, r1⟩ := dispDecls_run rest _ _ _ _ _ _ _ _ h2 i1 hn.2.2 hpl hs .start (fun f hf j hj => by
                rw [scriptProto_fields f.decl (by simp only [ProtoDef.cls]; exact List.mem_map.2 ⟨f, hf, rfl⟩)] at hj; cases hj)
              obtain ⟨i2, e2⟩ := r1.inv hb i1
              have hcur2 : Cur (some w.next) w2 := Cur.ext (fun i hi => by cases hi; exact ⟨n, hnn⟩) e2
              have r2 := addAllIs_run (fl := fl) (plain := plain) (ss := ss) hb is w2 w3 i2 hcur2 h3
              obtain ⟨i3, e3⟩ := r2.inv hb i2
              obtain ⟨l', p2, r3⟩ := dispAttrs_run rest _ _ _ _ _ _ h4 i3 hn.2.2 hpl (hcur2.ext e3)
              have e4 := (r3.inv hb i3).2
              refine ⟨_, .defScript p1 p2, ?_, okVal_ref ?_⟩
              · have := Run.trans (Run.script (.inr (hn.2.1.1 trivial)) h1) (Run.trans r1 (Run.trans r2 r3))
                simpa using this
              · have := n1.next; have := e2.next; have := e3.next; have := e4.next; omega
    · -- Script
      next m rest _ =>
      split at h
      · cases h
      · next w1 h1 =>
        split at h
        · cases h
        · next is w2 h2 =>
          split at h
          · cases h
          · next w3 h3 =>
            split at h
            · cases h
            · next w4 h4 =>
              cases h
              simp only [Named] at hn
              have hpl : plain = true → allPlain rest = true := fun hpl => by have := hp hpl; simp only [plainDefaults, Bool.and_eq_true] at this; exact this.2
              obtain ⟨i1, n1⟩ := script_inv hw h1
              obtain ⟨n, hnn, hnc, -⟩ := n1.cur
              have hs : IsScript w1 w.next := ⟨⟨n, hnn, by rw [hnc]; rfl⟩, by rw [n1.inst, if_pos rfl]⟩
              obtain ⟨l, p1, r1⟩ := dispDecls_run rest _ _ _ _ _ _ _ _ h2 i1 hn.2 hpl hs .start (fun f hf j hj => by
                rw [scriptProto_fields f.decl (by simp only [ProtoDef.cls]; exact List.mem_map.2 ⟨f, hf, rfl⟩)] at hj; cases hj)
              obtain ⟨i2, e2⟩ := r1.inv hb i1
              have hcur2 : Cur (some w.next) w2 := Cur.ext (fun i hi => by cases hi; exact ⟨n, hnn⟩) e2
              have r2 := addAllIs_run (fl := fl) (plain := plain) (ss := ss) hb is w2 w3 i2 hcur2 h3
              obtain ⟨i3, e3⟩ := r2.inv hb i2
              obtain ⟨l', p2, r3⟩ := dispAttrs_run rest _ _ _ _ _ _ h4 i3 hn.2 hpl (hcur2.ext e3)
              have e4 := (r3.inv hb i3).2
              refine ⟨_, .script p1 p2, ?_, okVal_ref ?_⟩
              · have := Run.trans (Run.script (.inl rfl) h1) (Run.trans r1 (Run.trans r2 r3))
                simpa using this
              · have := n1.next; have := e2.next; have := e3.next; have := e4.next; omega
    · cases h; exact ⟨_, .null, .nil, okVal_null⟩
    · -- USE
      split at h
      · cases h
      · next i hi =>
        cases h
        refine ⟨_, .use, .use hi, okVal_ref ?_⟩
        obtain ⟨-, n, hn', -⟩ := hw.table _ _ _ hi
        exact (hw.ids _).1 (by rw [hn']; rfl)
    · -- ROUTE
      split at h
      · next si di h1 h2 =>
        cases h
        simp only [Named, Nameds] at hn
        exact ⟨_, .route, .route h1 h2 (hn.2.2.1.1 trivial) (hn.2.2.2.2.1.1 trivial), okVal_nothing⟩
      · cases h
    · -- attribute
      next m nm a value i =>
      split at h
      · cases h
      · next n hnn =>
        split at h
        · cases h
        · next m' _ hm =>
          split at h
          · cases h
          · next w1 h1 =>
            cases h
            obtain ⟨k, rfl⟩ := isTarget_some hm
            exact ⟨_, .isAttr, .is hnn h1, okVal_nothing⟩
        · cases h
        · next d hd hm =>
          split at h
          · cases h
          · next v1 w1 h1 =>
            split at h
            · cases h
            · next v2 hv2 =>
              split at h
              · cases h
              · next w2 h2 =>
                cases h
                simp only [Named, Nameds] at hn
                obtain ⟨l, p1, r1, o1⟩ := disp_run value _ _ _ _ _ _ _ h1 hw hn.2.2.1 (fun j hj => by cases hj; exact ⟨n, hnn⟩)
                  (fun hpl => by have := hp hpl; simp only [plainDefaults, allPlain, Bool.and_eq_true] at this; exact this.2.2.1)
                refine ⟨_, .attr p1, ?_, okVal_nothing⟩
                obtain ⟨i1, e1⟩ := r1.inv hb hw
                obtain ⟨n', hn', -, hpn, hcl⟩ := e1.node i n hnn
                rw [← List.append_nil l]
                refine Run.trans r1 (.attr hn' ?_ (o1 v2 hv2) h2)
                by_cases hs : n.cls.proto = scriptName
                · exact .inr (hpn.trans hs)
                · rw [hcl hs]; exact .inl (getField_mem hd)
    · -- field value
      next m kids k _ =>
      split at h
      · split at h
        · cases h; exact ⟨_, .simple (by simp), .nil, okVal_val rfl⟩
        · split at h
          · cases h
          · cases h; exact ⟨_, .simple (by simp), .nil, okVal_val (simpleValue_nodes ‹_›)⟩
      · next t' m' tk rest =>
        have hn' := hn
        simp only [Named, Nameds] at hn
        split at h
        · next ht =>
          split at h
          · obtain ⟨l, p1, r1, o1⟩ := disp_run _ _ _ _ _ _ _ _ h hw (by simp only [Named]; exact hn.2.1) hc
              (fun hpl => by have := hp hpl; simp only [plainDefaults, allPlain, Bool.and_eq_true] at this ⊢; exact this.2.1)
            exact ⟨l, .firstNode (nodeTag_entry ht) p1, r1, o1⟩
          · split at h
            · cases h
            · next vs w2 h2 =>
              cases h
              obtain ⟨l, p1, r1, o1⟩ := dispList_run _ _ _ _ _ _ _ _ h2 hw (by simp only [Nameds, Named]; exact hn.2) hc
                (fun hpl => by have := hp hpl; simp only [plainDefaults, allPlain, Bool.and_eq_true] at this ⊢; exact this.2)
              exact ⟨l, .allNodes p1, r1, okVal_vals o1⟩
        · next ht =>
          split at h
          · cases h; exact ⟨_, .simple (by simp; exact not_nodeTag_entry ht), .nil, okVal_val rfl⟩
          · split at h
            · cases h
            · cases h; exact ⟨_, .simple (by simp; exact not_nodeTag_entry ht), .nil, okVal_val (simpleValue_nodes ‹_›)⟩
    · cases h
termination_by t => sizeOf t
theorem dispList_run : ∀ (ts : List PTree) (ss ps cur fd) (w : World F) (vs w'), dispList base fl ts ss ps cur fd w = some (vs, w') → Inv base w ps → Nameds ts → Cur cur w →
    (plain = true → allPlain ts = true) → ∃ l, PlacesAll ts l ∧ Run base fl plain ss ps l w w' ∧ ∀ v ∈ vs, okVal v w'.next
  | [], ss, ps, cur, fd, w, vs, w', h, hw, hn, hc, hp => by
    unfold dispList at h; cases h
    exact ⟨_, .nil, .nil, by simp⟩
  | t :: ts, ss, ps, cur, fd, w, vs, w', h, hw, hn, hc, hp => by
    unfold dispList at h
    split at h
    · cases h
    · next v1 w1 h1 =>
      split at h
      · cases h
      · next vs1 w2 h2 =>
        cases h
        simp only [Nameds] at hn
        obtain ⟨l, p1, r1, o1⟩ := disp_run t _ _ _ _ _ _ _ h1 hw hn.1 hc (fun hpl => by have := hp hpl; simp only [allPlain, Bool.and_eq_true] at this; exact this.1)
        obtain ⟨i1, e1⟩ := r1.inv hb hw
        obtain ⟨l', p2, r2, o2⟩ := dispList_run ts _ _ _ _ _ _ _ h2 i1 hn.2 (hc.ext e1) (fun hpl => by have := hp hpl; simp only [allPlain, Bool.and_eq_true] at this; exact this.2)
        refine ⟨_, .cons p1 p2, .trans r1 r2, fun v hv => ?_⟩
        rcases List.mem_cons.1 hv with rfl | hv
        · exact o1.mono (r2.inv hb i1).2.next
        · exact o2 v hv
termination_by ts => sizeOf ts
theorem dispProto_run : ∀ (ts : List PTree) (ss ps : List Nat) (c : Nat) (w w' : World F), dispProto base fl ts ss (c :: ps) c w = some w' → Inv base w (c :: ps) → Nameds ts →
    (plain = true → allPlain ts = true) → ∃ l, Parts ts l ∧ Run base fl plain ss (c :: ps) l w w'
  | ts, ss, ps, c, w, w', h, hw, hn, hp => by
    unfold dispProto at h
    split at h
    · -- body
      next ss c w _ _ _ _ _ m kids =>
      split at h
      · cases h
      · next vs w1 h1 =>
        cases h
        simp only [Nameds, Named] at hn
        obtain ⟨l, p1, r1, o1⟩ := dispList_run kids _ _ _ _ _ _ _ h1 (hw.newScene _).1 hn.1.2 (fun i hi => by cases hi)
          (fun hpl => by have := hp hpl; simp only [plainDefaults, allPlain, Bool.and_eq_true] at this; exact this.1.2)
        exact ⟨_, .body p1, .body r1⟩
    · -- URLs
      next ss c w _ _ _ _ _ m kids =>
      cases h
      refine ⟨_, .urls, .decl rfl (fun f hf => ?_)⟩
      rcases setURL_fields hf with h1 | rfl
      · exact .inl h1
      · exact .inr ⟨fun j hj => by {rw [externalURL_nodes] at hj; cases hj}, fun _ => rfl⟩
    · -- field
      next ss c w _ _ _ _ _ m ex _ ty _ nm _ value ts =>
      split at h
      · cases h
      · next ft hft =>
        split at h
        · cases h
        · next v1 w1 h1 =>
          split at h
          · cases h
          · next v2 hv2 =>
            split at h
            · cases h
            · next f hf =>
              simp only [Nameds, Named] at hn
              obtain ⟨l, p1, r1, o1⟩ := disp_run value _ _ _ _ _ _ _ h1 hw hn.1.2.2.2.2.1 (fun i hi => by cases hi)
                (fun hpl => by have := hp hpl; simp only [plainDefaults, allPlain, Bool.and_eq_true] at this; exact this.1.2.2.2.2.1)
              obtain ⟨i1, e1⟩ := r1.inv hb hw
              have r2 : Run base fl plain ss (c :: ps) [] w1 (w1.onDecl c (·.addField f)) := by
                refine .decl rfl (fun g hg => ?_)
                rcases addField_fields hg with h3 | rfl
                · exact .inl h3
                · refine .inr ⟨fun j hj => ?_, fun hpl => ?_⟩
                  · rw [mkField_nodes hf] at hj; exact o1 v2 hv2 j hj
                  · rw [mkField_nodes hf]
                    have := hp hpl
                    simp only [allPlain, plainDefaults, nodesFree, Bool.and_eq_true] at this
                    have hfree : nodeFree value = true := by
                      have := this.1.1
                      simp at this
                      exact this.2.2.2
                    refine List.eq_nil_iff_forall_not_mem.2 (fun j hj => ?_)
                    exact absurd (disp_free value _ _ _ _ _ _ _ hfree h1 v2 hv2 j hj) (by omega)
              obtain ⟨i2, e2⟩ := r2.inv hb i1
              obtain ⟨l', p2, r3⟩ := dispProto_run ts _ _ _ _ _ h i2 hn.2 (fun hpl => by have := hp hpl; simp only [allPlain, Bool.and_eq_true] at this; exact this.2)
              exact ⟨_, .field p1 p2, .trans r1 (Run.trans r2 r3)⟩
    · -- field without default
      next ss c w _ _ _ _ _ m ex _ ty _ nm _ ts =>
      split at h
      · cases h
      · next f hf =>
        simp only [Nameds] at hn
        have r2 : Run base fl plain ss (c :: ps) [] w (w.onDecl c (·.addField f)) := by
          refine .decl rfl (fun g hg => ?_)
          rcases addField_fields hg with h3 | rfl
          · exact .inl h3
          · exact .inr ⟨fun j hj => by {rw [mkField_nodes' hty hf] at hj; cases hj}, fun _ => mkField_nodes' hty hf⟩
        obtain ⟨i2, e2⟩ := r2.inv hb hw
        obtain ⟨l', p2, r3⟩ := dispProto_run ts _ _ _ _ _ h i2 hn.2 (fun hpl => by have := hp hpl; simp only [allPlain, Bool.and_eq_true] at this; exact this.2)
        exact ⟨_, .extField p2, Run.trans r2 r3⟩
    · -- event
      next ss c w _ _ _ _ _ m dir _ ty _ nm _ ts =>
      split at h
      · cases h
      · next e he =>
        simp only [Nameds] at hn
        have r2 : Run base fl plain ss (c :: ps) [] w (w.onDecl c (·.addEvent e)) := .decl rfl (fun g hg => .inl (addEvent_fields hg))
        obtain ⟨i2, e2⟩ := r2.inv hb hw
        obtain ⟨l', p2, r3⟩ := dispProto_run ts _ _ _ _ _ h i2 hn.2 (fun hpl => by have := hp hpl; simp only [allPlain, Bool.and_eq_true] at this; exact this.2)
        exact ⟨_, .event p2, Run.trans r2 r3⟩
    · cases h
termination_by ts => sizeOf ts
theorem dispDecls_run : ∀ (ts : List PTree) (ss ps : List Nat) (i : Nat) (p : ProtoDef F) (is is' : List (Text × Text)) (w w' : World F),
    dispDecls base fl ts ss ps i p is w = some (is', w') → Inv base w ps → Nameds ts → (plain = true → allPlain ts = true) → IsScript w i → ScriptLike fl p → PFields p w.next →
    ∃ l, Decls ts l ∧ Run base fl plain ss ps l w w'
  | [], ss, ps, i, p, is, is', w, w', h, hw, hn, hp, hi, hpn, hpf => by
    unfold dispDecls at h; cases h; exact ⟨_, .nil, .nil⟩
  | t :: ts, ss, ps, i, p, is, is', w, w', h, hw, hn, hp, hi, hpn, hpf => by
    simp only [Nameds] at hn
    have hpts : plain = true → allPlain ts = true := fun hpl => by have := hp hpl; simp only [allPlain, Bool.and_eq_true] at this; exact this.2
    have hpt : plain = true → plainDefaults t = true := fun hpl => by have := hp hpl; simp only [allPlain, Bool.and_eq_true] at this; exact this.1
    unfold dispDecls at h
    split at h
    · cases ‹_ = []›
    · -- field
      next ss ps i p is w _ _ _ _ _ _ _ m ex _ ty _ nm _ value ts' heq =>
      cases heq
      split at h
      · cases h
      · next ft hft =>
        split at h
        · next m' hm =>
          split at h
          · cases h
          · next f hf =>
            have hpf' : PFields (p.addField f) w.next := fun g hg j hj => by
              rcases addField_fields hg with h3 | rfl
              · exact hpf g h3 j hj
              · rw [mkField_nodes' hty hf] at hj; cases hj
            have hpn' : ScriptLike fl (p.addField f) := hpn.addField (by simp only [Named, Nameds] at hn; exact hn.1.2.2.2.1.1 trivial) hf
            have r2 := script_decl (base := base) (fl := fl) (plain := plain) (ss := ss) (ps := ps) hi (p := p.addField f) hpn' hpf'
            obtain ⟨i2, e2⟩ := r2.inv hb hw
            obtain ⟨l', p2, r3⟩ := dispDecls_run ts _ _ _ _ _ _ _ _ h i2 hn.2 hpts (hi.ext hw e2) hpn' (hpf'.mono e2.next)
            obtain ⟨k, rfl⟩ := isTarget_some hm
            exact ⟨_, .isField p2, Run.trans r2 r3⟩
        · split at h
          · cases h
          · next v1 w1 h1 =>
            split at h
            · cases h
            · next v2 hv2 =>
              split at h
              · cases h
              · next f hf =>
                simp only [Named, Nameds] at hn
                obtain ⟨n0, hn0, -⟩ := hi.node
                obtain ⟨l, p1, r1, o1⟩ := disp_run _ _ _ _ _ _ _ _ h1 hw hn.1.2.2.2.2.1 (fun j hj => by cases hj; exact ⟨n0, hn0⟩)
                  (fun hpl => by have := hpt hpl; simp only [plainDefaults, allPlain, Bool.and_eq_true] at this; exact this.2.2.2.2.1)
                obtain ⟨i1, e1⟩ := r1.inv hb hw
                have hpf' : PFields (p.addField f) w1.next := fun g hg j hj => by
                  rcases addField_fields hg with h3 | rfl
                  · exact hpf.mono e1.next g h3 j hj
                  · rw [mkField_nodes hf] at hj; exact o1 v2 hv2 j hj
                have hi1 := hi.ext hw e1
                have hpn' : ScriptLike fl (p.addField f) := hpn.addField (hn.1.2.2.2.1.1 trivial) hf
                have r2 := script_decl (base := base) (fl := fl) (plain := plain) (ss := ss) (ps := ps) hi1 (p := p.addField f) hpn' hpf'
                obtain ⟨i2, e2⟩ := r2.inv hb i1
                obtain ⟨l', p2, r3⟩ := dispDecls_run ts _ _ _ _ _ _ _ _ h i2 hn.2 hpts (hi1.ext i1 e2) hpn' (hpf'.mono e2.next)
                exact ⟨_, .field p1 p2, .trans r1 (Run.trans r2 r3)⟩
    · -- event
      next ss ps i p is w _ _ _ _ _ _ _ m dir _ ty _ nm _ rest ts' heq =>
      cases heq
      split at h
      · cases h
      · next e he =>
        have hpf' : PFields (p.addEvent e) w.next := fun g hg j hj => hpf g (addEvent_fields hg) j hj
        have hpn' : ScriptLike fl (p.addEvent e) := hpn.addEvent (by simp only [Named, Nameds] at hn; exact hn.1.2.2.2.1.1 trivial) he
        have r2 := script_decl (base := base) (fl := fl) (plain := plain) (ss := ss) (ps := ps) hi (p := p.addEvent e) hpn' hpf'
        obtain ⟨i2, e2⟩ := r2.inv hb hw
        split at h
        · obtain ⟨l', p2, r3⟩ := dispDecls_run ts _ _ _ _ _ _ _ _ h i2 hn.2 hpts (hi.ext hw e2) hpn' (hpf'.mono e2.next)
          exact ⟨_, .event p2, Run.trans r2 r3⟩
        · split at h
          · obtain ⟨l', p2, r3⟩ := dispDecls_run ts _ _ _ _ _ _ _ _ h i2 hn.2 hpts (hi.ext hw e2) hpn' (hpf'.mono e2.next)
            exact ⟨_, .event p2, Run.trans r2 r3⟩
          · cases h
    · next ss ps i p is w _ _ _ _ _ _ _ m kids ts' heq =>
      cases heq
      obtain ⟨l', p2, r3⟩ := dispDecls_run ts _ _ _ _ _ _ _ _ h hw hn.2 hpts hi hpn hpf
      exact ⟨_, .attr p2, r3⟩
    · next ss ps i p is w _ _ _ _ _ _ _ m kids ts' heq =>
      cases heq
      split at h
      · cases h
      · next v1 w1 h1 =>
        obtain ⟨n0, hn0, -⟩ := hi.node
        obtain ⟨l, p1, r1, o1⟩ := disp_run _ _ _ _ _ _ _ _ h1 hw hn.1 (fun j hj => by cases hj; exact ⟨n0, hn0⟩) hpt
        obtain ⟨i1, e1⟩ := r1.inv hb hw
        obtain ⟨l', p2, r3⟩ := dispDecls_run ts _ _ _ _ _ _ _ _ h i1 hn.2 hpts (hi.ext hw e1) hpn (hpf.mono e1.next)
        exact ⟨_, .proto p1 p2, .trans r1 r3⟩
    · next ss ps i p is w _ _ _ _ _ _ _ m kids ts' heq =>
      cases heq
      split at h
      · cases h
      · next v1 w1 h1 =>
        obtain ⟨n0, hn0, -⟩ := hi.node
        obtain ⟨l, p1, r1, o1⟩ := disp_run _ _ _ _ _ _ _ _ h1 hw hn.1 (fun j hj => by cases hj; exact ⟨n0, hn0⟩) hpt
        obtain ⟨i1, e1⟩ := r1.inv hb hw
        obtain ⟨l', p2, r3⟩ := dispDecls_run ts _ _ _ _ _ _ _ _ h i1 hn.2 hpts (hi.ext hw e1) hpn (hpf.mono e1.next)
        exact ⟨_, .extern p1 p2, .trans r1 r3⟩
    · next ss ps i p is w _ _ _ _ _ _ _ m kids ts' heq =>
      cases heq
      split at h
      · cases h
      · next v1 w1 h1 =>
        obtain ⟨n0, hn0, -⟩ := hi.node
        obtain ⟨l, p1, r1, o1⟩ := disp_run _ _ _ _ _ _ _ _ h1 hw hn.1 (fun j hj => by cases hj; exact ⟨n0, hn0⟩) hpt
        obtain ⟨i1, e1⟩ := r1.inv hb hw
        obtain ⟨l', p2, r3⟩ := dispDecls_run ts _ _ _ _ _ _ _ _ h i1 hn.2 hpts (hi.ext hw e1) hpn (hpf.mono e1.next)
        exact ⟨_, .route p1 p2, .trans r1 r3⟩
    · cases h
termination_by ts => sizeOf ts
theorem dispAttrs_run : ∀ (ts : List PTree) (ss ps : List Nat) (i : Nat) (fd) (w w' : World F), dispAttrs base fl ts ss ps i fd w = some w' → Inv base w ps → Nameds ts →
    (plain = true → allPlain ts = true) → Cur (some i) w → ∃ l, Attrs ts l ∧ Run base fl plain ss ps l w w'
  | [], ss, ps, i, fd, w, w', h, hw, hn, hp, hc => by
    unfold dispAttrs at h; cases h; exact ⟨_, .nil, .nil⟩
  | t :: ts, ss, ps, i, fd, w, w', h, hw, hn, hp, hc => by
    simp only [Nameds] at hn
    have hpts : plain = true → allPlain ts = true := fun hpl => by have := hp hpl; simp only [allPlain, Bool.and_eq_true] at this; exact this.2
    have hpt : plain = true → plainDefaults t = true := fun hpl => by have := hp hpl; simp only [allPlain, Bool.and_eq_true] at this; exact this.1
    unfold dispAttrs at h
    split at h
    · next ht =>
      split at h
      · cases h
      · next v1 w1 h1 =>
        obtain ⟨l, p1, r1, o1⟩ := disp_run t _ _ _ _ _ _ _ h1 hw hn.1 hc hpt
        obtain ⟨i1, e1⟩ := r1.inv hb hw
        obtain ⟨l', p2, r3⟩ := dispAttrs_run ts _ _ _ _ _ _ h i1 hn.2 hpts (hc.ext e1)
        obtain ⟨tag, m, kids⟩ := t
        change tag = .attr at ht
        subst ht
        exact ⟨_, .attr p1 p2, .trans r1 r3⟩
    · next ht =>
      obtain ⟨l', p2, r3⟩ := dispAttrs_run ts _ _ _ _ _ _ h hw hn.2 hpts hc
      exact ⟨_, .other (fun m kids he => ht (by rw [he]; rfl)) p2, r3⟩
termination_by ts => sizeOf ts
end
end main

end Verif.Full
