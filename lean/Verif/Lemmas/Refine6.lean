import Verif.Lemmas.Refine5
/-!
The two readers side by side: whole files.
-/
namespace Verif.Full
open Verif.Peg Verif.Grammar Verif.TextOut Verif.SceneText Verif.Reader
open Verif.Lin hiding disp dispList dispDecls dispAttrs disp_node disp_attr
variable {F : Type} {base : Text → Option (Class F)} {fl : Floats F}

theorem plain_nodes {u : Val F} (h : u.plain = true) : u.nodes = [] := by
  cases u with
  | ref o => cases o with | none => rfl | some i => cases h
  | refs l => cases l with | nil => rfl | cons => cases h
  | _ => rfl

theorem not_plain_refs {lk : Text → Option (Class F)} {t : PTree} {ts cur fd} {rs rs' : RSt F} {vs} (h : Lin.dispList lk fl (t :: ts) cur fd rs = some (vs, rs')) {u} (hu : (RVal.vals vs).toVal = some u) (hp : u.plain = true) : False := by
  unfold Lin.dispList at h
  split at h
  · cases h
  · split at h
    · cases h
    · next v _ _ _ vs' _ _ =>
      cases h
      simp only [RVal.toVal] at hu
      obtain ⟨l, hl, rfl⟩ := Option.map_eq_some_iff.1 hu
      cases v with
      | ref o =>
        simp only [refList] at hl
        obtain ⟨l', -, rfl⟩ := Option.map_eq_some_iff.1 hl
        cases hp
      | _ => simp [refList] at hl

/-- a default without nodes is read without side effects -/
theorem dflt_sim {lk : Text → Option (Class F)} {t : PTree} {k : Kind} {rs rs1 : RSt F} {v u} (h : Lin.disp lk fl t none (some k) rs = some (v, rs1)) (ht : ParseVal.Tree.tag t ∈ tops (gram .fieldDecl))
    (hu : v.toVal = some u) (hp : u.plain = true) (ss ps) (w : World F) : disp base fl t ss ps none (some k) w = some (v, w) := by
  obtain ⟨tg, m, kids⟩ := t
  simp only [ParseVal.Tree.tag] at ht
  have htg : tg = .fieldExposure ∨ tg = .dataType ∨ tg = .name ∨ tg = .field := by revert ht; cases tg <;> decide
  rcases htg with rfl | rfl | rfl | rfl
  · unfold Lin.disp at h; cases h
  · unfold Lin.disp at h; cases h
  · unfold Lin.disp at h; cases h
  · unfold Lin.disp at h
    split at h
    · split at h
      · next hk =>
        cases h
        simp only [disp, hk, if_true]
      · next hk =>
        split at h
        · cases h
        · next x hx =>
          cases h
          simp only [disp, hk, if_false, hx]
    · next tg m' tk rest =>
      split at h
      · next htn =>
        split at h
        · next hk =>
          simp only [disp, htn, if_true, hk]
          unfold Lin.disp at h
          have htg' : tg = .node ∨ tg = .script ∨ tg = .sfNull ∨ tg = .use := by revert htn; cases tg <;> decide
          rcases htg' with rfl | rfl | rfl | rfl
          all_goals split at h
          all_goals first
            | (next heq => (cases heq; done))
            | (next heq _ => (cases heq; done))
            | (next heq _ _ => (cases heq; done))
            | skip
          all_goals repeat' split at h
          all_goals first
            | (cases h; done)
            | (cases h; cases hu; cases hp; done)
            | (cases h; simp only [disp]; done)
            | skip
        · next hk =>
          split at h
          · cases h
          · next vs rs2 h1 =>
            cases h
            exact (not_plain_refs h1 hu hp).elim
      · next htn =>
        split at h
        · next hk =>
          cases h
          simp only [disp, htn, hk, if_true]; rfl
        · next hk =>
          split at h
          · cases h
          · next x hx =>
            cases h
            simp only [disp, htn, hk, if_false, hx]; rfl

theorem onDecl_onDecl (w : World F) (c : Nat) (g h : ProtoDef F → ProtoDef F) : (w.onDecl c g).onDecl c h = w.onDecl c (fun p => h (g p)) := by
  simp only [World.onDecl, World.mk.injEq, true_and, and_true]
  funext j
  simp only [upd]
  split <;> simp

theorem onDecl_same' (w : World F) (c : Nat) {p : ProtoDef F} (h : (w.cls c).decl = p) : w.onDecl c (fun _ => p) = w := by
  have : upd w.cls c (fun o => { o with decl := p }) = w.cls := by
    funext j
    simp only [upd]
    split
    · next hj => subst hj; rw [← h]
    · rfl
  simp only [World.onDecl, this]

/-- the declarations of a prototype -/
structure Declared' (p : ProtoDef F) : Prop where
  body : p.body = none
  plain : ∀ f ∈ p.fields, f.decl.dfltNodes = []
  url : ∀ l, p.url ≠ .urls l

theorem readDecls_sim {lk : Text → Option (Class F)} {rs : RSt F} : ∀ (rest : List PTree) (p p' : ProtoDef F), readDecls lk fl rs rest p = some p' → Shapeds rest → Nameds rest → Declared' p →
    ∃ sm kids pm vs rs', pm.name = p.name ∧ coreName pm.name = false ∧ Declared' pm ∧ p' = { pm with body := some rs'.sc } ∧
      Lin.dispList lk fl kids none none ⟨{ (Scene.empty : Scene F) with is := some [] }, 0⟩ = some (vs, rs') ∧ Shaped (.node .vrmlScene sm kids) ∧ Nameds kids ∧
      ∀ ss ps c (w : World F), (w.cls c).decl = p → dispProto base fl rest ss ps c w = dispProto base fl [.node .vrmlScene sm kids] ss ps c (w.onDecl c (fun _ => pm))
  | rest, p, p', h, hsh, hn, hd => by
    unfold readDecls at h
    split at h
    · next sm kids =>
      split at h
      · cases h
      · next hcore =>
        split at h
        · cases h
        · next v rs1 h1 =>
          cases h
          unfold Lin.disp at h1
          simp only at h1
          split at h1
          · cases h1
          · next vs rs2 h2 =>
            cases h1
            simp only [Nameds, Named] at hn
            exact ⟨sm, kids, _, vs, rs1, rfl, by simpa using hcore, hd, rfl, h2, hsh.1, hn.1.2, fun ss ps c w hw => by rw [onDecl_same' w c hw]⟩
    · next p t ts hno =>
      split at h
      · cases h
      · next p1 h1 =>
        simp only [Nameds] at hn
        simp only [Shapeds] at hsh
        unfold readDecl at h1
        split at h1
        · next m ex _ ty _ nm _ value =>
          split at h1
          · cases h1
          · next hres =>
            split at h1
            · cases h1
            · next ft hft =>
              split at h1
              · cases h1
              · next v rs1 hv =>
                split at h1
                · cases h1
                · next u hu =>
                  split at h1
                  · next hpl =>
                    cases h1
                    simp only [Shaped] at hsh
                    have htg := hsh.1.2.1 value (by simp)
                    have hmk : mkField fl ex ty nm (dfltOf u) = some (⟨⟨nm, ty, ft.kind, ft.str, ft.conv, dfltOf u⟩, decide (ex = chars "exposedField")⟩ : PField F) := by
                      simp only [mkField, hres, hft, Option.map_some]; rfl
                    obtain ⟨sm, kids, pm, vs, rs', a1, a2, a3, a4, a5, a6, a7, a8⟩ := readDecls_sim ts _ p' h hsh.2 hn.2 ⟨hd.body, fun f hf => by
                      rcases addField_fields hf with hf | rfl
                      · exact hd.plain f hf
                      · rw [mkField_nodes hmk]; exact plain_nodes hpl, fun l => by
                      simp only [ProtoDef.addField]
                      split
                      · simp
                      · exact hd.url l⟩
                    refine ⟨sm, kids, pm, vs, rs', a1, a2, a3, a4, a5, a6, a7, fun ss ps c w hw => ?_⟩
                    conv_lhs => rw [dispProto]
                    simp only [hft, dflt_sim hv htg hu hpl, hu, hmk]
                    rw [a8 ss ps c _ (by simp [World.onDecl, upd, hw]), onDecl_onDecl]
                  · cases h1
        · next m dir _ ty _ nm _ =>
          split at h1
          · cases h1
          · next hres =>
            split at h1
            · next hev =>
              cases h1
              have hmk : mkEvent fl dir ty nm = some ⟨nm, ty, decide (dir = chars "eventOut")⟩ := by
                simp only [mkEvent, hres, hev]; rfl
              obtain ⟨sm, kids, pm, vs, rs', a1, a2, a3, a4, a5, a6, a7, a8⟩ := readDecls_sim ts _ p' h hsh.2 hn.2 ⟨hd.body, fun f hf => hd.plain f (addEvent_fields hf), hd.url⟩
              refine ⟨sm, kids, pm, vs, rs', a1, a2, a3, a4, a5, a6, a7, fun ss ps c w hw => ?_⟩
              conv_lhs => rw [dispProto]
              simp only [hmk]
              rw [a8 ss ps c _ (by simp [World.onDecl, upd, hw]), onDecl_onDecl]
            · cases h1
        · cases h1
    · cases h
termination_by rest => sizeOf rest

theorem rename_nodes (ρ : Nat → Nat) (v : Val F) : (v.rename ρ).nodes = v.nodes.map ρ := by
  cases v with
  | ref o => cases o <;> rfl
  | refs l =>
    simp only [Val.rename, Val.nodes]
    induction l with
    | nil => rfl
    | cons o l ih => cases o <;> simp_all
  | _ => rfl

theorem rename_dfltNodes (ρ : Nat → Nat) (d : FieldDecl F) : (d.rename ρ).dfltNodes = d.dfltNodes.map ρ := by
  simp only [FieldDecl.rename, FieldDecl.dfltNodes, value_rename]
  cases d.dflt.value with
  | none => rfl
  | some v => simp [rename_nodes]

/-- the numbering after other nodes were made -/
def rebase (ρ : Nat → Nat) (a b : Nat) : Nat → Nat := fun j => if j < a then ρ j else b + (j - a)

theorem Sim.rebase {ρ : Nat → Nat} {rs : RSt F} {w w' : World F} (hs : Sim ρ (fun _ => none) 0 [] rs w) (hw : Inv base w []) (hle : w.next ≤ w'.next)
    (hheap : ∀ j n, j < rs.next → w.heap (ρ j) = some n → ∃ n', w'.heap (ρ j) = some n' ∧ n'.cls = n.cls ∧ n'.DEF = n.DEF ∧ ∀ g, n'.dict g = n.dict g)
    (hsc : (w'.scene 0).children = (w.scene 0).children ∧ (w'.scene 0).routes = (w.scene 0).routes ∧ (w'.scene 0).defs = (w.scene 0).defs) :
    Sim (rebase ρ rs.next w'.next) (fun _ => none) 0 [] rs w' := by
  have hold : ∀ j, j < rs.next → Full.rebase ρ rs.next w'.next j = ρ j := fun j hj => by simp [Full.rebase, hj]
  have hold' : ∀ j, ρ j < w.next → ρ j = Full.rebase ρ rs.next w'.next j := fun j hj => (hold j (hs.lt.2 hj)).symm
  refine ⟨fun i j hij => ?_, fun j => by simp [Full.rebase], hs.ids, fun j n hn => ?_, fun _ _ => rfl, ?_, ?_, fun nm hnm => ?_, ?_⟩
  · simp only [Full.rebase]
    split
    · next hi =>
      split
      · exact hs.mono i j hij
      · have := hs.lt.1 hi; omega
    · split
      · omega
      · omega
  · have hj : j < rs.next := (hs.ids j).1 (by rw [hn]; rfl)
    obtain ⟨n1, a1, a2, a3, a4⟩ := hs.node j n hn
    obtain ⟨n2, b1, b2, b3, b4⟩ := hheap j n1 hj a1
    refine ⟨n2, by rw [hold j hj]; exact b1, ?_, b3.trans a3, fun g => ?_⟩
    · simp only [Option.getD_none] at a2 ⊢
      rw [b2, a2]
      refine class_congr (fun d hd i hi => hold' i ?_)
      refine hw.dflts _ n1 a1 (d.rename ρ) (by rw [a2]; exact List.mem_map_of_mem hd) _ ?_
      rw [rename_dfltNodes]; exact List.mem_map_of_mem hi
    · rw [b4 g, a4 g]
      cases hv : n.dict g with
      | none => rfl
      | some v =>
        simp only [Option.map_some, Option.some.injEq]
        refine val_congr (fun i hi => hold' i ?_)
        refine hw.value _ n1 g (v.rename ρ) a1 (by rw [a4 g, hv]; rfl) _ ?_
        rw [rename_nodes]; exact List.mem_map_of_mem hi
  · rw [hsc.1, hs.children]
    refine List.map_congr_left (fun i hi => hold' i (hw.children 0 _ ?_))
    rw [hs.children]; exact List.mem_map_of_mem hi
  · rw [hsc.2.1, hs.routes]
    refine List.map_congr_left (fun r hr => ?_)
    obtain ⟨h1, h2⟩ := hw.routes 0 (r.rename ρ) (by rw [hs.routes]; exact List.mem_map_of_mem hr)
    simp only [Rt.rename, Rt.mk.injEq, and_true, true_and]
    exact ⟨hold' _ h1, hold' _ h2⟩
  · rw [hsc.2.2, hs.defs nm hnm]
    cases hl : rs.sc.defs.lookup nm with
    | none => rfl
    | some i =>
      simp only [Option.map_some, Option.some.injEq]
      obtain ⟨-, n, hn, -⟩ := hw.table 0 nm (ρ i) (by rw [hs.defs nm hnm, hl]; rfl)
      exact hold' i ((hw.ids _).1 (by rw [hn]; rfl))
  · rcases hs.is with h | ⟨c, l, h, -⟩
    · exact .inl h
    · cases h

section main
variable (hb : PlainBase base) (hty : ∀ ty v, (fl.types.dflt ty).value = some v → v.nodes = [])
include hb hty

theorem item_sim {ρ P R own} {f : FSt F} {w : World F} (h : FSim base ρ P R own f w) {t : PTree} {v rs1} (hd : Lin.disp (FSt.lookup base f.protos) fl t none none f.rs = some (v, rs1))
    (hsh : Shaped t) (hn : Named t) (ht : ParseVal.Tree.tag t = .rootItem) :
    ∃ v' w', disp base fl t [0] [] none none w = some (v', w') ∧ FSim base ρ P R own { f with rs := rs1 } w' := by
  have hown : ∀ i, (own i).isSome → ∀ j, i ≠ ρ j := fun i hi j he => by rw [he, h.file j] at hi; cases hi
  have hl : Look base ρ w [0] (FSt.lookup base f.protos) := h.look hb rfl (fun gi => by
    simp only [World.getProto, List.findSome?_cons, List.findSome?_nil]; cases List.lookup gi (w.scene 0).protos <;> rfl) (fun _ _ _ => rfl) hown
  obtain ⟨w', a1, a2, -⟩ := disp_sim hb hty t (fun _ => none) none none f.rs v rs1 w hd hsh hn (by rw [ht]; decide) (fun _ _ h => by cases h) h.sim h.inv hl (fun _ h => by cases h)
  have hfr := a2.frame
  have h0 : (w'.scene 0).protos = (w.scene 0).protos := hfr.protos
  refine ⟨_, w', a1, ⟨a2.sim, a2.inv, by rw [hfr.nscenes]; exact h.scenes, fun t ht => by rw [hfr.allProtos]; exact h.only t ht, by rw [h0]; exact h.protos, h.file, fun i hi => lt_of_lt_of_le (h.bound i hi) hfr.next, fun nm k hk => ?_⟩⟩
  rw [h0] at hk
  have hK := h.known nm k hk
  exact hK.stay (hfr.cls k (by simp)) (fun s hs _ => by rw [hfr.scene s hs]; exact ⟨rfl, rfl, rfl⟩)
    (h.frameHeap rfl (fun _ hk => ⟨hk, rfl⟩) hfr hown hK) (fun _ hi => hi)

theorem proto_sim {ρ P R own} {f : FSt F} {w : World F} (h : FSim base ρ P R own f w) {m nm a rest p} (hr : readDecls (FSt.lookup base f.protos) fl f.rs rest (ProtoDef.new nm) = some p)
    (hsh : Shapeds rest) (hn : Named (.node .proto m (.node .nodegi nm a :: rest))) :
    ∃ w' ρ' P' R' own', disp base fl (.node .proto m (.node .nodegi nm a :: rest)) [0] [] none none w = some (.nothing, w') ∧ FSim base ρ' P' R' own' { f with protos := (nm, p) :: f.protos } w' := by
  have hn' := hn
  simp only [Named, Nameds] at hn'
  obtain ⟨sm, kids, pm, vs, rs', a1, a2, a3, a4, a5, a6, a7, a8⟩ := readDecls_sim (base := base) rest _ p hr hsh hn'.2.2 ⟨rfl, fun f hf => by
    simp only [ProtoDef.new, List.mem_singleton] at hf; subst hf; rfl, fun l h => by cases h⟩
  have hnm : pm.name = nm := a1
  have hs0 : w.nscenes ≠ 0 := by have := h.scenes; omega
  -- the class and the scene
  obtain ⟨i0, -⟩ := h.inv.newClass nm
  have i1 : Inv base ((w.newClass nm).onDecl w.nclasses (fun _ => pm)) [w.nclasses] := by
    refine (i0.onCls (c := w.nclasses) (by simp) (g := fun o => { o with decl := pm }) ?_ (fun f hf j hj => by rw [a3.plain f hf] at hj; cases hj) (fun e he => ?_) (fun s hs => ?_)).1
    · simp [World.newClass, upd, hnm, ProtoDef.new]
    · simp [World.newClass, upd] at he
    · simp [World.newClass, upd] at hs
  generalize hw1 : (w.newClass nm).onDecl w.nclasses (fun _ => pm) = w1 at i1
  have f1 : w1.heap = w.heap ∧ w1.next = w.next ∧ w1.scene = w.scene ∧ w1.nscenes = w.nscenes := by subst hw1; exact ⟨rfl, rfl, rfl, rfl⟩
  have f2 : ∀ k, k ≠ w.nclasses → w1.cls k = w.cls k := fun k hk => by subst hw1; simp [World.onDecl, World.newClass, upd, hk]
  have f3 : w1.cls w.nclasses = ⟨pm, [], none⟩ := by subst hw1; simp [World.onDecl, World.newClass, upd]
  obtain ⟨i2, -⟩ := i1.newScene (some 0)
  generalize hw2 : w1.newScene (some 0) = w2 at i2
  have g1 : w2.heap = w.heap ∧ w2.next = w.next ∧ w2.cls = w1.cls := by subst hw2; exact ⟨f1.1, f1.2.1, rfl⟩
  have g2 : ∀ t, t ≠ w.nscenes → w2.scene t = w.scene t := fun t ht => by
    subst hw2; simp only [World.newScene, upd, f1.2.2.2, f1.2.2.1]; rw [if_neg ht]
  have g3 : w2.scene w.nscenes = SceneObj.new (some 0) := by subst hw2; simp [World.newScene, upd, f1.2.2.2]
  have hprs : ∀ t, (w2.scene t).protos = (w.scene t).protos := fun t => by
    by_cases ht : t = w.nscenes
    · subst ht; rw [g3, h.only _ hs0]; rfl
    · rw [g2 t ht]
  have hknown : ∀ k, Known w2 k → Known w k ∧ w2.cls k = w.cls k := by
    rintro k ⟨t, x, hk⟩
    rw [hprs] at hk
    have := (h.inv.protos t x k hk).1
    exact ⟨⟨t, x, hk⟩, by rw [g1.2.2]; exact f2 k (by omega)⟩
  -- the body
  have s2 : Sim (fun j => w.next + j) (fun _ => none) w.nscenes [w.nclasses] ⟨{ (Scene.empty : Scene F) with is := some [] }, 0⟩ w2 := by
    refine ⟨fun i j hij => (by omega), fun j => (by rw [g1.2.1]; simp), fun j => (by simp [Scene.empty]), fun j n hn => (by cases hn), fun _ _ => rfl, (by rw [g3]; rfl), (by rw [g3]; rfl), fun x hx => (by rw [g3]; rfl),
      .inr ⟨w.nclasses, [], rfl, rfl, (by rw [g1.2.2, f3]; rfl)⟩⟩
  have hown : ∀ i, (own i).isSome → ∀ j, i ≠ w.next + j := fun i hi j he => by have := h.bound i hi; omega
  have l2 : Look base (fun j => w.next + j) w2 [w.nscenes, 0] (FSt.lookup base f.protos) := by
    refine h.look hb g1.1 (fun gi => ?_) (fun x k hk => ?_) hown
    · simp only [World.getProto, List.findSome?_cons, List.findSome?_nil, hprs]
      rw [h.only _ hs0]
      simp only [List.lookup_nil]
      cases List.lookup gi (w.scene 0).protos <;> rfl
    · exact (hknown k ⟨0, x, by rw [hprs]; exact hk⟩).2
  simp only [Shaped] at a6
  obtain ⟨w3, b1, b2, -⟩ := dispList_sim hb hty kids (fun _ => none) none none _ vs rs' w2 a5 a6.2.2 a7
    (fun t ht => ⟨fun e => by have := a6.2.1 t ht; rw [e] at this; revert this; decide, fun _ _ h => by cases h⟩) s2 i2 l2 (fun _ h => by cases h)
  have hfr := b2.frame
  have hdisp : disp base fl (.node .proto m (.node .nodegi nm a :: rest)) [0] [] none none w = some (.nothing, (w3.setBody w.nclasses w.nscenes).addProto 0 nm w.nclasses) := by
    simp only [disp]
    rw [if_neg (by rw [← hnm]; simp [a2])]
    rw [a8 [0] [w.nclasses] w.nclasses (w.newClass nm) (by simp [World.newClass, upd]), hw1, dispProto]
    simp only [Option.map_none] at b1
    simp only [f1.2.2.2, List.headD_cons, hw2, b1]
  obtain ⟨_, -, hrun, -⟩ := disp_run hb hty false _ _ _ _ _ _ _ _ hdisp h.inv hn (fun i hi => by cases hi) (fun h => by cases h)
  obtain ⟨iF, -⟩ := hrun.inv hb h.inv
  generalize hw' : (w3.setBody w.nclasses w.nscenes).addProto 0 nm w.nclasses = w' at hdisp iF
  have e1 : w'.heap = w3.heap ∧ w'.next = w3.next := by subst hw'; exact ⟨rfl, rfl⟩
  have e2 : ∀ t, t ≠ 0 → w'.scene t = w3.scene t := fun t ht => by subst hw'; simp [World.addProto, World.setBody, upd, ht]
  have e3 : w'.scene 0 = { w3.scene 0 with protos := (nm, w.nclasses) :: (w3.scene 0).protos } := by subst hw'; simp [World.addProto, World.setBody, upd]
  have e4 : ∀ k, k ≠ w.nclasses → w'.cls k = w3.cls k := fun k hk => by subst hw'; simp [World.addProto, World.setBody, upd, hk]
  have e5 : w'.cls w.nclasses = { w3.cls w.nclasses with body := some w.nscenes } := by subst hw'; simp [World.addProto, World.setBody, upd]
  have e6 : w'.nscenes = w3.nscenes := by subst hw'; rfl
  have h30 : w3.scene 0 = w.scene 0 := by rw [hfr.scene 0 (Ne.symm hs0), g2 0 (Ne.symm hs0)]
  have hle : w.next ≤ w3.next := by have := hfr.next; rw [g1.2.1] at this; exact this
  have hlt : ∀ x k, (x, k) ∈ (w.scene 0).protos → k < w.nclasses := fun x k hk => (h.inv.protos 0 x k hk).1
  refine ⟨w', rebase ρ f.rs.next w'.next, fun k => if k = w.nclasses then p else P k, fun k => if k = w.nclasses then (fun j => w.next + j) else R k,
    fun i => if w.next ≤ i ∧ i < w3.next then some w.nclasses else own i, hdisp, ?_⟩
  refine ⟨?_, iF, ?_, fun t ht => ?_, ?_, fun j => ?_, fun i hi => ?_, fun x k hk => ?_⟩
  · refine h.sim.rebase h.inv (by rw [e1.2]; exact hle) (fun j n hj hn => ?_) ?_
    · rw [e1.1]
      have hjl := h.sim.lt.1 hj
      exact h.frameFile g1.1 hknown hfr (h.file j) (fun j' he => by omega) hn
    · rw [e3]; simp only [h30]; exact ⟨trivial, trivial, trivial⟩
  · rw [e6, hfr.nscenes, ← hw2]; simp [World.newScene]
  · rw [e2 t ht, hfr.allProtos, hprs]; exact h.only t ht
  · rw [e3]
    simp only [List.map_cons, if_true, h30, h.protos, List.cons.injEq, true_and]
    refine List.map_congr_left (fun e he => ?_)
    have := hlt e.1 e.2 he
    rw [if_neg (by omega)]
  · simp only [rebase]
    split
    · next hj =>
      have := h.sim.lt.1 hj
      rw [if_neg (by omega)]; exact h.file j
    · rw [if_neg (by rw [e1.2]; omega)]
      cases ho : own (w'.next + (j - f.rs.next)) with
      | none => rfl
      | some k => have := h.bound _ (by rw [ho]; rfl); rw [e1.2] at this; omega
  · rw [e1.2]
    split at hi
    · omega
    · have := h.bound i hi; omega
  · rw [e3, h30] at hk
    simp only [List.mem_cons, Prod.mk.injEq] at hk
    have hold : ∀ x k, (x, k) ∈ (w.scene 0).protos → HoldK w' (fun i => if w.next ≤ i ∧ i < w3.next then some w.nclasses else own i) k (P k) (R k) := by
      intro x k hk
      have hkl := hlt x k hk
      have hK := h.known x k hk
      have hkn : Known w2 k := ⟨0, x, by rw [hprs]; exact hk⟩
      have hc3 : w'.cls k = w.cls k := by rw [e4 k (by omega), hfr.cls k (by simp; omega), (hknown k hkn).2]
      refine hK.stay hc3 (fun s hs hbs => ?_) (fun i n hi hn => ?_) (fun i hi => ?_)
      · have hsl := h.inv.body k s hbs
        rw [e2 s hs, hfr.scene s (by omega), g2 s (by omega)]; exact ⟨rfl, rfl, rfl⟩
      · rw [e1.1]; exact h.frameHeap g1.1 hknown hfr hown hK i n hi hn
      · have := h.bound i (by rw [hi]; rfl)
        rw [if_neg (by omega)]; exact hi
    rcases hk with ⟨rfl, rfl⟩ | hk
    · simp only [if_true]
      have hsim := b2.sim
      have hdecl : (w'.cls w.nclasses).decl = pm := by rw [e5]; simp only [(hfr.decl w.nclasses).1, g1.2.2, f3]
      rcases hsim.is with ⟨h1, -⟩ | ⟨c, l, h1, h2, h3⟩
      · cases h1
      · cases h1
        have his : (w'.cls w.nclasses).is = renameIs (fun j => w.next + j) l := by rw [e5]; exact h3
        refine ⟨by rw [hdecl, a4]; have := a3.body; cases pm; simp_all, by rw [a4]; exact a3.plain, by rw [a4]; exact a3.url, w.nscenes, rs'.sc, l, by rw [e5], hs0, by rw [a4], h2, his, ?_, fun j hj => ?_, fun e he x hx => ?_⟩
        · refine ⟨fun i j hij => (by omega), fun j n hn => ?_, by rw [e2 _ hs0]; exact hsim.children, by rw [e2 _ hs0]; exact hsim.routes, fun y hy => by rw [e2 _ hs0]; exact hsim.defs y hy⟩
          obtain ⟨n', c1, c2, c3, c4⟩ := hsim.node j n hn
          exact ⟨n', by rw [e1.1]; exact c1, c2, c3, fun g _ => c4 g⟩
        · have := hsim.lt.1 ((hsim.ids j).1 hj)
          rw [if_pos ⟨by omega, this⟩]
        · have := iF.is w.nclasses (e.1, e.2.map (fun x => (w.next + x.1, x.2))) (by rw [his]; exact List.mem_map.2 ⟨e, he, rfl⟩) (w.next + x.1, x.2) (List.mem_map.2 ⟨x, hx, rfl⟩)
          rw [e1.2] at this
          exact (hsim.ids x.1).2 (hsim.lt.2 this)
    · have hkl := hlt x k hk
      simp only [if_neg (show k ≠ w.nclasses by omega)]
      exact hold x k hk

theorem readItems_sim : ∀ (ts : List PTree) {ρ P R own} {f f' : FSt F} {w : World F}, FSim base ρ P R own f w → readItems base fl ts f = some f' → Shapeds ts → Nameds ts →
    (∀ t ∈ ts, ParseVal.Tree.tag t = .rootItem) → ∃ vs w' ρ' P' R' own', dispList base fl ts [0] [] none none w = some (vs, w') ∧ FSim base ρ' P' R' own' f' w'
  | [], ρ, P, R, own, f, f', w, h, hr, _, _, _ => by
    unfold readItems at hr; cases hr
    exact ⟨[], w, ρ, P, R, own, by simp only [dispList], h⟩
  | t :: ts, ρ, P, R, own, f, f', w, h, hr, hsh, hn, ht => by
    simp only [Nameds] at hn
    simp only [Shapeds] at hsh
    unfold readItems at hr
    split at hr
    · cases ‹_ = []›
    · next m m2 nm a rest ts' heq =>
      cases heq
      split at hr
      · cases hr
      · next p hp =>
        simp only [Named, Nameds] at hn
        simp only [Shaped, Shapeds] at hsh
        obtain ⟨w1, ρ1, P1, R1, own1, a1, a2⟩ := proto_sim (m := m2) (a := a) hb hty h hp hsh.1.2.2.1.2.2.2 (by simp only [Named, Nameds]; exact hn.1.2.1)
        obtain ⟨vs, w2, ρ2, P2, R2, own2, b1, b2⟩ := readItems_sim ts a2 hr hsh.2 hn.2 (fun t ht' => ht t (by simp [ht']))
        refine ⟨.nothing :: vs, w2, ρ2, P2, R2, own2, ?_, b2⟩
        have hnone : ({ w1 with scene := upd w1.scene 0 (fun o => { o with children := o.children ++ [] }) } : World F) = w1 := by
          have : upd w1.scene 0 (fun o => { o with children := o.children ++ [] }) = w1.scene := by
            funext j; simp only [upd, List.append_nil]; split
            · subst_vars; rfl
            · rfl
          rw [this]
        have : disp base fl (.node .rootItem m [.node .proto m2 (.node .nodegi nm a :: rest)]) [0] [] none none w = some (.nothing, w1) := by
          rw [disp, dispList, a1]
          simp only [dispList, List.headD_cons]
          exact congrArg (fun w => some (RVal.nothing, w)) hnone
        simp only [dispList, this, b1]
    · next t' ts' hno heq =>
      cases heq
      split at hr
      · cases hr
      · next v rs1 h1 =>
        obtain ⟨v', w1, a1, a2⟩ := item_sim hb hty h h1 hsh.1 hn.1 (ht t (by simp))
        obtain ⟨vs, w2, ρ2, P2, R2, own2, b1, b2⟩ := readItems_sim ts a2 hr hsh.2 hn.2 (fun t ht' => ht t (by simp [ht']))
        exact ⟨v' :: vs, w2, ρ2, P2, R2, own2, by simp only [dispList, a1, b1], b2⟩
end main

theorem init_fsim : FSim base id (fun _ => ProtoDef.new []) (fun _ => id) (fun _ => none) ⟨[], ⟨Scene.empty, 0⟩⟩ (World.init fl : World F) := by
  refine ⟨⟨fun _ _ h => h, fun j => (by simp [World.init]), fun j => (by simp [Scene.empty]), fun j n h => (by cases h), fun _ _ => rfl, rfl, rfl, fun _ _ => rfl, .inl ⟨rfl, rfl⟩⟩,
    init_inv, (by simp [World.init]), fun _ _ => rfl, rfl, fun _ => rfl, fun i h => (by cases h), fun _ _ h => (by cases h)⟩

end Verif.Full
