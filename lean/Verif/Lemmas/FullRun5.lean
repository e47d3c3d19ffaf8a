import Verif.Lemmas.FullRun4
/-!
The steps of the reader follow the scopes of names.
-/
namespace Verif.Full
open Verif.Peg Verif.Grammar Verif.TextOut Verif.SceneText Verif.Reader Verif.Scopes
open Verif.Lin hiding disp dispList dispDecls dispAttrs disp_node disp_attr
variable {F : Type} {base : Text → Option (Class F)} {fl : Floats F}

/-- the names of built-in types -/
def builtinOf (base : Text → Option (Class F)) (t : Text) : Bool := (base t).isSome

theorem run_append (b : Text → Bool) : ∀ (l l' : List Mark) (s : Names), Names.run b (l ++ l') s = (Names.run b l s).bind (Names.run b l')
  | [], l', s => rfl
  | m :: l, l', s => by
    simp only [List.cons_append, Names.run]
    cases s.step b m with
    | none => rfl
    | some s1 => exact run_append b l l' s1

theorem typeMarks_append (l l' : List Mark) : typeMarks (l ++ l') = typeMarks l ++ typeMarks l' := by simp [typeMarks]

/-- a ROUTE as a connection -/
def link (r : Rt) : Link := ⟨r.src, r.srcField, r.dst, r.dstField⟩

/-- The finished prototypes are as declared, and those with a body have the scene of their body. -/
structure Ifaces (fl : Floats F) (ps : List Nat) (w : World F) (ifs : List (List PTree)) (bodies : List (Nat × Nat)) : Prop where
  len : ifs.length = w.nclasses
  iface : ∀ k rest, ifs[k]? = some rest → k ∉ ps → AsDeclared fl rest (w.cls k).decl
  body : ∀ k, (w.cls k).body = bodies.lookup k
  fresh : ∀ k, w.nclasses ≤ k → bodies.lookup k = none

theorem Ifaces.still {ps ifs bodies} {w w' : World F} (h : Ifaces fl ps w ifs bodies) (e : Still w w') : Ifaces fl ps w' ifs bodies :=
  ⟨h.len.trans e.2.symm, fun k rest hk hp => by rw [e.1]; exact h.iface k rest hk hp, fun k => by rw [e.1]; exact h.body k, fun k hk => h.fresh k (by rwa [e.2] at hk)⟩

theorem Ifaces.onCls {ps ifs bodies} {w : World F} (h : Ifaces fl ps w ifs bodies) {c : Nat} {g : ClassObj F → ClassObj F} (hd : c ∈ ps ∨ (g (w.cls c)).decl = (w.cls c).decl)
    (hb : (g (w.cls c)).body = (w.cls c).body) : Ifaces fl ps { w with cls := upd w.cls c g } ifs bodies := by
  refine ⟨h.len, fun k rest hk hp => ?_, fun k => ?_, h.fresh⟩
  · simp only [upd]
    split
    · subst_vars
      rcases hd with hd | hd
      · exact absurd hd hp
      · rw [hd]; exact h.iface _ rest hk hp
    · exact h.iface k rest hk hp
  · simp only [upd]
    split
    · subst_vars; rw [hb]; exact h.body _
    · exact h.body k

/-- The objects agree with the names. -/
structure Agree (fl : Floats F) (plain : Bool) (ss ps : List Nat) (w : World F) (st : Names) : Prop where
  around : st.around.map Scope.scene = ss
  pending : st.pending = ps
  np : st.nprotos = w.nclasses
  ns : st.nscenes = w.nscenes
  len : st.nodes.length = w.next
  nodes : ∀ i x, st.nodes[i]? = some x → w.inst i = x.proto ∧ ∃ n, w.heap i = some n ∧ n.cls.proto = x.gi ∧ n.DEF = x.DEF
  distinct : ((st.around ++ st.closed).map Scope.scene).Nodup
  below : ∀ c ∈ st.around ++ st.closed, c.scene < w.nscenes
  all : ∀ s, s < w.nscenes → ∃ c ∈ st.around ++ st.closed, c.scene = s
  protos : ∀ c ∈ st.around ++ st.closed, c.protos = (w.scene c.scene).protos
  defs : plain = true → ∀ c ∈ st.around ++ st.closed, ∀ nm, c.defs.lookup nm = (w.scene c.scene).defs.lookup nm
  routes : plain = true → ∀ c ∈ st.around ++ st.closed, (w.scene c.scene).routes.map link = c.routes
  plain : plain = true → ∀ c, ∀ f ∈ (w.cls c).decl.fields, f.decl.dfltNodes = []
  ifs : Ifaces fl ps w st.ifaces st.bodies

/-- Changes that names do not see. -/
structure Same (w w' : World F) : Prop where
  next : w'.next = w.next
  nclasses : w'.nclasses = w.nclasses
  nscenes : w'.nscenes = w.nscenes
  inst : w'.inst = w.inst
  node : ∀ i n, w.heap i = some n → ∃ n', w'.heap i = some n' ∧ n'.cls.proto = n.cls.proto ∧ n'.DEF = n.DEF
  protos : ∀ s, (w'.scene s).protos = (w.scene s).protos
  defs : ∀ s, (w'.scene s).defs = (w.scene s).defs
  routes : ∀ s, (w'.scene s).routes = (w.scene s).routes

theorem Agree.same' {plain ss ps st} {w w' : World F} (h : Agree fl plain ss ps w st) (e : Same w w') {b : List (Nat × Nat)}
    (hp : plain = true → ∀ c, ∀ f ∈ (w'.cls c).decl.fields, f ∈ (w.cls c).decl.fields ∨ f.decl.dfltNodes = []) (hI : Ifaces fl ps w st.ifaces st.bodies → Ifaces fl ps w' st.ifaces b) :
    Agree fl plain ss ps w' { st with bodies := b } := by
  refine ⟨h.around, h.pending, h.np.trans e.nclasses.symm, h.ns.trans e.nscenes.symm, h.len.trans e.next.symm, fun i x hx => ?_, h.distinct,
    fun c hc => by rw [e.nscenes]; exact h.below c hc, fun s hs => h.all s (by rwa [e.nscenes] at hs), fun c hc => by rw [e.protos]; exact h.protos c hc,
    fun hpl c hc nm => by rw [e.defs]; exact h.defs hpl c hc nm, fun hpl c hc => by rw [e.routes]; exact h.routes hpl c hc, fun hpl c f hf => ?_, hI h.ifs⟩
  · obtain ⟨h1, n, h2, h3, h4⟩ := h.nodes i x hx
    obtain ⟨n', h5, h6, h7⟩ := e.node i n h2
    exact ⟨by rw [e.inst]; exact h1, n', h5, h6.trans h3, h7.trans h4⟩
  · rcases hp hpl c f hf with h1 | h1
    · exact h.plain hpl c f h1
    · exact h1

theorem Agree.same {plain ss ps st} {w w' : World F} (h : Agree fl plain ss ps w st) (e : Same w w')
    (hp : plain = true → ∀ c, ∀ f ∈ (w'.cls c).decl.fields, f ∈ (w.cls c).decl.fields ∨ f.decl.dfltNodes = []) (hI : Ifaces fl ps w st.ifaces st.bodies → Ifaces fl ps w' st.ifaces st.bodies) :
    Agree fl plain ss ps w' st := h.same' e hp hI

/-- the interfaces so far are only added to -/
theorem step_ifaces {b : Text → Bool} {s s' : Names} {m : Mark} (h : s.step b m = some s') : s.ifaces <+: s'.ifaces := by
  have hn : ∀ gi p D, (s.addNode gi p D).ifaces = s.ifaces := by
    intro gi p D; simp only [Names.addNode, Names.onScope]; split <;> rfl
  cases m with
  | node gi D =>
    simp only [Names.step] at h
    split at h
    · cases h; rw [hn]; exact List.prefix_rfl
    · split at h
      · cases h; rw [hn]; exact List.prefix_rfl
      · cases h
  | script D => cases h; rw [hn]; exact List.prefix_rfl
  | use nm => simp only [Names.step] at h; split at h <;> cases h; exact List.prefix_rfl
  | route a b c d => simp only [Names.step] at h; split at h <;> cases h; exact List.prefix_rfl
  | proto rest => cases h; exact List.prefix_append _ _
  | openBody => cases h; exact List.prefix_rfl
  | closeBody => simp only [Names.step] at h; split at h <;> cases h; exact List.prefix_rfl
  | endProto nm => simp only [Names.step] at h; split at h <;> cases h; exact List.prefix_rfl

theorem run_ifaces {b : Text → Bool} : ∀ {l : List Mark} {s s' : Names}, Names.run b l s = some s' → s.ifaces <+: s'.ifaces
  | [], s, s', h => by cases h; exact List.prefix_rfl
  | m :: l, s, s', h => by
    simp only [Names.run] at h
    split at h
    · cases h
    · next h1 => exact (step_ifaces h1).trans (run_ifaces h)

theorem Quiet.same {w w' : World F} (h : Quiet w w') : Same w w' := by
  refine ⟨h.next, h.nclasses, h.nscenes, h.inst, fun i n hn => ?_, fun s => by rw [h.scene], fun s => by rw [h.scene], fun s => by rw [h.scene]⟩
  have := h.node i
  rw [hn] at this
  obtain ⟨n', h1, h2⟩ := Option.map_eq_some_iff.1 this
  exact ⟨n', h1, congrArg Class.proto (congrArg Prod.fst h2), congrArg Prod.snd h2⟩

/-- the type that a name denotes -/
theorem getProto_eq {plain ss ps st} {w : World F} (h : Agree fl plain ss ps w st) (gi : Text) : w.getProto ss gi = st.proto gi := by
  have h1 : ∀ l : List Scope, (∀ c ∈ l, c.protos = (w.scene c.scene).protos) →
      (l.map Scope.scene).findSome? (fun s => (w.scene s).protos.lookup gi) = l.findSome? (fun c => c.protos.lookup gi) := by
    intro l
    induction l with
    | nil => intro _; rfl
    | cons c l ih =>
      intro hc
      simp only [List.map_cons, List.findSome?_cons, ← hc c (by simp)]
      cases c.protos.lookup gi with
      | some k => rfl
      | none => exact ih (fun c' hc' => hc c' (by simp [hc']))
  rw [World.getProto, ← h.around, h1 _ (fun c hc => h.protos c (by simp [hc]))]
  rfl

theorem getDEF_eq {plain ss ps st} {w : World F} (h : Agree fl plain ss ps w st) (hpl : plain = true) {s ss'} (hss : ss = s :: ss') (nm : Text) :
    ∃ c l, st.around = c :: l ∧ c.scene = s ∧ c.defs.lookup nm = w.getDEF s nm := by
  have := h.around
  rw [hss] at this
  cases ha : st.around with
  | nil => rw [ha] at this; cases this
  | cons c l =>
    rw [ha] at this
    simp only [List.map_cons, List.cons.injEq] at this
    refine ⟨c, l, rfl, this.1, ?_⟩
    rw [h.defs hpl c (by simp [ha]) nm, this.1]; rfl

theorem addNode_run {plain : Bool} {s ss ps st} {w w' : World F} (h : Agree fl plain (s :: ss) ps w st) {c : Class F} {k DEF} (hn : New (s :: ss) c k DEF w w') {gi}
    (hgi : c.proto = gi) (hc : plain = true → ∀ d ∈ c.fields, d.dfltNodes = []) : Agree fl plain (s :: ss) ps w' (st.addNode gi k DEF) := by
  have ha := h.around
  obtain ⟨c0, l0, ha0⟩ : ∃ c0 l0, st.around = c0 :: l0 := by
    cases hh : st.around with
    | nil => rw [hh] at ha; cases ha
    | cons c l => exact ⟨c, l, rfl⟩
  have hc0 : c0.scene = s := by rw [ha0] at ha; exact (List.cons.inj ha).1
  have hnodes : ∀ (i : Nat) (x : NodeInfo), (st.nodes ++ [(⟨gi, k, DEF⟩ : NodeInfo)])[i]? = some x → w'.inst i = x.proto ∧ ∃ n, w'.heap i = some n ∧ n.cls.proto = x.gi ∧ n.DEF = x.DEF := by
    intro i x hx
    rw [List.getElem?_append] at hx
    split at hx
    · next hi =>
      obtain ⟨h1, n, h2, h3, h4⟩ := h.nodes i x hx
      rw [h.len] at hi
      have hne : i ≠ w.next := by omega
      refine ⟨by rw [hn.inst, if_neg hne]; exact h1, ?_⟩
      have := hn.node i
      rw [if_neg hne, h2] at this
      obtain ⟨n', h5, h6⟩ := Option.map_eq_some_iff.1 this
      exact ⟨n', h5, (congrArg Class.proto (congrArg Prod.fst h6)).trans h3, (congrArg Prod.snd h6).trans h4⟩
    · next hi =>
      rw [h.len] at hi hx
      have : i - w.next = 0 := by
        by_contra hne
        rw [List.getElem?_eq_none (by simp; omega)] at hx
        cases hx
      rw [this] at hx
      cases hx
      have hi : i = w.next := by omega
      subst hi
      refine ⟨by rw [hn.inst, if_pos rfl], ?_⟩
      obtain ⟨n, h1, h2, h3⟩ := hn.cur
      exact ⟨n, h1, by rw [h2]; exact hgi, h3⟩
  have hdefs := fun hpl => hn.defs (hc hpl)
  unfold Names.addNode
  simp only
  split
  · next hD =>
    refine ⟨h.around, h.pending, h.np.trans hn.nclasses.symm, h.ns.trans hn.nscenes.symm, by simp [h.len, hn.next], hnodes, h.distinct,
      fun c hc => by rw [hn.nscenes]; exact h.below c hc, fun t ht => h.all t (by rwa [hn.nscenes] at ht), fun c hc => by rw [(hn.same _).1]; exact h.protos c hc,
      fun hpl c hc nm => ?_, fun hpl c hc => by rw [(hn.same _).2.2.1]; exact h.routes hpl c hc, fun hpl => by {rw [hn.cls]; exact h.plain hpl}, h.ifs.still ⟨hn.cls, hn.nclasses⟩⟩
    rw [hdefs hpl, if_neg (by simp [hD])]; exact h.defs hpl c hc nm
  · next hD =>
    simp only [Names.onScope, ha0]
    have hd := h.distinct
    rw [ha0] at hd
    simp only [List.cons_append, List.map_cons] at hd
    have hother : ∀ c ∈ l0 ++ st.closed, c.scene ≠ s := fun c hc he => by
      have := (List.nodup_cons.1 hd).1
      rw [hc0, ← he] at this
      exact this (List.mem_map.2 ⟨c, hc, rfl⟩)
    have hmem : ∀ c ∈ l0 ++ st.closed, c ∈ st.around ++ st.closed := fun c hc => by rw [ha0]; simp at hc ⊢; exact .inr hc
    refine ⟨?_, h.pending, h.np.trans hn.nclasses.symm, h.ns.trans hn.nscenes.symm, by simp [h.len, hn.next], hnodes, ?_, ?_, ?_, ?_, ?_, ?_, fun hpl => by {rw [hn.cls]; exact h.plain hpl}, h.ifs.still ⟨hn.cls, hn.nclasses⟩⟩
    · rw [ha0] at ha; exact ha
    · exact hd
    · intro c hc
      rw [hn.nscenes]
      simp only [List.cons_append, List.mem_cons] at hc
      rcases hc with rfl | hc
      · exact h.below c0 (by simp [ha0])
      · exact h.below c (hmem c hc)
    · intro t ht
      obtain ⟨c, h1, h2⟩ := h.all t (by rwa [hn.nscenes] at ht)
      rw [ha0] at h1
      simp only [List.cons_append, List.mem_cons] at h1
      rcases h1 with rfl | h1
      · exact ⟨_, List.mem_cons_self, h2⟩
      · exact ⟨c, List.mem_cons_of_mem _ h1, h2⟩
    · intro c hc
      rw [(hn.same _).1]
      simp only [List.cons_append, List.mem_cons] at hc
      rcases hc with rfl | hc
      · exact h.protos c0 (by simp [ha0])
      · exact h.protos c (hmem c hc)
    · intro hpl c hc nm
      rw [hdefs hpl]
      simp only [List.cons_append, List.mem_cons] at hc
      rcases hc with rfl | hc
      · simp only [List.lookup_cons, hc0, List.headD_cons, true_and]
        by_cases he : nm = DEF
        · subst he; simp [hD, h.len]
        · have h1 : (nm == DEF) = false := by simpa using he
          rw [h1, if_neg (by simp [he]), ← hc0]
          exact h.defs hpl c0 (by simp [ha0]) nm
      · rw [if_neg (by simp only [List.headD_cons]; exact fun hx => hother c hc hx.1)]
        exact h.defs hpl c (hmem c hc) nm
    · intro hpl c hc
      rw [(hn.same _).2.2.1]
      simp only [List.cons_append, List.mem_cons] at hc
      rcases hc with rfl | hc
      · exact h.routes hpl c0 (by simp [ha0])
      · exact h.routes hpl c (hmem c hc)

/-- the marks that are followed: all, or all but the uses of DEF names -/
def follow (plain : Bool) (l : List Mark) : List Mark := if plain then l else typeMarks l

theorem follow_append (plain : Bool) (l l' : List Mark) : follow plain (l ++ l') = follow plain l ++ follow plain l' := by
  cases plain
  · exact typeMarks_append l l'
  · rfl

theorem follow_cons {plain : Bool} {m : Mark} (h : ∀ nm, m ≠ .use nm) (h' : ∀ a b c d, m ≠ .route a b c d) (l : List Mark) : follow plain (m :: l) = m :: follow plain l := by
  cases plain
  · simp only [follow, typeMarks, Bool.false_eq_true, if_false, List.filter_cons]
    cases m <;> first | rfl | exact absurd rfl (h _) | exact absurd rfl (h' _ _ _ _)
  · rfl

theorem onDecl_same (w : World F) (c : Nat) (g : ClassObj F → ClassObj F) : Same w { w with cls := upd w.cls c g } :=
  ⟨rfl, rfl, rfl, rfl, fun i n h => ⟨n, h, rfl, rfl⟩, fun _ => rfl, fun _ => rfl, fun _ => rfl⟩

theorem scene_same (w : World F) (s : Nat) (g : SceneObj → SceneObj) (h1 : (g (w.scene s)).protos = (w.scene s).protos) (h2 : (g (w.scene s)).defs = (w.scene s).defs) (h3 : (g (w.scene s)).routes = (w.scene s).routes) :
    Same w { w with scene := upd w.scene s g } := by
  refine ⟨rfl, rfl, rfl, rfl, fun i n h => ⟨n, h, rfl, rfl⟩, fun t => ?_, fun t => ?_, fun t => ?_⟩
  · simp only [upd]; split
    · subst_vars; exact h1
    · rfl
  · simp only [upd]; split
    · subst_vars; exact h2
    · rfl
  · simp only [upd]; split
    · subst_vars; exact h3
    · rfl

theorem Same.trans {a b c : World F} (h : Same a b) (h' : Same b c) : Same a c := by
  refine ⟨h'.next.trans h.next, h'.nclasses.trans h.nclasses, h'.nscenes.trans h.nscenes, h'.inst.trans h.inst, fun i n hn => ?_,
    fun s => (h'.protos s).trans (h.protos s), fun s => (h'.defs s).trans (h.defs s), fun s => (h'.routes s).trans (h.routes s)⟩
  obtain ⟨n', h1, h2, h3⟩ := h.node i n hn
  obtain ⟨n2, h4, h5, h6⟩ := h'.node i n' h1
  exact ⟨n2, h4, h5.trans h2, h6.trans h3⟩

theorem named_eq {plain : Bool} {s ss ps st} {w : World F} (h : Agree fl plain (s :: ss) ps w st) (hpl : plain = true) (nm : Text) : st.named nm = w.getDEF s nm := by
  obtain ⟨c, l', h1, h2, h3⟩ := getDEF_eq h hpl rfl nm
  simp only [Names.named, h1, List.head?_cons, Option.bind_some, h3]

/-- the body of a PROTO begins -/
theorem Agree.openBody {plain : Bool} {ss ps st} {w : World F} (h : Agree fl plain ss ps w st) :
    Agree fl plain (w.nscenes :: ss) ps (w.newScene (some (ss.headD 0))) { st with around := ⟨st.nscenes, [], [], []⟩ :: st.around, nscenes := st.nscenes + 1 } := by
  have hu : ∀ k, k ≠ w.nscenes → (w.newScene (some (ss.headD 0))).scene k = w.scene k := fun k hk => by simp [World.newScene, upd, hk]
  have hsn : (w.newScene (some (ss.headD 0))).scene w.nscenes = SceneObj.new (some (ss.headD 0)) := by simp [World.newScene, upd]
  refine ⟨by simp [h.ns, h.around], h.pending, h.np, by simp [World.newScene, h.ns], h.len, h.nodes, ?_, ?_, ?_, ?_, ?_, ?_, h.plain, h.ifs.still ⟨rfl, rfl⟩⟩
  · simp only [List.cons_append, List.map_cons, List.nodup_cons]
    refine ⟨fun hm => ?_, h.distinct⟩
    obtain ⟨x, h1, h2⟩ := List.mem_map.1 hm
    have := h.below x h1
    rw [h.ns] at h2; omega
  · intro x hx
    simp only [List.cons_append, List.mem_cons] at hx
    rcases hx with rfl | hx
    · rw [h.ns]; exact Nat.lt_succ_self _
    · exact Nat.lt_succ_of_lt (h.below x hx)
  · intro t ht
    by_cases he : t = w.nscenes
    · exact ⟨_, List.mem_cons_self, by rw [h.ns, he]⟩
    · obtain ⟨x, h1, h2⟩ := h.all t (by simp only [World.newScene] at ht; omega)
      exact ⟨x, List.mem_cons_of_mem _ h1, h2⟩
  · intro x hx
    simp only [List.cons_append, List.mem_cons] at hx
    rcases hx with rfl | hx
    · rw [h.ns, hsn]; rfl
    · rw [hu _ (Nat.ne_of_lt (h.below x hx))]; exact h.protos x hx
  · intro hpl x hx nm
    simp only [List.cons_append, List.mem_cons] at hx
    rcases hx with rfl | hx
    · rw [h.ns, hsn]; rfl
    · rw [hu _ (Nat.ne_of_lt (h.below x hx))]; exact h.defs hpl x hx nm
  · intro hpl x hx
    simp only [List.cons_append, List.mem_cons] at hx
    rcases hx with rfl | hx
    · rw [h.ns, hsn]; rfl
    · rw [hu _ (Nat.ne_of_lt (h.below x hx))]; exact h.routes hpl x hx

theorem Agree.head {plain : Bool} {s ss ps st} {w : World F} (h : Agree fl plain (s :: ss) ps w st) : ∃ x la, st.around = x :: la ∧ x.scene = s := by
  have := h.around
  cases hh : st.around with
  | nil => rw [hh] at this; cases this
  | cons x la => rw [hh] at this; exact ⟨x, la, rfl, (List.cons.inj this).1⟩

/-- the body of a PROTO ends -/
theorem Agree.closeBody {plain : Bool} {s ss c ps st1} {w' : World F} (a2 : Agree fl plain (s :: ss) (c :: ps) w' st1) (hc : c < w'.nclasses) {x la} (hx : st1.around = x :: la) :
    Agree fl plain ss (c :: ps) (w'.setBody c s) { st1 with around := la, closed := x :: st1.closed, bodies := (c, x.scene) :: st1.bodies } := by
  have hperm : ∀ y, y ∈ la ++ x :: st1.closed ↔ y ∈ st1.around ++ st1.closed := fun y => by rw [hx]; simp; tauto
  have hxs : x.scene = s := by have := a2.around; rw [hx] at this; exact (List.cons.inj this).1
  have e : Agree fl plain ss (c :: ps) w' { st1 with around := la, closed := x :: st1.closed } := by
    have hd := a2.distinct
    rw [hx] at hd
    refine ⟨?_, a2.pending, a2.np, a2.ns, a2.len, a2.nodes, ?_, fun y hy => a2.below y ((hperm y).1 hy), ?_, fun y hy => a2.protos y ((hperm y).1 hy),
      fun hpl y hy => a2.defs hpl y ((hperm y).1 hy), fun hpl y hy => a2.routes hpl y ((hperm y).1 hy), a2.plain, a2.ifs⟩
    · have := a2.around
      rw [hx] at this
      exact (List.cons.inj this).2
    · refine (List.Perm.nodup_iff ?_).1 hd
      exact List.Perm.map _ (List.perm_middle.symm)
    · intro t ht
      obtain ⟨y, h1, h2⟩ := a2.all t ht
      exact ⟨y, (hperm y).2 h1, h2⟩
  refine e.same' (onDecl_same _ _ _) (fun hpl k f hf => .inl ?_) (fun hI => ?_)
  · simp only [World.setBody, upd] at hf
    split at hf
    · subst_vars; exact hf
    · exact hf
  · refine ⟨hI.len, fun k rest hk hp => ?_, fun k => ?_, fun k hk => ?_⟩
    · have := hI.iface k rest hk hp
      simp only [World.setBody, upd]
      split
      · subst_vars; exact this
      · exact this
    · simp only [World.setBody, upd, List.lookup_cons]
      by_cases hkc : k = c
      · subst hkc; simp [hxs]
      · have : (k == c) = false := by simpa using hkc
        rw [this, if_neg hkc]; exact hI.body k
    · have hk' : w'.nclasses ≤ k := hk
      have : (k == c) = false := by simp; omega
      rw [List.lookup_cons, this]; exact hI.fresh k hk

/-- a PROTO or EXTERNPROTO begins -/
theorem Agree.beginProto {plain : Bool} {ss ps st} {w : World F} (h : Agree fl plain ss ps w st) (nm : Text) (rest : List PTree) :
    Agree fl plain ss (w.nclasses :: ps) (w.newClass nm) { st with pending := st.nprotos :: st.pending, nprotos := st.nprotos + 1, ifaces := st.ifaces ++ [rest] } := by
  refine ⟨h.around, by simp [h.np, h.pending], by simp [World.newClass, h.np], h.ns, h.len, h.nodes, h.distinct, h.below, h.all, h.protos, h.defs, h.routes, fun hpl k f hf => ?_, ?_⟩
  · simp only [World.newClass, upd] at hf
    split at hf
    · simp only [ProtoDef.new, List.mem_singleton] at hf
      subst hf; rfl
    · exact h.plain hpl k f hf
  · refine ⟨by simp [h.ifs.len, World.newClass], fun k rest' hk hp => ?_, fun k => ?_, fun k hk => h.ifs.fresh k (by simp only [World.newClass] at hk; omega)⟩
    · simp only [List.mem_cons, not_or] at hp
      simp only [World.newClass, upd, if_neg hp.1]
      rw [List.getElem?_append] at hk
      split at hk
      · exact h.ifs.iface k rest' hk hp.2
      · next hk' =>
        rw [List.getElem?_eq_none (by rw [h.ifs.len] at hk' ⊢; have := hp.1; simp; omega)] at hk
        cases hk
    · simp only [World.newClass, upd]
      split
      · subst_vars; exact (h.ifs.fresh _ le_rfl).symm
      · exact h.ifs.body k

/-- and ends -/
theorem Agree.endProto {plain : Bool} {s ss ps st st1} {w w' : World F} {nm : Text} {rest : List PTree} (h : Agree fl plain (s :: ss) ps w st) (a2 : Agree fl plain (s :: ss) (w.nclasses :: ps) w' st1)
    (hpre : st.ifaces ++ [rest] <+: st1.ifaces) (hI : AsDeclared fl rest (w'.cls w.nclasses).decl) :
    Agree fl plain (s :: ss) ps (w'.addProto s nm w.nclasses) { st1.onScope (fun c => { c with protos := (nm, w.nclasses) :: c.protos }) with pending := ps } := by
  obtain ⟨x, la, hx, hxs⟩ := a2.head
  have hd := a2.distinct
  rw [hx] at hd
  simp only [List.cons_append, List.map_cons] at hd
  have hother : ∀ c ∈ la ++ st1.closed, c.scene ≠ s := fun c hc he => by
    have := (List.nodup_cons.1 hd).1
    rw [hxs, ← he] at this
    exact this (List.mem_map.2 ⟨c, hc, rfl⟩)
  have hmem : ∀ c ∈ la ++ st1.closed, c ∈ st1.around ++ st1.closed := fun c hc => by rw [hx]; simp at hc ⊢; exact .inr hc
  have hscene : ∀ t, t ≠ s → (w'.addProto s nm w.nclasses).scene t = w'.scene t := fun t ht => by simp [World.addProto, upd, ht]
  have hss : (w'.addProto s nm w.nclasses).scene s = { w'.scene s with protos := (nm, w.nclasses) :: (w'.scene s).protos } := by simp [World.addProto, upd]
  simp only [Names.onScope, hx]
  have hI' : Ifaces fl ps (w'.addProto s nm w.nclasses) st1.ifaces st1.bodies := by
    refine ⟨a2.ifs.len, fun k rest' hk hp => ?_, a2.ifs.body, a2.ifs.fresh⟩
    by_cases hkc : k = w.nclasses
    · subst hkc
      obtain ⟨t, ht⟩ := hpre
      rw [← ht, List.append_assoc, List.getElem?_append_right (by rw [h.ifs.len]), h.ifs.len, Nat.sub_self] at hk
      cases hk
      exact hI
    · exact a2.ifs.iface k rest' hk (by simp [hkc, hp])
  refine ⟨?_, rfl, a2.np, a2.ns, a2.len, a2.nodes, ?_, ?_, ?_, ?_, ?_, ?_, a2.plain, hI'⟩
  · have := a2.around; rw [hx] at this; exact this
  · exact hd
  · intro c hc
    simp only [List.cons_append, List.mem_cons] at hc
    rcases hc with rfl | hc
    · exact a2.below x (by simp [hx])
    · exact a2.below c (hmem c hc)
  · intro t ht
    obtain ⟨c, h1, h2⟩ := a2.all t ht
    rw [hx] at h1
    simp only [List.cons_append, List.mem_cons] at h1
    rcases h1 with rfl | h1
    · exact ⟨_, List.mem_cons_self, h2⟩
    · exact ⟨c, List.mem_cons_of_mem _ h1, h2⟩
  · intro c hc
    simp only [List.cons_append, List.mem_cons] at hc
    rcases hc with rfl | hc
    · simp only [hxs, hss]
      rw [a2.protos x (by simp [hx]), hxs]
    · rw [hscene _ (hother c hc)]; exact a2.protos c (hmem c hc)
  · intro hpl c hc nm'
    simp only [List.cons_append, List.mem_cons] at hc
    rcases hc with rfl | hc
    · simp only [hxs, hss]
      rw [a2.defs hpl x (by simp [hx]), hxs]
    · rw [hscene _ (hother c hc)]; exact a2.defs hpl c (hmem c hc) nm'
  · intro hpl c hc
    simp only [List.cons_append, List.mem_cons] at hc
    rcases hc with rfl | hc
    · simp only [hxs, hss]
      have := a2.routes hpl x (by simp [hx])
      rw [hxs] at this; exact this
    · rw [hscene _ (hother c hc)]; exact a2.routes hpl c (hmem c hc)

theorem Run.names (hb : PlainBase base) (hname : ∀ t c, base t = some c → c.proto = t) {plain : Bool} {ss ps l} {w w' : World F} (hr : Run base fl plain ss ps l w w') :
    ∀ st, ss ≠ [] → Inv base w ps → Agree fl plain ss ps w st → ∃ st', Names.run (builtinOf base) (follow plain l) st = some st' ∧ Agree fl plain ss ps w' st' := by
  induction hr with
  | nil => intro st _ _ h; exact ⟨st, by cases plain <;> rfl, h⟩
  | trans r1 r2 ih1 ih2 =>
    intro st hs hw h
    obtain ⟨st1, h1, a1⟩ := ih1 st hs hw h
    obtain ⟨st2, h2, a2⟩ := ih2 st1 hs (r1.inv hb hw).1 a1
    refine ⟨st2, ?_, a2⟩
    rw [follow_append, run_append, h1]
    exact h2
  | @create ss ps gi DEF w w' hD hc =>
    intro st hs hw h
    obtain ⟨s, ss, rfl⟩ := List.exists_cons_of_ne_nil hs
    obtain ⟨i1, c, k, n, hk, hcl⟩ := create_inv hb hw hc
    have hp := getProto_eq h gi
    rw [hk] at hp
    refine ⟨st.addNode gi k DEF, ?_, addNode_run h n ?_ ?_⟩
    · rw [follow_cons (by simp) (by simp)]
      have : follow plain ([] : List Mark) = [] := by cases plain <;> rfl
      rw [this]
      simp only [Names.run, Names.step, ← hp]
      rcases hcl with ⟨k', rfl, rfl⟩ | ⟨rfl, hbc⟩
      · rfl
      · simp [builtinOf, hbc]
    · rcases hcl with ⟨k', rfl, rfl⟩ | ⟨rfl, hbc⟩
      · obtain ⟨t, ht⟩ := getProto_mem hk
        exact (hw.protos t gi k' ht).2.2
      · exact hname gi c hbc
    · intro hpl d hd
      rcases hcl with ⟨k', rfl, rfl⟩ | ⟨rfl, hbc⟩
      · obtain ⟨f, hf, rfl⟩ := classObj_fields hd
        exact h.plain hpl k' f hf
      · exact hb gi c hbc d hd
  | @script ss ps DEF w w' hD hc =>
    intro st hs hw h
    obtain ⟨s, ss, rfl⟩ := List.exists_cons_of_ne_nil hs
    obtain ⟨i1, n⟩ := script_inv hw hc
    refine ⟨st.addNode ['S', 'c', 'r', 'i', 'p', 't'] none DEF, ?_, addNode_run h n rfl (fun _ => scriptProto_fields)⟩
    rw [follow_cons (by simp) (by simp)]
    have : follow plain ([] : List Mark) = [] := by cases plain <;> rfl
    rw [this]; rfl
  | @setClass ss ps w i n c h1 h2 h3 h4 h5 _ =>
    intro st hs hw h
    refine ⟨st, by cases plain <;> rfl, h.same ⟨rfl, rfl, rfl, rfl, fun j m hm => ?_, fun _ => rfl, fun _ => rfl, fun _ => rfl⟩ (fun _ _ f hf => .inl hf) (·.still ⟨rfl, rfl⟩)⟩
    simp only [World.setClass]
    split
    · subst_vars; rw [h1] at hm; cases hm
      exact ⟨{ n with cls := c }, by rw [h1]; rfl, h4.trans h2.symm, rfl⟩
    · exact ⟨m, hm, rfl, rfl⟩
  | @use ss ps nm i w h1 =>
    intro st hs hw h
    obtain ⟨s, ss, rfl⟩ := List.exists_cons_of_ne_nil hs
    refine ⟨st, ?_, h⟩
    cases hpl : plain with
    | false => rfl
    | true =>
      have := named_eq h hpl nm
      simp only [List.headD_cons] at h1
      simp only [follow, if_true, Names.run, Names.step, this, h1, Option.isSome_some]
  | @route ss ps s sf d df si di w h1 h2 _ _ =>
    intro st hs hw h
    obtain ⟨s0, ss, rfl⟩ := List.exists_cons_of_ne_nil hs
    have hq := bind_quiet w si sf di df
    have hcls : (w.addRoute s0 ⟨si, sf, di, df⟩).cls = w.cls := hq.cls
    have hsc : ∀ t, (w.addRoute s0 ⟨si, sf, di, df⟩).scene t = if t = s0 then { w.scene s0 with routes := (w.scene s0).routes ++ [⟨si, sf, di, df⟩] } else w.scene t := by
      intro t
      simp only [World.addRoute, upd, hq.scene]
    simp only [List.headD_cons] at h1 h2 ⊢
    cases hpl : plain with
    | false =>
      subst hpl
      refine ⟨st, rfl, ?_⟩
      have a1 := h.same hq.same (fun _ c f hf => .inl (by rw [← hq.cls]; exact hf)) (·.still hq.still)
      refine ⟨a1.around, a1.pending, a1.np, a1.ns, a1.len, a1.nodes, a1.distinct, a1.below, a1.all, fun c hc => ?_, (fun hf => by cases hf), (fun hf => by cases hf), a1.plain, a1.ifs.still ⟨rfl, rfl⟩⟩
      rw [hsc]
      split
      · rename_i he; rw [h.protos c hc, he]
      · exact h.protos c hc
    | true =>
      subst hpl
      obtain ⟨x, la, hx⟩ : ∃ x la, st.around = x :: la := by
        have := h.around
        cases hh : st.around with
        | nil => rw [hh] at this; cases this
        | cons x la => exact ⟨x, la, rfl⟩
      have hxs : x.scene = s0 := by have := h.around; rw [hx] at this; exact (List.cons.inj this).1
      have hd := h.distinct
      rw [hx] at hd
      simp only [List.cons_append, List.map_cons] at hd
      have hother : ∀ c ∈ la ++ st.closed, c.scene ≠ s0 := fun c hc he => by
        have := (List.nodup_cons.1 hd).1
        rw [hxs, ← he] at this
        exact this (List.mem_map.2 ⟨c, hc, rfl⟩)
      have hmem : ∀ c ∈ la ++ st.closed, c ∈ st.around ++ st.closed := fun c hc => by rw [hx]; simp at hc ⊢; exact .inr hc
      refine ⟨st.onScope (fun c => { c with routes := c.routes ++ [⟨si, sf, di, df⟩] }), ?_, ?_⟩
      · simp only [follow, if_true, Names.run, Names.step, named_eq h rfl, h1, h2]
      · have a1 := h.same hq.same (fun _ c f hf => .inl (by rw [← hq.cls]; exact hf)) (·.still hq.still)
        simp only [Names.onScope, hx]
        refine ⟨?_, a1.pending, a1.np, a1.ns, a1.len, a1.nodes, hd, ?_, ?_, ?_, ?_, ?_, a1.plain, a1.ifs.still ⟨rfl, rfl⟩⟩
        · have := h.around; rw [hx] at this; exact this
        · intro c hc
          simp only [List.cons_append, List.mem_cons] at hc
          rcases hc with rfl | hc
          · exact a1.below x (by simp [hx])
          · exact a1.below c (hmem c hc)
        · intro t ht
          obtain ⟨c, h3, h4⟩ := a1.all t ht
          rw [hx] at h3
          simp only [List.cons_append, List.mem_cons] at h3
          rcases h3 with rfl | h3
          · exact ⟨_, List.mem_cons_self, h4⟩
          · exact ⟨c, List.mem_cons_of_mem _ h3, h4⟩
        · intro c hc
          simp only [List.cons_append, List.mem_cons] at hc
          rcases hc with rfl | hc
          · rw [hsc, if_pos hxs]
            have := h.protos x (by simp [hx])
            rw [hxs] at this; exact this
          · rw [hsc, if_neg (hother c hc)]; exact h.protos c (hmem c hc)
        · intro _ c hc nm
          simp only [List.cons_append, List.mem_cons] at hc
          rcases hc with rfl | hc
          · rw [hsc, if_pos hxs]
            have := h.defs rfl x (by simp [hx]) nm
            rw [hxs] at this; exact this
          · rw [hsc, if_neg (hother c hc)]; exact h.defs rfl c (hmem c hc) nm
        · intro _ c hc
          simp only [List.cons_append, List.mem_cons] at hc
          rcases hc with rfl | hc
          · rw [hsc, if_pos hxs]
            have := h.routes rfl x (by simp [hx])
            rw [hxs] at this
            simp only [List.map_append, this]; rfl
          · rw [hsc, if_neg (hother c hc)]; exact h.routes rfl c (hmem c hc)
  | @is ss ps m i n nm w w' h1 h2 =>
    intro st hs hw h
    unfold World.addIs at h2
    split at h2
    · cases h2
    · cases h2
      refine ⟨st, by cases plain <;> rfl, h.same (onDecl_same _ _ _) (fun _ c f hf => .inl ?_) (·.onCls (.inr rfl) rfl)⟩
      simp only [upd] at hf
      split at hf
      · subst_vars; exact hf
      · exact hf
  | @attr ss ps i n d v w w' h1 h2 h3 h4 =>
    intro st hs hw h
    have hq := setAttr_quiet h4
    exact ⟨st, by cases plain <;> rfl, h.same hq.same (fun _ c f hf => .inl (by rw [← hq.cls]; exact hf)) (·.still hq.still)⟩
  | @children ss ps l w h1 =>
    intro st hs hw h
    exact ⟨st, by cases plain <;> rfl, h.same (scene_same _ _ _ rfl rfl rfl) (fun _ c f hf => .inl hf) (·.still ⟨rfl, rfl⟩)⟩
  | @decl ss ps c g w h1 h2 =>
    intro st hs hw h
    refine ⟨st, by cases plain <;> rfl, h.same (onDecl_same _ _ _) (fun hpl k f hf => ?_) (·.onCls (.inl (by simp)) rfl)⟩
    simp only [World.onDecl, upd] at hf
    split at hf
    · subst_vars
      rcases h2 f hf with h3 | h3
      · exact .inl h3
      · exact .inr (h3.2 rfl)
    · exact .inl hf
  | @body ss ps c l w w' hr ih =>
    intro st hs hw h
    have i1 := (hw.newScene (some (ss.headD 0))).1
    obtain ⟨st1, h1, a2⟩ := ih _ (by simp) i1 h.openBody
    obtain ⟨x, la, hx, -⟩ := a2.head
    refine ⟨{ st1 with around := la, closed := x :: st1.closed, bodies := (c, x.scene) :: st1.bodies }, ?_, a2.closeBody (lt_of_lt_of_le (hw.stack c (by simp)) (hr.inv hb i1).2.nclasses) hx⟩
    rw [follow_cons (by simp) (by simp), follow_append, follow_cons (by simp) (by simp)]
    have hnil : follow plain ([] : List Mark) = [] := by cases plain <;> rfl
    rw [hnil]
    simp only [Names.run, Names.step]
    rw [run_append, h1]
    simp only [Option.bind_some, Names.run, Names.step, hx, a2.pending]
  | @proto ss ps nm rest l w w' hr hI ih =>
    intro st hs hw h
    have i1 := (hw.newClass nm).1
    obtain ⟨st1, h1, a2⟩ := ih _ hs i1 (h.beginProto nm rest)
    obtain ⟨s, ss, rfl⟩ := List.exists_cons_of_ne_nil hs
    refine ⟨{ st1.onScope (fun c => { c with protos := (nm, w.nclasses) :: c.protos }) with pending := ps }, ?_, h.endProto a2 (run_ifaces h1) hI⟩
    rw [follow_cons (by simp) (by simp), follow_append, follow_cons (by simp) (by simp)]
    have hnil : follow plain ([] : List Mark) = [] := by cases plain <;> rfl
    rw [hnil]
    simp only [Names.run, Names.step]
    rw [run_append, h1]
    simp only [Option.bind_some, Names.run, Names.step, a2.pending]

/-- the empty store -/
theorem init_inv : Inv base (World.init fl : World F) [] := by
  refine ⟨fun i => by simp [World.init], fun _ _ _ _ h => by {cases h}, fun _ _ _ _ h => by {cases h}, fun _ _ h => by {cases h}, ?_, fun s nm i h => by {cases h}, fun _ _ _ h => by {cases h},
    fun _ h => by {cases h}, fun _ h => by {cases h}, fun _ _ h => by {cases h}, fun _ _ h => by {cases h}, fun _ _ h => by {cases h}, fun _ _ h => by {cases h}, fun _ _ h => by {cases h}, fun _ _ h => by {cases h}⟩
  intro c f hf j hj
  simp only [World.init, ProtoDef.new, List.mem_singleton] at hf
  subst hf; cases hj

theorem init_agree (plain : Bool) : Agree fl plain [0] [] (World.init fl : World F) Names.start := by
  refine ⟨rfl, rfl, rfl, rfl, rfl, fun i x h => by simp [Names.start] at h, by simp [Names.start], by simp [Names.start, World.init], ?_, ?_, ?_, ?_, ?_, ⟨rfl, fun k rest h => by {simp [Names.start] at h}, fun _ => rfl, fun _ _ => rfl⟩⟩
  · intro s hs
    simp only [World.init] at hs
    exact ⟨⟨0, [], [], []⟩, by simp [Names.start], by simp; omega⟩
  · intro c hc; simp [Names.start] at hc; subst hc; rfl
  · intro _ c hc nm; simp [Names.start] at hc; subst hc; rfl
  · intro _ c hc; simp [Names.start] at hc; subst hc; rfl
  · intro _ c f hf
    simp only [World.init, ProtoDef.new, List.mem_singleton] at hf
    subst hf; rfl

end Verif.Full
