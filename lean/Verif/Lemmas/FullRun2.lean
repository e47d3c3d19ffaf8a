import Verif.Lemmas.FullRun
/-!
Reading a file as a sequence of steps.
-/
namespace Verif.Full
open Verif.Peg Verif.Grammar Verif.TextOut Verif.SceneText Verif.Reader
open Verif.Lin hiding disp dispList dispDecls dispAttrs disp_node disp_attr
variable {F : Type} {base : Text → Option (Class F)}

/-- Things stay. -/
structure Ext (ps : List Nat) (w w' : World F) : Prop where
  next : w.next ≤ w'.next
  nclasses : w.nclasses ≤ w'.nclasses
  nscenes : w.nscenes ≤ w'.nscenes
  name : ∀ c, c < w.nclasses → (w'.cls c).decl.name = (w.cls c).decl.name
  cls : ∀ c, c < w.nclasses → c ∉ ps → w'.cls c = w.cls c
  node : ∀ i n, w.heap i = some n → ∃ n', w'.heap i = some n' ∧ n'.DEF = n.DEF ∧ n'.cls.proto = n.cls.proto ∧ (n.cls.proto ≠ scriptName → n'.cls = n.cls)
  inst : ∀ i, i < w.next → w'.inst i = w.inst i

theorem Ext.refl (ps : List Nat) (w : World F) : Ext ps w w :=
  ⟨le_rfl, le_rfl, le_rfl, fun _ _ => rfl, fun _ _ _ => rfl, fun i n h => ⟨n, h, rfl, rfl, fun _ => rfl⟩, fun _ _ => rfl⟩

theorem Ext.trans {ps : List Nat} {a b c : World F} (h : Ext ps a b) (h' : Ext ps b c) : Ext ps a c := by
  refine ⟨h.next.trans h'.next, h.nclasses.trans h'.nclasses, h.nscenes.trans h'.nscenes, fun k hk => ?_, fun k hk hp => ?_, fun i n hn => ?_, fun i hi => ?_⟩
  · exact (h'.name k (lt_of_lt_of_le hk h.nclasses)).trans (h.name k hk)
  · exact (h'.cls k (lt_of_lt_of_le hk h.nclasses) hp).trans (h.cls k hk hp)
  · obtain ⟨n1, h1, h2, h3, h4⟩ := h.node i n hn
    obtain ⟨n2, h5, h6, h7, h8⟩ := h'.node i n1 h1
    exact ⟨n2, h5, h6.trans h2, h7.trans h3, fun hs => (h8 (h3 ▸ hs)).trans (h4 hs)⟩
  · exact (h'.inst i (lt_of_lt_of_le hi h.next)).trans (h.inst i hi)

theorem pair_node {a b : Option (Node F)} (h : b.map (fun n => (n.cls, n.DEF)) = a.map (fun n => (n.cls, n.DEF))) {n} (hn : a = some n) :
    ∃ n', b = some n' ∧ n'.cls = n.cls ∧ n'.DEF = n.DEF := by
  subst hn
  obtain ⟨n', h1, h2⟩ := Option.map_eq_some_iff.1 h
  exact ⟨n', h1, congrArg Prod.fst h2, congrArg Prod.snd h2⟩

theorem Quiet.ext {w w' : World F} (h : Quiet w w') (ps : List Nat) : Ext ps w w' := by
  refine ⟨h.next.ge, h.nclasses.ge, h.nscenes.ge, fun c _ => by rw [h.cls], fun c _ _ => by rw [h.cls], fun i n hn => ?_, fun i _ => by rw [h.inst]⟩
  obtain ⟨n', h1, h2, h3⟩ := pair_node (h.node i) hn
  exact ⟨n', h1, h3, by rw [h2], fun _ => h2⟩

theorem New.ext {ss : List Nat} {c : Class F} {k DEF} {w w' : World F} (h : New ss c k DEF w w') {ps : List Nat} (hw : Inv base w ps) : Ext ps w w' := by
  refine ⟨by have := h.next; omega, h.nclasses.ge, h.nscenes.ge, fun c _ => by rw [h.cls], fun c _ _ => by rw [h.cls], fun i n hn => ?_, fun i hi => ?_⟩
  · have hi : i < w.next := (hw.ids i).1 (by rw [hn]; rfl)
    have := h.node i
    rw [if_neg (by omega)] at this
    obtain ⟨n', h1, h2, h3⟩ := pair_node this hn
    exact ⟨n', h1, h3, by rw [h2], fun _ => h2⟩
  · rw [h.inst, if_neg (by omega)]

/-! ### The other steps -/

/-- a changed class on the stack of prototypes being declared -/
theorem Inv.onCls {w : World F} {ps : List Nat} (h : Inv base w ps) {c : Nat} (hc : c ∈ ps) {g : ClassObj F → ClassObj F}
    (hname : (g (w.cls c)).decl.name = (w.cls c).decl.name) (hdecl : ∀ f ∈ (g (w.cls c)).decl.fields, ∀ j ∈ f.decl.dfltNodes, j < w.next)
    (his : ∀ e ∈ (g (w.cls c)).is, ∀ x ∈ e.2, x.1 < w.next) (hbody : ∀ s, (g (w.cls c)).body = some s → s < w.nscenes) :
    Inv base { w with cls := upd w.cls c g } ps ∧ Ext ps w { w with cls := upd w.cls c g } := by
  have hu : ∀ k, k ≠ c → upd w.cls c g k = w.cls k := fun k hk => by simp [upd, hk]
  have hs : upd w.cls c g c = g (w.cls c) := by simp [upd]
  refine ⟨{ h with decls := ?_, protos := ?_, is := ?_, body := ?_, inst := ?_ }, ?_⟩
  · intro k f hf j hj
    by_cases hk : k = c
    · subst hk; simp only [hs] at hf; exact hdecl f hf j hj
    · simp only [hu k hk] at hf; exact h.decls k f hf j hj
  · intro s nm k hk
    obtain ⟨h1, h2, h3⟩ := h.protos s nm k hk
    exact ⟨h1, h2, by rw [show ({ w with cls := upd w.cls c g } : World F).cls k = w.cls k from hu k (fun e => h2 (e ▸ hc))]; exact h3⟩
  · intro k e he x hx
    by_cases hk : k = c
    · subst hk; simp only [hs] at he; exact his e he x hx
    · simp only [hu k hk] at he; exact h.is k e he x hx
  · intro k s hk
    by_cases hkc : k = c
    · subst hkc; simp only [hs] at hk; exact hbody s hk
    · simp only [hu k hkc] at hk; exact h.body k s hk
  · intro i k hk
    obtain ⟨h1, h2, n, h3, h4⟩ := h.inst i k hk
    exact ⟨h1, h2, n, h3, by rw [show ({ w with cls := upd w.cls c g } : World F).cls k = w.cls k from hu k (fun e => h2 (e ▸ hc))]; exact h4⟩
  · refine ⟨le_rfl, le_rfl, le_rfl, fun k _ => ?_, fun k _ hk => hu k (fun e => hk (e ▸ hc)), fun i n hn => ⟨n, hn, rfl, rfl, fun _ => rfl⟩, fun _ _ => rfl⟩
    by_cases hk : k = c
    · subst hk; simp only [hs]; exact hname
    · simp only [hu k hk]

theorem Inv.addIs {w w' : World F} {ps : List Nat} (h : Inv base w ps) {nm i f} (hi : i < w.next) (ha : w.addIs ps nm i f = some w') :
    Inv base w' ps ∧ Ext ps w w' := by
  unfold World.addIs at ha
  split at ha
  · cases ha
  · next c l =>
    cases ha
    refine h.onCls (by simp) rfl (h.decls _) (fun e he x hx => ?_) (h.body _)
    rcases isAppend_mem' (k := e.1) (l := e.2) he x hx with rfl | ⟨l', h1, h2⟩
    · exact hi
    · exact h.is c _ h1 x h2

/-- a scene graph with other children and routes -/
theorem Inv.onScene {w : World F} {ps : List Nat} (h : Inv base w ps) {s : Nat} {g : SceneObj → SceneObj}
    (hp : ∀ nm c, (nm, c) ∈ (g (w.scene s)).protos → c < w.nclasses ∧ c ∉ ps ∧ (w.cls c).decl.name = nm) (hd : (g (w.scene s)).defs = (w.scene s).defs)
    (hc : ∀ i ∈ (g (w.scene s)).children, i < w.next) (hr : ∀ r ∈ (g (w.scene s)).routes, r.src < w.next ∧ r.dst < w.next) :
    Inv base { w with scene := upd w.scene s g } ps := by
  have hu : ∀ k, k ≠ s → upd w.scene s g k = w.scene k := fun k hk => by simp [upd, hk]
  have hs : upd w.scene s g s = g (w.scene s) := by simp [upd]
  refine { h with table := ?_, protos := ?_, children := ?_, routes := ?_ }
  · intro t nm i hi
    by_cases ht : t = s
    · subst ht; simp only [hs, hd] at hi; exact h.table t nm i hi
    · simp only [hu t ht] at hi; exact h.table t nm i hi
  · intro t nm c hc'
    by_cases ht : t = s
    · subst ht; simp only [hs] at hc'; exact hp nm c hc'
    · simp only [hu t ht] at hc'; exact h.protos t nm c hc'
  · intro t i hi
    by_cases ht : t = s
    · subst ht; simp only [hs] at hi; exact hc i hi
    · simp only [hu t ht] at hi; exact h.children t i hi
  · intro t r hr'
    by_cases ht : t = s
    · subst ht; simp only [hs] at hr'; exact hr r hr'
    · simp only [hu t ht] at hr'; exact h.routes t r hr'

theorem ext_scene (w : World F) (ps : List Nat) (g : Nat → SceneObj) : Ext ps w { w with scene := g } :=
  ⟨le_rfl, le_rfl, le_rfl, fun _ _ => rfl, fun _ _ _ => rfl, fun i n h => ⟨n, h, rfl, rfl, fun _ => rfl⟩, fun _ _ => rfl⟩

theorem Inv.addRoute {w : World F} {ps : List Nat} (h : Inv base w ps) {s r} (h1 : r.src < w.next) (h2 : r.dst < w.next) :
    Inv base (w.addRoute s r) ps ∧ Ext ps w (w.addRoute s r) := by
  have hq := bind_quiet w r.src r.srcField r.dst r.dstField
  have hb : Inv base (w.bind r.src r.srcField r.dst r.dstField) ps := h.bind h2
  refine ⟨hb.onScene (fun nm c hc => hb.protos s nm c hc) rfl (hb.children s) (fun x hx => ?_), (hq.ext ps).trans (ext_scene _ _ _)⟩
  rw [hq.next]
  rcases List.mem_append.1 hx with hx | hx
  · have := hb.routes s x hx; rw [hq.next] at this; exact this
  · simp at hx; subst hx; exact ⟨h1, h2⟩

theorem Inv.addChildren {w : World F} {ps : List Nat} (h : Inv base w ps) {s l} (hl : ∀ i ∈ l, i < w.next) :
    Inv base { w with scene := upd w.scene s (fun o => { o with children := o.children ++ l }) } ps := by
  refine h.onScene (h.protos s) rfl (fun i hi => ?_) (h.routes s)
  rcases List.mem_append.1 hi with hi | hi
  · exact h.children s i hi
  · exact hl i hi

theorem Inv.newScene {w : World F} {ps : List Nat} (h : Inv base w ps) (o : Option Nat) : Inv base (w.newScene o) ps ∧ Ext ps w (w.newScene o) := by
  have hu : ∀ k, k ≠ w.nscenes → (w.newScene o).scene k = w.scene k := fun k hk => by simp [World.newScene, upd, hk]
  have hs : (w.newScene o).scene w.nscenes = SceneObj.new o := by simp [World.newScene, upd]
  refine ⟨{ h with table := ?_, protos := ?_, children := ?_, routes := ?_, body := ?_ }, ⟨le_rfl, le_rfl, Nat.le_succ _, fun _ _ => rfl, fun _ _ _ => rfl, fun i n h => ⟨n, h, rfl, rfl, fun _ => rfl⟩, fun _ _ => rfl⟩⟩
  · intro t nm i hi
    by_cases ht : t = w.nscenes
    · subst ht; rw [hs] at hi; cases hi
    · rw [hu t ht] at hi; exact h.table t nm i hi
  · intro t nm c hc'
    by_cases ht : t = w.nscenes
    · subst ht; rw [hs] at hc'; cases hc'
    · rw [hu t ht] at hc'; exact h.protos t nm c hc'
  · intro t i hi
    by_cases ht : t = w.nscenes
    · subst ht; rw [hs] at hi; cases hi
    · rw [hu t ht] at hi; exact h.children t i hi
  · intro t r hr'
    by_cases ht : t = w.nscenes
    · subst ht; rw [hs] at hr'; cases hr'
    · rw [hu t ht] at hr'; exact h.routes t r hr'
  · intro c s hc
    exact Nat.lt_succ_of_lt (h.body c s hc)

theorem externalURL_nodes : (externalURL : PField F).decl.dfltNodes = [] := rfl

theorem Inv.newClass {w : World F} {ps : List Nat} (h : Inv base w ps) (nm : Text) : Inv base (w.newClass nm) (w.nclasses :: ps) ∧ Ext ps w (w.newClass nm) := by
  have hu : ∀ k, k ≠ w.nclasses → (w.newClass nm).cls k = w.cls k := fun k hk => by simp [World.newClass, upd, hk]
  have hs : (w.newClass nm).cls w.nclasses = ⟨ProtoDef.new nm, [], none⟩ := by simp [World.newClass, upd]
  have hlt : ∀ {k}, k < w.nclasses → k < (w.newClass nm).nclasses := fun h => Nat.lt_succ_of_lt h
  refine ⟨{ h with decls := ?_, protos := ?_, stack := ?_, is := ?_, body := ?_, inst := ?_ }, ⟨le_rfl, Nat.le_succ _, le_rfl, fun c hc => ?_, fun c hc _ => ?_, fun i n h => ⟨n, h, rfl, rfl, fun _ => rfl⟩, fun _ _ => rfl⟩⟩
  · intro k f hf j hj
    by_cases hk : k = w.nclasses
    · subst hk
      rw [hs] at hf
      simp only [ProtoDef.new, List.mem_singleton] at hf
      subst hf
      rw [externalURL_nodes] at hj; cases hj
    · rw [hu k hk] at hf; exact h.decls k f hf j hj
  · intro s x c hc
    obtain ⟨h1, h2, h3⟩ := h.protos s x c hc
    exact ⟨hlt h1, by simp only [List.mem_cons, not_or]; exact ⟨by omega, h2⟩, by rw [hu c (by omega)]; exact h3⟩
  · intro c hc
    rcases List.mem_cons.1 hc with rfl | hc
    · exact Nat.lt_succ_self _
    · exact hlt (h.stack c hc)
  · intro k e he x hx
    by_cases hk : k = w.nclasses
    · subst hk; rw [hs] at he; cases he
    · rw [hu k hk] at he; exact h.is k e he x hx
  · intro k s hk'
    by_cases hk : k = w.nclasses
    · subst hk; rw [hs] at hk'; cases hk'
    · rw [hu k hk] at hk'; exact h.body k s hk'
  · intro i k hk
    obtain ⟨h1, h2, n, h3, h4⟩ := h.inst i k hk
    exact ⟨hlt h1, by simp only [List.mem_cons, not_or]; exact ⟨by omega, h2⟩, n, h3, by rw [hu k (by omega)]; exact h4⟩
  · rw [hu c (by omega)]
  · exact hu c (by omega)

theorem Inv.addProto {w : World F} {c : Nat} {ps : List Nat} (h : Inv base w (c :: ps)) {s nm} (hc : c ∉ ps) (hn : (w.cls c).decl.name = nm) :
    Inv base (w.addProto s nm c) ps := by
  have h' : Inv base w ps := { h with
    protos := fun s x k hk => ⟨(h.protos s x k hk).1, fun hp => (h.protos s x k hk).2.1 (by simp [hp]), (h.protos s x k hk).2.2⟩
    stack := fun k hk => h.stack k (by simp [hk])
    inst := fun i k hk => ⟨(h.inst i k hk).1, fun hp => (h.inst i k hk).2.1 (by simp [hp]), (h.inst i k hk).2.2⟩ }
  refine h'.onScene (fun x k hk => ?_) rfl (h'.children s) (h'.routes s)
  rcases List.mem_cons.1 hk with hk | hk
  · cases hk; exact ⟨h.stack c (by simp), hc, hn⟩
  · exact h'.protos s x k hk

/-- the class of a Script changes -/
theorem Inv.setClass {w : World F} {ps : List Nat} (h : Inv base w ps) {i n} {c : Class F} (hn : w.heap i = some n) (hs : n.cls.proto = scriptName)
    (hi : w.inst i = none) (hp : c.proto = scriptName) (hc : ∀ d ∈ c.fields, ∀ j ∈ d.dfltNodes, j < w.next) :
    Inv base (w.setClass i c) ps ∧ Ext ps w (w.setClass i c) := by
  have hget : ∀ j m', (w.setClass i c).heap j = some m' → ∃ m, w.heap j = some m ∧ m'.DEF = m.DEF ∧ m'.dict = m.dict ∧ ((j = i ∧ m'.cls = c) ∨ m'.cls = m.cls) := by
    intro j m' hm
    simp only [World.setClass] at hm
    split at hm
    · subst_vars; rw [hn] at hm; cases hm; exact ⟨n, hn, rfl, rfl, .inl ⟨rfl, rfl⟩⟩
    · exact ⟨m', hm, rfl, rfl, .inr rfl⟩
  have hfwd : ∀ j m, w.heap j = some m → ∃ m', (w.setClass i c).heap j = some m' ∧ m'.DEF = m.DEF ∧ ((j = i ∧ m'.cls = c) ∨ (j ≠ i ∧ m'.cls = m.cls)) := by
    intro j m hm
    simp only [World.setClass]
    split
    · subst_vars; rw [hm]; exact ⟨_, rfl, rfl, .inl ⟨rfl, rfl⟩⟩
    · exact ⟨m, hm, rfl, .inr ⟨‹_›, rfl⟩⟩
  refine ⟨{ h with ids := ?_, value := ?_, typed := ?_, dflts := ?_, table := ?_, inst := ?_, built := ?_ }, ⟨le_rfl, le_rfl, le_rfl, fun _ _ => rfl, fun _ _ _ => rfl, fun j m hm => ?_, fun _ _ => rfl⟩⟩
  · intro j
    change _ ↔ j < w.next
    rw [← h.ids j]
    simp only [World.setClass]
    split
    · subst_vars; cases w.heap j <;> rfl
    · rfl
  · intro j m' f v hm hv
    obtain ⟨m, h1, h2, h3, h4⟩ := hget j m' hm
    exact h.value j m f v h1 (h3 ▸ hv)
  · intro j m' f v hm hne hv
    obtain ⟨m, h1, h2, h3, h4⟩ := hget j m' hm
    rcases h4 with ⟨-, h4⟩ | h4
    · rw [h4, hp] at hne; exact absurd rfl hne
    · rw [h4] at hne ⊢; exact h.typed j m f v h1 hne (h3 ▸ hv)
  · intro j m' hm d hd
    obtain ⟨m, h1, h2, h3, h4⟩ := hget j m' hm
    rcases h4 with ⟨-, h4⟩ | h4
    · rw [h4] at hd; exact hc d hd
    · rw [h4] at hd; exact h.dflts j m h1 d hd
  · intro s nm j hj
    obtain ⟨h0, m, h1, h2⟩ := h.table s nm j hj
    obtain ⟨m', h3, h4, -⟩ := hfwd j m h1
    exact ⟨h0, m', h3, h4.trans h2⟩
  · intro j k hk
    obtain ⟨h1, h2, m, h3, h4⟩ := h.inst j k hk
    obtain ⟨m', h5, h6, h7⟩ := hfwd j m h3
    rcases h7 with ⟨rfl, -⟩ | ⟨-, h7⟩
    · exact absurd hk (by change w.inst j ≠ _; rw [hi]; simp)
    · exact ⟨h1, h2, m', h5, h7.trans h4⟩
  · intro j m' hm hi'
    obtain ⟨m, h1, h2, h3, h4⟩ := hget j m' hm
    rcases h4 with ⟨-, h4⟩ | h4
    · exact .inr (by rw [h4, hp])
    · rw [h4]; exact h.built j m h1 hi'
  · obtain ⟨m', h5, h6, h7⟩ := hfwd j m hm
    rcases h7 with ⟨rfl, h7⟩ | ⟨-, h7⟩
    · rw [hn] at hm; cases hm
      exact ⟨m', h5, h6, by rw [h7, hp, hs], fun hne => absurd hs hne⟩
    · exact ⟨m', h5, h6, by rw [h7], fun _ => h7⟩

end Verif.Full
