import Verif.Lemmas.FullRun2
import Verif.Spec.Interface
/-!
Reading a file is a sequence of steps, in the order of the places in the file.
-/
namespace Verif.Full
open Verif.Peg Verif.Grammar Verif.TextOut Verif.SceneText Verif.Reader Verif.Scopes
open Verif.Lin hiding disp dispList dispDecls dispAttrs disp_node disp_attr
variable {F : Type} {base : Text → Option (Class F)}

/-- What the class of a Script is like: no IS mappings; besides the fields of all Scripts, fields and events with names of the grammar that are not reserved and with
registered types; the field `externalURL`. -/
structure ScriptClass (fl : Floats F) (c : Class F) : Prop where
  mapped : c.mapped = []
  fields : ∀ d ∈ c.fields, d ∈ (scriptProto : ProtoDef F).cls.fields ∨ (LegalName d.name ∧ reserved d.name = false ∧ fl.types.field d.cls = some ⟨d.kind, d.str, d.conv⟩)
  external : ∃ d ∈ c.fields, d.name = chars "externalURL"
  events : ∀ e ∈ c.events, LegalName e.name ∧ reserved e.name = false ∧ fl.types.event e.type = true

/-- Steps of the reader between two states of the store, and the places passed. -/
inductive Run (base : Text → Option (Class F)) (fl : Floats F) (plain : Bool) : List Nat → List Nat → List Mark → World F → World F → Prop
  | nil {ss ps w} : Run base fl plain ss ps [] w w
  | trans {ss ps l l' a b c} : Run base fl plain ss ps l a b → Run base fl plain ss ps l' b c → Run base fl plain ss ps (l ++ l') a c
  | create {ss ps gi DEF w w'} : (DEF = [] ∨ LegalName DEF) → w.create base ss gi DEF = some w' → Run base fl plain ss ps [.node gi DEF] w w'
  | script {ss ps DEF w w'} : (DEF = [] ∨ LegalName DEF) → w.newNode ss scriptProto.cls none DEF = some w' → Run base fl plain ss ps [.script DEF] w w'
  | setClass {ss ps w i n c} : w.heap i = some n → n.cls.proto = scriptName → w.inst i = none → c.proto = scriptName →
      (∀ d ∈ c.fields, ∀ j ∈ d.dfltNodes, j < w.next) → ScriptClass fl c → Run base fl plain ss ps [] w (w.setClass i c)
  | use {ss ps nm i w} : w.getDEF (ss.headD 0) nm = some i → Run base fl plain ss ps [.use nm] w w
  | route {ss ps s sf d df si di w} : w.getDEF (ss.headD 0) s = some si → w.getDEF (ss.headD 0) d = some di → LegalName sf → LegalName df →
      Run base fl plain ss ps [.route s sf d df] w (w.addRoute (ss.headD 0) ⟨si, sf, di, df⟩)
  | is {ss ps m i n nm w w'} : w.heap i = some n → w.addIs ps m i nm = some w' → Run base fl plain ss ps [] w w'
  | attr {ss ps i n d v w w'} : w.heap i = some n → (d ∈ n.cls.fields ∨ n.cls.proto = scriptName) → (∀ j ∈ v.nodes, j < w.next) → w.setAttr i d v = some w' → Run base fl plain ss ps [] w w'
  | children {ss ps l w} : (∀ i ∈ l, i < w.next) →
      Run base fl plain ss ps [] w { w with scene := upd w.scene (ss.headD 0) (fun o => { o with children := o.children ++ l }) }
  | decl {ss ps c g w} : (g (w.cls c).decl).name = (w.cls c).decl.name → (∀ f ∈ (g (w.cls c).decl).fields, f ∈ (w.cls c).decl.fields ∨
      ((∀ j ∈ f.decl.dfltNodes, j < w.next) ∧ (plain = true → f.decl.dfltNodes = []))) → Run base fl plain ss (c :: ps) [] w (w.onDecl c g)
  | body {ss ps c l w w'} : Run base fl plain (w.nscenes :: ss) (c :: ps) l (w.newScene (some (ss.headD 0))) w' →
      Run base fl plain ss (c :: ps) (.openBody :: (l ++ [.closeBody])) w (w'.setBody c w.nscenes)
  | proto {ss ps nm rest l w w'} : Run base fl plain ss (w.nclasses :: ps) l (w.newClass nm) w' → AsDeclared fl rest (w'.cls w.nclasses).decl →
      Run base fl plain ss ps (.proto rest :: (l ++ [.endProto nm])) w (w'.addProto (ss.headD 0) nm w.nclasses)

/-- the built-in classes have no nodes in defaults -/
def PlainBase (base : Text → Option (Class F)) : Prop := ∀ t c, base t = some c → ∀ d ∈ c.fields, d.dfltNodes = []

theorem scriptProto_fields : ∀ d ∈ (scriptProto : ProtoDef F).cls.fields, d.dfltNodes = [] := by
  intro d hd
  simp [ProtoDef.cls, scriptProto, externalURL] at hd
  rcases hd with rfl | rfl | rfl | rfl <;> rfl

theorem classObj_fields {o : ClassObj F} {d : FieldDecl F} (h : d ∈ o.cls.fields) : ∃ f ∈ o.decl.fields, f.decl = d := by
  simp only [ClassObj.cls] at h
  split at h
  · exact List.mem_map.1 (List.mem_filter.1 h).1
  · exact List.mem_map.1 h

theorem getProto_mem {w : World F} {ss : List Nat} {gi : Text} {k : Nat} (h : w.getProto ss gi = some k) : ∃ s, (gi, k) ∈ (w.scene s).protos := by
  obtain ⟨s, -, hs⟩ := List.exists_of_findSome?_eq_some h
  exact ⟨s, lookup_mem' hs⟩
where
  lookup_mem' {l : List (Text × Nat)} {a b} (h : l.lookup a = some b) : (a, b) ∈ l := by
    induction l with
    | nil => cases h
    | cons x l ih =>
      rw [List.lookup_cons] at h
      split at h
      · rename_i he; cases h; have : a = x.1 := by simpa using he
        rw [this]; simp
      · exact List.mem_cons_of_mem _ (ih h)

theorem create_inv (hb : PlainBase base) {w w' : World F} {ps ss : List Nat} (h : Inv base w ps) {gi DEF}
    (hn : w.create base ss gi DEF = some w') : Inv base w' ps ∧ ∃ c k, New ss c k DEF w w' ∧ w.getProto ss gi = k ∧
      ((∃ k', k = some k' ∧ c = (w.cls k').cls) ∨ (k = none ∧ base gi = some c)) := by
  unfold World.create at hn
  cases hg : w.getProto ss gi with
  | some k =>
    rw [hg] at hn
    obtain ⟨s, hs⟩ := getProto_mem hg
    obtain ⟨h1, h2, h3⟩ := h.protos s gi k hs
    obtain ⟨i, n⟩ := newNode_inv h (fun d hd j hj => by
      obtain ⟨f, hf, rfl⟩ := classObj_fields hd
      exact h.decls k f hf j hj) (fun k' hk' => by cases hk'; exact ⟨h1, h2, rfl⟩) (fun hk => by cases hk) hn
    exact ⟨i, _, _, n, rfl, .inl ⟨k, rfl, rfl⟩⟩
  | none =>
    rw [hg] at hn
    simp only at hn
    split at hn
    · cases hn
    · next c hc =>
      obtain ⟨i, n⟩ := newNode_inv h (fun d hd j hj => by rw [hb gi c hc d hd] at hj; cases hj) (fun k' hk' => by cases hk') (fun _ => .inl ⟨gi, hc⟩) hn
      exact ⟨i, c, none, n, rfl, .inr ⟨rfl, hc⟩⟩

theorem script_inv {w w' : World F} {ps ss : List Nat} (h : Inv base w ps) {DEF}
    (hn : w.newNode ss scriptProto.cls none DEF = some w') : Inv base w' ps ∧ New ss scriptProto.cls none DEF w w' :=
  newNode_inv h (fun d hd j hj => by rw [scriptProto_fields d hd] at hj; cases hj) (fun k' hk' => by cases hk') (fun _ => .inr rfl) hn

theorem Run.inv (hb : PlainBase base) {plain : Bool} {ss ps l} {w w' : World F} (hr : Run base fl plain ss ps l w w') : Inv base w ps → Inv base w' ps ∧ Ext ps w w' := by
  induction hr with
  | nil => exact fun h => ⟨h, .refl _ _⟩
  | trans _ _ ih1 ih2 =>
    intro h
    obtain ⟨a, e1⟩ := ih1 h
    obtain ⟨b, e2⟩ := ih2 a
    exact ⟨b, e1.trans e2⟩
  | create _ hc =>
    intro h
    obtain ⟨i, c, k, n, -⟩ := create_inv hb h hc
    exact ⟨i, n.ext h⟩
  | script _ hc =>
    intro h
    obtain ⟨i, n⟩ := script_inv h hc
    exact ⟨i, n.ext h⟩
  | setClass h1 h2 h3 h4 h5 _ => exact fun h => h.setClass h1 h2 h3 h4 h5
  | use _ => exact fun h => ⟨h, .refl _ _⟩
  | route h1 h2 _ _ =>
    intro h
    refine h.addRoute ?_ ?_
    · obtain ⟨-, n, hn, -⟩ := h.table _ _ _ h1
      exact (h.ids _).1 (by rw [hn]; rfl)
    · obtain ⟨-, n, hn, -⟩ := h.table _ _ _ h2
      exact (h.ids _).1 (by rw [hn]; rfl)
  | is h1 h3 => exact fun h => h.addIs ((h.ids _).1 (by rw [h1]; rfl)) h3
  | attr h1 h2 h3 h4 => exact fun h => ⟨h.setAttr h1 h2 h3 h4, (setAttr_quiet h4).ext _⟩
  | children h1 => exact fun h => ⟨h.addChildren h1, ext_scene _ _ _⟩
  | decl h1 h2 =>
    intro h
    refine h.onCls (by simp) h1 (fun f hf => ?_) (h.is _) (h.body _)
    rcases h2 f hf with h3 | h3
    · exact h.decls _ f h3
    · exact h3.1
  | @body ss ps c l w w' hr ih =>
    intro h
    obtain ⟨h1, e1⟩ := h.newScene (some (ss.headD 0))
    obtain ⟨h2, e2⟩ := ih h1
    obtain ⟨h3, e3⟩ := h2.onCls (c := c) (g := fun o => { o with body := some w.nscenes }) (by simp) rfl (h2.decls _) (h2.is _)
      (fun s hs => by cases hs; exact lt_of_lt_of_le (Nat.lt_succ_self _) e2.nscenes)
    exact ⟨h3, e1.trans (e2.trans e3)⟩
  | @proto ss ps nm rest l w w' hr hI ih =>
    intro h
    obtain ⟨h1, e1⟩ := h.newClass nm
    obtain ⟨h2, e2⟩ := ih h1
    have hc : w.nclasses ∉ ps := fun hp => Nat.lt_irrefl _ (h.stack _ hp)
    have hname : (w'.cls w.nclasses).decl.name = nm := by
      rw [e2.name _ (Nat.lt_succ_self _)]; simp [World.newClass, upd, ProtoDef.new]
    refine ⟨h2.addProto hc hname, ?_⟩
    refine Ext.trans ?_ (ext_scene w' ps _)
    refine ⟨e1.next.trans e2.next, e1.nclasses.trans e2.nclasses, e1.nscenes.trans e2.nscenes, fun c hc' => ?_, fun c hc' hp => ?_, fun i n hn => ?_, fun i hi => ?_⟩
    · exact (e2.name c (lt_of_lt_of_le hc' e1.nclasses)).trans (e1.name c hc')
    · refine (e2.cls c (lt_of_lt_of_le hc' e1.nclasses) ?_).trans (e1.cls c hc' hp)
      simp only [List.mem_cons, not_or]
      exact ⟨by omega, hp⟩
    · exact e2.node i n hn
    · exact e2.inst i hi

end Verif.Full
