import Verif.Lemmas.Content5
import Verif.Spec.Accept
/-!
Which files are read: the parts.
-/
namespace Verif.Full
open Verif.Peg Verif.Grammar Verif.TextOut Verif.SceneText Verif.Reader Verif.Scopes Verif.Shape
open Verif.Lin hiding disp dispList dispDecls dispAttrs disp_node disp_attr
variable {F : Type} {base : Text → Option (Class F)} {fl : Floats F}

/-- A result exists exactly if the rules allow it, and then `Q` holds. -/
def Sync {γ : Type} (o : Option γ) (P : List Text → Prop) (Q : γ → List Text → Prop) : Prop :=
  (∀ x, o = some x → ∃ s', P s' ∧ Q x s') ∧ (∀ s', P s' → ∃ x, o = some x ∧ Q x s')

theorem Sync.bind {γ δ : Type} {o : Option γ} {P : List Text → Prop} {P2 : List Text → List Text → Prop} {Q : γ → List Text → Prop} {Q2 : δ → List Text → Prop} {f : γ → Option δ} (h : Sync o P Q)
    (h2 : ∀ x s1, Q x s1 → Sync (f x) (P2 s1) Q2) : Sync (o.bind f) (fun s' => ∃ s1, P s1 ∧ P2 s1 s') Q2 := by
  refine ⟨fun y hy => ?_, fun s' ⟨s1, hp, hp2⟩ => ?_⟩
  · obtain ⟨x, hx, hxy⟩ := Option.bind_eq_some_iff.1 hy
    obtain ⟨s1, hp, hq⟩ := h.1 x hx
    obtain ⟨s', hp2, hq2⟩ := (h2 x s1 hq).1 y hxy
    exact ⟨s', ⟨s1, hp, hp2⟩, hq2⟩
  · obtain ⟨x, hx, hq⟩ := h.2 s1 hp
    obtain ⟨y, hy, hq2⟩ := (h2 x s1 hq).2 s' hp2
    exact ⟨y, by rw [hx]; exact hy, hq2⟩

theorem Sync.map {γ δ : Type} {o : Option γ} {P : List Text → Prop} {Q : γ → List Text → Prop} {Q2 : δ → List Text → Prop} {f : γ → δ} (h : Sync o P Q) (h2 : ∀ x s1, Q x s1 → Q2 (f x) s1) :
    Sync (o.map f) P Q2 := by
  refine ⟨fun y hy => ?_, fun s' hp => ?_⟩
  · obtain ⟨x, hx, rfl⟩ := Option.map_eq_some_iff.1 hy
    obtain ⟨s1, hp, hq⟩ := h.1 x hx
    exact ⟨s1, hp, h2 _ _ hq⟩
  · obtain ⟨x, hx, hq⟩ := h.2 s' hp
    exact ⟨f x, by rw [hx]; rfl, h2 _ _ hq⟩

theorem Sync.iff {γ : Type} {o : Option γ} {P P' : List Text → Prop} {Q : γ → List Text → Prop} (h : Sync o P Q) (h2 : ∀ s', P' s' ↔ P s') : Sync o P' Q :=
  ⟨fun x hx => by obtain ⟨s', hp, hq⟩ := h.1 x hx; exact ⟨s', (h2 s').2 hp, hq⟩, fun s' hp => h.2 s' ((h2 s').1 hp)⟩

theorem Sync.weaken {γ : Type} {o : Option γ} {P : List Text → Prop} {Q Q2 : γ → List Text → Prop} (h : Sync o P Q) (h2 : ∀ x s1, Q x s1 → Q2 x s1) : Sync o P Q2 :=
  ⟨fun x hx => by obtain ⟨s', hp, hq⟩ := h.1 x hx; exact ⟨s', hp, h2 _ _ hq⟩, fun s' hp => by obtain ⟨x, hx, hq⟩ := h.2 s' hp; exact ⟨x, hx, h2 _ _ hq⟩⟩

theorem Sync.never {γ : Type} {P : List Text → Prop} {Q : γ → List Text → Prop} (h : ∀ s', ¬ P s') : Sync none P Q := ⟨fun x hx => (by cases hx), fun s' hp => (h s' hp).elim⟩

theorem Sync.only {γ : Type} {x : γ} {s : List Text} {P : List Text → Prop} {Q : γ → List Text → Prop} (h : ∀ s', P s' ↔ s' = s) (hq : Q x s) : Sync (some x) P Q :=
  ⟨fun y hy => by cases hy; exact ⟨s, (h s).2 rfl, hq⟩, fun s' hp => by rw [(h s').1 hp]; exact ⟨x, rfl, hq⟩⟩

/-! ### The store and the names given so far -/

structure Ok (w : World F) (s : List Text) : Prop where
  names : ∀ nm, (w.getDEF 0 nm).isSome = true ↔ nm ∈ s
  noempty : ([] : Text) ∉ s
  inst : ∀ i, w.inst i = none
  protos : (w.scene 0).protos = []

def Stay (w w' : World F) : Prop := w.next ≤ w'.next ∧ ∀ j < w.next, clsAt w' j = clsAt w j

theorem Stay.refl (w : World F) : Stay w w := ⟨le_rfl, fun _ _ => rfl⟩
theorem Stay.trans {a b c : World F} (h : Stay a b) (h' : Stay b c) : Stay a c :=
  ⟨h.1.trans h'.1, fun j hj => (h'.2 j (hj.trans_le h.1)).trans (h.2 j hj)⟩

theorem init_ok : Ok (World.init fl : World F) [] := ⟨fun nm => by simp [World.init, World.getDEF, World.view, Scene.getDEF, SceneObj.new], by simp, fun _ => rfl, rfl⟩

/-- a new node -/
def made (w : World F) (c : Class F) (DEF : Text) : World F := if DEF = [] then w.alloc c none else (w.alloc c none).regDef 0 DEF w.next

theorem newNode_madeAs (w : World F) {c : Class F} (hc : ∀ d ∈ c.fields, d.dfltNodes = []) (DEF : Text) : w.newNode [0] c none DEF = some (made w c DEF) := by
  have h1 : (w.alloc c none).heap w.next = some ⟨c, [], fun _ => none⟩ := by simp [World.alloc]
  have h2 : rootSet 0 ((w.alloc c none).next + 1) (w.alloc c none) w.next = some (w.alloc c none) := by
    rw [rootSet, h1]
    simp [nodeRefs_dflt hc]
  simp only [World.newNode, List.foldlM_nil, made]
  show (match rootSet 0 _ (w.alloc c none) w.next with | none => none | some w2 => some (if DEF = [] then w2 else w2.regDef 0 DEF w.next)) = _
  rw [h2]

theorem create_made (hb : PlainBase base) {w : World F} {s} (hw : Ok w s) {gi : Text} (DEF : Text) : w.create base [0] gi DEF = (base gi).map (fun c => made w c DEF) := by
  have h : w.getProto [0] gi = none := by simp [World.getProto, hw.protos]
  rw [World.create, h]
  cases hc : base gi with
  | none => rfl
  | some c => simp only [Option.map_some]; exact newNode_madeAs w (hb gi c hc) DEF

theorem made_cls (w : World F) (c : Class F) (DEF : Text) : clsAt (made w c DEF) w.next = some c := by
  unfold made
  split
  · simp [clsAt, World.alloc]
  · simp [clsAt, World.alloc, World.regDef, World.view, Scene.regDefName]

theorem made_next (w : World F) (c : Class F) (DEF : Text) : (made w c DEF).next = w.next + 1 := by
  unfold made; split <;> rfl

theorem made_stay (w : World F) (c : Class F) (DEF : Text) : Stay w (made w c DEF) := by
  refine ⟨by rw [made_next]; omega, fun j hj => ?_⟩
  have : j ≠ w.next := by omega
  unfold made
  split
  · simp [clsAt, World.alloc, this]
  · simp [clsAt, World.alloc, World.regDef, World.view, Scene.regDefName, this]

theorem lookup_filter {l : List (Text × Nat)} {n nm : Text} (h : nm ≠ n) : (l.filter (fun p => p.1 != n)).lookup nm = l.lookup nm := by
  induction l with
  | nil => rfl
  | cons p l ih =>
    obtain ⟨k, v⟩ := p
    by_cases hk : k = n
    · subst hk
      have hb : (nm == k) = false := by simpa using h
      rw [List.filter_cons, if_neg (by simp), ih, List.lookup_cons, hb]
    · rw [List.filter_cons, if_pos (by simpa using hk), List.lookup_cons, List.lookup_cons, ih]

theorem made_ok {w : World F} {s} (hw : Ok w s) (c : Class F) (DEF : Text) : Ok (made w c DEF) (if DEF = [] then s else DEF :: s) := by
  unfold made
  split
  · refine ⟨hw.names, hw.noempty, fun i => ?_, hw.protos⟩
    simp only [World.alloc]
    split
    · rfl
    · exact hw.inst i
  · next hd =>
    have h0 : (w.scene 0).defs.lookup [] = none := by
      have := hw.names []
      rw [World.getDEF] at this
      cases h : (w.scene 0).defs.lookup [] with
      | none => rfl
      | some i => exact absurd (this.1 (by simp [World.view, Scene.getDEF, h])) hw.noempty
    refine ⟨fun nm => ?_, ?_, fun i => ?_, ?_⟩
    · have hcur : ((w.alloc c none).view 0 none).defOf w.next = [] := by simp [Scene.defOf, World.view, World.alloc]
      have hs : (w.alloc c none).scene = w.scene := rfl
      have : ((w.alloc c none).regDef 0 DEF w.next).getDEF 0 nm = if nm = DEF then some w.next else w.getDEF 0 nm := by
        simp only [World.getDEF, Scene.getDEF, World.regDef, Scene.regDefName, hcur]
        simp only [World.view, upd, if_true, hs, h0]
        by_cases h : nm = DEF
        · simp [List.lookup_cons, h]
        · have hb : (nm == DEF) = false := by simpa using h
          simp only [List.lookup_cons, hb, if_neg h]
          exact lookup_filter h
      rw [this]
      by_cases h : nm = DEF
      · simp [h]
      · simp [h, hw.names]
    · simp only [List.mem_cons, not_or]
      exact ⟨fun h => hd h.symm, hw.noempty⟩
    · simp only [World.regDef, World.alloc]
      split
      · rfl
      · exact hw.inst i
    · simp [World.regDef, World.alloc, upd, hw.protos]

theorem setField_ok {w : World F} {s} (hw : Ok w s) (i f v) : Ok (w.setField i f v) s := ⟨hw.names, hw.noempty, hw.inst, hw.protos⟩
theorem setField_stay (w : World F) (i f) (v : Val F) : Stay w (w.setField i f v) := by
  refine ⟨le_rfl, fun j hj => ?_⟩
  simp only [clsAt, World.setField]
  split
  · next h => subst h; cases w.heap j <;> rfl
  · rfl

theorem setClass_ok {w : World F} {s} (hw : Ok w s) (i c) : Ok (w.setClass i c) s := ⟨hw.names, hw.noempty, hw.inst, hw.protos⟩

theorem children_ok {w : World F} {s} (hw : Ok w s) (f : List Nat → List Nat) : Ok { w with scene := upd w.scene 0 (fun o => { o with children := f o.children }) } s := by
  refine ⟨fun nm => ?_, hw.noempty, hw.inst, ?_⟩
  · rw [← hw.names]; simp [World.getDEF, World.view, Scene.getDEF, upd]
  · simp [upd, hw.protos]

theorem addRoute_ok {w : World F} {s} (hw : Ok w s) (r : Rt) : Ok (w.addRoute 0 r) s := by
  have hsc : ∀ a b c d, (w.bind a b c d).scene = w.scene ∧ (w.bind a b c d).inst = w.inst := by
    intro a b c d; unfold World.bind; split <;> exact ⟨rfl, rfl⟩
  refine ⟨fun nm => ?_, hw.noempty, fun i => ?_, ?_⟩
  · rw [← hw.names]; simp [World.addRoute, World.getDEF, World.view, Scene.getDEF, upd, (hsc _ _ _ _).1]
  · simp [World.addRoute, (hsc _ _ _ _).2, hw.inst]
  · simp [World.addRoute, upd, (hsc _ _ _ _).1, hw.protos]

theorem addRoute_stay (w : World F) (r : Rt) : Stay w (w.addRoute 0 r) := by
  have h : ∀ a b c d, (w.bind a b c d).heap = w.heap ∧ (w.bind a b c d).next = w.next := by
    intro a b c d; unfold World.bind; split <;> exact ⟨rfl, rfl⟩
  refine ⟨by simp [World.addRoute, (h _ _ _ _).2], fun j _ => by simp [World.addRoute, clsAt, (h _ _ _ _).1]⟩

/-! ### Fields and events of types -/

theorem resolveName_conv {α β : Type} (f : α → β) (k : Text → Option α) (k' : Text → Option β) (h : ∀ nm, k' nm = (k nm).map f) :
    ∀ (N : Nat) (nm : Text), nm.length < N → resolveName k' nm = (resolveName k nm).map f
  | 0, nm, hn => by omega
  | N + 1, nm, hn => by
    rw [resolveName.eq_def k', resolveName.eq_def k, h nm]
    cases hk : k nm with
    | some a => rfl
    | none =>
      simp only [Option.map_none]
      split
      · next h1 =>
        obtain ⟨t, rfl⟩ := List.isPrefixOf_iff_prefix.mp h1
        exact resolveName_conv f k k' h N _ (by simp at hn ⊢; omega)
      · split
        · next h1 =>
          obtain ⟨t, rfl⟩ := List.isSuffixOf_iff_suffix.mp h1
          exact resolveName_conv f k k' h N _ (by simp at hn ⊢; omega)
        · rfl

theorem classPorts_eq (c : Class F) (nm : Text) : resolveName (classPorts c) nm = (c.getField nm).map portKind :=
  resolveName_conv _ _ _ (fun _ => rfl) _ nm (Nat.lt_succ_self _)

theorem resolveName_congr {α : Type} {k k' : Text → Option α} (h : ∀ x, k x = k' x) (nm : Text) : resolveName k nm = resolveName k' nm := by
  rw [show k = k' from funext h]

/-- what a declaration says about a name -/
def over (fl : Floats F) : Option Written → Option (PortKind F) → Option (PortKind F)
  | none, b => b
  | some (.field _ ty _ _), _ => (fl.types.field ty).map (fun ft => .field ft.kind ft.conv)
  | some (.event _ _ _), _ => some .event

theorem over_or (a b : Option Written) (c : Option (PortKind F)) : over fl (a.or b) c = over fl a (over fl b c) := by
  cases a with
  | none => rfl
  | some a => cases a <;> rfl

theorem scriptPorts_eq (items : List PTree) (x : Text) : scriptPorts fl items x = over fl (lastItem items x) (classPorts (scriptProto : ProtoDef F).cls x) := by
  unfold scriptPorts over
  rcases lastItem items x with _ | ⟨⟩ | ⟨⟩ <;> rfl

theorem find_filter_ne {α : Type} (l : List α) (g : α → Text) {n x : Text} (h : x ≠ n) : (l.filter (fun a => g a != n)).find? (fun a => g a == x) = l.find? (fun a => g a == x) := by
  induction l with
  | nil => rfl
  | cons a l ih =>
    by_cases ha : g a = n
    · have h1 : (g a == x) = false := by simp [ha, Ne.symm h]
      rw [List.filter_cons, if_neg (by simp [ha]), ih, List.find?_cons, h1]
    · rw [List.filter_cons, if_pos (by simpa using ha), List.find?_cons, List.find?_cons, ih]

theorem find_filter_eq {α : Type} (l : List α) (g : α → Text) (n : Text) : (l.filter (fun a => g a != n)).find? (fun a => g a == n) = none := by
  simp

theorem classPorts_proto (p : ProtoDef F) (x : Text) : classPorts p.cls x =
    match p.events.find? (fun e => e.name == x) with
    | some _ => some .event
    | none => (p.fields.find? (fun g => g.decl.name == x)).map (fun g => .field g.decl.kind g.decl.conv) := by
  simp only [classPorts, Class.port, ProtoDef.cls]
  cases p.events.find? (fun e => e.name == x) with
  | some e => rfl
  | none =>
    simp only [List.find?_map, Option.map_map]
    rfl

theorem addField_ports (p : ProtoDef F) (f : PField F) (x : Text) :
    classPorts (p.addField f).cls x = if f.decl.name = x then some (.field f.decl.kind f.decl.conv) else classPorts p.cls x := by
  rw [classPorts_proto, classPorts_proto]
  simp only [ProtoDef.addField]
  by_cases h : f.decl.name = x
  · subst h
    rw [find_filter_eq p.events EventDecl.name, List.find?_append, find_filter_eq p.fields (fun g => g.decl.name)]
    simp
  · rw [find_filter_ne p.events EventDecl.name (Ne.symm h), List.find?_append, find_filter_ne p.fields (fun g => g.decl.name) (Ne.symm h)]
    simp [h]

theorem addEvent_ports (p : ProtoDef F) (e : EventDecl) (x : Text) :
    classPorts (p.addEvent e).cls x = if e.name = x then some .event else classPorts p.cls x := by
  rw [classPorts_proto, classPorts_proto]
  simp only [ProtoDef.addEvent]
  by_cases h : e.name = x
  · subst h
    rw [List.find?_append, find_filter_eq p.events EventDecl.name]
    simp
  · rw [List.find?_append, find_filter_ne p.events EventDecl.name (Ne.symm h), find_filter_ne p.fields (fun g => g.decl.name) (Ne.symm h)]
    simp [h]

end Verif.Full
