import Verif.Model.FullRead
import Verif.Lemmas.Reader
/-!
The store while a file is read: invariants of the single steps.
-/
namespace Verif.Full
open Verif.Peg Verif.Grammar Verif.TextOut Verif.SceneText Verif.Reader
open Verif.Lin hiding disp dispList dispDecls dispAttrs disp_node disp_attr
variable {F : Type}

theorem refsOf_eq (v : Val F) : refsOf v = v.nodes := by cases v with | ref o => cases o <;> rfl | _ => rfl

theorem foldlM_inv {α β : Type} {f : β → α → Option β} {P : β → Prop} : ∀ {l : List α} {a b : β}, (∀ x ∈ l, ∀ a b, P a → f a x = some b → P b) →
    P a → l.foldlM f a = some b → P b
  | [], a, b, _, ha, hf => by cases hf; exact ha
  | x :: l, a, b, h, ha, hf => by
    rw [List.foldlM_cons] at hf
    cases hx : f a x with
    | none => rw [hx] at hf; cases hf
    | some a' =>
      rw [hx] at hf
      exact foldlM_inv (fun y hy => h y (by simp [hy])) (h x (by simp) a a' ha hx) hf

/-! ### What stays -/

/-- Nothing changes but stored values and connections. -/
structure Quiet (w w' : World F) : Prop where
  scene : w'.scene = w.scene
  next : w'.next = w.next
  nscenes : w'.nscenes = w.nscenes
  cls : w'.cls = w.cls
  nclasses : w'.nclasses = w.nclasses
  inst : w'.inst = w.inst
  node : ∀ i, (w'.heap i).map (fun n => (n.cls, n.DEF)) = (w.heap i).map (fun n => (n.cls, n.DEF))

theorem Quiet.refl (w : World F) : Quiet w w := ⟨rfl, rfl, rfl, rfl, rfl, rfl, fun _ => rfl⟩
theorem Quiet.trans {a b c : World F} (h : Quiet a b) (h' : Quiet b c) : Quiet a c :=
  ⟨h'.scene.trans h.scene, h'.next.trans h.next, h'.nscenes.trans h.nscenes, h'.cls.trans h.cls, h'.nclasses.trans h.nclasses,
    h'.inst.trans h.inst, fun i => (h'.node i).trans (h.node i)⟩

theorem setField_quiet (w : World F) (i : Nat) (f : Text) (v : Val F) : Quiet w (w.setField i f v) := by
  refine ⟨rfl, rfl, rfl, rfl, rfl, rfl, fun j => ?_⟩
  simp only [World.setField]
  split
  · subst_vars; cases w.heap j <;> rfl
  · rfl

theorem bind_quiet (w : World F) (i : Nat) (f : Text) (d : Nat) (g : Text) : Quiet w (w.bind i f d g) := by
  unfold World.bind
  split <;> exact ⟨rfl, rfl, rfl, rfl, rfl, rfl, fun _ => rfl⟩

theorem fits_type {k : Kind} {u : Val F} (h : fitsKind k u = true) : HasType k u := by
  cases k <;> cases u <;> simp_all [fitsKind, HasType]

theorem take_spec {w : World F} {d : FieldDecl F} {v : Option (Val F)} {u : Val F} (h : w.take d v = some (some u)) :
    HasType d.kind u ∧ ∀ j ∈ u.nodes, ∃ v', v = some v' ∧ j ∈ v'.nodes := by
  unfold World.take at h
  split at h
  · next x hx =>
    cases h
    obtain ⟨v', rfl, hc⟩ := Option.bind_eq_some_iff.1 hx
    exact ⟨coerce_type hc, fun j hj => ⟨v', rfl, coerce_nodes hc j hj⟩⟩
  · split at h
    · split at h
      · next hc =>
        cases h
        simp only [Bool.and_eq_true, List.all_eq_true] at hc
        refine ⟨fits_type hc.1, fun j hj => ?_⟩
        have := hc.2 j (by rw [refsOf_eq]; exact hj)
        cases v with
        | none => simp at this
        | some v' => exact ⟨v', rfl, by simpa [refsOf_eq] using this⟩
      · cases h
    · next hn =>
      rw [h] at hn
      exact absurd rfl (hn u)

/-- What holds of the store before forwarding holds after it, if storing values preserves it.  `E` are the places values are forwarded to, `Q`
the values forwarded. -/
theorem forward_keeps {P : World F → Prop} {Q : Option (Val F) → Prop} {E : Nat → Text → Prop} (hN : Q none)
    (hE : ∀ w, P w → ∀ x ∈ w.wires, E x.dst x.dstField)
    (hset : ∀ w i f d v u, P w → E i f → Q v → (w.heap i).bind (fun n => n.cls.getField f) = some (.inl d) → w.take d v = some (some u) →
      P (w.setField i d.name u) ∧ Q (some u)) :
    ∀ (fuel : Nat) (vis : List (Nat × Text)) (w : World F) (i : Nat) (f : Text) (v : Option (Val F)) (r : List (Nat × Text) × World F),
      P w → E i f → Q v → forward fuel vis w i f v = some r → P r.2
  | 0, _, _, _, _, _, _, _, _, _, h => by cases h
  | fuel + 1, vis, w, i, f, v, r, hw, he, hv, h => by
    have hout : ∀ g, ∀ x ∈ w.out i g, E x.dst x.dstField := fun g x hx => hE w hw x (List.mem_filter.1 hx).1
    simp only [forward] at h
    split at h
    · cases h
    · next d hd =>
      split at h
      · cases h; exact hw
      · split at h
        · cases h
        · next u hu =>
          cases u with
          | none =>
            refine foldlM_inv (P := fun p : List (Nat × Text) × World F => P p.2) (fun x hx a b ha hb => ?_) hw h
            exact forward_keeps hN hE hset fuel _ _ _ _ _ _ ha (hout _ x hx) hv hb
          | some u =>
            obtain ⟨h1, h2⟩ := hset w i f d v u hw he hv hd hu
            refine foldlM_inv (P := fun p : List (Nat × Text) × World F => P p.2) (fun x hx a b ha hb => ?_) h1 h
            exact forward_keeps hN hE hset fuel _ _ _ _ _ _ ha (hout _ x hx) h2 hb
    · next e hd =>
      split at h
      · cases h; exact hw
      · split at h
        · cases h
        · next w' hw' =>
          have h1 : P w' := by
            refine foldlM_inv (P := P) (fun x hx a b ha hb => ?_) hw hw'
            obtain ⟨r, hr, rfl⟩ := Option.map_eq_some_iff.1 hb
            exact forward_keeps hN hE hset fuel _ _ _ _ _ _ ha (hout _ x hx) hv hr
          refine foldlM_inv (P := fun p : List (Nat × Text) × World F => P p.2) (fun x hx a b ha hb => ?_) h1 h
          exact forward_keeps hN hE hset fuel _ _ _ _ _ _ ha (hout _ x hx) hN hb

theorem forward_quiet (fuel : Nat) (vis : List (Nat × Text)) (w : World F) (i : Nat) (f : Text) (v : Option (Val F)) (r : List (Nat × Text) × World F)
    (h : forward fuel vis w i f v = some r) : Quiet w r.2 :=
  forward_keeps (P := Quiet w) (Q := fun _ => True) (E := fun _ _ => True) trivial (fun _ _ _ _ => trivial)
    (fun w' i f d v u hw _ _ _ _ => ⟨hw.trans (setField_quiet _ _ _ _), trivial⟩) fuel vis w i f v r (.refl w) trivial trivial h

theorem setAttr_quiet {w w' : World F} {i d v} (h : w.setAttr i d v = some w') : Quiet w w' := by
  unfold World.setAttr at h
  split at h
  · cases h
  · next u hu =>
    simp only at h
    split at h
    · refine foldlM_inv (P := fun p : World F => Quiet w p) (fun x _ a b ha hb => ?_) (setField_quiet _ _ _ _) h
      obtain ⟨r, hr, rfl⟩ := Option.map_eq_some_iff.1 hb
      exact ha.trans (forward_quiet _ _ _ _ _ _ _ hr)
    · cases h; exact setField_quiet _ _ _ _

theorem bindAll_quiet (i : Nat) (nm : Text) : ∀ (l : List (Nat × Text)) (w : World F),
    Quiet w (l.foldl (fun w x => (w.bind i nm x.1 x.2).bind x.1 x.2 i nm) w)
  | [], w => .refl w
  | x :: l, w => ((bind_quiet _ _ _ _ _).trans (bind_quiet _ _ _ _ _)).trans (bindAll_quiet i nm l _)

theorem bindIs_quiet {w w' : World F} {i c e} (h : w.bindIs i c e = some w') : Quiet w w' := by
  unfold World.bindIs at h
  split at h
  · cases h
  · simp only at h
    have hq := bindAll_quiet i e.1 e.2 w
    split at h
    · split at h
      · cases h
      · split at h
        · cases h; exact hq.trans (setField_quiet _ _ _ _)
        · cases h
      · cases h; exact hq
    · cases h; exact hq

/-! ### The invariant -/

/-- Everything refers to things that exist; stored values have the types of their fields. -/
structure Inv (base : Text → Option (Class F)) (w : World F) (ps : List Nat) : Prop where
  ids : ∀ i, (w.heap i).isSome ↔ i < w.next
  value : ∀ i n f v, w.heap i = some n → n.dict f = some v → ∀ j ∈ v.nodes, j < w.next
  typed : ∀ i n f v, w.heap i = some n → n.cls.proto ≠ scriptName → n.dict f = some v → ∃ d ∈ n.cls.fields, d.name = f ∧ HasType d.kind v
  dflts : ∀ i n, w.heap i = some n → ∀ d ∈ n.cls.fields, ∀ j ∈ d.dfltNodes, j < w.next
  decls : ∀ c, ∀ f ∈ (w.cls c).decl.fields, ∀ j ∈ f.decl.dfltNodes, j < w.next
  table : ∀ s nm i, (w.scene s).defs.lookup nm = some i → nm ≠ [] ∧ ∃ n, w.heap i = some n ∧ n.DEF = nm
  protos : ∀ s nm c, (nm, c) ∈ (w.scene s).protos → c < w.nclasses ∧ c ∉ ps ∧ (w.cls c).decl.name = nm
  stack : ∀ c ∈ ps, c < w.nclasses
  wires : ∀ x ∈ w.wires, x.src < w.next ∧ x.dst < w.next
  is : ∀ c, ∀ e ∈ (w.cls c).is, ∀ x ∈ e.2, x.1 < w.next
  children : ∀ s, ∀ i ∈ (w.scene s).children, i < w.next
  routes : ∀ s, ∀ r ∈ (w.scene s).routes, r.src < w.next ∧ r.dst < w.next
  body : ∀ c s, (w.cls c).body = some s → s < w.nscenes
  inst : ∀ i k, w.inst i = some k → k < w.nclasses ∧ k ∉ ps ∧ ∃ n, w.heap i = some n ∧ n.cls = (w.cls k).cls
  built : ∀ i n, w.heap i = some n → w.inst i = none → (∃ t, base t = some n.cls) ∨ n.cls.proto = scriptName

variable {base : Text → Option (Class F)}

theorem Inv.setField {w : World F} {ps : List Nat} (h : Inv base w ps) {i n} {d : FieldDecl F} {u : Val F} (hn : w.heap i = some n)
    (hd : d ∈ n.cls.fields ∨ n.cls.proto = scriptName) (ht : HasType d.kind u) (hu : ∀ j ∈ u.nodes, j < w.next) : Inv base (w.setField i d.name u) ps := by
  have hget : ∀ j m', (w.setField i d.name u).heap j = some m' → ∃ m, w.heap j = some m ∧ m'.cls = m.cls ∧ m'.DEF = m.DEF ∧
      ∀ f v, m'.dict f = some v → m.dict f = some v ∨ (j = i ∧ f = d.name ∧ v = u) := by
    intro j m' hm
    simp only [World.setField] at hm
    split at hm
    · subst_vars
      rw [hn] at hm; cases hm
      refine ⟨n, hn, rfl, rfl, fun f v hv => ?_⟩
      simp only [Node.set] at hv
      split at hv
      · cases hv; exact .inr ⟨rfl, ‹_›, rfl⟩
      · exact .inl hv
    · exact ⟨m', hm, rfl, rfl, fun f v hv => .inl hv⟩
  have hfwd : ∀ j m, w.heap j = some m → ∃ m', (w.setField i d.name u).heap j = some m' ∧ m'.cls = m.cls ∧ m'.DEF = m.DEF := by
    intro j m hm
    simp only [World.setField]
    split
    · subst_vars; rw [hm]; exact ⟨_, rfl, rfl, rfl⟩
    · exact ⟨m, hm, rfl, rfl⟩
  refine { h with ids := ?_, value := ?_, typed := ?_, dflts := ?_, table := ?_, inst := ?_, built := ?_ }
  · intro j
    rw [← show (w.setField i d.name u).next = w.next from rfl] at *
    have := (setField_quiet w i d.name u).node j
    have h2 : ((w.setField i d.name u).heap j).isSome = (w.heap j).isSome := by
      have := congrArg Option.isSome this; simpa using this
    rw [h2]; exact h.ids j
  · intro j m' f v hm hv k hk
    obtain ⟨m, h1, h2, h3, h4⟩ := hget j m' hm
    rcases h4 f v hv with h4 | ⟨-, -, rfl⟩
    · exact h.value j m f v h1 h4 k hk
    · exact hu k hk
  · intro j m' f v hm hs hv
    obtain ⟨m, h1, h2, h3, h4⟩ := hget j m' hm
    rw [h2] at hs ⊢
    rcases h4 f v hv with h4 | ⟨rfl, rfl, rfl⟩
    · exact h.typed j m f v h1 hs h4
    · rw [hn] at h1; cases h1
      rcases hd with hd | hd
      · exact ⟨d, hd, rfl, ht⟩
      · exact absurd hd hs
  · intro j m' hm
    obtain ⟨m, h1, h2, -⟩ := hget j m' hm
    rw [h2]; exact h.dflts j m h1
  · intro s nm j hj
    obtain ⟨h0, m, h1, h2⟩ := h.table s nm j hj
    obtain ⟨m', h3, h4, h5⟩ := hfwd j m h1
    exact ⟨h0, m', h3, h5.trans h2⟩
  · intro j k hk
    obtain ⟨h1, h2, m, h3, h4⟩ := h.inst j k hk
    obtain ⟨m', h5, h6, h7⟩ := hfwd j m h3
    exact ⟨h1, h2, m', h5, h6.trans h4⟩
  · intro j m' hm hi
    obtain ⟨m, h1, h2, -⟩ := hget j m' hm
    rw [h2]; exact h.built j m h1 hi

theorem Inv.bind {w : World F} {ps : List Nat} (h : Inv base w ps) {i f d g} (hd : d < w.next) : Inv base (w.bind i f d g) ps := by
  unfold World.bind
  cases hb : (w.heap i).bind (fun n => n.cls.getField f) with
  | none => exact h
  | some p =>
    have hi : i < w.next := by
      rw [← h.ids]
      cases hh : w.heap i with
      | none => rw [hh] at hb; cases hb
      | some n => rfl
    cases p <;>
    · refine { h with wires := fun x hx => ?_ }
      rcases List.mem_append.1 hx with hx | hx
      · exact h.wires x hx
      · simp at hx; subst hx; exact ⟨hi, hd⟩

theorem Inv.alloc {w : World F} {ps : List Nat} (h : Inv base w ps) {c : Class F} {k : Option Nat} (hc : ∀ d ∈ c.fields, ∀ j ∈ d.dfltNodes, j < w.next)
    (hk : ∀ k', k = some k' → k' < w.nclasses ∧ k' ∉ ps ∧ c = (w.cls k').cls) (hb : k = none → (∃ t, base t = some c) ∨ c.proto = scriptName) :
    Inv base (w.alloc c k) ps := by
  have hnone : w.heap w.next = none := by
    cases hh : w.heap w.next with
    | none => rfl
    | some n => have := (h.ids w.next).1 (by rw [hh]; rfl); omega
  have hold : ∀ i n, w.heap i = some n → (w.alloc c k).heap i = some n ∧ i ≠ w.next := by
    intro i n hn
    have : i ≠ w.next := by rintro rfl; rw [hnone] at hn; cases hn
    exact ⟨by simp only [World.alloc, if_neg this]; exact hn, this⟩
  have hinv : ∀ i n, (w.alloc c k).heap i = some n → (i = w.next ∧ n = ⟨c, [], fun _ => none⟩) ∨ (i ≠ w.next ∧ w.heap i = some n) := by
    intro i n hn
    simp only [World.alloc] at hn
    split at hn
    · cases hn; exact .inl ⟨‹_›, rfl⟩
    · exact .inr ⟨‹_›, hn⟩
  have hlt : ∀ {j}, j < w.next → j < (w.alloc c k).next := fun h => Nat.lt_succ_of_lt h
  refine ⟨?_, ?_, ?_, ?_, ?_, ?_, h.protos, h.stack, ?_, ?_, ?_, ?_, h.body, ?_, ?_⟩
  · intro i
    simp only [World.alloc]
    split
    · subst_vars; simp
    · rw [h.ids]; omega
  · intro i n f v hn hv j hj
    rcases hinv i n hn with ⟨-, rfl⟩ | ⟨-, hn⟩
    · cases hv
    · exact hlt (h.value i n f v hn hv j hj)
  · intro i n f v hn hs hv
    rcases hinv i n hn with ⟨-, rfl⟩ | ⟨-, hn⟩
    · cases hv
    · exact h.typed i n f v hn hs hv
  · intro i n hn d hd j hj
    rcases hinv i n hn with ⟨-, rfl⟩ | ⟨-, hn⟩
    · exact hlt (hc d hd j hj)
    · exact hlt (h.dflts i n hn d hd j hj)
  · exact fun c f hf j hj => hlt (h.decls c f hf j hj)
  · intro s nm i hi
    obtain ⟨h0, n, h1, h2⟩ := h.table s nm i hi
    exact ⟨h0, n, (hold i n h1).1, h2⟩
  · exact fun x hx => ⟨hlt (h.wires x hx).1, hlt (h.wires x hx).2⟩
  · exact fun c e he x hx => hlt (h.is c e he x hx)
  · exact fun s i hi => hlt (h.children s i hi)
  · exact fun s r hr => ⟨hlt (h.routes s r hr).1, hlt (h.routes s r hr).2⟩
  · intro i k' hk'
    simp only [World.alloc] at hk'
    split at hk'
    · subst_vars
      obtain ⟨h1, h2, h3⟩ := hk k' rfl
      exact ⟨h1, h2, _, by simp only [World.alloc, if_true]; rfl, h3⟩
    · obtain ⟨h1, h2, n, h3, h4⟩ := h.inst i k' hk'
      exact ⟨h1, h2, n, (hold i n h3).1, h4⟩
  · intro i n hn hi
    rcases hinv i n hn with ⟨rfl, rfl⟩ | ⟨hne, hn⟩
    · simp only [World.alloc, if_true] at hi
      exact hb hi
    · simp only [World.alloc, if_neg hne] at hi
      exact h.built i n hn hi

theorem regDef_node (w : World F) (s : Nat) (nm : Text) (i j : Nat) : (w.regDef s nm i).heap j = if j = i then (w.heap i).map (fun n => { n with DEF := nm }) else w.heap j := rfl

theorem regDef_scene (w : World F) (s : Nat) (nm : Text) (i t : Nat) : ((w.regDef s nm i).scene t).protos = (w.scene t).protos ∧
    ((w.regDef s nm i).scene t).children = (w.scene t).children ∧ ((w.regDef s nm i).scene t).routes = (w.scene t).routes ∧
    ((w.regDef s nm i).scene t).outer = (w.scene t).outer := by
  simp only [World.regDef, upd]
  split
  · subst_vars; exact ⟨rfl, rfl, rfl, rfl⟩
  · exact ⟨rfl, rfl, rfl, rfl⟩

/-- the DEF tables after a name was registered -/
theorem regDef_defs {w : World F} {s : Nat} {nm : Text} {i : Nat} {n : Node F} (hn : w.heap i = some n) (hnm : n.DEF = [] ∨ n.DEF = nm)
    (h0 : (w.scene s).defs.lookup [] = none) (t : Nat) (e : Text) :
    ((w.regDef s nm i).scene t).defs.lookup e = if t = s ∧ e = nm then some i else (w.scene t).defs.lookup e := by
  simp only [World.regDef, upd]
  by_cases ht : t = s
  · subst ht
    simp only [if_true, true_and]
    by_cases he : e = nm
    · subst he
      rw [if_pos rfl]
      exact reg_self _ _ _
    · rw [if_neg he]
      have hd : (w.view t none).defOf i = n.DEF := by simp [Scene.defOf, World.view, hn]
      by_cases hne : e = n.DEF
      · rcases hnm with h | h
        · rw [h] at hne; subst hne
          have : ((w.view t none).regDefName nm i).defs = (nm, i) :: (w.scene t).defs.filter (fun p => p.1 != nm) := by
            simp only [Scene.regDefName, hd, h]
            simp only [World.view, h0, reduceCtorEq, if_false]
          rw [this]
          have h1 : ([] == nm) = false := by simpa using he
          simp only [List.lookup_cons, h1, lookup_filter, if_neg he]
        · exact absurd (hne.trans h) he
      · have := reg_lookup (w.view t none) nm e i he (by rw [hd]; exact hne)
        exact this
  · simp only [ht, if_false, false_and]

theorem Inv.noEmpty {w : World F} {ps : List Nat} (h : Inv base w ps) (s : Nat) : (w.scene s).defs.lookup [] = none := by
  cases hl : (w.scene s).defs.lookup [] with
  | none => rfl
  | some i => exact absurd rfl (h.table s [] i hl).1

theorem Inv.regDef {w : World F} {ps : List Nat} (h : Inv base w ps) {s nm i n} (hn : w.heap i = some n) (hnm : n.DEF = [] ∨ n.DEF = nm) (hne : nm ≠ []) :
    Inv base (w.regDef s nm i) ps := by
  have hget : ∀ j m', (w.regDef s nm i).heap j = some m' → ∃ m, w.heap j = some m ∧ m'.cls = m.cls ∧ m'.dict = m.dict := by
    intro j m' hm
    rw [regDef_node] at hm
    split at hm
    · subst_vars; rw [hn] at hm; cases hm; exact ⟨n, hn, rfl, rfl⟩
    · exact ⟨m', hm, rfl, rfl⟩
  have hfwd : ∀ j m, w.heap j = some m → ∃ m', (w.regDef s nm i).heap j = some m' ∧ m'.cls = m.cls ∧ (m'.DEF = m.DEF ∨ (j = i ∧ m'.DEF = nm)) := by
    intro j m hm
    rw [regDef_node]
    split
    · subst_vars; rw [hn] at hm ⊢; cases hm; exact ⟨_, rfl, rfl, .inr ⟨rfl, rfl⟩⟩
    · exact ⟨m, hm, rfl, .inl rfl⟩
  refine ⟨?_, ?_, ?_, ?_, h.decls, ?_, ?_, h.stack, h.wires, h.is, ?_, ?_, h.body, ?_, ?_⟩
  · intro j
    rw [regDef_node]
    split
    · subst_vars
      have := h.ids j
      rw [hn] at this ⊢
      change _ ↔ j < w.next
      simpa using this
    · exact h.ids j
  · intro j m' f v hm hv
    obtain ⟨m, h1, h2, h3⟩ := hget j m' hm
    exact h.value j m f v h1 (h3 ▸ hv)
  · intro j m' f v hm hs hv
    obtain ⟨m, h1, h2, h3⟩ := hget j m' hm
    rw [h2] at hs ⊢
    exact h.typed j m f v h1 hs (h3 ▸ hv)
  · intro j m' hm
    obtain ⟨m, h1, h2, -⟩ := hget j m' hm
    rw [h2]; exact h.dflts j m h1
  · intro t e j hj
    rw [regDef_defs hn hnm (h.noEmpty s)] at hj
    split at hj
    · rename_i hc
      cases hj
      rw [hc.2]
      exact ⟨hne, _, by rw [regDef_node, if_pos rfl, hn]; rfl, rfl⟩
    · obtain ⟨h0, m, h1, h2⟩ := h.table t e j hj
      obtain ⟨m', h3, h4, h5⟩ := hfwd j m h1
      rcases h5 with h5 | ⟨rfl, h5⟩
      · exact ⟨h0, m', h3, h5.trans h2⟩
      · rw [hn] at h1; cases h1
        rcases hnm with h6 | h6
        · exact absurd (h2.symm.trans h6) h0
        · exact ⟨h0, m', h3, by rw [h5, ← h2, h6]⟩
  · intro t e c hc
    rw [(regDef_scene w s nm i t).1] at hc
    exact h.protos t e c hc
  · intro t j hj
    rw [(regDef_scene w s nm i t).2.1] at hj
    exact h.children t j hj
  · intro t r hr
    rw [(regDef_scene w s nm i t).2.2.1] at hr
    exact h.routes t r hr
  · intro j k hk
    obtain ⟨h1, h2, m, h3, h4⟩ := h.inst j k hk
    obtain ⟨m', h5, h6, -⟩ := hfwd j m h3
    exact ⟨h1, h2, m', h5, h6.trans h4⟩
  · intro j m' hm hi
    obtain ⟨m, h1, h2, -⟩ := hget j m' hm
    rw [h2]; exact h.built j m h1 hi

/-- a field found by name belongs to the node -/
theorem port_mem {w : World F} {i f} {d : FieldDecl F} (h : (w.heap i).bind (fun n => n.cls.getField f) = some (.inl d)) :
    ∃ n, w.heap i = some n ∧ n.cls.getField f = some (.inl d) ∧ d ∈ n.cls.fields := by
  cases hh : w.heap i with
  | none => rw [hh] at h; cases h
  | some n => rw [hh] at h; exact ⟨n, rfl, h, getField_mem h⟩

theorem forward_inv {ps : List Nat} (fuel : Nat) (vis : List (Nat × Text)) (w : World F) (i : Nat) (f : Text) (v : Option (Val F)) (r : List (Nat × Text) × World F)
    (hw : Inv base w ps) (hv : ∀ v', v = some v' → ∀ j ∈ v'.nodes, j < w.next) (h : forward fuel vis w i f v = some r) : Inv base r.2 ps := by
  refine (forward_keeps (P := fun w' => Inv base w' ps ∧ w'.next = w.next) (Q := fun v => ∀ v', v = some v' → ∀ j ∈ v'.nodes, j < w.next) (E := fun _ _ => True)
    (fun _ h => by cases h) (fun _ _ _ _ => trivial) (fun w' i f d v u hw _ hv hd hu => ?_) fuel vis w i f v r ⟨hw, rfl⟩ trivial hv h).1
  obtain ⟨n, hn, -, hm⟩ := port_mem hd
  obtain ⟨ht, hu⟩ := take_spec hu
  have hun : ∀ j ∈ u.nodes, j < w.next := fun j hj => by
    obtain ⟨v', h1, h2⟩ := hu j hj
    exact hv v' h1 j h2
  exact ⟨⟨hw.1.setField hn (.inl hm) ht (by rw [hw.2]; exact hun), hw.2⟩, fun v' h => by cases h; exact hun⟩

theorem Inv.setAttr {w w' : World F} {ps : List Nat} (hw : Inv base w ps) {i n d v} (hn : w.heap i = some n) (hm : d ∈ n.cls.fields ∨ n.cls.proto = scriptName)
    (hv : ∀ j ∈ v.nodes, j < w.next) (h : w.setAttr i d v = some w') : Inv base w' ps := by
  unfold World.setAttr at h
  split at h
  · cases h
  · next u hu =>
    have hun : ∀ j ∈ u.nodes, j < w.next := fun j hj => hv j (coerce_nodes hu j hj)
    have h1 := hw.setField hn hm (coerce_type hu) hun
    simp only at h
    split at h
    · refine (foldlM_inv (P := fun p : World F => Inv base p ps ∧ p.next = w.next) (fun x _ a b ha hb => ?_) ⟨h1, rfl⟩ h).1
      obtain ⟨r, hr, rfl⟩ := Option.map_eq_some_iff.1 hb
      exact ⟨forward_inv _ _ _ _ _ _ _ ha.1 (fun v' h => by cases h; rw [ha.2]; exact hun) hr, ((forward_quiet _ _ _ _ _ _ _ hr).next).trans ha.2⟩
    · cases h; exact h1

theorem bindAll_inv {ps : List Nat} (i : Nat) (nm : Text) : ∀ (l : List (Nat × Text)) (w : World F), Inv base w ps → i < w.next → (∀ x ∈ l, x.1 < w.next) →
    Inv base (l.foldl (fun w x => (w.bind i nm x.1 x.2).bind x.1 x.2 i nm) w) ps
  | [], w, hw, _, _ => hw
  | x :: l, w, hw, hi, hl => by
    have h1 : Inv base (w.bind i nm x.1 x.2) ps := hw.bind (hl x (by simp))
    have e1 := (bind_quiet w i nm x.1 x.2).next
    have h2 : Inv base ((w.bind i nm x.1 x.2).bind x.1 x.2 i nm) ps := h1.bind (by rw [e1]; exact hi)
    have e2 := (bind_quiet (w.bind i nm x.1 x.2) x.1 x.2 i nm).next
    refine bindAll_inv i nm l _ h2 (by rw [e2, e1]; exact hi) (fun y hy => ?_)
    rw [e2, e1]; exact hl y (by simp [hy])

theorem Inv.bindIs {w w' : World F} {ps : List Nat} (hw : Inv base w ps) {i} {c : Class F} {e} (hi : i < w.next) (he : ∀ x ∈ e.2, x.1 < w.next)
    (hc : ∀ d ∈ c.fields, ∀ j ∈ d.dfltNodes, j < w.next) (h : w.bindIs i c e = some w') : Inv base w' ps := by
  unfold World.bindIs at h
  split at h
  · cases h
  · next p hp =>
    simp only at h
    have hq := bindAll_quiet i e.1 e.2 w
    have h1 := bindAll_inv i e.1 e.2 w hw hi he
    split at h
    · next d j f hl =>
      split at h
      · cases h
      · next d2 v hd2 hv =>
        split at h
        · next u hu =>
          cases h
          obtain ⟨n, hn, -, hm⟩ := port_mem hd2
          obtain ⟨ht, hu⟩ := take_spec hu
          refine h1.setField hn (.inl hm) ht (fun k hk => ?_)
          rw [hq.next]
          refine hc d (getField_mem hp) k ?_
          rw [FieldDecl.dfltNodes, hv]
          obtain ⟨v', h1, h2⟩ := hu k hk
          cases h1; exact h2
        · cases h
      · cases h; exact h1
    · cases h; exact h1

/-! ### New nodes -/

/-- Only the DEF table of scene graph `s` changes. -/
structure Tabled (s : Nat) (w w' : World F) : Prop where
  heap : w'.heap = w.heap
  next : w'.next = w.next
  nscenes : w'.nscenes = w.nscenes
  cls : w'.cls = w.cls
  nclasses : w'.nclasses = w.nclasses
  inst : w'.inst = w.inst
  wires : w'.wires = w.wires
  other : ∀ t, t ≠ s → w'.scene t = w.scene t
  same : ∀ t, (w'.scene t).protos = (w.scene t).protos ∧ (w'.scene t).children = (w.scene t).children ∧ (w'.scene t).routes = (w.scene t).routes ∧ (w'.scene t).outer = (w.scene t).outer

theorem Tabled.refl (s : Nat) (w : World F) : Tabled s w w := ⟨rfl, rfl, rfl, rfl, rfl, rfl, rfl, fun _ _ => rfl, fun _ => ⟨rfl, rfl, rfl, rfl⟩⟩
theorem Tabled.trans {s : Nat} {a b c : World F} (h : Tabled s a b) (h' : Tabled s b c) : Tabled s a c :=
  ⟨h'.heap.trans h.heap, h'.next.trans h.next, h'.nscenes.trans h.nscenes, h'.cls.trans h.cls, h'.nclasses.trans h.nclasses, h'.inst.trans h.inst,
    h'.wires.trans h.wires, fun t ht => (h'.other t ht).trans (h.other t ht), fun t => ⟨(h'.same t).1.trans (h.same t).1, (h'.same t).2.1.trans (h.same t).2.1,
      (h'.same t).2.2.1.trans (h.same t).2.2.1, (h'.same t).2.2.2.trans (h.same t).2.2.2⟩⟩

theorem regDef_tabled {w : World F} {s nm i n} (hn : w.heap i = some n) (hnm : n.DEF = nm) : Tabled s w (w.regDef s nm i) := by
  refine ⟨?_, rfl, rfl, rfl, rfl, rfl, rfl, fun t ht => ?_, regDef_scene w s nm i⟩
  · funext j
    rw [regDef_node]
    split
    · subst_vars; rw [hn]; rfl
    · rfl
  · simp only [World.regDef, upd, if_neg ht]

theorem rootSet_inv {ps : List Nat} (s : Nat) : ∀ (fuel : Nat) (w w' : World F) (i : Nat), Inv base w ps → rootSet s fuel w i = some w' → Inv base w' ps ∧ Tabled s w w'
  | 0, _, _, _, _, h => by cases h
  | fuel + 1, w, w', i, hw, h => by
    simp only [rootSet] at h
    split at h
    · cases h
    · next n hn =>
      refine foldlM_inv (P := fun p : World F => Inv base p ps ∧ Tabled s w p) (fun x _ a b ha hb => ?_) ?_ h
      · obtain ⟨h1, h2⟩ := rootSet_inv s fuel a b x ha.1 hb
        exact ⟨h1, ha.2.trans h2⟩
      · split
        · exact ⟨hw, .refl _ _⟩
        · exact ⟨hw.regDef hn (.inr rfl) ‹_›, regDef_tabled hn rfl⟩

theorem bindAll_heap (i : Nat) (nm : Text) : ∀ (l : List (Nat × Text)) (w : World F),
    (l.foldl (fun w x => (w.bind i nm x.1 x.2).bind x.1 x.2 i nm) w).heap = w.heap
  | [], w => rfl
  | x :: l, w => by
    have hb : ∀ (w : World F) a b c d, (w.bind a b c d).heap = w.heap := by intro w a b c d; unfold World.bind; split <;> rfl
    exact (bindAll_heap i nm l _).trans ((hb _ _ _ _ _).trans (hb _ _ _ _ _))

theorem bindIs_heap {w w' : World F} {i c e} (h : w.bindIs i c e = some w') {j : Nat} (hj : ∀ x ∈ e.2, x.1 ≠ j) : w'.heap j = w.heap j := by
  unfold World.bindIs at h
  split at h
  · cases h
  · simp only at h
    have hq := bindAll_heap i e.1 e.2 w
    split at h
    · next d0 k f hl hg =>
      split at h
      · cases h
      · split at h
        · cases h
          have : j ≠ k := fun he => hj (k, f) (List.mem_of_getLast? hl) he.symm
          simp only [World.setField, if_neg this, hq]
        · cases h
      · cases h; rw [hq]
    · cases h; rw [hq]

/-- A new node: nothing else changes but stored values, connections and DEF tables. -/
structure New (ss : List Nat) (c : Class F) (k : Option Nat) (DEF : Text) (w w' : World F) : Prop where
  next : w'.next = w.next + 1
  nscenes : w'.nscenes = w.nscenes
  cls : w'.cls = w.cls
  nclasses : w'.nclasses = w.nclasses
  inst : ∀ j, w'.inst j = if j = w.next then k else w.inst j
  node : ∀ j, (w'.heap j).map (fun n => (n.cls, n.DEF)) = if j = w.next then some (c, DEF) else (w.heap j).map (fun n => (n.cls, n.DEF))
  same : ∀ t, (w'.scene t).protos = (w.scene t).protos ∧ (w'.scene t).children = (w.scene t).children ∧ (w'.scene t).routes = (w.scene t).routes ∧ (w'.scene t).outer = (w.scene t).outer
  defs : (∀ d ∈ c.fields, d.dfltNodes = []) → ∀ t e, (w'.scene t).defs.lookup e = if t = ss.headD 0 ∧ e = DEF ∧ DEF ≠ [] then some w.next else (w.scene t).defs.lookup e

theorem nodeRefs_dflt {c : Class F} {DEF : Text} (h : ∀ d ∈ c.fields, d.dfltNodes = []) : nodeRefs (⟨c, DEF, fun _ => none⟩ : Node F) = [] := by
  simp only [nodeRefs, List.flatMap_eq_nil_iff]
  intro d hd
  have := h d hd
  simp only [FieldDecl.read]
  cases hv : d.dflt.value with
  | none => rfl
  | some v =>
    simp only [FieldDecl.dfltNodes, hv, Option.map_some, Option.getD_some] at this
    simp only
    cases hc : coerce d.kind d.conv v with
    | none => rfl
    | some u =>
      simp only [Option.map_some, Option.getD_some, refsOf_eq]
      refine List.eq_nil_iff_forall_not_mem.2 (fun j hj => ?_)
      have := coerce_nodes hc j hj
      simp_all

theorem newNode_inv {w w' : World F} {ps ss : List Nat} (h : Inv base w ps) {c : Class F} {k : Option Nat} {DEF : Text}
    (hc : ∀ d ∈ c.fields, ∀ j ∈ d.dfltNodes, j < w.next)
    (hk : ∀ k', k = some k' → k' < w.nclasses ∧ k' ∉ ps ∧ c = (w.cls k').cls) (hb : k = none → (∃ t, base t = some c) ∨ c.proto = scriptName)
    (hn : w.newNode ss c k DEF = some w') : Inv base w' ps ∧ New ss c k DEF w w' := by
  unfold World.newNode at hn
  simp only at hn
  split at hn
  · cases hn
  · next w1 hw1 =>
    split at hn
    · cases hn
    · next w2 hw2 =>
      have ha := h.alloc hc hk hb
      have his : ∀ e ∈ (match k with | some k => (w.cls k).isMaps | none => []), ∀ x ∈ e.2, x.1 < w.next := by
        intro e he x hx
        cases k with
        | none => cases he
        | some k =>
          simp only [ClassObj.isMaps] at he
          split at he
          · exact h.is k e he x hx
          · cases he
      have h1 := foldlM_inv (P := fun p : World F => Inv base p ps ∧ Quiet (w.alloc c k) p ∧ p.heap w.next = (w.alloc c k).heap w.next) (fun e he a b ha hb => ?_)
        ⟨ha, Quiet.refl _, rfl⟩ hw1
      · obtain ⟨i1, q1, e1⟩ := h1
        obtain ⟨i2, t2⟩ := rootSet_inv _ _ _ _ _ i1 hw2
        have hnew : (w.alloc c k).heap w.next = some ⟨c, [], fun _ => none⟩ := by simp [World.alloc]
        have hnew2 : w2.heap w.next = some ⟨c, [], fun _ => none⟩ := by rw [t2.heap, e1, hnew]
        have hnode2 : ∀ j, (w2.heap j).map (fun n => (n.cls, n.DEF)) = if j = w.next then some (c, []) else (w.heap j).map (fun n => (n.cls, n.DEF)) := by
          intro j
          rw [t2.heap, q1.node]
          simp only [World.alloc]
          split <;> rfl
        have hplain : (∀ d ∈ c.fields, d.dfltNodes = []) → w2 = w1 := by
          intro hp
          simp only [rootSet, e1, hnew, if_true, nodeRefs_dflt hp, List.foldlM_nil] at hw2
          cases hw2; rfl
        have hs1 : ∀ t, w1.scene t = w.scene t := fun t => by rw [q1.scene]; rfl
        split at hn
        · cases hn
          subst_vars
          refine ⟨i2, ?_, ?_, ?_, ?_, ?_, ?_, ?_, ?_⟩
          · rw [t2.next, q1.next]; rfl
          · rw [t2.nscenes, q1.nscenes]; rfl
          · rw [t2.cls, q1.cls]; rfl
          · rw [t2.nclasses, q1.nclasses]; rfl
          · intro j; rw [t2.inst, q1.inst]; rfl
          · exact hnode2
          · intro t; rw [← hs1 t]; exact t2.same t
          · intro hp t e
            rw [hplain hp, hs1, if_neg (by simp)]
        · next hD =>
          cases hn
          refine ⟨i2.regDef hnew2 (.inl rfl) hD, ?_, ?_, ?_, ?_, ?_, ?_, ?_, ?_⟩
          · exact t2.next.trans (q1.next.trans rfl)
          · exact t2.nscenes.trans (q1.nscenes.trans rfl)
          · exact t2.cls.trans (q1.cls.trans rfl)
          · exact t2.nclasses.trans (q1.nclasses.trans rfl)
          · intro j
            have : w2.inst j = (w.alloc c k).inst j := by rw [t2.inst, q1.inst]
            exact this
          · intro j
            rw [regDef_node]
            by_cases hj : j = w.next
            · subst hj; rw [if_pos rfl, if_pos rfl, hnew2]; rfl
            · rw [if_neg hj, hnode2 j, if_neg hj, if_neg hj]
          · intro t
            obtain ⟨a1, a2, a3, a4⟩ := regDef_scene w2 (ss.headD 0) DEF w.next t
            rw [← hs1 t, a1, a2, a3, a4]; exact t2.same t
          · intro hp t e
            rw [regDef_defs hnew2 (.inl rfl) (i2.noEmpty _), hplain hp, hs1]
            simp only [hD, ne_eq, not_false_eq_true, and_true]
      · obtain ⟨i1, q1, e1⟩ := ha
        have hnx : a.next = w.next + 1 := q1.next
        refine ⟨i1.bindIs (by omega) (fun x hx => ?_) (fun d hd j hj => ?_) hb, q1.trans (bindIs_quiet hb), (bindIs_heap hb (fun x hx => ?_)).trans e1⟩
        · have := his e he x hx; omega
        · have := hc d hd j hj; omega
        · have := his e he x hx; omega

end Verif.Full
