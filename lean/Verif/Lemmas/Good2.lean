import Verif.Lemmas.Good
/-!
Files with prototypes that are read: what holds while they are read.
-/
namespace Verif.Full
open Verif.Peg Verif.Grammar Verif.TextOut Verif.SceneText Verif.Reader Verif.Scopes Verif.Shape
open Verif.Lin hiding disp dispList dispDecls dispAttrs disp_node disp_attr
variable {F : Type} {base : Text → Option (Class F)} {fl : Floats F}

/-- The fields and events of a node; those of a Script that is being read are the ones that it will have. -/
def portsAt (pend : Nat → Option (Ports F)) (w : World F) (i : Nat) : Option (Ports F) :=
  match pend i with
  | some p => some p
  | none => (clsAt w i).map classPorts

/-- an entry of the IS mappings -/
def IsEntry (w : World F) (pend : Nat → Option (Ports F)) (P : Ports F) (e : Text × List (Nat × Text)) : Prop :=
  ∃ a, resolveName P e.1 = some a ∧ ∀ x ∈ e.2, pend x.1 = none ∧ ∃ c b, clsAt w x.1 = some c ∧ resolveName (classPorts c) x.2 = some b ∧ alike a b

def FieldFit (d : FieldDecl F) : Prop := ∃ v, d.dflt.value = some v ∧ Fit d.kind v

structure ProtoOK (w : World F) (pend : Nat → Option (Ports F)) (bs : List Nat) (k : Nat) (P : Ports F) : Prop where
  lt : k < w.nclasses
  free : k ∉ bs
  ports : classPorts (w.cls k).cls = P
  plain : ∀ d ∈ (w.cls k).cls.fields, d.dfltNodes = []
  fits : (w.cls k).isMaps ≠ [] → ∀ d ∈ (w.cls k).cls.fields, FieldFit d
  is : ∀ e ∈ (w.cls k).isMaps, IsEntry w pend P e

structure ScopeOK (w : World F) (pend : Nat → Option (Ports F)) (bs : List Nat) (sc : Scope F) (s : Nat) : Prop where
  lt : s < w.nscenes
  noEmpty : (w.scene s).defs.lookup [] = none
  names : ∀ nm p, sc.names.lookup nm = some p → ∃ i, (w.scene s).defs.lookup nm = some i ∧ portsAt pend w i = some p
  protos : List.Forall₂ (fun a b => a.1 = b.1 ∧ ProtoOK w pend bs b.2 a.2) sc.protos (w.scene s).protos

/-- a prototype that is being read: while its body is read, its interface is `P` -/
def CurOK (w : World F) (pend : Nat → Option (Ports F)) : Option (Ports F) → Nat → Prop
  | none, c => c < w.nclasses
  | some P, c => c < w.nclasses ∧ (w.cls c).body = none ∧ (∀ l, (w.cls c).decl.url ≠ .urls l) ∧ classPorts (w.cls c).decl.cls = P ∧
      (∀ f ∈ (w.cls c).decl.fields, f.decl.dfltNodes = [] ∧ FieldFit f.decl) ∧ ∀ e ∈ (w.cls c).is, IsEntry w pend P e

structure GSim (Is : List (Option (Ports F))) (e : List (Scope F)) (pend : Nat → Option (Ports F)) (ss ps : List Nat) (w : World F) : Prop where
  fresh : ∀ i, w.next ≤ i → w.heap i = none
  later : ∀ i, w.next ≤ i → pend i = none
  wires : ∀ x ∈ w.wires, WireOK w x ∧ pend x.src = none ∧ pend x.dst = none
  scopes : List.Forall₂ (ScopeOK w pend ps) e ss
  ssd : ss.Nodup
  psd : ps.Nodup
  cur : List.Forall₂ (CurOK w pend) Is ps

theorem Forall₂.imp_mem {α β : Type} {R S : α → β → Prop} : ∀ {l : List α} {l' : List β}, List.Forall₂ R l l' → (∀ a b, b ∈ l' → R a b → S a b) → List.Forall₂ S l l'
  | _, _, .nil, _ => .nil
  | _, _, .cons h t, hi => .cons (hi _ _ (by simp) h) (Forall₂.imp_mem t (fun a b hb => hi a b (by simp [hb])))

theorem Forall₂.right {α β : Type} {R : α → β → Prop} : ∀ {l : List α} {l' : List β}, List.Forall₂ R l l' → ∀ b ∈ l', ∃ a ∈ l, R a b
  | _, _, .nil, b, hb => by cases hb
  | _, _, .cons (a := a) h t, b, hb => by
    rcases List.mem_cons.1 hb with rfl | hb
    · exact ⟨a, by simp, h⟩
    · obtain ⟨a', h1, h2⟩ := Forall₂.right t b hb
      exact ⟨a', by simp [h1], h2⟩

/-- nodes keep their types, except Scripts that are being read -/
def Keeps (pend : Nat → Option (Ports F)) (w w' : World F) : Prop := ∀ i c, clsAt w i = some c → pend i = none → clsAt w' i = some c

theorem IsEntry.mono {w w' : World F} {pend pend' P e} (hk : Keeps pend w w') (hp : ∀ i, (clsAt w i).isSome = true → pend i = none → pend' i = none) (h : IsEntry w pend P e) : IsEntry w' pend' P e := by
  obtain ⟨a, h1, h2⟩ := h
  refine ⟨a, h1, fun x hx => ?_⟩
  obtain ⟨q, c, b, q1, q2⟩ := h2 x hx
  exact ⟨hp _ (by rw [q1]; rfl) q, c, b, hk _ _ q1 q, q2⟩

theorem ProtoOK.mono {w w' : World F} {pend pend' bs k P} (hk : Keeps pend w w') (hp : ∀ i, (clsAt w i).isSome = true → pend i = none → pend' i = none) (hc : w'.cls k = w.cls k)
    (hn : w.nclasses ≤ w'.nclasses) (h : ProtoOK w pend bs k P) : ProtoOK w' pend' bs k P :=
  ⟨h.lt.trans_le hn, h.free, by rw [hc]; exact h.ports, by rw [hc]; exact h.plain, by rw [hc]; exact h.fits, by rw [hc]; exact fun e he => (h.is e he).mono hk hp⟩

theorem WireOK.mono {w w' : World F} {pend : Nat → Option (Ports F)} (hk : Keeps pend w w') {x : Wire} (h1 : pend x.src = none) (h2 : pend x.dst = none) (h : WireOK w x) : WireOK w' x := by
  obtain ⟨c, c', q1, q2, q3⟩ := h
  exact ⟨c, c', hk _ _ q1 h1, hk _ _ q2 h2, q3⟩

theorem portsAt_mono {w w' : World F} {pend pend' : Nat → Option (Ports F)} (hk : Keeps pend w w') (hp : ∀ i, pend' i = pend i ∨ clsAt w i = none ∧ pend i = none) {i p} (h : portsAt pend w i = some p) :
    portsAt pend' w' i = some p := by
  unfold portsAt at *
  rcases hp i with hp | ⟨hp, hp'⟩
  · rw [hp]
    cases hq : pend i with
    | some q => rw [hq] at h; exact h
    | none =>
      rw [hq] at h
      simp only at h ⊢
      obtain ⟨c, hc, rfl⟩ := Option.map_eq_some_iff.1 h
      rw [hk _ _ hc hq]; rfl
  · rw [hp', hp] at h; cases h

/-- everything that was there is still there -/
theorem GSim.grow {Is e pend pend' ss ps} {w w' : World F} (h : GSim Is e pend ss ps w) (hk : Keeps pend w w') (hp : ∀ i, pend' i = pend i ∨ clsAt w i = none ∧ pend i = none)
    (hfresh : ∀ i, w'.next ≤ i → w'.heap i = none) (hlater : ∀ i, w'.next ≤ i → pend' i = none)
    (hsc : ∀ s ∈ ss, (w'.scene s).defs = (w.scene s).defs ∧ (w'.scene s).protos = (w.scene s).protos) (hns : w.nscenes ≤ w'.nscenes)
    (hcls : ∀ k < w.nclasses, w'.cls k = w.cls k) (hnc : w.nclasses ≤ w'.nclasses)
    (hw : ∀ x ∈ w'.wires, x ∈ w.wires ∨ WireOK w' x ∧ pend' x.src = none ∧ pend' x.dst = none) : GSim Is e pend' ss ps w' := by
  have hp' : ∀ i, (clsAt w i).isSome = true → pend i = none → pend' i = none := by
    intro i hi hi'
    rcases hp i with hp | ⟨hp, -⟩
    · rw [hp, hi']
    · rw [hp] at hi; cases hi
  refine ⟨hfresh, hlater, fun x hx => ?_, Forall₂.imp_mem h.scopes (fun sc s hs hso => ?_), h.ssd, h.psd, Forall₂.imp_mem h.cur (fun I c hc hco => ?_)⟩
  · rcases hw x hx with hx | hx
    · obtain ⟨q1, q2, q3⟩ := h.wires x hx
      obtain ⟨c, c', r1, r2, -⟩ := id q1
      exact ⟨q1.mono hk q2 q3, hp' _ (by rw [r1]; rfl) q2, hp' _ (by rw [r2]; rfl) q3⟩
    · exact hx
  · obtain ⟨d1, d2⟩ := hsc s hs
    refine ⟨hso.lt.trans_le hns, by rw [d1]; exact hso.noEmpty, fun nm p hnm => ?_, ?_⟩
    · obtain ⟨i, q1, q2⟩ := hso.names nm p hnm
      exact ⟨i, by rw [d1]; exact q1, portsAt_mono hk hp q2⟩
    · rw [d2]
      exact hso.protos.imp (fun a b hab => ⟨hab.1, hab.2.mono hk hp' (hcls _ hab.2.lt) hnc⟩)
  · cases I with
    | none => exact Nat.lt_of_lt_of_le hco hnc
    | some P =>
      obtain ⟨q1, q2, q3, q4, q5, q6⟩ := hco
      have := hcls c q1
      simp only [CurOK, this]
      exact ⟨q1.trans_le hnc, q2, q3, q4, q5, fun e he => (q6 e he).mono hk hp'⟩

theorem GSim.keep {Is e pend ss ps} {w w' : World F} (h : GSim Is e pend ss ps w) (hk : Keeps pend w w')
    (hfresh : ∀ i, w'.next ≤ i → w'.heap i = none) (hn : w.next ≤ w'.next)
    (hsc : ∀ s ∈ ss, (w'.scene s).defs = (w.scene s).defs ∧ (w'.scene s).protos = (w.scene s).protos) (hns : w.nscenes ≤ w'.nscenes)
    (hcls : ∀ k < w.nclasses, w'.cls k = w.cls k) (hnc : w.nclasses ≤ w'.nclasses)
    (hw : ∀ x ∈ w'.wires, x ∈ w.wires ∨ WireOK w' x ∧ pend x.src = none ∧ pend x.dst = none) : GSim Is e pend ss ps w' :=
  h.grow hk (fun _ => .inl rfl) hfresh (fun i hi => h.later i (hn.trans hi)) hsc hns hcls hnc hw

theorem keeps_of {pend : Nat → Option (Ports F)} {w w' : World F} (h : ∀ i, clsAt w' i = clsAt w i) : Keeps pend w w' := fun i c hc _ => (h i).trans hc

theorem fresh_of {w w' : World F} (h : ∀ i, clsAt w' i = clsAt w i) {i} (hi : w.heap i = none) : w'.heap i = none := by
  have := h i
  simp only [clsAt, hi, Option.map_none, Option.map_eq_none_iff] at this
  exact this

theorem GSim.quiet {Is e pend ss ps} {w w' : World F} (h : GSim Is e pend ss ps w) (hq : Quiet w w')
    (hw : ∀ x ∈ w'.wires, x ∈ w.wires ∨ WireOK w' x ∧ pend x.src = none ∧ pend x.dst = none) : GSim Is e pend ss ps w' :=
  h.keep (keeps_of hq.clsAt) (fun i hi => fresh_of hq.clsAt (h.fresh i (hq.next ▸ hi))) hq.next.ge (fun s _ => by rw [hq.scene]; exact ⟨rfl, rfl⟩) hq.nscenes.ge
    (fun k _ => by rw [hq.cls]) hq.nclasses.ge hw

theorem Quiet.stay {w w' : World F} (h : Quiet w w') : Stay w w' := ⟨h.next.ge, fun j _ => h.clsAt j⟩

/-! ### Values -/

theorem GSim.wok {Is e pend ss ps} {w : World F} (h : GSim Is e pend ss ps w) : ∀ x ∈ w.wires, WireOK w x := fun x hx => (h.wires x hx).1

theorem GSim.setAttr {Is e pend ss ps} {w : World F} (h : GSim Is e pend ss ps w) {i : Nat} {c : Class F} {f : Text} {d : FieldDecl F} {v : Val F} (hc : clsAt w i = some c)
    (hp : c.getField f = some (.inl d)) (hv : (coerce d.kind d.conv v).isSome = true) : ∃ w', w.setAttr i d v = some w' ∧ GSim Is e pend ss ps w' ∧ Stay w w' := by
  obtain ⟨w', h1, h2⟩ := setAttr_fit h.wok (portAt_of hc hp) hv
  exact ⟨w', h1, h.quiet (setAttr_quiet h1) (fun x hx => .inl (h2 ▸ hx)), (setAttr_quiet h1).stay⟩

theorem alike_inl {a : PortKind F} {d : FieldDecl F} (h : alike a (portKind (.inl d))) : ∃ conv, a = .field d.kind conv := by
  cases a with
  | field k conv => exact ⟨conv, by rw [show k = d.kind from h]⟩
  | event => exact h.elim

theorem alike_inr {a : PortKind F} {e : EventDecl} (h : alike a (portKind (.inr e))) : a = .event := by
  cases a with
  | field k conv => exact h.elim
  | event => rfl

theorem portKind_field {p : FieldDecl F ⊕ EventDecl} {k conv} (h : portKind p = .field k conv) : ∃ d, p = .inl d ∧ d.kind = k ∧ d.conv = conv := by
  cases p with
  | inl d => cases h; exact ⟨d, rfl, rfl, rfl⟩
  | inr e => cases h

theorem getField_of {c : Class F} {nm a} (h : resolveName (classPorts c) nm = some a) : ∃ p, c.getField nm = some p ∧ portKind p = a := by
  rw [classPorts_eq] at h
  exact Option.map_eq_some_iff.1 h

/-- a connection, when both ends are there -/
theorem bind_ok {pend : Nat → Option (Ports F)} {w : World F} {i f j g} {c c' : Class F} (hi : clsAt w i = some c) (hj : clsAt w j = some c') (pi : pend i = none) (pj : pend j = none)
    (hd : ∀ d, c.getField f = some (.inl d) → ∃ d', c'.getField g = some (.inl d') ∧ d'.kind = d.kind) :
    ∀ x ∈ (w.bind i f j g).wires, x ∈ w.wires ∨ WireOK (w.bind i f j g) x ∧ pend x.src = none ∧ pend x.dst = none := by
  intro x hx
  have hq := bind_quiet w i f j g
  obtain ⟨n, hn, rfl⟩ := Option.map_eq_some_iff.1 hi
  have key : ∀ nm, (∀ d, n.cls.port nm = some (.inl d) → n.cls.getField f = some (.inl d)) → WireOK (w.bind i f j g) ⟨i, nm, j, g⟩ := fun nm hnm =>
    ⟨n.cls, c', by rw [hq.clsAt]; exact hi, by rw [hq.clsAt]; exact hj, fun d hd' => hd d (hnm d hd')⟩
  generalize hw' : w.bind i f j g = w' at *
  unfold World.bind at hw'
  simp only [hn, Option.bind_some] at hw'
  split at hw'
  · subst hw'; exact .inl hx
  · next d hd0 =>
    subst hw'
    simp only [List.mem_append, List.mem_singleton] at hx
    rcases hx with hx | rfl
    · exact .inl hx
    · refine .inr ⟨key d.name (fun d' h' => ?_), pi, pj⟩
      rw [getField_port hd0] at h'
      cases h'; exact hd0
  · next d hd0 =>
    subst hw'
    simp only [List.mem_append, List.mem_singleton] at hx
    rcases hx with hx | rfl
    · exact .inl hx
    · refine .inr ⟨key d.name (fun d' h' => ?_), pi, pj⟩
      rw [getField_event hd0] at h'
      cases h'

theorem GSim.bind {Is e pend ss ps} {w : World F} (h : GSim Is e pend ss ps w) {i f j g} {c c' : Class F} (hi : clsAt w i = some c) (hj : clsAt w j = some c') (pi : pend i = none) (pj : pend j = none)
    (hd : ∀ d, c.getField f = some (.inl d) → ∃ d', c'.getField g = some (.inl d') ∧ d'.kind = d.kind) : GSim Is e pend ss ps (w.bind i f j g) :=
  h.quiet (bind_quiet _ _ _ _ _) (bind_ok hi hj pi pj hd)

/-! ### New nodes -/

theorem alloc_clsAt (w : World F) (c : Class F) (k) (j : Nat) : clsAt (w.alloc c k) j = if j = w.next then some c else clsAt w j := by
  simp only [clsAt, World.alloc]
  split <;> rfl

theorem GSim.alloc {Is e pend pend' ss ps} {w : World F} (h : GSim Is e pend ss ps w) (c : Class F) (k) (hp : ∀ i, i ≠ w.next → pend' i = pend i) : GSim Is e pend' ss ps (w.alloc c k) := by
  refine h.grow (fun i c' hc _ => ?_) (fun i => ?_) (fun i hi => ?_) (fun i hi => ?_) (fun _ _ => ⟨rfl, rfl⟩) le_rfl (fun _ _ => rfl) le_rfl (fun x hx => .inl hx)
  · rw [alloc_clsAt, if_neg, hc]
    rintro rfl
    simp [clsAt, h.fresh _ le_rfl] at hc
  · by_cases hi : i = w.next
    · subst hi; exact .inr ⟨by simp [clsAt, h.fresh _ le_rfl], h.later _ le_rfl⟩
    · exact .inl (hp i hi)
  · have : i ≠ w.next := by simp only [World.alloc] at hi; omega
    simp only [World.alloc, if_neg this]
    exact h.fresh i (by simp only [World.alloc] at hi; omega)
  · have : i ≠ w.next := by simp only [World.alloc] at hi; omega
    rw [hp i this]
    exact h.later i (by simp only [World.alloc] at hi; omega)

theorem bindAll_sim {Is e pend ss ps} {i : Nat} {c : Class F} {nm : Text} {p} (hp : c.getField nm = some p) (pi : pend i = none) : ∀ (l : List (Nat × Text)) (w : World F), GSim Is e pend ss ps w → clsAt w i = some c →
    (∀ x ∈ l, pend x.1 = none ∧ ∃ c' b, clsAt w x.1 = some c' ∧ resolveName (classPorts c') x.2 = some b ∧ alike (portKind p) b) →
    GSim Is e pend ss ps (l.foldl (fun w x => (w.bind i nm x.1 x.2).bind x.1 x.2 i nm) w)
  | [], w, h, _, _ => h
  | x :: l, w, h, hc, hl => by
    obtain ⟨px, c', b, hc', hb, hab⟩ := hl x (by simp)
    obtain ⟨q, hq, rfl⟩ := getField_of hb
    have q1 := bind_quiet w i nm x.1 x.2
    have q2 := bind_quiet (w.bind i nm x.1 x.2) x.1 x.2 i nm
    have h1 : GSim Is e pend ss ps (w.bind i nm x.1 x.2) := h.bind hc hc' pi px (fun d hd => by
      rw [hp] at hd; cases hd
      cases q with
      | inl d' => exact ⟨d', hq, (show d.kind = d'.kind from hab).symm⟩
      | inr e' => exact hab.elim)
    have h2 := h1.bind (f := x.2) (g := nm) (i := x.1) (j := i) ((q1.clsAt _).trans hc') ((q1.clsAt _).trans hc) px pi (fun d hd => by
      rw [hq] at hd; cases hd
      cases p with
      | inl d' => exact ⟨d', hp, hab⟩
      | inr e' => exact hab.elim)
    refine bindAll_sim hp pi l _ h2 ((q2.clsAt _).trans ((q1.clsAt _).trans hc)) (fun y hy => ?_)
    obtain ⟨r1, c2, b2, r2, r3⟩ := hl y (by simp [hy])
    exact ⟨r1, c2, b2, (q2.clsAt _).trans ((q1.clsAt _).trans r2), r3⟩

theorem GSim.bindIs {Is e pend ss ps} {w : World F} (h : GSim Is e pend ss ps w) {i : Nat} {c : Class F} (hc : clsAt w i = some c) (pi : pend i = none) {en : Text × List (Nat × Text)}
    (he : IsEntry w pend (classPorts c) en) (hf : ∀ d ∈ c.fields, FieldFit d) : ∃ w', w.bindIs i c en = some w' ∧ GSim Is e pend ss ps w' := by
  obtain ⟨a, ha, hl⟩ := he
  obtain ⟨p, hp, rfl⟩ := getField_of ha
  have hs := bindAll_sim hp pi en.2 w h hc hl
  have hq := bindAll_quiet i en.1 en.2 w
  unfold World.bindIs
  rw [hp]
  simp only
  generalize hw' : en.2.foldl (fun w x => (w.bind i en.1 x.1 x.2).bind x.1 x.2 i en.1) w = w' at *
  cases p with
  | inr e' =>
    cases en.2.getLast? <;> exact ⟨w', rfl, hs⟩
  | inl d =>
    cases hg : en.2.getLast? with
    | none => exact ⟨w', rfl, hs⟩
    | some x =>
      obtain ⟨px, c', b, hc', hb, hab⟩ := hl x (List.mem_of_getLast? hg)
      obtain ⟨q, hq', rfl⟩ := getField_of hb
      cases q with
      | inr e' => exact hab.elim
      | inl d2 =>
        have hcx : clsAt w' x.1 = some c' := (hq.clsAt _).trans hc'
        have hport : (w'.heap x.1).bind (fun n => n.cls.getField x.2) = some (.inl d2) := by
          obtain ⟨n, hn, rfl⟩ := Option.map_eq_some_iff.1 hcx
          rw [hn]; exact hq'
        obtain ⟨v, hv, hfit⟩ := hf d (by
          have := getField_port hp
          unfold Class.port at this
          split at this
          · cases this
          · obtain ⟨d', h1, h2⟩ := Option.map_eq_some_iff.1 this
            cases h2; exact List.mem_of_find?_eq_some h1)
        obtain ⟨u, hu, -⟩ := take_fit (w := w') (d := d2) (v := v) (by rw [← (show d.kind = d2.kind from hab)]; exact hfit)
        refine ⟨w'.setField x.1 d2.name u, ?_, hs.quiet (setField_quiet _ _ _ _) (fun y hy => .inl hy)⟩
        obtain ⟨x1, x2⟩ := x
        simp only at hport ⊢
        rw [hport, hv]
        simp only [hu]

theorem bindIsAll_sim {Is e pend ss ps} {i : Nat} {c : Class F} (pi : pend i = none) : ∀ (l : List (Text × List (Nat × Text))) (w : World F), GSim Is e pend ss ps w → clsAt w i = some c →
    (∀ en ∈ l, IsEntry w pend (classPorts c) en) → (l ≠ [] → ∀ d ∈ c.fields, FieldFit d) → (∀ en ∈ l, ∀ x ∈ en.2, x.1 ≠ i) →
    ∃ w', l.foldlM (fun w' en => w'.bindIs i c en) w = some w' ∧ GSim Is e pend ss ps w' ∧ Quiet w w' ∧ w'.heap i = w.heap i
  | [], w, h, _, _, _, _ => ⟨w, rfl, h, .refl w, rfl⟩
  | en :: l, w, h, hc, he, hf, hne => by
    obtain ⟨w1, h1, h2⟩ := h.bindIs hc pi (he en (by simp)) (hf (by simp))
    have q := bindIs_quiet h1
    obtain ⟨w2, h3, h4, h5, h6⟩ := bindIsAll_sim pi l w1 h2 ((q.clsAt _).trans hc) (fun en' hen' => (he en' (by simp [hen'])).mono (keeps_of q.clsAt) (fun _ _ h => h)) (fun _ => hf (by simp))
      (fun en' hen' => hne en' (by simp [hen']))
    refine ⟨w2, ?_, h4, q.trans h5, h6.trans (bindIs_heap h1 (hne en (by simp)))⟩
    rw [List.foldlM_cons, h1]
    exact h3

/-- a new node, before its name is registered -/
theorem GSim.fresh_node {Is e pend pend' ss ps} {w : World F} (h : GSim Is e pend ss ps w) (c : Class F) (k : Option Nat) (hp : ∀ i, i ≠ w.next → pend' i = pend i)
    (hpl : ∀ d ∈ c.fields, d.dfltNodes = []) (hk : ∀ k', k = some k' → pend' w.next = none ∧ (∀ en ∈ (w.cls k').isMaps, IsEntry w pend (classPorts c) en) ∧ ((w.cls k').isMaps ≠ [] → ∀ d ∈ c.fields, FieldFit d)) :
    ∃ w1, (∀ DEF, w.newNode ss c k DEF = some (if DEF = [] then w1 else w1.regDef (ss.headD 0) DEF w.next)) ∧ GSim Is e pend' ss ps w1 ∧ w1.heap w.next = some ⟨c, [], fun _ => none⟩ ∧ w1.next = w.next + 1 ∧ Stay w w1 := by
  have ha := h.alloc c k hp
  have hst : Stay w (w.alloc c k) := by
    refine ⟨Nat.le_succ _, fun j hj => ?_⟩
    rw [alloc_clsAt, if_neg (by omega)]
  have hnew : (w.alloc c k).heap w.next = some ⟨c, [], fun _ => none⟩ := by simp [World.alloc]
  have key : ∃ w1, (match k with | some k => (w.cls k).isMaps | none => []).foldlM (fun w' e => w'.bindIs w.next c e) (w.alloc c k) = some w1 ∧ GSim Is e pend' ss ps w1 ∧ Quiet (w.alloc c k) w1 ∧
      w1.heap w.next = (w.alloc c k).heap w.next := by
    cases k with
    | none => exact ⟨_, rfl, ha, .refl _, rfl⟩
    | some k' =>
      obtain ⟨h1, h2, h3⟩ := hk k' rfl
      refine bindIsAll_sim h1 _ _ ha (by rw [alloc_clsAt, if_pos rfl]) (fun en hen => ?_) h3 (fun en hen x hx => ?_)
      · refine (h2 en hen).mono (fun i c' hc' _ => ?_) (fun i hi hi' => ?_)
        · rw [alloc_clsAt, if_neg, hc']
          rintro rfl
          simp [clsAt, h.fresh _ le_rfl] at hc'
        · by_cases hn : i = w.next
          · subst hn; exact h1
          · rw [hp i hn, hi']
      · obtain ⟨a, -, q⟩ := h2 en hen
        obtain ⟨-, c', b, hc', -⟩ := q x hx
        intro hn
        rw [hn] at hc'
        simp [clsAt, h.fresh _ le_rfl] at hc'
  obtain ⟨w1, h1, h2, h3, h4⟩ := key
  have hh : w1.heap w.next = some ⟨c, [], fun _ => none⟩ := h4.trans hnew
  refine ⟨w1, fun DEF => ?_, h2, hh, h3.next, hst.trans h3.stay⟩
  have hr : rootSet (ss.getLastD 0) (w1.next + 1) w1 w.next = some w1 := by
    rw [rootSet, hh]
    simp [nodeRefs_dflt hpl]
  unfold World.newNode
  cases k <;> (simp only at h1 ⊢; rw [h1]; simp only [hr])

theorem regDef_clsAt (w : World F) (s nm i j) : clsAt (w.regDef s nm i) j = clsAt w j := by
  simp only [clsAt, regDef_node]
  split
  · next h => subst h; cases w.heap j <;> rfl
  · rfl

theorem GSim.regDef {Is sc e pend s ss ps} {w : World F} (h : GSim Is (sc :: e) pend (s :: ss) ps w) {DEF : Text} (hD : DEF ≠ []) {i : Nat} {n : Node F} (hn : w.heap i = some n) (hn' : n.DEF = [])
    {p : Ports F} (hp : portsAt pend w i = some p) : GSim Is (sc.def DEF p :: e) pend (s :: ss) ps (w.regDef s DEF i) := by
  have hc := regDef_clsAt w s DEF i
  have hk : Keeps pend w (w.regDef s DEF i) := keeps_of hc
  have hnd := h.ssd
  rw [List.nodup_cons] at hnd
  cases h.scopes with
  | cons h1 h2 =>
    have hdefs := regDef_defs hn (.inl hn') (nm := DEF) h1.noEmpty
    refine ⟨fun j hj => fresh_of hc (h.fresh j hj), h.later, fun x hx => ?_, .cons ?_ (Forall₂.imp_mem h2 (fun a b hb hab => ?_)), h.ssd, h.psd, ?_⟩
    · obtain ⟨q1, q2, q3⟩ := h.wires x hx
      exact ⟨q1.mono hk q2 q3, q2, q3⟩
    · refine ⟨h1.lt, ?_, fun nm q hq => ?_, ?_⟩
      · rw [hdefs, if_neg (by simp [Ne.symm hD])]; exact h1.noEmpty
      · simp only [Scope.def, List.lookup_cons] at hq
        rw [hdefs]
        by_cases hnm : nm = DEF
        · subst hnm
          simp only [beq_self_eq_true, Option.some.injEq] at hq
          subst hq
          exact ⟨i, by simp, portsAt_mono hk (fun _ => .inl rfl) hp⟩
        · have hb : (nm == DEF) = false := by simpa using hnm
          rw [hb] at hq
          obtain ⟨j, q1, q2⟩ := h1.names nm q hq
          exact ⟨j, by simp [hnm, q1], portsAt_mono hk (fun _ => .inl rfl) q2⟩
      · rw [(regDef_scene w s DEF i s).1]
        exact h1.protos.imp (fun a b hab => ⟨hab.1, hab.2.mono hk (fun _ _ h => h) rfl le_rfl⟩)
    · have hbs : b ≠ s := by rintro rfl; exact hnd.1 hb
      refine ⟨hab.lt, ?_, fun nm q hq => ?_, ?_⟩
      · rw [hdefs, if_neg (by simp [hbs])]; exact hab.noEmpty
      · obtain ⟨j, q1, q2⟩ := hab.names nm q hq
        exact ⟨j, by rw [hdefs, if_neg (by simp [hbs]), q1], portsAt_mono hk (fun _ => .inl rfl) q2⟩
      · rw [(regDef_scene w s DEF i b).1]
        exact hab.protos.imp (fun a b hab => ⟨hab.1, hab.2.mono hk (fun _ _ h => h) rfl le_rfl⟩)
    · refine h.cur.imp (fun I c hco => ?_)
      cases I with
      | none => exact hco
      | some P =>
        obtain ⟨q1, q2, q3, q4, q5, q6⟩ := hco
        exact ⟨q1, q2, q3, q4, q5, fun e he => (q6 e he).mono hk (fun _ _ h => h)⟩

end Verif.Full
