import Verif.Spec.RoundTrip
/-!
Scenes that differ only in the identity of their nodes are written as the same text.
-/
namespace Verif.Lin
open Verif.TextOut Verif.Text Verif.SceneText
variable {F : Type}

/-- pieces of output with nodes renamed -/
def Chunk.rename (φ : Nat → Nat) : Chunk → Chunk
  | .text t => .text t
  | .head i d p => .head (φ i) d p
  | .use i d => .use (φ i) d

theorem rename_text (φ : Nat → Nat) (c : Chunk) : (c.rename φ).toText = c.toText := by cases c <;> rfl

theorem rename_textOf (φ : Nat → Nat) (l : List Chunk) : textOf (l.map (Chunk.rename φ)) = textOf l := by
  simp only [textOf, List.map_map]
  congr 1
  exact List.map_congr_left (fun c _ => rename_text φ c)

/-- writer states that correspond -/
structure StRel (φ : Nat → Nat) (R : Nat → Prop) (st st' : St) : Prop where
  out : st'.out = st.out.map (Chunk.rename φ)
  done : st'.done = st.done.map (fun p => (φ p.1, p.2))
  level : st'.level = st.level
  warned : st'.warned = st.warned
  known : ∀ p ∈ st.done, R p.1

/-- results that correspond -/
def ResRel {α β : Type} (P : α → β → Prop) : Res α → Res β → Prop
  | .ok a, .ok b => P a b
  | .error e, .error e' => e = e'
  | _, _ => False

variable {φ : Nat → Nat} {R : Nat → Prop}

theorem StRel.write {st st' : St} (h : StRel φ R st st') (t : Text) : StRel φ R (st.write t) (st'.write t) :=
  ⟨by simp [St.write, h.out, Chunk.rename], h.done, h.level, h.warned, h.known⟩

theorem StRel.cur {st st' : St} (h : StRel φ R st st') (lv : LinValues) : st'.cur lv = st.cur lv := by simp only [St.cur, h.level]

theorem StRel.setLevel {st st' : St} (h : StRel φ R st st') (k : Nat) : StRel φ R { st with level := k } { st' with level := k } := ⟨h.out, h.done, rfl, h.warned, h.known⟩

theorem lookup_rename (hφ : ∀ i j, R i → R j → φ i = φ j → i = j) {β : Type} : ∀ (l : List (Nat × β)), (∀ p ∈ l, R p.1) → ∀ {i}, R i →
    (l.map (fun p => (φ p.1, p.2))).lookup (φ i) = l.lookup i
  | [], _, _, _ => rfl
  | p :: l, h, i, hi => by
    obtain ⟨j, b⟩ := p
    have hj : R j := h (j, b) (by simp)
    simp only [List.map_cons, List.lookup_cons]
    by_cases e : i = j
    · subst e; simp
    · have e2 : (i == j) = false := by simpa using e
      have e3 : (φ i == φ j) = false := by
        simp only [beq_eq_false_iff_ne, ne_eq]
        exact fun hc => e (hφ i j hi hj hc)
      rw [e2, e3]
      exact lookup_rename hφ l (fun p hp => h p (by simp [hp])) hi

theorem StRel.look (hφ : ∀ i j, R i → R j → φ i = φ j → i = j) {st st' : St} (h : StRel φ R st st') {i : Nat} (hi : R i) : st'.look (φ i) = st.look i := by
  simp only [St.look, h.done]
  exact lookup_rename hφ _ h.known hi

/-- two ways of writing nodes that correspond -/
def LinRel (φ : Nat → Nat) (R : Nat → Prop) (lin lin' : St → Nat → Res St) : Prop :=
  ∀ st st' i, StRel φ R st st' → R i → ResRel (StRel φ R) (lin st i) (lin' st' (φ i))

theorem ResRel.split {α β : Type} {P : α → β → Prop} {r : Res α} {r' : Res β} (h : ResRel P r r') :
    (∃ e, r = .error e ∧ r' = .error e) ∨ ∃ a b, r = .ok a ∧ r' = .ok b ∧ P a b := by
  cases r with
  | error e =>
    cases r' with
    | error e' => exact .inl ⟨e, rfl, by rw [show e = e' from h]⟩
    | ok b => exact h.elim
  | ok a =>
    cases r' with
    | error e' => exact h.elim
    | ok b => exact .inr ⟨a, b, rfl, rfl, h⟩

theorem elems_rel {lv : LinValues} {lin lin'} (hl : LinRel φ R lin lin') : ∀ (l : List (Option Nat)) (st st' : St), StRel φ R st st' → (∀ j, some j ∈ l → R j) →
    ResRel (StRel φ R) (linElems lv lin st l) (linElems lv lin' st' (l.map (Option.map φ)))
  | [], st, st', h, _ => h
  | none :: l, st, st', h, hR => by
    simp only [linElems, List.map_cons, Option.map_none, h.cur]
    exact elems_rel hl l _ _ ((h.write _).write _) (fun j hj => hR j (by simp [hj]))
  | some i :: l, st, st', h, hR => by
    simp only [linElems, List.map_cons, Option.map_some, h.cur]
    rcases (hl _ _ i (h.write (lv.fullSep ++ st.cur lv ++ lv.indent)) (hR i (by simp))).split with ⟨e, e1, e2⟩ | ⟨a, b, e1, e2, hab⟩
    · simp only [e1, e2]; rfl
    · simp only [e1, e2]
      exact elems_rel hl l a b hab (fun j hj => hR j (by simp [hj]))

theorem mf_rel {lv : LinValues} {lin lin'} (hl : LinRel φ R lin lin') (l : List (Option Nat)) (st st' : St) (h : StRel φ R st st') (hR : ∀ j, some j ∈ l → R j) :
    ResRel (StRel φ R) (linMF lv lin st l) (linMF lv lin' st' (l.map (Option.map φ))) := by
  unfold linMF
  by_cases e : l = []
  · subst e; exact h.write _
  · have e' : l.map (Option.map φ) ≠ [] := by simpa using e
    rw [if_neg e, if_neg e']
    have h1 := (h.setLevel (st.level + 1))
    rw [h.level]
    rcases (elems_rel (lv := lv) hl l _ _ (h1.write ['[', ' ']) hR).split with ⟨e, e1, e2⟩ | ⟨a, b, e1, e2, hab⟩
    · simp only [e1, e2]; rfl
    · simp only [e1, e2]
      have h2 := hab.write (lv.fullSep ++ a.cur lv ++ [']'])
      show StRel φ R _ _
      rw [hab.cur]
      exact ⟨h2.out, h2.done, by show b.level - 1 = a.level - 1; rw [hab.level], h2.warned, h2.known⟩

theorem field_rel {lv : LinValues} {lin lin'} (hl : LinRel φ R lin lin') {d d' : FieldDecl F} (hd : SameType d d') (v : Val F) (st st' : St) (h : StRel φ R st st') (hR : ∀ j ∈ v.nodes, R j) :
    ResRel (StRel φ R) (linField lv lin st d v) (linField lv lin' st' d' (v.mapRef φ)) := by
  have simple : ∀ v : Val F, ResRel (StRel φ R) (match simpleText lv d v with | .ok t => Except.ok (st.write t) | .error e => .error e)
      (match simpleText lv d' v with | .ok t => Except.ok (st'.write t) | .error e => .error e) := by
    intro v
    have : simpleText lv d' v = simpleText lv d v := by cases v <;> simp only [simpleText, hd.str, hd.kind]
    rw [this]
    cases simpleText lv d v with
    | error e => exact rfl
    | ok t => exact h.write t
  cases v with
  | bool b => exact simple (.bool b)
  | int b => exact simple (.int b)
  | num b => exact simple (.num b)
  | str b => exact simple (.str b)
  | ints b => exact simple (.ints b)
  | nums b => exact simple (.nums b)
  | rows b => exact simple (.rows b)
  | strs l =>
    cases l with
    | nil => exact mf_rel hl [] st st' h (by simp)
    | cons s l =>
      simp only [linField, Val.mapRef]
      have h1 := h.setLevel (st.level + 1)
      rw [show ({ st' with level := st'.level + 1 } : St) = { st' with level := st.level + 1 } by rw [h.level]]
      show StRel φ R _ _
      have h2 := (h1.write ['[', ' ']).write (lv.fullSep ++ ({ st with level := st.level + 1 } : St).cur lv ++ lv.indent)
      rw [h1.cur]
      rw [show ((({ st' with level := st.level + 1 } : St).write ['[', ' ']).write (lv.fullSep ++ ({ st with level := st.level + 1 } : St).cur lv ++ lv.indent)).cur lv = _ from h2.cur lv]
      exact h2.write _
  | ref o =>
    cases o with
    | none => exact h.write _
    | some i => exact hl st st' i h (hR i (by simp [Val.nodes]))
  | refs l => exact mf_rel hl l st st' h (fun j hj => hR j (by simpa [Val.nodes] using hj))

/-- attributes that are written alike -/
structure AttrRel (fl : Floats F) (φ : Nat → Nat) (R : Nat → Prop) (n m : Node F) (d d' : FieldDecl F) : Prop where
  type : SameType d d'
  read : d'.read m = (d.read n).map (Val.mapRef φ)
  omitted : ∀ v, d.read n = some v → Lin.omitted fl d'.dflt (v.mapRef φ) = Lin.omitted fl d.dflt v
  nodes : ∀ v, d.read n = some v → ∀ j ∈ v.nodes, R j

theorem attrs_rel {lv : LinValues} {fl : Floats F} {lin lin'} (hl : LinRel φ R lin lin') {n m : Node F} {isn isn' : Text → Option Text} (hn : ∀ f, isn f = none) (hn' : ∀ f, isn' f = none) :
    ∀ (l l' : List (FieldDecl F)) (st st' : St), List.Forall₂ (AttrRel fl φ R n m) l l' → StRel φ R st st' →
    ResRel (StRel φ R) (linAttrs lv fl lin n isn st l) (linAttrs lv fl lin' m isn' st' l')
  | [], [], st, st', _, h => h
  | d :: l, d' :: l', st, st', hd, h => by
    cases hd with
    | cons h1 h2 =>
    simp only [linAttrs, h1.read]
    cases hv : d.read n with
    | none => exact rfl
    | some v =>
      simp only [Option.map_some, hn, hn', h1.omitted v hv]
      cases Lin.omitted fl d.dflt v with
      | none => exact rfl
      | some b =>
        cases b with
        | true => exact attrs_rel hl hn hn' l l' st st' h2 h
        | false =>
          simp only [h.cur, h1.type.name]
          rcases (field_rel (lv := lv) hl h1.type v _ _ (h.write (lv.fullSep ++ st.cur lv ++ lv.indent ++ d.name ++ ['\t'])) (h1.nodes v hv)).split with ⟨e, e1, e2⟩ | ⟨a, b, e1, e2, hab⟩
          · simp only [e1, e2]; rfl
          · simp only [e1, e2]
            exact attrs_rel hl hn hn' l l' a b h2 hab

/-- declarations of Scripts that are written alike -/
structure DeclRel (φ : Nat → Nat) (R : Nat → Prop) (f f' : PField F) : Prop where
  exposed : f'.exposed = f.exposed
  type : SameType f.decl f'.decl
  dflt : f'.decl.default = f.decl.default.map (Val.mapRef φ)
  nodes : ∀ v, f.decl.default = some v → ∀ j ∈ v.nodes, R j

theorem linDefault_eq (lv : LinValues) (lin : St → Nat → Res St) (st : St) (d : FieldDecl F) : linDefault lv lin st d =
    match d.default with
    | none => .error .raised
    | some (.strs l) => .ok (st.write (mfStringStr { lv with curindent := st.cur lv } l))
    | some v => linField lv lin st d v := by
  unfold linDefault FieldDecl.default
  cases d.dflt.value with
  | none => rfl
  | some u => cases coerce d.kind d.conv u with
    | none => rfl
    | some v => cases v <;> rfl

theorem default_rel {lv : LinValues} {lin lin'} (hl : LinRel φ R lin lin') {f f' : PField F} (hf : DeclRel φ R f f') (st st' : St) (h : StRel φ R st st') :
    ResRel (StRel φ R) (linDefault lv lin st f.decl) (linDefault lv lin' st' f'.decl) := by
  rw [linDefault_eq, linDefault_eq, hf.dflt]
  cases hv : f.decl.default with
  | none => exact rfl
  | some v =>
    have hr := field_rel (lv := lv) hl hf.type v st st' h (hf.nodes v hv)
    cases v with
    | strs l =>
      simp only [Option.map_some, Val.mapRef]
      rw [h.cur]
      exact h.write _
    | _ => exact hr

theorem decls_rel {lv : LinValues} {lin lin'} (hl : LinRel φ R lin lin') : ∀ (l l' : List (PField F)) (st st' : St), List.Forall₂ (DeclRel φ R) l l' → StRel φ R st st' →
    ResRel (StRel φ R) (linDecls lv lin st l) (linDecls lv lin' st' l')
  | [], [], st, st', _, h => h
  | f :: l, f' :: l', st, st', hd, h => by
    cases hd with
    | cons h1 h2 =>
    have he : fieldHead f' = fieldHead f := by simp only [fieldHead, h1.exposed, h1.type.cls, h1.type.name]
    simp only [linDecls, h.cur, he]
    rcases (default_rel (lv := lv) hl h1 _ _ (h.write (lv.fullSep ++ st.cur lv ++ fieldHead f))).split with ⟨e, e1, e2⟩ | ⟨a, b, e1, e2, hab⟩
    · simp only [e1, e2]; rfl
    · simp only [e1, e2]
      exact decls_rel hl l l' a b h2 hab
  termination_by structural l => l

/-- nodes that are written alike -/
structure NodeRel (fl : Floats F) (φ : Nat → Nat) (R : Nat → Prop) (n m : Node F) : Prop where
  proto : m.cls.proto = n.cls.proto
  DEF : m.DEF = n.DEF
  attrs : List.Forall₂ (AttrRel fl φ R n m) (attrFields n.cls) (attrFields m.cls)
  events : n.cls.proto = scriptName → declEvents m.cls.events = declEvents n.cls.events
  decls : n.cls.proto = scriptName → List.Forall₂ (DeclRel φ R) (scriptFields n.cls) (scriptFields m.cls)

theorem begin_rel {lv : LinValues} {fl : Floats F} {lin lin'} (hl : LinRel φ R lin lin') {n m : Node F} (hn : NodeRel fl φ R n m) (st st' : St) (h : StRel φ R st st') :
    ResRel (StRel φ R) (linBegin lv lin st n.cls) (linBegin lv lin' st' m.cls) := by
  unfold linBegin
  rw [hn.proto]
  split
  · rename_i hs
    have h1 := h.setLevel (st.level + 1)
    rw [show ({ st' with level := st'.level + 1 } : St) = { st' with level := st.level + 1 } by rw [h.level]]
    have he : eventsText lv (({ st' with level := st.level + 1 } : St).cur lv) m.cls.events = eventsText lv (({ st with level := st.level + 1 } : St).cur lv) n.cls.events := by
      simp only [eventsText, hn.events hs, h1.cur]
    simp only [he]
    rcases (decls_rel (lv := lv) hl _ _ _ _ (hn.decls hs) (h1.write (eventsText lv (({ st with level := st.level + 1 } : St).cur lv) n.cls.events))).split with ⟨e, e1, e2⟩ | ⟨a, b, e1, e2, hab⟩
    · simp only [e1, e2]; rfl
    · simp only [e1, e2]
      have := hab.setLevel (a.level - 1)
      show StRel φ R _ _
      rw [show b.level = a.level from hab.level]
      exact this
  · exact h

/-- scenes that are written alike -/
structure SceneRel (fl : Floats F) (φ : Nat → Nat) (R : Nat → Prop) (a b : Scene F) : Prop where
  node : ∀ i, R i → ∃ n m, a.heap i = some n ∧ b.heap (φ i) = some m ∧ NodeRel fl φ R n m
  is : a.is = none ∧ b.is = none
  inj : ∀ i j, R i → R j → φ i = φ j → i = j
  children : b.children = a.children.map φ
  reach : ∀ i ∈ a.children, R i
  routes : b.routes = a.routes.map (fun r => ⟨φ r.src, r.srcField, φ r.dst, r.dstField⟩)
  ends : ∀ r ∈ a.routes, R r.src ∧ R r.dst

theorem closing_rel {lv : LinValues} {fl : Floats F} {n m : Node F} (hn : NodeRel fl φ R n m) {st st' : St} (h : StRel φ R st st') (start : Nat) (b : Bool) :
    closing lv st' m start b = closing lv st n start b := by
  unfold closing
  rw [hn.proto, hn.DEF, h.cur, h.out, ← List.map_drop, rename_textOf]

theorem node_rel {lv : LinValues} {fl : Floats F} {a b : Scene F} (hs : SceneRel fl φ R a b) : ∀ fuel, LinRel φ R (linNode lv fl a fuel) (linNode lv fl b fuel)
  | 0 => fun _ _ _ _ _ => rfl
  | fuel + 1 => by
    intro st st' i h hi
    obtain ⟨n, m, h1, h2, hn⟩ := hs.node i hi
    simp only [linNode, h1, h2, h.look hs.inj hi]
    cases hk : st.look i with
    | some p =>
      obtain ⟨start, stop⟩ := p
      simp only [hn.DEF]
      split
      · exact ⟨by simp [h.out, Chunk.rename], h.done, h.level, h.warned, h.known⟩
      · cases stop with
        | some stop =>
          refine ⟨?_, h.done, h.level, rfl, h.known⟩
          simp [h.out, Chunk.rename, List.map_drop, List.map_take]
        | none => exact ⟨by simp [h.out, Chunk.rename], h.done, h.level, rfl, h.known⟩
    | none =>
      have hlen : st'.out.length = st.out.length := by rw [h.out, List.length_map]
      simp only [hlen, hn.DEF, hn.proto, h.level]
      have h3 : StRel φ R { st with done := (i, (st.out.length, none)) :: st.done, out := st.out ++ [Chunk.head i n.DEF n.cls.proto], level := st.level + 1 }
          { st' with done := (φ i, (st.out.length, none)) :: st'.done, out := st'.out ++ [Chunk.head (φ i) n.DEF n.cls.proto], level := st.level + 1 } := by
        refine ⟨by simp [h.out, Chunk.rename], by simp [h.done], rfl, h.warned, fun p hp => ?_⟩
        rcases List.mem_cons.1 hp with rfl | hp
        · exact hi
        · exact h.known p hp
      have ih := node_rel (lv := lv) hs fuel
      rcases (begin_rel (lv := lv) ih hn _ _ h3).split with ⟨e, e1, e2⟩ | ⟨s, s', e1, e2, hss⟩
      · simp only [e1, e2]; rfl
      simp only [e1, e2]
      rcases (attrs_rel (lv := lv) (fl := fl) ih (isn := fun f => a.isOf i f) (isn' := fun f => b.isOf (φ i) f) (fun f => by simp [Scene.isOf, hs.is.1]) (fun f => by simp [Scene.isOf, hs.is.2]) _ _ s s' hn.attrs hss).split with ⟨e, e1, e2⟩ | ⟨t, t', e1, e2, htt⟩
      · simp only [e1, e2]; rfl
      simp only [e1, e2]
      have hl2 : t'.out.length = t.out.length := by rw [htt.out, List.length_map]
      have hp2 : (st'.out ++ [Chunk.head (φ i) n.DEF n.cls.proto]).length = (st.out ++ [Chunk.head i n.DEF n.cls.proto]).length := by simp [hlen]
      rw [hp2, hl2, closing_rel hn htt]
      have h4 := htt.write (closing lv t n st.out.length (t.out.length == (st.out ++ [Chunk.head i n.DEF n.cls.proto]).length))
      refine ⟨h4.out, ?_, ?_, h4.warned, fun p hp => ?_⟩
      · have : ∀ x : Text, (t'.write x).out.length = (t.write x).out.length := fun x => by simp [St.write, hl2]
        simp only [this, List.map_cons]
        congr 1
        exact h4.done
      · show t'.level - 1 = t.level - 1
        rw [htt.level]
      · rcases List.mem_cons.1 hp with rfl | hp
        · exact hi
        · exact h4.known p hp

theorem children_rel {lv : LinValues} {lin lin'} (hl : LinRel φ R lin lin') : ∀ (l : List Nat) (st st' : St), StRel φ R st st' → (∀ i ∈ l, R i) →
    ResRel (StRel φ R) (linChildren lv lin st l) (linChildren lv lin' st' (l.map φ))
  | [], st, st', h, _ => h
  | i :: l, st, st', h, hR => by
    simp only [linChildren, List.map_cons]
    rcases (hl _ _ i h (hR i (by simp))).split with ⟨e, e1, e2⟩ | ⟨a, b, e1, e2, hab⟩
    · simp only [e1, e2]; rfl
    · simp only [e1, e2]
      exact children_rel hl l _ _ (hab.write _) (fun j hj => hR j (by simp [hj]))

end Verif.Lin
