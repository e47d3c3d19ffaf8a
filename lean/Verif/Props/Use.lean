import Verif.Lemmas.Writer
import Verif.Props.Lineariser
/-!
C10: DEF and USE in the written text.

The writer's output is a list of pieces whose concatenation is the text; a piece is the opening of a node
(`DEF name Type {`), a `USE name`, or other text.
-/
namespace Verif.Lin
open Verif.TextOut Verif.SceneText
variable {F : Type}

/-! ### Specification -/

/-- Every `USE d` for node `i` is preceded by the opening of node `i` under the same name. -/
def UsesAfterDef (out : List Chunk) : Prop :=
  ∀ pre post i d, out = pre ++ Chunk.use i d :: post → d ≠ [] ∧ ∃ p, Chunk.head i d p ∈ pre

/-- How often the body of node `i` is opened. -/
def bodies (i : Nat) (out : List Chunk) : Nat := out.countP (fun c => match c with | .head j _ _ => j == i | _ => false)

/-! ### Proofs -/

theorem UsesAfterDef.append {a b : List Chunk} (h : UsesAfterDef a) (hb : ∀ i d, Chunk.use i d ∈ b → d ≠ [] ∧ ∃ p, Chunk.head i d p ∈ a) :
    UsesAfterDef (a ++ b) := by
  intro pre post i d he
  rcases List.append_eq_append_iff.1 he with ⟨c, h1, h2⟩ | ⟨c, h1, h2⟩
  · obtain ⟨h3, p, hp⟩ := hb i d (by rw [h2]; simp)
    exact ⟨h3, p, by rw [h1]; simp [hp]⟩
  · cases c with
    | nil =>
      obtain ⟨h3, p, hp⟩ := hb i d (by rw [List.nil_append] at h2; rw [← h2]; simp)
      exact ⟨h3, p, by rw [h1] at hp; simpa using hp⟩
    | cons x c =>
      rw [List.cons_append] at h2
      injection h2 with h2 h3
      exact h pre c i d (by rw [h1, h2])

theorem UsesAfterDef.mem {a : List Chunk} (h : UsesAfterDef a) {i : Nat} {d : Text} (hu : Chunk.use i d ∈ a) : d ≠ [] ∧ ∃ p, Chunk.head i d p ∈ a := by
  obtain ⟨pre, post, he⟩ := List.append_of_mem hu
  obtain ⟨h1, p, hp⟩ := h pre post i d he
  exact ⟨h1, p, by rw [he]; simp [hp]⟩

/-- The invariant: uses are in order, and known nodes have been opened. -/
def UseInv (heap : Nat → Option (Node F)) (st : St) : Prop :=
  UsesAfterDef st.out ∧ ∀ i n x, heap i = some n → st.look i = some x → Chunk.head i n.DEF n.cls.proto ∈ st.out

theorem useSteps (heap : Nat → Option (Node F)) : NodeSteps heap (fun a b => a.out <+: b.out ∧ (UseInv heap a → UseInv heap b)) where
  refl _ := ⟨List.prefix_rfl, id⟩
  trans h1 h2 := ⟨h1.1.trans h2.1, h2.2 ∘ h1.2⟩
  write a t := ⟨List.prefix_append _ _, fun h => ⟨h.1.append (by simp), fun i n x hn hx => List.mem_append_left _ (h.2 i n x hn hx)⟩⟩
  level a k := ⟨List.prefix_rfl, fun h => ⟨h.1, h.2⟩⟩
  use st i n x hn hx hD := ⟨List.prefix_append _ _, fun h =>
    ⟨h.1.append (by intro j d hj
                    simp only [List.mem_cons, Chunk.use.injEq, List.not_mem_nil, or_false] at hj
                    obtain ⟨rfl, rfl⟩ := hj
                    exact ⟨hD, _, h.2 j n x hn hx⟩),
      fun j m y hm hy => List.mem_append_left _ (h.2 j m y hm hy)⟩⟩
  copy st i n start stop hn hx hD :=
    ⟨by simp only [List.append_assoc]; exact List.prefix_append _ _, fun h => ⟨by
      show UsesAfterDef (st.out ++ [Chunk.text warning] ++ (st.out.take stop).drop start)
      rw [List.append_assoc]
      refine h.1.append (fun j d hj => h.1.mem ?_)
      simp only [List.cons_append, List.nil_append, List.mem_cons, reduceCtorEq, false_or] at hj
      exact List.mem_of_mem_take (List.mem_of_mem_drop hj),
      fun j m y hm hy => by
        show _ ∈ st.out ++ [Chunk.text warning] ++ (st.out.take stop).drop start
        rw [List.append_assoc]; exact List.mem_append_left _ (h.2 j m y hm hy)⟩⟩
  error st i n start hn hx hD := ⟨List.prefix_append _ _, fun h => ⟨h.1.append (by simp), fun j m y hm hy => List.mem_append_left _ (h.2 j m y hm hy)⟩⟩
  opening st i n hn hx := by
    refine ⟨List.prefix_append _ _, fun h => ⟨h.1.append (by simp), fun j m y hm hy => ?_⟩⟩
    rw [look_cons st i j _ _ rfl] at hy
    split at hy
    · next hj => subst hj; rw [hn] at hm; cases hm; simp
    · exact List.mem_append_left _ (h.2 j m y hm hy)
  closed st st1 i n hn hx hr := by
    refine ⟨List.prefix_rfl, fun h => ⟨h.1, fun j m y hm hy => ?_⟩⟩
    rw [look_cons st1 i j _ _ rfl] at hy
    split at hy
    · next hj =>
      subst hj
      rw [hn] at hm; cases hm
      exact hr.1.subset (by simp)
    · exact h.2 j m y hm hy

/-- The invariant for bodies, as long as no warning is written: each node is opened at most once, and only if it is
known. -/
def OnceInv (st : St) : Prop := st.warned = false → ∀ i, bodies i st.out ≤ 1 ∧ (bodies i st.out ≠ 0 → Done st i)

theorem bodies_append (i : Nat) (a b : List Chunk) : bodies i (a ++ b) = bodies i a + bodies i b := List.countP_append ..

theorem onceSteps (heap : Nat → Option (Node F)) : NodeSteps heap (fun a b => Up a b ∧ (OnceInv a → OnceInv b)) where
  refl _ := ⟨Up.refl _, id⟩
  trans h1 h2 := ⟨h1.1.trans h2.1, h2.2 ∘ h1.2⟩
  write a t := ⟨Up.of rfl rfl, fun h hw i => by
    obtain ⟨h1, h2⟩ := h hw i
    have : bodies i (a.write t).out = bodies i a.out := by simp [St.write, bodies_append]; rfl
    rw [this]; exact ⟨h1, h2⟩⟩
  level a k := ⟨Up.of rfl rfl, fun h => h⟩
  use st i n x hn hx hD := ⟨Up.of rfl rfl, fun h hw j => by
    obtain ⟨h1, h2⟩ := h hw j
    have : bodies j (st.out ++ [Chunk.use i n.DEF]) = bodies j st.out := by simp [bodies_append]; rfl
    show bodies j (st.out ++ [Chunk.use i n.DEF]) ≤ 1 ∧ _
    rw [this]; exact ⟨h1, h2⟩⟩
  copy st i n start stop hn hx hD := ⟨⟨fun _ => rfl, fun j hj => hj⟩, fun h hw => by cases hw⟩
  error st i n start hn hx hD := ⟨⟨fun _ => rfl, fun j hj => hj⟩, fun h hw => by cases hw⟩
  opening st i n hn hx := by
    refine ⟨⟨id, fun j hj => done_cons rfl hj⟩, fun h hw j => ?_⟩
    obtain ⟨h1, h2⟩ := h hw j
    show bodies j (st.out ++ [Chunk.head i n.DEF n.cls.proto]) ≤ 1 ∧ (bodies j (st.out ++ [Chunk.head i n.DEF n.cls.proto]) ≠ 0 → _)
    rw [bodies_append]
    by_cases hj : j = i
    · subst hj
      have h0 : bodies j st.out = 0 := by
        by_cases h0 : bodies j st.out = 0
        · exact h0
        · obtain ⟨x, hx'⟩ := h2 h0; rw [hx] at hx'; cases hx'
      have hb : bodies j [Chunk.head j n.DEF n.cls.proto] = 1 := by simp [bodies]
      rw [h0, hb]
      exact ⟨Nat.le_refl _, fun _ => ⟨_, by rw [look_cons st j j _ _ rfl, if_pos rfl]⟩⟩
    · have hb : bodies j [Chunk.head i n.DEF n.cls.proto] = 0 := by simp [bodies, Ne.symm hj]
      rw [hb]
      exact ⟨h1, fun hne => done_cons rfl (h2 hne)⟩
  closed st st1 i n hn hx hr := by
    refine ⟨⟨id, fun j hj => done_cons rfl hj⟩, fun h hw j => ?_⟩
    obtain ⟨h1, h2⟩ := h hw j
    exact ⟨h1, fun hne => done_cons rfl (h2 hne)⟩

/-! ### C10 -/

/-- The pieces the writer writes after the header. -/
def pieces (lv : LinValues) (fl : Floats F) (sc : Scene F) (fuel : Nat) : Res (List Chunk) := (linBody lv fl (preroute sc) fuel).map St.out

/-- They make up the text. -/
theorem pieces_text {lv : LinValues} {fl : Floats F} {sc named : Scene F} {fuel : Nat} {text : Text}
    (h : linearise lv fl sc fuel = .ok (text, named)) : ∃ out, pieces lv fl sc fuel = .ok out ∧ text = header ++ textOf out := by
  unfold linearise at h
  cases hb : linBody lv fl (preroute sc) fuel with
  | error e => simp [hb] at h
  | ok st => simp [hb] at h; exact ⟨st.out, by simp [pieces, hb, Except.map], h.1.symm⟩

theorem pieces_body {lv : LinValues} {fl : Floats F} {sc : Scene F} {fuel : Nat} {out : List Chunk} (h : pieces lv fl sc fuel = .ok out) :
    ∃ st, linBody lv fl (preroute sc) fuel = .ok st ∧ st.out = out := by
  unfold pieces at h
  cases hb : linBody lv fl (preroute sc) fuel with
  | error e => simp [hb, Except.map] at h
  | ok st => simp [hb, Except.map] at h; exact ⟨st, rfl, h⟩

/-- **USE never precedes its DEF**: whatever the graph (shared, cyclic, unnamed nodes), the options and the depth, every
`USE name` that is written comes after the opening `DEF name Type {` of the same node. -/
theorem C10_use_after_def {lv : LinValues} {fl : Floats F} {sc : Scene F} {fuel : Nat} {out : List Chunk}
    (h : pieces lv fl sc fuel = .ok out) : UsesAfterDef out := by
  obtain ⟨st, hst, rfl⟩ := pieces_body h
  exact (((useSteps (preroute sc).heap).body hst).2 ⟨by intro pre post i d he; simp at he, by intro i n x _ hx; simp [St.look] at hx⟩).1

/-- In terms of the text: in front of a `USE name` the text contains `DEF name `. -/
theorem C10_use_after_def_text {lv : LinValues} {fl : Floats F} {sc named : Scene F} {fuel : Nat} {text : Text} {out pre post : List Chunk} {i : Nat} {d : Text}
    (h : linearise lv fl sc fuel = .ok (text, named)) (hp : pieces lv fl sc fuel = .ok out) (he : out = pre ++ Chunk.use i d :: post) :
    text = header ++ textOf pre ++ (['U', 'S', 'E', ' '] ++ d) ++ textOf post ∧ (['D', 'E', 'F', ' '] ++ d ++ [' ']) <:+: textOf pre := by
  obtain ⟨hne, p, hm⟩ := C10_use_after_def hp pre post i d he
  obtain ⟨out', h1, h2⟩ := pieces_text h
  rw [hp] at h1
  cases h1
  obtain ⟨u, v, huv⟩ := List.append_of_mem hm
  refine ⟨by rw [h2, he]; simp [textOf, Chunk.toText], textOf u, (if p = scriptName then [' '] else []) ++ p ++ [' ', '{'] ++ textOf v, ?_⟩
  rw [huv]; simp [textOf, Chunk.toText, defPart, hne]

/-- **Bodies are written once**, if every node held in several places has a name (or gets one because it is the end of
a route), no class has two fields of one name and the fields that a Script declares have their defaults as values.
Excluded: scenes in which an unnamed node is held in two places; there it is false even for the named nodes below it
(`C10_refuted_named_body_twice`). -/
theorem C10_bodies_once {lv : LinValues} {fl : Floats F} {sc : Scene F} {fuel : Nat} {out : List Chunk}
    (hd : ∀ i n, Reach sc i → sc.heap i = some n → PlainDecls sc i n) (hs : SharedNamed sc)
    (h : pieces lv fl sc fuel = .ok out) (i : Nat) : bodies i out ≤ 1 := by
  have hren := C11_only_names_added sc
  have hends := C11_ends_named sc
  obtain ⟨st, hst, rfl⟩ := pieces_body h
  have hnw : st.warned = false := by
    refine body_nowarn (fun i m hi hm => ?_) (fun j m l l' hl hl' hm hD => ?_) hst
    · rcases hren.node i with ⟨-, e1⟩ | ⟨n, m', e1, e2, e3, e4, -⟩
      · rw [hm] at e1; cases e1
      · rw [hm] at e2; cases e2
        have hp := hd i n (hren.reach_iff.1 hi) e1
        refine ⟨by rw [e3]; exact hp.distinct, fun d hdm hv hdec => ?_⟩
        rw [e3] at hdm hdec
        obtain ⟨h1, v, h2, h3⟩ := hp.decls d hdm hv hdec
        exact ⟨hren.shown.2 h1, v, h2, by rw [read_congr e4]; exact h3⟩
    · rcases hren.node j with ⟨-, e1⟩ | ⟨n, m', e1, e2, e3, e4, e5⟩
      · rw [hm] at e1; cases e1
      · rw [hm] at e2; cases e2
        refine hs j n l l' (hren.refers hl) (hren.refers hl') e1 ?_ ?_
        · by_cases hne : n.DEF = []
          · exact hne
          · rw [e5 hne] at hD; exact absurd hD hne
        · intro r hr
          refine ⟨?_, ?_⟩ <;> rintro rfl
          · exact hends r hr m (.inl hm) hD
          · exact hends r hr m (.inr hm) hD
  exact (((onceSteps (preroute sc).heap).body hst).2 (fun _ i => ⟨Nat.zero_le _, fun h => absurd rfl h⟩) hnw i).1

example : (∃ out, pieces defaults exFloats exScene 3 = .ok out) ∧ SharedNamed exScene ∧
    ∀ i n, Reach exScene i → exScene.heap i = some n → PlainDecls exScene i n := by
  obtain ⟨t, named, -, -, h, -⟩ := C09_round_trip goodDefaults exGoodScene (fuel := 3) (fun _ _ _ _ _ => by decide) (by decide)
  exact ⟨(pieces_text h).imp fun _ h => h.1, exGoodScene.shared, fun i n hi hn => (exGoodScene.nodes i n hi hn).plain⟩

/-- Node 0 has no name and is held twice; it holds node 1, which is named. -/
def exDouble : Scene Int :=
  ⟨fun i => if i = 0 then some (exNode [] 0 [] (some 1)) else if i = 1 then some (exNode (chars "A") 0 [] none) else none,
    [0, 0], [], [(chars "A", 1)], none⟩

/-- The unrestricted claim fails: the body of a named node is written twice when it is below an unnamed shared one. -/
theorem C10_refuted_named_body_twice : (pieces defaults exFloats exDouble 3).map (bodies 1) = .ok 2 ∧
    (exDouble.heap 1).map Node.DEF = some (chars "A") := by
  constructor
  · rfl
  · rfl

/-- A named node that holds itself and is held twice by the scene. -/
def exTwiceUse : Scene Int :=
  ⟨fun i => if i = 0 then some (exNode (chars "A") 0 [] (some 0)) else none, [0, 0], [], [(chars "A", 0)], none⟩

example : (pieces defaults exFloats exTwiceUse 3).map (List.filter (fun c => match c with | .text _ => false | _ => true)) =
    .ok [.head 0 (chars "A") (chars "Group"), .use 0 (chars "A"), .use 0 (chars "A")] := by rfl

end Verif.Lin
