import Verif.Lemmas.FullRun5
import Verif.Lemmas.Linked
import Verif.Lemmas.Shape
import Verif.Spec.Content
/-!
What the steps of the reader do to the contents of the objects.
-/
namespace Verif.Full
open Verif.Peg Verif.Grammar Verif.TextOut Verif.SceneText Verif.Reader Verif.Scopes
open Verif.Lin hiding disp dispList dispDecls dispAttrs disp_node disp_attr
variable {F : Type} {base : Text → Option (Class F)} {fl : Floats F}

/-- what is stored in a node -/
def dictAt (w : World F) (i : Nat) (f : Text) : Option (Val F) := (w.heap i).bind (fun n => n.dict f)
/-- the class of a node -/
def clsAt (w : World F) (i : Nat) : Option (Class F) := (w.heap i).map (fun n => n.cls)

theorem fieldAt_eq (w : World F) (i : Nat) (nm : Text) : fieldAt w i nm = (match (clsAt w i).bind (fun c => c.getField nm) with | some (.inl d) => some d | _ => none) := by
  unfold fieldAt clsAt
  cases w.heap i <;> rfl

theorem fieldAt_congr {w w' : World F} {i : Nat} (h : clsAt w' i = clsAt w i) (nm : Text) : fieldAt w' i nm = fieldAt w i nm := by
  rw [fieldAt_eq, fieldAt_eq, h]

/-- nothing has been put yet into scenes and prototypes that do not exist yet -/
structure Fresh (w : World F) : Prop where
  scene : ∀ s, w.nscenes ≤ s → (w.scene s).children = []
  cls : ∀ k, w.nclasses ≤ k → (w.cls k).is = []

/-- The change from `w` to `w'` is what `log` says.  `X` are the Scripts whose declarations are being read, `C` the old nodes that may get values. -/
structure Effect (fl : Floats F) (X C : Nat → Prop) (log : List Said) (w w' : World F) : Prop where
  wires : (∀ x ∈ w.wires, x ∈ w'.wires) ∧ (Sending w → Sending w')
  next : w.next ≤ w'.next
  cls : ∀ i, i < w.next → ¬ X i → clsAt w' i = clsAt w i
  fresh : Fresh w → Fresh w'
  children : ∀ s, (w'.scene s).children = (w.scene s).children ++ childrenIn s log
  is : ∀ k nm, ((w'.cls k).is.lookup nm).getD [] = ((w.cls k).is.lookup nm).getD [] ++ mappedTo k nm log
  entries : ∀ i nm g, .value i nm g ∈ log → ¬ X i ∧ (w.next ≤ i ∨ C i) ∧ i < w'.next ∧ ∃ d, fieldAt w' i nm = some d ∧ (meant fl d.kind g).isSome
  value : ∀ i f, ¬ Connected w' i f → match (valuesFor w' i f log).getLast? with
    | none => dictAt w' i f = dictAt w i f
    | some (d, g) => ∃ v u, meant fl d.kind g = some v ∧ coerce d.kind d.conv v = some u ∧ dictAt w' i f = some u
  dflt : ∀ k, ∀ f ∈ (w'.cls k).decl.fields, match lastDflt k f.decl.name log with
    | none => f ∈ (w.cls k).decl.fields ∨ f = externalURL
    | some g => DfltSaid fl f.decl g ∨ f = externalURL
  own : ∀ i nm g, .own i nm g ∈ log → (w.next ≤ i ∨ X i) ∧ i < w'.next
  script : ∀ i items, .script i items ∈ log → w.next ≤ i ∧ ¬ X i ∧ i < w'.next ∧ ∃ c, clsAt w' i = some c ∧ ScriptAs fl items c ∧ OwnSaid fl i log c

theorem childrenIn_append (s : Nat) (a b : List Said) : childrenIn s (a ++ b) = childrenIn s a ++ childrenIn s b := by simp [childrenIn]
theorem mappedTo_append (k : Nat) (nm : Text) (a b : List Said) : mappedTo k nm (a ++ b) = mappedTo k nm a ++ mappedTo k nm b := by simp [mappedTo]
theorem valuesFor_append (w : World F) (i : Nat) (f : Text) (a b : List Said) : valuesFor w i f (a ++ b) = valuesFor w i f a ++ valuesFor w i f b := by simp [valuesFor]
theorem lastDflt_append (k : Nat) (nm : Text) (a b : List Said) : lastDflt k nm (a ++ b) = (lastDflt k nm b).or (lastDflt k nm a) := by
  simp [lastDflt, List.getLast?_append]
theorem lastOwn_append (k : Nat) (nm : Text) (a b : List Said) : lastOwn k nm (a ++ b) = (lastOwn k nm b).or (lastOwn k nm a) := by
  simp [lastOwn, List.getLast?_append]

theorem Connected.mono {w w' : World F} (h : (∀ x ∈ w.wires, x ∈ w'.wires) ∧ (Sending w → Sending w')) {i f} (hc : Connected w i f) : Connected w' i f := by
  obtain ⟨hs, x, hx, h1⟩ := hc
  exact ⟨h.2 hs, x, h.1 x hx, h1⟩

theorem valuesFor_congr {w w' : World F} {i : Nat} {f : Text} : ∀ {l : List Said}, (∀ nm g, .value i nm g ∈ l → clsAt w' i = clsAt w i) → valuesFor w' i f l = valuesFor w i f l := by
  intro l h
  unfold valuesFor
  refine List.filterMap_congr (fun e he => ?_)
  split
  · next j name g =>
    split
    · next hj => subst hj; rw [fieldAt_congr (h _ _ he)]
    · rfl
  · rfl

theorem lastOwn_none {i : Nat} {nm : Text} {l : List Said} (h : ∀ g, .own i nm g ∉ l) : lastOwn i nm l = none := by
  unfold lastOwn
  rw [List.getLast?_eq_none_iff, List.filterMap_eq_nil_iff]
  intro e he
  split
  · next j nm' g =>
    split
    · next hj => obtain ⟨rfl, rfl⟩ := hj; exact absurd he (h g)
    · rfl
  · rfl

/-- nothing happens -/
theorem Effect.refl (X C : Nat → Prop) (w : World F) : Effect fl X C [] w w :=
  ⟨⟨fun _ h => h, id⟩, le_rfl, fun _ _ _ => rfl, id, fun s => by simp [childrenIn], fun k nm => by simp [mappedTo], by simp, fun i f _ => by simp [valuesFor], fun k f hf => .inl hf, by simp, by simp⟩

theorem Effect.trans {X C D : Nat → Prop} {a b c : World F} {l l' : List Said} (h : Effect fl X C l a b) (h' : Effect fl X D l' b c) (hD : ∀ i, D i → C i ∨ a.next ≤ i) :
    Effect fl X C (l ++ l') a c := by
  have hv1 : ∀ i nm g, .value i nm g ∈ l → clsAt c i = clsAt b i := fun i nm g hm => h'.cls i (h.entries i nm g hm).2.2.1 (h.entries i nm g hm).1
  refine ⟨⟨fun x hx => h'.wires.1 x (h.wires.1 x hx), fun hs => h'.wires.2 (h.wires.2 hs)⟩, h.next.trans h'.next, fun i hi hx => (h'.cls i (hi.trans_le h.next) hx).trans (h.cls i hi hx), fun hf => h'.fresh (h.fresh hf),
    fun s => ?_, fun k nm => ?_, fun i nm g hm => ?_, fun i f hc => ?_, fun k f hf => ?_, fun i nm g hm => ?_, fun i items hm => ?_⟩
  · rw [h'.children, h.children, childrenIn_append, List.append_assoc]
  · rw [h'.is, h.is, mappedTo_append, List.append_assoc]
  · rcases List.mem_append.1 hm with hm | hm
    · obtain ⟨h1, h2, h3, h4⟩ := h.entries i nm g hm
      exact ⟨h1, h2, h3.trans_le h'.next, by rw [fieldAt_congr (hv1 i nm g hm)]; exact h4⟩
    · obtain ⟨h1, h2, h3, h4⟩ := h'.entries i nm g hm
      refine ⟨h1, ?_, h3, h4⟩
      rcases h2 with h2 | h2
      · exact .inl (h.next.trans h2)
      · exact (hD i h2).symm
  · rw [valuesFor_append, List.getLast?_append, valuesFor_congr (l := l) (fun nm g hm => hv1 i nm g hm)]
    have h2 := h'.value i f hc
    cases hl : (valuesFor c i f l').getLast? with
    | some p => rw [hl] at h2; exact h2
    | none =>
      rw [hl] at h2
      have h1 := h.value i f (fun hb => hc (hb.mono h'.wires))
      simp only [Option.none_or]
      cases hl1 : (valuesFor b i f l).getLast? with
      | none => rw [hl1] at h1; simp only at h1 h2 ⊢; rw [h2, h1]
      | some p =>
        rw [hl1] at h1
        obtain ⟨v, u, h3, h4, h5⟩ := h1
        exact ⟨v, u, h3, h4, by simp only at h2; rw [h2, h5]⟩
  · rw [lastDflt_append]
    have h2 := h'.dflt k f hf
    cases hl : lastDflt k f.decl.name l' with
    | some g => rw [hl] at h2; exact h2
    | none =>
      rw [hl] at h2
      simp only [Option.none_or]
      rcases h2 with h2 | h2
      · exact h.dflt k f h2
      · subst h2
        cases lastDflt k (externalURL : PField F).decl.name l <;> exact .inr rfl
  · rcases List.mem_append.1 hm with hm | hm
    · obtain ⟨h1, h2⟩ := h.own i nm g hm
      exact ⟨h1, h2.trans_le h'.next⟩
    · obtain ⟨h1, h2⟩ := h'.own i nm g hm
      exact ⟨h1.imp_left h.next.trans, h2⟩
  · rcases List.mem_append.1 hm with hm | hm
    · obtain ⟨h1, h2, h3, cl, h4, h5, h6⟩ := h.script i items hm
      refine ⟨h1, h2, h3.trans_le h'.next, cl, (h'.cls i h3 h2).trans h4, h5, fun d hd => ?_⟩
      rw [lastOwn_append, lastOwn_none (l := l'), Option.none_or]
      · exact h6 d hd
      · intro g hg
        rcases (h'.own _ _ _ hg).1 with h7 | h7
        · omega
        · exact h2 h7
    · obtain ⟨h1, h2, h3, cl, h4, h5, h6⟩ := h'.script i items hm
      refine ⟨h.next.trans h1, h2, h3, cl, h4, h5, fun d hd => ?_⟩
      rw [lastOwn_append, lastOwn_none (l := l), Option.or_none]
      · exact h6 d hd
      · intro g hg
        have := (h.own _ _ _ hg).2
        omega

/-- inside the declarations of a Script -/
theorem Effect.weaken {X Y C : Nat → Prop} {a b : World F} {l : List Said} (h : Effect fl X C l a b) (hX : ∀ i, X i → Y i) (hY : ∀ i, Y i → i < a.next ∧ ¬ C i) : Effect fl Y C l a b := by
  refine ⟨h.wires, h.next, fun i hi hx => h.cls i hi (fun hx' => hx (hX i hx')), h.fresh, h.children, h.is, fun i nm g hm => ?_, h.value, h.dflt, fun i nm g hm => ?_, fun i items hm => ?_⟩
  · obtain ⟨h1, h2, h3, h4⟩ := h.entries i nm g hm
    refine ⟨fun hy => ?_, h2, h3, h4⟩
    obtain ⟨h5, h6⟩ := hY i hy
    rcases h2 with h2 | h2
    · omega
    · exact h6 h2
  · obtain ⟨h1, h2⟩ := h.own i nm g hm
    exact ⟨h1.imp_right (hX i), h2⟩
  · obtain ⟨h1, h2, h3⟩ := h.script i items hm
    exact ⟨h1, fun hy => by have := (hY i hy).1; omega, h3⟩

theorem Effect.more {X C D : Nat → Prop} {a b : World F} {l : List Said} (h : Effect fl X C l a b) (hC : ∀ i, C i → D i) : Effect fl X D l a b := by
  refine ⟨h.wires, h.next, h.cls, h.fresh, h.children, h.is, fun i nm g hm => ?_, h.value, h.dflt, h.own, h.script⟩
  obtain ⟨h1, h2, h3, h4⟩ := h.entries i nm g hm
  exact ⟨h1, h2.imp_right (hC i), h3, h4⟩

/-- the declarations of a new Script have been read -/
theorem Effect.close {C Y D : Nat → Prop} {a b c : World F} {l : List Said} (h : Effect fl (fun _ => False) C [] a b) (h' : Effect fl Y D l b c) (hY : ∀ i, Y i → a.next ≤ i)
    (hD : ∀ i, D i → C i ∨ a.next ≤ i) : Effect fl (fun _ => False) C l a c := by
  refine ⟨⟨fun x hx => h'.wires.1 x (h.wires.1 x hx), fun hs => h'.wires.2 (h.wires.2 hs)⟩, h.next.trans h'.next, fun i hi hx => (h'.cls i (hi.trans_le h.next) (fun hy => by have := hY i hy; omega)).trans (h.cls i hi hx), fun hf => h'.fresh (h.fresh hf),
    fun s => ?_, fun k nm => ?_, fun i nm g hm => ?_, fun i f hc => ?_, fun k f hf => ?_, fun i nm g hm => ?_, fun i items hm => ?_⟩
  · rw [h'.children, h.children]; simp [childrenIn]
  · rw [h'.is, h.is]; simp [mappedTo]
  · obtain ⟨h1, h2, h3, h4⟩ := h'.entries i nm g hm
    refine ⟨id, ?_, h3, h4⟩
    rcases h2 with h2 | h2
    · exact .inl (h.next.trans h2)
    · exact (hD i h2).symm
  · have h2 := h'.value i f hc
    cases hl : (valuesFor c i f l).getLast? with
    | some p => rw [hl] at h2; exact h2
    | none =>
      rw [hl] at h2
      have h1 := h.value i f (fun hb => hc (hb.mono h'.wires))
      simp only [valuesFor, List.filterMap_nil, List.getLast?_nil] at h1
      simp only at h2 ⊢
      rw [h2, h1]
  · have h2 := h'.dflt k f hf
    cases hl : lastDflt k f.decl.name l with
    | some g => rw [hl] at h2; exact h2
    | none =>
      rw [hl] at h2
      rcases h2 with h2 | h2
      · exact h.dflt k f h2
      · exact .inr h2
  · obtain ⟨h1, h2⟩ := h'.own i nm g hm
    refine ⟨.inl ?_, h2⟩
    rcases h1 with h1 | h1
    · exact h.next.trans h1
    · exact hY i h1
  · obtain ⟨h1, h2, h3⟩ := h'.script i items hm
    exact ⟨h.next.trans h1, id, h3⟩

end Verif.Full
