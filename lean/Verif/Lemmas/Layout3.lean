import Verif.Lemmas.Layout2
import Verif.Model.ProtoText
/-!
Reading a tree does not look at the texts that contain layout.
-/
namespace Verif.Layout
open Verif.Peg Verif.Grammar Verif.Lin

def tagOf : PTree → NT | .node n _ _ => n

mutual
/-- trees that parsing can produce, as far as needed -/
def WF : PTree → Prop
  | .node n m k => (isValue n = true → BadNum m) ∧ (n = .field → ∀ t ∈ k, isLeaf (tagOf t) = true ∨ isValue (tagOf t) = true) ∧ WFs k
def WFs : List PTree → Prop
  | [] => True
  | t :: l => WF t ∧ WFs l
end

theorem WFs_append {a b : List PTree} : WFs (a ++ b) ↔ WFs a ∧ WFs b := by
  induction a with
  | nil => simp [WFs]
  | cons t a ih => simp [WFs, ih, and_assoc]

/-- tags of the trees an expression reports -/
def tags : E → List NT
  | .seq a b | .alt a b => tags a ++ tags b
  | .star a | .cut a => tags a
  | .nt n => [n]
  | _ => []

/-- the only silent production used is `ts` -/
def onlyTs : E → Bool
  | .seq a b | .alt a b => onlyTs a && onlyTs b
  | .star a | .cut a => onlyTs a
  | .silent n => n == .ts
  | _ => true

theorem der_tags {e i o} (h : Der gram e i o) : ∀ t m r, o = .ok t m r → onlyTs e = true → ∀ x ∈ t, tagOf x ∈ tags e := by
  induction h with
  | seq _ _ ih1 ih2 =>
    intro t m r ho he x hx
    cases ho
    simp only [onlyTs, Bool.and_eq_true] at he
    rcases List.mem_append.1 hx with hx | hx
    · exact List.mem_append_left _ (ih1 _ _ _ rfl he.1 x hx)
    · exact List.mem_append_right _ (ih2 _ _ _ rfl he.2 x hx)
  | altL _ ih =>
    intro t m r ho he x hx
    cases ho
    simp only [onlyTs, Bool.and_eq_true] at he
    exact List.mem_append_left _ (ih _ _ _ rfl he.1 x hx)
  | altR _ _ _ ih =>
    intro t m r ho he x hx
    simp only [onlyTs, Bool.and_eq_true] at he
    exact List.mem_append_right _ (ih _ _ _ ho he.2 x hx)
  | starCons _ _ _ ih1 ih2 =>
    intro t m r ho he x hx
    cases ho
    rcases List.mem_append.1 hx with hx | hx
    · exact ih1 _ _ _ rfl he x hx
    · exact ih2 _ _ _ rfl he x hx
  | starNil _ _ => intro t m r ho _ x hx; cases ho; cases hx
  | nt _ _ => intro t m r ho _ x hx; cases ho; simp at hx; subst hx; simp [tags, tagOf]
  | silent hd _ =>
    intro t m r ho he x hx
    cases ho
    simp only [onlyTs, beq_iff_eq] at he
    subst he
    rw [(C07_only_ignorable_skipped (Der.silent (g := gram) (n := NT.ts) hd)).1] at hx
    cases hx
  | cut _ ih => intro t m r ho he x hx; cases ho; exact ih _ _ _ rfl he x hx
  | eps | lit | cls | eof => intro t m r ho _ x hx; cases ho; cases hx
  | _ => intro t m r ho; cases ho

theorem brace_mem {a b : E} {rest : E} {i t m r} (h : Der gram (.seq a (.seq b rest)) i (.ok t m r))
    (hb : ∀ i t m r, Der gram b i (.ok t m r) → BadNum m) : BadNum m := by
  cases h with
  | seq _ h2 => cases h2 with
    | seq h2 _ =>
      have := hb _ _ _ _ h2
      rcases this with h | h | h
      · exact .inl (by simp [h])
      · exact .inr (.inl (by simp [h]))
      · exact .inr (.inr (by simp [h]))

theorem BadNum.right {a b : List Char} (h : BadNum b) : BadNum (a ++ b) := by
  rcases h with h | h | h
  · exact .inl (by simp [h])
  · exact .inr (.inl (by simp [h]))
  · exact .inr (.inr (by simp [h]))

theorem BadNum.left {a b : List Char} (h : BadNum a) : BadNum (a ++ b) := by
  rcases h with h | h | h
  · exact .inl (by simp [h])
  · exact .inr (.inl (by simp [h]))
  · exact .inr (.inr (by simp [h]))

theorem lit_text {s i t m r} (h : Der gram (.lit s) i (.ok t m r)) : m = s := by cases h; rfl

theorem seq_left {a b : E} {i t m r} (h : Der gram (.seq a b) i (.ok t m r)) (ha : ∀ i t m r, Der gram a i (.ok t m r) → BadNum m) : BadNum m := by
  cases h with | seq h1 _ => exact (ha _ _ _ _ h1).left
theorem seq_right {a b : E} {i t m r} (h : Der gram (.seq a b) i (.ok t m r)) (hb : ∀ i t m r, Der gram b i (.ok t m r) → BadNum m) : BadNum m := by
  cases h with | seq _ h2 => exact (hb _ _ _ _ h2).right

theorem value_bad {n i t m r} (h : Der gram (gram n) i (.ok t m r)) (hn : isValue n = true) : BadNum m := by
  cases n <;> first | cases hn | skip
  · refine seq_right h fun i t m r h => seq_right h fun i t m r h => seq_right h fun i t m r h => seq_left h fun i t m r h => ?_
    rw [lit_text h]; exact .inr (.inl (by decide))
  · refine seq_right h fun i t m r h => seq_right h fun i t m r h => seq_right h fun i t m r h => seq_left h fun i t m r h => ?_
    cases h with | cut h => rw [lit_text h]; exact .inr (.inl (by decide))
  · refine seq_left h fun i t m r h => ?_
    rw [lit_text h]; exact .inr (.inr (by decide))
  · refine seq_left h fun i t m r h => ?_
    rw [lit_text h]; exact .inl (by decide)

theorem der_wf {e i o} (h : Der gram e i o) : ∀ t m r, o = .ok t m r → WFs t := by
  induction h with
  | seq _ _ ih1 ih2 => intro t m r ho; cases ho; exact WFs_append.2 ⟨ih1 _ _ _ rfl, ih2 _ _ _ rfl⟩
  | altL _ ih => intro t m r ho; cases ho; exact ih _ _ _ rfl
  | altR _ _ _ ih => intro t m r ho; exact ih _ _ _ ho
  | starCons _ _ _ ih1 ih2 => intro t m r ho; cases ho; exact WFs_append.2 ⟨ih1 _ _ _ rfl, ih2 _ _ _ rfl⟩
  | starNil _ _ => intro t m r ho; cases ho; trivial
  | @nt n i t m r h ih =>
    intro t' m' r' ho
    cases ho
    refine ⟨⟨fun hv => value_bad h hv, ?_, ih _ _ _ rfl⟩, trivial⟩
    rintro rfl x hx
    have := der_tags h _ _ _ rfl (by decide) x hx
    revert this
    generalize tagOf x = g
    cases g <;> decide
  | silent _ ih => intro t m r ho; cases ho; exact ih _ _ _ rfl
  | cut _ ih => intro t m r ho; cases ho; exact ih _ _ _ rfl
  | eps | lit | cls | eof => intro t m r ho; cases ho; trivial
  | _ => intro t m r ho; cases ho

/-! ### Values -/

theorem natBase0_chars {t : List Char} {n} (h : ParseVal.natBase0 t = some n) : ∀ c ∈ t, isHex c = true ∨ c = 'x' ∨ c = 'X' := by
  cases t with
  | nil => cases h
  | cons c s =>
    simp only [ParseVal.natBase0] at h
    split at h
    · rename_i hc
      subst hc
      cases s with
      | nil => intro c hc; simp at hc; subst hc; exact .inl (by decide)
      | cons x l =>
        simp only at h
        split at h
        · rename_i hx
          split at h
          · rename_i hall
            intro c hc
            simp only [List.mem_cons] at hc
            rcases hc with rfl | rfl | hc
            · exact .inl (by decide)
            · exact .inr hx
            · exact .inl (List.all_eq_true.1 hall.2 c hc)
          · cases h
        · split at h
          · rename_i hall
            intro c hc
            rcases List.mem_cons.1 hc with rfl | hc
            · exact .inl (by decide)
            · have := List.all_eq_true.1 hall c hc
              simp at this
              subst this; exact .inl (by decide)
          · cases h
    · split at h
      · rename_i hall
        intro d hd
        have := List.all_eq_true.1 hall d hd
        exact .inl (by simp [isHex, this])
      · cases h

theorem int_bad {t : List Char} (h : BadNum t) : ParseVal.intBase0 t = none := by
  have key : ∀ s : List Char, BadNum s → ParseVal.natBase0 s = none := by
    intro s hs
    cases hn : ParseVal.natBase0 s with
    | none => rfl
    | some n =>
      have := natBase0_chars hn
      rcases hs with h | h | h <;> exact absurd (this _ h) (by decide)
  cases t with
  | nil => rfl
  | cons c s =>
    have hs : (c = '-' ∨ c = '+') → BadNum s := by
      rintro hc
      rcases h with h | h | h <;> (simp only [List.mem_cons] at h; rcases h with h | h)
      · subst h; rcases hc with h | h <;> cases h
      · exact .inl h
      · subst h; rcases hc with h | h <;> cases h
      · exact .inr (.inl h)
      · subst h; rcases hc with h | h <;> cases h
      · exact .inr (.inr h)
    simp only [ParseVal.intBase0]
    split
    · rw [key s (hs (.inl ‹_›))]; rfl
    · split
      · rw [key s (hs (.inr ‹_›))]; rfl
      · rw [key _ h]; rfl

theorem norm_text {t : PTree} (hw : WF t) (ht : isLeaf (tagOf t) = true ∨ isValue (tagOf t) = true) :
    ParseVal.Tree.text (norm t) = ParseVal.Tree.text t ∨ (BadNum (ParseVal.Tree.text (norm t)) ∧ BadNum (ParseVal.Tree.text t)) := by
  obtain ⟨n, m, k⟩ := t
  cases hl : isLeaf n with
  | true => left; simp [norm, hl]
  | false =>
    have hv : isValue n = true := by simpa [tagOf, hl] using ht
    right
    simp only [norm, hl, hv, ParseVal.Tree.text, if_true, Bool.false_eq_true, if_false]
    exact ⟨.inl (by simp), hw.1 hv⟩

theorem norm_piece (t : PTree) : ParseVal.stringPiece (norm t) = ParseVal.stringPiece t := by
  obtain ⟨n, m, k⟩ := t
  cases n <;> rfl

theorem norm_decode (t : PTree) : ParseVal.decodeString (ParseVal.Tree.kids (norm t)) = ParseVal.decodeString (ParseVal.Tree.kids t) := by
  obtain ⟨n, m, k⟩ := t
  cases hl : isLeaf n with
  | true => simp [norm, hl]
  | false =>
    simp only [norm, hl, ParseVal.Tree.kids, ParseVal.decodeString]
    congr 1
    induction k with
    | nil => rfl
    | cons a k ih => simp [norms, norm_piece]; simpa using ih

/-- all the functions that look at texts -/
theorem allSome_norm {β : Type} (f : List Char → Option β) (hf : ∀ t, BadNum t → f t = none) {l : List PTree} (hw : WFs l)
    (ht : ∀ t ∈ l, isLeaf (tagOf t) = true ∨ isValue (tagOf t) = true) :
    ParseVal.allSome (fun t => f (ParseVal.Tree.text t)) (norms l) = ParseVal.allSome (fun t => f (ParseVal.Tree.text t)) l := by
  induction l with
  | nil => rfl
  | cons t l ih =>
    simp only [norms, ParseVal.allSome]
    rw [ih hw.2 (fun x hx => ht x (by simp [hx]))]
    rcases norm_text hw.1 (ht t (by simp)) with h | ⟨h1, h2⟩
    · rw [h]
    · rw [hf _ h1, hf _ h2]

theorem one_norm {β : Type} (f : List Char → Option β) (hf : ∀ t, BadNum t → f t = none) {t : PTree} (hw : WF t)
    (ht : isLeaf (tagOf t) = true ∨ isValue (tagOf t) = true) : f (ParseVal.Tree.text (norm t)) = f (ParseVal.Tree.text t) := by
  rcases norm_text hw ht with h | ⟨h1, h2⟩
  · rw [h]
  · rw [hf _ h1, hf _ h2]

theorem simpleValue_norm {F : Type} {fl : Floats F} (hfl : PyFloat fl) (kd : Kind) {l : List PTree} (hw : WFs l)
    (ht : ∀ t ∈ l, isLeaf (tagOf t) = true ∨ isValue (tagOf t) = true) : simpleValue fl kd (norms l) = simpleValue fl kd l := by
  have hm : ∀ l : List PTree, ParseVal.mfString (norms l) = ParseVal.mfString l := by
    intro l
    induction l with
    | nil => rfl
    | cons t l ih => simp [norms, ParseVal.mfString, norm_decode] ; simpa [ParseVal.mfString] using ih
  cases kd with
  | sfBool =>
    simp only [simpleValue]
    congr 1
    have hb : ∀ m : List Char, BadNum m → (m == ['T', 'R', 'U', 'E']) = false := by
      intro m hm
      simp only [beq_eq_false_iff_ne]
      rintro rfl
      rcases hm with h | h | h <;> exact absurd h (by decide)
    match l, hw, ht with
    | [], _, _ => rfl
    | [t], hw, ht =>
      have : (ParseVal.Tree.text (norm t) == ['T', 'R', 'U', 'E']) = (ParseVal.Tree.text t == ['T', 'R', 'U', 'E']) := by
        rcases norm_text hw.1 (ht t (by simp)) with h | ⟨h1, h2⟩
        · rw [h]
        · rw [hb _ h1, hb _ h2]
      exact congrArg some this
    | _ :: _ :: _, _, _ => rfl
  | sfInt32 =>
    simp only [simpleValue]
    congr 1
    match l, hw, ht with
    | [], _, _ => rfl
    | [t], hw, ht => exact one_norm _ (fun t h => int_bad h) hw.1 (ht t (by simp))
    | _ :: _ :: _, _, _ => rfl
  | sfFloat =>
    simp only [simpleValue]
    congr 1
    match l, hw, ht with
    | [], _, _ => rfl
    | [t], hw, ht => exact one_norm _ hfl hw.1 (ht t (by simp))
    | _ :: _ :: _, _, _ => rfl
  | sfString =>
    simp only [simpleValue]
    congr 1
    match l with
    | [] => rfl
    | [t] => simp [norms, ParseVal.sfString, norm_decode]
    | _ :: _ :: _ => rfl
  | mfInt _ => simp only [simpleValue, ParseVal.mfInt32]; rw [allSome_norm _ (fun t h => int_bad h) hw ht]
  | sfVec n => simp only [simpleValue, ParseVal.mfFloat]; rw [allSome_norm _ hfl hw ht]
  | mfFloat => simp only [simpleValue, ParseVal.mfFloat]; rw [allSome_norm _ hfl hw ht]
  | mfVec n => simp only [simpleValue, ParseVal.mfFloat]; rw [allSome_norm _ hfl hw ht]
  | mfString => simp only [simpleValue]; rw [hm]
  | sfNode => rfl
  | mfNode => rfl

end Verif.Layout
