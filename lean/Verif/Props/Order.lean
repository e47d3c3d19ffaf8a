import Verif.Spec.Order
import Verif.Lemmas.Decls
import Verif.Lemmas.Writer
import Verif.Props.Lineariser
/-
C96: the order of what is written.
-/
namespace Verif.Lin
open Verif.Peg Verif.Grammar Verif.TextOut
variable {F : Type}

/-! ### Sorting -/

theorem textLe_total : ∀ s t : Text, textLe s t = true ∨ textLe t s = true
  | [], _ => .inl rfl
  | _ :: _, [] => .inr rfl
  | a :: s, b :: t => by
    simp only [textLe]
    by_cases h : a = b
    · subst h; simpa using textLe_total s t
    · rw [if_neg h, if_neg (Ne.symm h)]
      have : a.toNat ≠ b.toNat := fun e => h (Char.toNat_inj.1 e)
      simp only [decide_eq_true_eq]; omega

theorem textLe_alpha : ∀ {s t : Text}, textLe s t = true ↔ AlphaLe s t
  | [], [] => ⟨fun _ => .inl rfl, fun _ => rfl⟩
  | [], _ :: _ => ⟨fun _ => .inr .nil, fun _ => rfl⟩
  | _ :: _, [] => ⟨fun h => (by simp [textLe] at h), fun h => (by rcases h with h | h <;> cases h)⟩
  | a :: s, b :: t => by
    simp only [textLe]
    by_cases h : a = b
    · subst h
      rw [if_pos rfl, textLe_alpha (s := s) (t := t)]
      constructor
      · rintro (h | h)
        · exact .inl (h ▸ rfl)
        · exact .inr (.cons h)
      · rintro (h | h)
        · exact .inl (by simpa using h)
        · cases h with
          | cons h => exact .inr h
          | rel h => exact absurd h (Nat.lt_irrefl _)
    · rw [if_neg h, decide_eq_true_eq]
      constructor
      · exact fun h => .inr (.rel h)
      · rintro (h' | h')
        · exact absurd (List.cons.inj h').1 h
        · cases h' with
          | cons _ => exact absurd rfl h
          | rel h => exact h

theorem textLe_antisymm : ∀ {s t : Text}, textLe s t = true → textLe t s = true → s = t
  | [], [], _, _ => rfl
  | [], _ :: _, _, h => (by simp [textLe] at h)
  | _ :: _, [], h, _ => (by simp [textLe] at h)
  | a :: s, b :: t, h1, h2 => by
    simp only [textLe] at h1 h2
    by_cases h : a = b
    · subst h
      rw [if_pos rfl] at h1 h2
      rw [textLe_antisymm h1 h2]
    · rw [if_neg h] at h1
      rw [if_neg (Ne.symm h)] at h2
      simp only [decide_eq_true_eq] at h1 h2
      omega

theorem textLe_trans : ∀ {s t u : Text}, textLe s t = true → textLe t u = true → textLe s u = true
  | [], _, _, _, _ => rfl
  | _ :: _, [], _, h, _ => (by simp [textLe] at h)
  | _ :: _, _ :: _, [], _, h => (by simp [textLe] at h)
  | a :: s, b :: t, c :: u, h1, h2 => by
    simp only [textLe] at h1 h2 ⊢
    by_cases hab : a = b
    · subst hab
      rw [if_pos rfl] at h1
      by_cases hac : a = c
      · subst hac
        rw [if_pos rfl] at h2 ⊢
        exact textLe_trans h1 h2
      · rwa [if_neg hac] at h2 ⊢
    · rw [if_neg hab, decide_eq_true_eq] at h1
      by_cases hbc : b = c
      · subst hbc
        rw [if_neg hab]; simpa using h1
      · rw [if_neg hbc, decide_eq_true_eq] at h2
        rw [if_neg (fun e => by subst e; omega), decide_eq_true_eq]
        omega

theorem fieldLe_before {a b : FieldDecl F} : fieldLe a b = true ↔ FieldBefore a b := by
  unfold fieldLe FieldBefore
  split
  · rename_i h; simp [h, textLe_alpha]
  · rename_i h; simp [h, textLe_alpha]

theorem fieldLe_total (a b : FieldDecl F) : fieldLe a b = true ∨ fieldLe b a = true := by
  unfold fieldLe
  by_cases h : a.cls = b.cls
  · rw [if_pos h, if_pos h.symm]; exact textLe_total _ _
  · rw [if_neg h, if_neg (Ne.symm h)]; exact textLe_total _ _

theorem fieldLe_trans {a b c : FieldDecl F} (h1 : fieldLe a b = true) (h2 : fieldLe b c = true) : fieldLe a c = true := by
  unfold fieldLe at *
  by_cases hab : a.cls = b.cls
  · rw [if_pos hab] at h1
    by_cases hbc : b.cls = c.cls
    · rw [if_pos hbc] at h2
      rw [if_pos (hab.trans hbc)]
      exact textLe_trans h1 h2
    · rw [if_neg hbc] at h2
      rw [if_neg (hab ▸ hbc), hab]; exact h2
  · rw [if_neg hab] at h1
    by_cases hbc : b.cls = c.cls
    · rw [if_neg (hbc ▸ hab), ← hbc]; exact h1
    · rw [if_neg hbc] at h2
      rw [if_neg]
      · exact textLe_trans h1 h2
      · intro hac
        rw [← hac] at h2
        exact hab (textLe_antisymm h1 h2)

theorem fieldLe_antisymm {a b : FieldDecl F} (h1 : fieldLe a b = true) (h2 : fieldLe b a = true) : a.name = b.name := by
  unfold fieldLe at *
  by_cases h : a.cls = b.cls
  · rw [if_pos h] at h1
    rw [if_pos h.symm] at h2
    exact textLe_antisymm h1 h2
  · rw [if_neg h] at h1
    rw [if_neg (Ne.symm h)] at h2
    exact absurd (textLe_antisymm h1 h2) h

theorem insertBy_sorted {α : Type} {le : α → α → Bool} (tot : ∀ a b, le a b = true ∨ le b a = true)
    (tr : ∀ a b c, le a b = true → le b c = true → le a c = true) (a : α) :
    ∀ {l : List α}, l.Pairwise (fun x y => le x y = true) → (insertBy le a l).Pairwise (fun x y => le x y = true)
  | [], _ => by simp [insertBy]
  | b :: l, h => by
    have h' := List.pairwise_cons.1 h
    simp only [insertBy]
    split
    · rename_i hab
      refine List.pairwise_cons.2 ⟨fun x hx => ?_, h⟩
      rcases List.mem_cons.1 hx with rfl | hx
      · exact hab
      · exact tr _ _ _ hab (h'.1 x hx)
    · rename_i hab
      refine List.pairwise_cons.2 ⟨fun x hx => ?_, insertBy_sorted tot tr a h'.2⟩
      rcases List.mem_cons.1 ((insertBy_perm le a l).mem_iff.1 hx) with rfl | hx
      · exact (tot x b).resolve_left hab
      · exact h'.1 x hx

theorem sortBy_sorted {α : Type} {le : α → α → Bool} (tot : ∀ a b, le a b = true ∨ le b a = true)
    (tr : ∀ a b c, le a b = true → le b c = true → le a c = true) : ∀ l : List α, (sortBy le l).Pairwise (fun x y => le x y = true)
  | [] => by simp [sortBy]
  | a :: l => insertBy_sorted tot tr a (sortBy_sorted tot tr l)

/-- Sorting forgets the order, if elements that compare equal are equal. -/
theorem sortBy_ordered {α : Type} {le : α → α → Bool} (tot : ∀ a b, le a b = true ∨ le b a = true)
    (tr : ∀ a b c, le a b = true → le b c = true → le a c = true) {l k : List α} (h : k.Perm l)
    (anti : ∀ a ∈ l, ∀ b ∈ l, le a b = true → le b a = true → a = b) : sortBy le k = sortBy le l := by
  refine List.Perm.eq_of_pairwise (le := fun x y => le x y = true) (fun a b ha hb => ?_) (sortBy_sorted tot tr k) (sortBy_sorted tot tr l)
    ((sortBy_perm le k).trans (h.trans (sortBy_perm le l).symm))
  exact anti a (h.mem_iff.1 ((sortBy_perm le k).mem_iff.1 ha)) b ((sortBy_perm le l).mem_iff.1 hb)

theorem eq_of_key {α : Type} {f : α → Text} {l : List α} (h : (l.map f).Nodup) {a b : α} (ha : a ∈ l) (hb : b ∈ l) (he : f a = f b) : a = b := by
  induction l with
  | nil => cases ha
  | cons c l ih =>
    rw [List.map_cons, List.nodup_cons] at h
    rcases List.mem_cons.1 ha with rfl | ha' <;> rcases List.mem_cons.1 hb with rfl | hb'
    · rfl
    · exact absurd (List.mem_map.2 ⟨b, hb', he.symm⟩) h.1
    · exact absurd (List.mem_map.2 ⟨a, ha', he⟩) h.1
    · exact ih h.2 ha' hb'

/-! ### Classes -/

theorem attrFields_ordered {c d : Class F} (h : OrderClass c d) : attrFields d = attrFields c := by
  unfold attrFields
  rw [h.proto]
  refine sortBy_ordered fieldLe_total (fun _ _ _ => fieldLe_trans) (h.fields.filter _) (fun a ha b hb h1 h2 => ?_)
  exact eq_of_key h.distinct (List.mem_filter.1 ha).1 (List.mem_filter.1 hb).1 (fieldLe_antisymm h1 h2)

theorem declEvents_ordered {l k : List EventDecl} (h : k.Perm l) (hn : (l.map EventDecl.name).Nodup) : declEvents k = declEvents l := by
  unfold declEvents
  refine sortBy_ordered (le := fun a b => textLe a.name b.name) (fun a b => textLe_total a.name b.name) (fun _ _ _ => textLe_trans) (h.filter _) (fun a ha b hb h1 h2 => ?_)
  exact eq_of_key hn (List.mem_filter.1 ha).1 (List.mem_filter.1 hb).1 (textLe_antisymm h1 h2)

theorem scriptFields_ordered {c d : Class F} (h : OrderClass c d) : scriptFields d = scriptFields c := by
  unfold scriptFields
  have he : ∀ x, d.exposed.contains x = c.exposed.contains x := fun x => by
    rw [Bool.eq_iff_iff]; simp [h.exposed.mem_iff]
  simp only [he]
  congr 1
  refine sortBy_ordered (le := fun a b => textLe a.name b.name) (fun a b => textLe_total a.name b.name) (fun _ _ _ => textLe_trans) (h.fields.filter _) (fun a ha b hb h1 h2 => ?_)
  exact eq_of_key h.distinct (List.mem_filter.1 ha).1 (List.mem_filter.1 hb).1 (textLe_antisymm h1 h2)

theorem declFields_ordered {l k : List (PField F)} (h : k.Perm l) (hn : (l.map (fun f => f.decl.name)).Nodup) : declFields k = declFields l := by
  unfold declFields
  refine sortBy_ordered (le := fun a b => textLe a.decl.name b.decl.name) (fun a b => textLe_total a.decl.name b.decl.name) (fun _ _ _ => textLe_trans) (h.filter _) (fun a ha b hb h1 h2 => ?_)
  exact eq_of_key hn (List.mem_filter.1 ha).1 (List.mem_filter.1 hb).1 (textLe_antisymm h1 h2)

theorem linBegin_ordered {lv : LinValues} {lin : St → Nat → Res St} {st : St} {c d : Class F} (h : OrderClass c d) :
    linBegin lv lin st d = linBegin lv lin st c := by
  simp only [linBegin, h.proto, eventsText, declEvents_ordered h.events h.distinctEvents, scriptFields_ordered h]

theorem linAttrs_ordered {lv : LinValues} {fl : Floats F} {lin : St → Nat → Res St} {n m : Node F} (h : m.dict = n.dict) {isn : Text → Option Text} :
    ∀ {l : List (FieldDecl F)} {st : St}, linAttrs lv fl lin m isn st l = linAttrs lv fl lin n isn st l
  | [], _ => rfl
  | d :: l, st => by
    have ih : ∀ st, linAttrs lv fl lin m isn st l = linAttrs lv fl lin n isn st l := fun st => linAttrs_ordered h
    have hr : d.read m = d.read n := by simp only [FieldDecl.read, h]
    simp only [linAttrs, hr, ih]

theorem closing_ordered {lv : LinValues} {st : St} {n m : Node F} (h : m.DEF = n.DEF) (hc : m.cls.proto = n.cls.proto) {s : Nat} {b : Bool} :
    closing lv st m s b = closing lv st n s b := by
  simp only [closing, h, hc]

/-! ### Scenes -/

theorem isOf_ordered {a b : Scene F} (h : OrderScene a b) : b.isOf = a.isOf := by
  funext i f
  simp only [Scene.isOf, h.is]

theorem linNode_ordered {lv : LinValues} {fl : Floats F} {a b : Scene F} (h : OrderScene a b) : ∀ fuel : Nat,
    linNode lv fl b fuel = linNode lv fl a fuel
  | 0 => by funext st i; simp only [linNode]
  | fuel + 1 => by
    funext st i
    simp only [linNode, linNode_ordered h fuel, isOf_ordered h]
    rcases h.node i with ⟨ha, hb⟩ | ⟨n, m, ha, hb, hD, hd, hc⟩
    · rw [ha, hb]
    · rw [ha, hb]
      simp only [hD, hc.proto, linBegin_ordered hc, attrFields_ordered hc, linAttrs_ordered hd, closing_ordered hD hc.proto]

theorem defOf_ordered {a b : Scene F} (h : OrderScene a b) : b.defOf = a.defOf := by
  funext i
  simp only [Scene.defOf]
  rcases h.node i with ⟨ha, hb⟩ | ⟨n, m, ha, hb, hD, -⟩
  · rw [ha, hb]
  · rw [ha, hb]; exact hD

theorem linBody_ordered {lv : LinValues} {fl : Floats F} {a b : Scene F} (h : OrderScene a b) (fuel : Nat) : linBody lv fl b fuel = linBody lv fl a fuel := by
  simp only [linBody, linNode_ordered h, h.children, h.routes, defOf_ordered h]

theorem freeName_ordered {a b : Scene F} (h : OrderScene a b) (p : Text) : ∀ k c, freeName b p k c = freeName a p k c
  | 0, _ => rfl
  | k + 1, c => by
    simp only [freeName, Scene.getDEF, h.defs, freeName_ordered h p k]
    congr

theorem nameEnd_ordered {a b : Scene F} (h : OrderScene a b) (i : Nat) : OrderScene (nameEnd a i) (nameEnd b i) := by
  unfold nameEnd
  rcases h.node i with ⟨ha, hb⟩ | ⟨n, m, ha, hb, hD, hd, hc⟩
  · rw [ha, hb]; exact h
  · rw [ha, hb]
    simp only [hD, hc.proto, freeName_ordered h, h.defs]
    split
    · exact h
    · split
      · rename_i name _
        refine ⟨h.children, h.routes, ?_, h.is, fun j => ?_⟩
        · simp only [Scene.regDefName, h.defs, defOf_ordered h]
        · simp only [Scene.regDefName]
          by_cases hj : j = i
          · subst hj
            rw [if_pos rfl, if_pos rfl, ha, hb]
            exact .inr ⟨_, _, rfl, rfl, rfl, hd, hc⟩
          · rw [if_neg hj, if_neg hj]; exact h.node j
      · exact h

theorem preroute_ordered {a b : Scene F} (h : OrderScene a b) : OrderScene (preroute a) (preroute b) := by
  unfold preroute
  rw [h.routes]
  have key : ∀ (l : List Rt) (a b : Scene F), OrderScene a b → OrderScene (l.foldl (fun sc r => nameEnd (nameEnd sc r.src) r.dst) a)
      (l.foldl (fun sc r => nameEnd (nameEnd sc r.src) r.dst) b) := by
    intro l
    induction l with
    | nil => exact fun _ _ h => h
    | cons r l ih => exact fun a b h => ih _ _ (nameEnd_ordered (nameEnd_ordered h r.src) r.dst)
  exact key _ _ _ h

/-- The text of a scene does not depend on the order in which the fields and events of its nodes' classes (of Scripts, those
declared in the file) are declared; if it cannot be written, the reason is the same. -/
theorem C96_declaration_order {lv : LinValues} {fl : Floats F} {a b : Scene F} (h : OrderScene a b) (fuel : Nat) :
    (linearise lv fl b fuel).map Prod.fst = (linearise lv fl a fuel).map Prod.fst := by
  simp only [linearise, linBody_ordered (preroute_ordered h)]
  split <;> rfl

/-! ### Files with prototypes -/

theorem foldRes_ordered {α β : Type} {f g : β → α → Res β} (h : g = f) (b : β) (l : List α) : foldRes g b l = foldRes f b l := by rw [h]

theorem writeProto_ordered {lv : LinValues} {fl : Floats F} {f g : File F} (h : OrderFile f g) {fuel : Nat} : ∀ k : Nat,
    writeProto lv fl g.protos fuel k = writeProto lv fl f.protos fuel k
  | 0 => by
    funext ps x
    simp only [writeProto]
    rcases h.protos x with ⟨h1, h2⟩ | ⟨p, q, h1, h2, -⟩ <;> rw [h1, h2] <;> rfl
  | k + 1 => by
    funext ps x
    simp only [writeProto, writeProto_ordered h k]
    rcases h.protos x with ⟨h1, h2⟩ | ⟨p, q, h1, h2, hs⟩
    · rw [h1, h2]
    · rw [h1, h2]
      simp only [declFields_ordered hs.fields hs.distinct, eventsText, declEvents_ordered hs.events hs.distinctEvents, hs.url, hs.free, hs.name]
      rcases hs.body with ⟨b1, b2⟩ | ⟨a, b, b1, b2, hb⟩
      · rw [b1, b2]
      · rw [b1, b2]
        simp only [linBody_ordered (preroute_ordered hb)]

/-- The same for files with prototypes, whose interfaces may also be declared in another order. -/
theorem C96_file_order {lv : LinValues} {fl : Floats F} {f g : File F} (h : OrderFile f g) (fuel depth : Nat) :
    (lineariseFile lv fl g fuel depth).map Prod.fst = (lineariseFile lv fl f fuel depth).map Prod.fst := by
  simp only [lineariseFile, linBody_ordered (preroute_ordered h.scene), writeProto_ordered h, h.free]
  split
  · rfl
  · split <;> rfl

/-! ### The order of the attributes -/

/-- the output only grows -/
def Extends (a b : St) : Prop := ∃ C, b.out = a.out ++ C

theorem extends_steps : Steps Extends :=
  ⟨fun _ => ⟨[], by simp⟩, fun ⟨C, h⟩ ⟨D, h'⟩ => ⟨C ++ D, by rw [h', h, List.append_assoc]⟩, fun _ t => ⟨[.text t], rfl⟩, fun _ _ => ⟨[], by simp⟩⟩

theorem extends_nodes (heap : Nat → Option (Node F)) : NodeSteps heap Extends :=
  { extends_steps with
    use := fun _ _ _ _ _ _ _ => ⟨_, rfl⟩
    copy := fun st _ _ start stop _ _ _ => ⟨[Chunk.text warning] ++ (st.out.take stop).drop start, by simp⟩
    error := fun _ _ _ _ _ _ _ => ⟨_, rfl⟩
    opening := fun _ _ _ _ _ => ⟨_, rfl⟩
    closed := fun _ _ _ _ _ _ _ => ⟨[], by simp⟩ }

theorem attrs_pieces {lv : LinValues} {fl : Floats F} {lin : St → Nat → Res St} (hl : ∀ st i st', lin st i = .ok st' → Extends st st')
    {n : Node F} {isn : Text → Option Text} : ∀ {l : List (FieldDecl F)} {st st' : St}, linAttrs lv fl lin n isn st l = .ok st' →
    ∃ ps : List (Piece F), st'.out = st.out ++ ps.flatMap Piece.chunks ∧ (ps.map Piece.field).Sublist l ∧
      ∀ d, d ∈ ps.map Piece.field ↔ d ∈ l ∧ ((isn d.name).isSome ∨ ∃ v, d.read n = some v ∧ omitted fl d.dflt v = some false)
  | [], st, st', h => by
    simp only [linAttrs, Except.ok.injEq] at h
    exact ⟨[], by simp [h], by simp, by simp⟩
  | d :: l, st, st', h => by
    simp only [linAttrs] at h
    split at h
    · cases h
    · rename_i v hv
      split at h
      · rename_i nm hnm
        obtain ⟨ps, h1, h2, h3⟩ := attrs_pieces hl h
        refine ⟨⟨d, lv.fullSep ++ st.cur lv ++ lv.indent, [' ', 'I', 'S', ' '] ++ nm ++ ['\t'], []⟩ :: ps, ?_, ?_, ?_⟩
        · rw [h1]; simp [St.write, Piece.chunks]
        · exact h2.cons₂ d
        · intro x
          rw [List.map_cons, List.mem_cons, h3, List.mem_cons]
          constructor
          · rintro (rfl | ⟨h, h'⟩)
            · exact ⟨.inl rfl, .inl (by simp [hnm])⟩
            · exact ⟨.inr h, h'⟩
          · rintro ⟨rfl | h, h'⟩
            · exact .inl rfl
            · exact .inr ⟨h, h'⟩
      · rename_i hnm
        split at h
        · cases h
        · rename_i ho
          obtain ⟨ps, h1, h2, h3⟩ := attrs_pieces hl h
          refine ⟨ps, h1, h2.cons d, fun x => ?_⟩
          rw [h3, List.mem_cons]
          constructor
          · exact fun ⟨h, h'⟩ => ⟨.inr h, h'⟩
          · rintro ⟨rfl | h, h'⟩
            · exfalso
              rcases h' with h' | ⟨w, hw, hw'⟩
              · simp [hnm] at h'
              · rw [hv] at hw
                rw [← Option.some.inj hw, ho] at hw'
                cases hw'
            · exact ⟨h, h'⟩
        · rename_i ho
          split at h
          · cases h
          · rename_i st1 hf
            obtain ⟨C, hC⟩ := extends_steps.field hl hf
            obtain ⟨ps, h1, h2, h3⟩ := attrs_pieces hl h
            refine ⟨⟨d, lv.fullSep ++ st.cur lv ++ lv.indent, ['\t'], C⟩ :: ps, ?_, ?_, ?_⟩
            · rw [h1, hC]; simp [St.write, Piece.chunks]
            · exact h2.cons₂ d
            · intro x
              rw [List.map_cons, List.mem_cons, h3, List.mem_cons]
              constructor
              · rintro (rfl | ⟨h, h'⟩)
                · exact ⟨.inl rfl, .inr ⟨v, hv, ho⟩⟩
                · exact ⟨.inr h, h'⟩
              · rintro ⟨rfl | h, h'⟩
                · exact .inl rfl
                · exact .inr ⟨h, h'⟩

theorem shownName_head {t : Text} : shownName t = true ↔ t ≠ [] ∧ t.head? ≠ some ' ' := by
  cases t <;> simp [shownName]

/-- A node that is written for the first time: after its head (and the declarations of a Script) come exactly the attributes
that are not left out, each with its name before its value, ordered by type name and, for one type, by name; then the end. -/
theorem C96_attribute_order {lv : LinValues} {fl : Floats F} {sc : Scene F} {fuel : Nat} {st st' : St} {i : Nat} {n : Node F}
    (h : linNode lv fl sc fuel st i = .ok st') (hn : sc.heap i = some n) (hnew : st.look i = none) :
    ∃ (decls : List Chunk) (ps : List (Piece F)) (close : Text),
      st'.out = st.out ++ [Chunk.head i n.DEF n.cls.proto] ++ decls ++ ps.flatMap Piece.chunks ++ [Chunk.text close] ∧
      (n.cls.proto ≠ scriptName → decls = []) ∧
      (ps.map Piece.field).Pairwise FieldBefore ∧
      ∀ d, d ∈ ps.map Piece.field ↔ WrittenField fl sc i n d := by
  cases fuel with
  | zero => simp [linNode] at h
  | succ fuel =>
    simp only [linNode, hn, hnew] at h
    split at h
    · cases h
    · rename_i st1 hb
      split at h
      · cases h
      · rename_i st2 ha
        have hl := fun st i st' => (extends_nodes sc.heap).node (lv := lv) (fl := fl) fuel st i st'
        obtain ⟨D, hD⟩ := extends_steps.begin hl hb
        obtain ⟨ps, h1, h2, h3⟩ := attrs_pieces hl ha
        cases Except.ok.inj h
        refine ⟨D, ps, closing lv st2 n st.out.length (st2.out.length == (st.out ++ [Chunk.head i n.DEF n.cls.proto]).length), ?_, ?_, ?_, ?_⟩
        · simp only [St.write, h1, hD]
        · intro hs
          rw [linBegin, if_neg hs] at hb
          cases Except.ok.inj hb
          simpa using hD
        · exact ((sortBy_sorted fieldLe_total (fun _ _ _ => fieldLe_trans) _).sublist h2).imp fieldLe_before.1
        · intro d
          rw [h3, attrFields, (sortBy_perm _ _).mem_iff, List.mem_filter, WrittenField, and_assoc]
          refine and_congr_right (fun _ => and_congr_left (fun _ => ?_))
          split
          · simp
          · exact shownName_head

/-! ### Examples -/

/-- the class of the examples, declared the other way round -/
def exReversed : Class Int := { exClass with fields := exClass.fields.reverse }

theorem exReversed_same : OrderClass exClass exReversed :=
  ⟨rfl, List.reverse_perm _, .refl _, .refl _, (by decide), (by decide)⟩

/-- a node with two attributes and a child -/
def exOrdered : Scene Int := ⟨fun i => if i = 0 then some (exNode [] 3 [some 1] none) else if i = 1 then some (exNode [] 4 [] none) else none, [0], [], [], none⟩

/-- the same scene with the class declared the other way round -/
def exOrdered' : Scene Int := { exOrdered with heap := fun i => (exOrdered.heap i).map (fun n => { n with cls := exReversed }) }

theorem exOrdered_same : OrderScene exOrdered exOrdered' := by
  refine ⟨rfl, rfl, rfl, rfl, fun i => ?_⟩
  by_cases h0 : i = 0
  · subst h0; exact .inr ⟨_, _, rfl, rfl, rfl, rfl, exReversed_same⟩
  · by_cases h1 : i = 1
    · subst h1; exact .inr ⟨_, _, rfl, rfl, rfl, rfl, exReversed_same⟩
    · exact .inl (by simp [exOrdered', exOrdered, h0, h1])

/-- The text has the `MFNode` field `children` before the `SFFloat` field `x`, in both cases, and that before the `SFNode` field `geo`. -/
example : (linearise defaults exFloats exOrdered' 3).map Prod.fst =
    .ok (chars "#VRML V2.0 utf8\nGroup {\n\t\tchildren\t[ \n\t\t\tGroup {\n\t\t\t\tx\t4\n\t\t\t\tgeo\tNULL\n\t\t\t}\n\t\t]\n\t\tx\t3\n\t\tgeo\tNULL\n\t}\n") := by
  rw [C96_declaration_order exOrdered_same]
  decide +kernel

/-- a prototype with two fields and an event, and the same with the declarations the other way round -/
def exIface : ProtoDef Int := ⟨chars "P", exClass.fields.map (fun d => ⟨d, true⟩), [⟨chars "go", chars "SFTime", false⟩, ⟨chars "done", chars "SFTime", true⟩], .inherited, some exOrdered, []⟩

def exIface' : ProtoDef Int := { exIface with fields := exIface.fields.reverse, events := exIface.events.reverse, body := some exOrdered' }

theorem exIface_same : OrderFile ⟨exOrdered, fun x => if x = chars "P" then some exIface else none, [chars "P"]⟩
    ⟨exOrdered', fun x => if x = chars "P" then some exIface' else none, [chars "P"]⟩ := by
  refine ⟨exOrdered_same, fun x => ?_, rfl⟩
  by_cases h : x = chars "P"
  · simp only [h, if_true]
    exact .inr ⟨_, _, rfl, rfl, rfl, List.reverse_perm _, List.reverse_perm _, rfl, rfl, .inr ⟨_, _, rfl, rfl, exOrdered_same⟩, (by decide), (by decide)⟩
  · exact .inl (by simp [h])

/-- both are written, and alike -/
example : ∃ t, (lineariseFile defaults exFloats ⟨exOrdered', fun x => if x = chars "P" then some exIface' else none, [chars "P"]⟩ 3 3).map Prod.fst = .ok t ∧
    (lineariseFile defaults exFloats ⟨exOrdered, fun x => if x = chars "P" then some exIface else none, [chars "P"]⟩ 3 3).map Prod.fst = .ok t := by
  rw [C96_file_order exIface_same 3 3]
  have h : ((lineariseFile defaults exFloats ⟨exOrdered, fun x => if x = chars "P" then some exIface else none, [chars "P"]⟩ 3 3).map Prod.fst).isOk = true := by
    decide +kernel
  revert h
  generalize (lineariseFile defaults exFloats ⟨exOrdered, fun x => if x = chars "P" then some exIface else none, [chars "P"]⟩ 3 3).map Prod.fst = r
  intro h
  cases r with
  | error e => cases h
  | ok t => exact ⟨t, rfl, rfl⟩

/-- The outermost node of the example is written for the first time and without an error. -/
example : ∃ st', linNode defaults exFloats exOrdered 3 ⟨[], [], 0, false⟩ 0 = .ok st' ∧ exOrdered.heap 0 = some (exNode [] 3 [some 1] none) ∧
    (⟨[], [], 0, false⟩ : St).look 0 = none := ⟨_, rfl, rfl, rfl⟩

end Verif.Lin
