import Verif.Lemmas.ProtoText4
/-!
Lemmas for C67, continued: reading the prototypes of a file.
-/
namespace Verif.Lin
open Verif.Peg Verif.Grammar Verif.TextOut Verif.Text Verif.SceneText Verif.ListText
variable {F : Type}
variable {base : Text → Option (Class F)} {lk : Text → Option (Class F)} {fl : Floats F} {lv : LinValues} {fuel : Nat}

theorem Pieces.at {f : File F} {l : List (Text × Text)} (h : Pieces lv fl fuel f l) : ∀ pre x t suf, l = pre ++ (x, t) :: suf →
    x ∉ pre.map Prod.fst ∧ Needed f x ∧ ∃ p, f.protos x = some p ∧ IsPiece lv fl fuel p t ∧ ∀ y, Dep f.protos x y → y ∈ pre.map Prod.fst := by
  induction h with
  | nil => intro pre x t suf h; simp at h
  | @snoc out x0 p0 t0 hp h1 h2 h3 h4 h5 ih =>
    intro pre x t suf he
    rcases List.eq_nil_or_concat suf with rfl | ⟨suf', y, rfl⟩
    · obtain ⟨e1, e2⟩ := List.append_inj' he rfl
      simp only [List.cons.injEq, Prod.mk.injEq, and_true] at e2
      obtain ⟨rfl, rfl⟩ := e2
      subst e1
      exact ⟨h1, h2, _, h3, h4, h5⟩
    · have he' : out ++ [(x0, t0)] = (pre ++ (x, t) :: suf') ++ [y] := by rw [he]; simp
      exact ih pre x t suf' (List.append_inj' he' rfl).1

/-- What the reader knows after the prototypes in `names`. -/
structure TblInv (f : File F) (names : List Text) (tbl : List (Text × ProtoDef F)) : Prop where
  known : ∀ x ∈ names, ∃ p p', f.protos x = some p ∧ tbl.lookup x = some p' ∧ SameProto p p' ∧ p'.usable = true ∧
    p'.cls.Distinct ∧ p'.url = .declared
  other : ∀ x, x ∉ names → tbl.lookup x = none

theorem TblInv.good {f : File F} {names : List Text} {tbl : List (Text × ProtoDef F)} (h : TblInv f names tbl) {b : Scene F} {all : List Nat}
    (hu : ∀ x p, Uses b x → f.protos x = some p → x ∈ names) (hg : GoodBody (Known f.protos base) fl b all) :
    GoodBody (FSt.lookup base tbl) fl b all := by
  refine hg.of_lk fun x c hx hc => ?_
  simp only [Known] at hc
  cases hp : f.protos x with
  | none =>
    rw [hp] at hc
    have hn : x ∉ names := fun hm => by
      obtain ⟨p, p', h1, -⟩ := h.known x hm
      rw [hp] at h1; cases h1
    exact ⟨c, by simp only [FSt.lookup, h.other x hn]; exact hc, .refl c, id⟩
  | some p =>
    rw [hp] at hc
    cases hc
    obtain ⟨q, p', h1, h2, h3, h4, h5, -⟩ := h.known x (hu x p hx hp)
    rw [hp] at h1
    cases h1
    exact ⟨p'.cls, by simp [FSt.lookup, h2, h4], h3.cls, fun _ => h5⟩

theorem readItems_disp {tbl : List (Text × ProtoDef F)} : ∀ (ts : List PTree) (rs : RSt F) (vs : List (RVal F)) (rs' : RSt F),
    dispList (FSt.lookup base tbl) fl ts none none rs = some (vs, rs') → readItems base fl ts ⟨tbl, rs⟩ = some ⟨tbl, rs'⟩ := by
  intro ts
  induction ts with
  | nil => intro rs vs rs' h; simp only [dispList, Option.some.injEq, Prod.mk.injEq] at h; simp [readItems, h.2]
  | cons t ts ih =>
    intro rs vs rs' h
    simp only [dispList] at h
    cases hd : disp (FSt.lookup base tbl) fl t none none rs with
    | none => rw [hd] at h; cases h
    | some q =>
      obtain ⟨v, rs1⟩ := q
      rw [hd] at h
      simp only at h
      cases hl : dispList (FSt.lookup base tbl) fl ts none none rs1 with
      | none => rw [hl] at h; cases h
      | some q =>
        obtain ⟨vs', rs2⟩ := q
        rw [hl] at h
        simp only [Option.some.injEq, Prod.mk.injEq] at h
        obtain ⟨-, rfl⟩ := h
        rw [readItems]
        · simp only [hd]
          exact ih _ _ _ hl
        · rintro m pm nm k rest rfl
          simp [disp, dispList] at hd

theorem append_mean_P {t r : Text} (h : ∃ s, t = 'P' :: s) : Meaningful (t ++ r) := by
  obtain ⟨s, rfl⟩ := h
  exact meaningful_head (by decide) (by decide)

theorem IsPiece.head {p : ProtoDef F} {t : Text} (h : IsPiece lv fl fuel p t) : ∃ s, t = 'P' :: s := by
  obtain ⟨ft, b, st, -, -, -, rfl⟩ := h
  exact ⟨_, by simp only [protoText, List.append_assoc, List.cons_append]; rfl⟩

/-- The prototypes in front of a file are read back. -/
theorem read_protos (hlv : GoodOptions lv) {f : File F} (hp : ∀ x p, Needed f x → f.protos x = some p → GoodProto (Known f.protos base) fl fuel x p)
    (hsl : ∀ x p b, Needed f x → f.protos x = some p → p.body = some b → ScriptLines lv b)
    {wm Z mZ rZ : Text} (hwm : Ignorable wm) (hZ : Meaningful Z) {tsZ : List PTree} (hd : Der gram (.star (.nt .rootItem)) Z (.ok tsZ mZ rZ)) :
    ∀ (suf pre : List (Text × Text)) (w0 : Text) (tbl : List (Text × ProtoDef F)), Ignorable w0 → suf ≠ [] → Pieces lv fl fuel f (pre ++ suf) → TblInv f (pre.map Prod.fst) tbl →
      ∃ ts tbl', Der gram (.star (.nt .rootItem)) (w0 ++ ((suf.map Prod.snd).flatten ++ (wm ++ Z))) (.ok (ts ++ tsZ) (w0 ++ ((suf.map Prod.snd).flatten ++ (wm ++ mZ))) rZ) ∧
        Meaningful ((suf.map Prod.snd).flatten ++ (wm ++ Z)) ∧
        TblInv f ((pre ++ suf).map Prod.fst) tbl' ∧ ∀ rs, readItems base fl (ts ++ tsZ) ⟨tbl, rs⟩ = readItems base fl tsZ ⟨tbl', rs⟩ := by
  intro suf
  induction suf with
  | nil => intro pre w0 tbl _ h; exact absurd rfl h
  | cons e suf ih =>
    obtain ⟨x, t⟩ := e
    intro pre w0 tbl hw0 _ hP hT
    obtain ⟨hx, hn, p, hpx, ht, hdep⟩ := hP.at pre x t suf rfl
    have hg := hp x p hn hpx
    obtain ⟨hP1, hread⟩ := proto_read (lk := FSt.lookup base tbl) hlv hg
      (fun b all hb hgb => hT.good (fun y q hy hq => hdep y ⟨p, q, hpx, hq, .inr ⟨b, hb, hy⟩⟩) hgb) (fun b hb => hsl x p b hn hpx hb) ht
    have hT' : ∀ p', SameProto p p' → p'.usable = true → p'.cls.Distinct → p'.url = .declared →
        TblInv f ((pre ++ [(x, t)]).map Prod.fst) ((x, p') :: tbl) := by
      intro p' s1 s2 s3 s4
      constructor
      · intro y hy
        simp only [List.map_append, List.mem_append, List.map_cons, List.map_nil, List.mem_singleton] at hy
        by_cases hyx : y = x
        · subst hyx
          exact ⟨p, p', hpx, List.lookup_cons_self, s1, s2, s3, s4⟩
        · obtain ⟨q, q', i1, i2, i3⟩ := hT.known y (hy.resolve_right hyx)
          exact ⟨q, q', i1, by simp [List.lookup, beq_false_of_ne hyx, i2], i3⟩
      · intro y hy
        simp only [List.map_append, List.mem_append, List.map_cons, List.map_nil, List.mem_singleton, not_or] at hy
        simp [List.lookup, beq_false_of_ne hy.2, hT.other y hy.1]
    have hne : ∀ a b : Text, a ++ (t ++ b) ≠ [] := by
      obtain ⟨s, rfl⟩ := hP1
      intro a b; simp
    by_cases hsuf : suf = []
    · subst hsuf
      obtain ⟨pm, k, rest, p', d1, r1, s1, s2, s3, s4⟩ := hread wm Z hwm hZ
      have d2 := rootItem_der hw0 (append_mean_P hP1) d1 hZ
      have d3 := Der.starCons d2 (hne _ _) hd
      refine ⟨[.node .rootItem (w0 ++ (t ++ wm)) [.node .proto pm (.node .nodegi x k :: rest)]], (x, p') :: tbl, by simpa using d3, by simpa using append_mean_P hP1, hT' p' s1 s2 s3 s4, fun rs => ?_⟩
      simp only [List.cons_append, List.nil_append, readItems, r1]
    · have hm : Meaningful ((suf.map Prod.snd).flatten ++ (wm ++ Z)) := by
        cases suf with
        | nil => exact absurd rfl hsuf
        | cons e2 suf2 =>
          obtain ⟨y, u⟩ := e2
          obtain ⟨-, -, q, -, hu, -⟩ := hP.at (pre ++ [(x, t)]) y u suf2 (by simp)
          simp only [List.map_cons, List.flatten_cons, List.append_assoc]
          exact append_mean_P hu.head
      obtain ⟨pm, k, rest, p', d1, r1, s1, s2, s3, s4⟩ := hread [] _ .nil hm
      have d2 := rootItem_der hw0 (append_mean_P hP1) d1 hm
      obtain ⟨ts, tbl', d3, -, i1, i2⟩ := ih (pre ++ [(x, t)]) [] ((x, p') :: tbl) .nil hsuf (by simpa using hP) (hT' p' s1 s2 s3 s4)
      have d4 := Der.starCons d2 (hne _ _) d3
      refine ⟨.node .rootItem (w0 ++ (t ++ [])) [.node .proto pm (.node .nodegi x k :: rest)] :: ts, tbl', by simpa using d4, by simpa using append_mean_P hP1, by simpa using i1, fun rs => ?_⟩
      simp only [List.cons_append, readItems, r1, i2]

end Verif.Lin
