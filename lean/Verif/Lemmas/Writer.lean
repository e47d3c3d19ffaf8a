import Verif.Lemmas.RoundTrip4
/-!
Relations between the writer's states that every step of the writer preserves.
-/
namespace Verif.Lin
open Verif.TextOut
variable {F : Type}

/-- `R` holds along writing plain text and changing the indentation, and composes. -/
structure Steps (R : St → St → Prop) : Prop where
  refl : ∀ a, R a a
  trans : ∀ {a b c}, R a b → R b c → R a c
  write : ∀ (a : St) t, R a (a.write t)
  level : ∀ (a : St) k, R a { a with level := k }

variable {R : St → St → Prop} {lv : LinValues} {fl : Floats F} {lin : St → Nat → Res St}

theorem Steps.elems (h : Steps R) (hl : ∀ st i st', lin st i = .ok st' → R st st') : ∀ l st st', linElems lv lin st l = .ok st' → R st st' := by
  intro l
  induction l with
  | nil => intro st st' he; simp only [linElems, Except.ok.injEq] at he; subst he; exact h.refl _
  | cons o l ih =>
    intro st st' he
    cases o with
    | none =>
      simp only [linElems] at he
      exact h.trans (h.trans (h.write _ _) (h.write _ _)) (ih _ _ he)
    | some i =>
      simp only [linElems] at he
      cases hlin : lin (st.write (lv.fullSep ++ st.cur lv ++ lv.indent)) i with
      | error e => rw [hlin] at he; cases he
      | ok st1 =>
        rw [hlin] at he
        exact h.trans (h.trans (h.write _ _) (hl _ _ _ hlin)) (ih _ _ he)

theorem Steps.mf (h : Steps R) (hl : ∀ st i st', lin st i = .ok st' → R st st') {l st st'} (he : linMF lv lin st l = .ok st') : R st st' := by
  simp only [linMF] at he
  split at he
  · simp only [Except.ok.injEq] at he; subst he; exact h.write _ _
  · split at he
    · cases he
    · rename_i st1 h1
      simp only [Except.ok.injEq] at he
      subst he
      have h2 := h.elems hl _ _ _ h1
      exact h.trans (h.trans (h.trans (h.level _ _) (h.write _ _)) h2) (h.trans (h.write _ _) (h.level _ _))

theorem Steps.field (h : Steps R) (hl : ∀ st i st', lin st i = .ok st' → R st st') {d : FieldDecl F} {v st st'}
    (he : linField lv lin st d v = .ok st') : R st st' := by
  have simple : (∀ T, simpleText lv d v = .ok T → linField lv lin st d v = .ok (st.write T)) →
      (∀ e, simpleText lv d v = .error e → linField lv lin st d v = .error e) → R st st' := by
    intro h1 h2
    cases hs : simpleText lv d v with
    | error e => rw [h2 e hs] at he; cases he
    | ok T => rw [h1 T hs] at he; cases he; exact h.write _ _
  cases v with
  | ref o =>
    cases o with
    | none => simp only [linField, Except.ok.injEq] at he; subst he; exact h.write _ _
    | some i => exact hl _ _ _ he
  | refs l => exact h.mf hl he
  | strs l =>
    cases l with
    | nil => exact h.mf hl he
    | cons a l =>
      simp only [linField, Except.ok.injEq] at he; subst he
      exact h.trans (h.trans (h.trans (h.level _ _) (h.write _ _)) (h.write _ _)) (h.write _ _)
  | bool b => exact simple (fun T hT => by simp only [linField, hT]) (fun T hT => by simp only [linField, hT])
  | int b => exact simple (fun T hT => by simp only [linField, hT]) (fun T hT => by simp only [linField, hT])
  | num b => exact simple (fun T hT => by simp only [linField, hT]) (fun T hT => by simp only [linField, hT])
  | str b => exact simple (fun T hT => by simp only [linField, hT]) (fun T hT => by simp only [linField, hT])
  | ints b => exact simple (fun T hT => by simp only [linField, hT]) (fun T hT => by simp only [linField, hT])
  | nums b => exact simple (fun T hT => by simp only [linField, hT]) (fun T hT => by simp only [linField, hT])
  | rows b => exact simple (fun T hT => by simp only [linField, hT]) (fun T hT => by simp only [linField, hT])

theorem Steps.attrs (h : Steps R) (hl : ∀ st i st', lin st i = .ok st' → R st st') {n : Node F} {isn : Text → Option Text} : ∀ l st st',
    linAttrs lv fl lin n isn st l = .ok st' → R st st' := by
  intro l
  induction l with
  | nil => intro st st' he; simp only [linAttrs, Except.ok.injEq] at he; subst he; exact h.refl _
  | cons d l ih =>
    intro st st' he
    simp only [linAttrs] at he
    split at he
    · cases he
    · split at he
      · exact h.trans (h.write _ _) (ih _ _ he)
      · split at he
        · cases he
        · exact ih _ _ he
        · split at he
          · cases he
          · rename_i h1
            exact h.trans (h.trans (h.write _ _) (h.field hl h1)) (ih _ _ he)

theorem Steps.default (h : Steps R) (hl : ∀ st i st', lin st i = .ok st' → R st st') {d : FieldDecl F} {st st'} (he : linDefault lv lin st d = .ok st') : R st st' := by
  simp only [linDefault] at he
  split at he
  · cases he
  · split at he
    · cases he
    · simp only [Except.ok.injEq] at he; subst he; exact h.write _ _
    · exact h.field hl he

theorem Steps.decls (h : Steps R) (hl : ∀ st i st', lin st i = .ok st' → R st st') : ∀ (l : List (PField F)) st st', linDecls lv lin st l = .ok st' → R st st' := by
  intro l
  induction l with
  | nil => intro st st' he; simp only [linDecls, Except.ok.injEq] at he; subst he; exact h.refl _
  | cons d l ih =>
    intro st st' he
    simp only [linDecls] at he
    split at he
    · cases he
    · rename_i st1 h1
      exact h.trans (h.trans (h.write _ _) (h.default hl h1)) (ih _ _ he)

theorem Steps.begin (h : Steps R) (hl : ∀ st i st', lin st i = .ok st' → R st st') {c : Class F} {st st'} (he : linBegin lv lin st c = .ok st') : R st st' := by
  simp only [linBegin] at he
  split at he
  · split at he
    · cases he
    · rename_i st1 h1
      simp only [Except.ok.injEq] at he
      subst he
      exact h.trans (h.trans (h.level _ _) (h.write _ _)) (h.trans (h.decls hl _ _ _ h1) (h.level _ _))
  · simp only [Except.ok.injEq] at he; subst he; exact h.refl _

/-- What has to be checked for nodes: a node that is known, and a new node. -/
structure NodeSteps (heap : Nat → Option (Node F)) (R : St → St → Prop) : Prop extends Steps R where
  use : ∀ (st : St) i n x, heap i = some n → st.look i = some x → n.DEF ≠ [] → R st { st with out := st.out ++ [Chunk.use i n.DEF] }
  copy : ∀ (st : St) i n start stop, heap i = some n → st.look i = some (start, some stop) → n.DEF = [] →
    R st { st with out := st.out ++ [Chunk.text warning] ++ (st.out.take stop).drop start, warned := true }
  error : ∀ (st : St) i n start, heap i = some n → st.look i = some (start, none) → n.DEF = [] →
    R st { st with out := st.out ++ [Chunk.text errorText], warned := true }
  opening : ∀ (st : St) i n, heap i = some n → st.look i = none →
    R st { st with done := (i, (st.out.length, none)) :: st.done, out := st.out ++ [Chunk.head i n.DEF n.cls.proto] }
  closed : ∀ (st st1 : St) i n, heap i = some n → st.look i = none →
    R { st with done := (i, (st.out.length, none)) :: st.done, out := st.out ++ [Chunk.head i n.DEF n.cls.proto] } st1 →
    R st1 { st1 with done := (i, (st.out.length, some st1.out.length)) :: st1.done }

theorem NodeSteps.node {sc : Scene F} (h : NodeSteps sc.heap R) : ∀ fuel st i st', linNode lv fl sc fuel st i = .ok st' → R st st' := by
  intro fuel
  induction fuel with
  | zero => intro st i st' he; simp [linNode] at he
  | succ fuel ih =>
    intro st i st' he
    simp only [linNode] at he
    split at he
    · cases he
    · rename_i n hn
      split at he
      · rename_i start stop hlook
        split at he
        · rename_i hD; cases he; exact h.use st i n _ hn hlook hD
        · rename_i hD
          have hD : n.DEF = [] := by simpa using hD
          split at he
          · cases he; exact h.copy st i n start _ hn hlook hD
          · cases he; exact h.error st i n start hn hlook hD
      · rename_i hlook
        split at he
        · cases he
        · rename_i stb hb
          split at he
          · cases he
          · rename_i st1 h1
            simp only [Except.ok.injEq] at he
            have r1 := h.trans (h.trans (h.toSteps.level { st with done := (i, (st.out.length, none)) :: st.done, out := st.out ++ [Chunk.head i n.DEF n.cls.proto] } (st.level + 1)) (h.toSteps.begin ih hb)) (h.toSteps.attrs ih _ _ _ h1)
            have r2 := h.trans r1 (h.toSteps.write st1 (closing lv st1 n st.out.length (st1.out.length == (st.out ++ [Chunk.head i n.DEF n.cls.proto]).length)))
            have r3 := h.closed st _ i n hn hlook r2
            have r0 := h.opening st i n hn hlook
            subst he
            exact h.trans (h.trans r0 r2) (h.trans r3 (h.toSteps.level _ _))

theorem Steps.children (h : Steps R) (hl : ∀ st i st', lin st i = .ok st' → R st st') : ∀ l st st', linChildren lv lin st l = .ok st' → R st st' := by
  intro l
  induction l with
  | nil => intro st st' he; simp only [linChildren, Except.ok.injEq] at he; subst he; exact h.refl _
  | cons i l ih =>
    intro st st' he
    simp only [linChildren] at he
    split at he
    · cases he
    · rename_i st1 h1
      exact h.trans (h.trans (hl _ _ _ h1) (h.write _ _)) (ih _ _ he)

/-- Everything the writer does after naming nodes. -/
theorem NodeSteps.body {sc : Scene F} (h : NodeSteps sc.heap R) {fuel : Nat} {st : St} (he : linBody lv fl sc fuel = .ok st) : R ⟨[], [], 0, false⟩ st := by
  simp only [linBody] at he
  split at he
  · cases he
  · rename_i st1 h1
    simp only [Except.ok.injEq] at he
    have r := h.toSteps.children (h.node fuel) _ _ _ h1
    have key : ∀ (l : List Rt) (s : St), R s (l.foldl (fun st r => st.write (routeText lv sc.defOf r)) s) := by
      intro l
      induction l with
      | nil => intro s; exact h.refl _
      | cons a l ih => intro s; exact h.trans (h.toSteps.write _ _) (ih _)
    subst he
    exact h.trans r (key _ _)

end Verif.Lin
