import Verif.Spec.Nesting
import Verif.Props.Grammar
/-!
What the parser accepts is properly nested: by induction on derivations, each grammar expression has a fixed effect on the
stack of open brackets.
-/
namespace Verif.Nesting
open Verif.Peg Verif.Grammar Verif.TextOut

theorem mode_append (m : Mode) (a b : Text) : mode m (a ++ b) = mode (mode m a) b := List.foldl_append ..

theorem nest_append : ∀ (a : Text) (m : Mode) (s : List Char) (b : Text), nest m s (a ++ b) = (nest m s a).bind (fun s => nest (mode m a) s b) := by
  intro a
  induction a with
  | nil => intro m s b; rfl
  | cons c a ih =>
    intro m s b
    simp only [List.cons_append, nest]
    cases stackStep m s c with
    | none => rfl
    | some s' => simp only [Option.bind_some]; rw [ih]; rfl

/-- `t` takes the stack `p ++ s` to `q ++ s`, whatever `s` is. -/
def Eff (t : Text) (p q : List Char) : Prop := mode .plain t = .plain ∧ ∀ s, nest .plain (p ++ s) t = some (q ++ s)

theorem Eff.nil : Eff [] [] [] := ⟨rfl, fun _ => rfl⟩

/-- Cancel what is opened first with what is closed next. -/
def cancel : List Char → List Char → Option (List Char × List Char)
  | q, [] => some ([], q)
  | [], p => some (p, [])
  | a :: q, b :: p => if a = b then cancel q p else none

/-- the effect of a sequence -/
def comp (x y : List Char × List Char) : Option (List Char × List Char) :=
  (cancel x.2 y.1).map (fun z => (x.1 ++ z.1, y.2 ++ z.2))

theorem cancel_eq : ∀ {q p u v : List Char}, cancel q p = some (u, v) → ∀ s, q ++ (u ++ s) = p ++ (v ++ s) := by
  intro q
  induction q with
  | nil => intro p u v h s; cases p <;> (simp only [cancel, Option.some.injEq, Prod.mk.injEq] at h; obtain ⟨rfl, rfl⟩ := h; rfl)
  | cons a q ih =>
    intro p u v h s
    cases p with
    | nil => simp only [cancel, Option.some.injEq, Prod.mk.injEq] at h; obtain ⟨rfl, rfl⟩ := h; rfl
    | cons b p =>
      simp only [cancel] at h
      split at h
      · next hab => subst hab; simp [ih h s]
      · cases h

theorem Eff.comp {a b : Text} {x y z : List Char × List Char} (ha : Eff a x.1 x.2) (hb : Eff b y.1 y.2) (h : comp x y = some z) : Eff (a ++ b) z.1 z.2 := by
  refine ⟨by rw [mode_append, ha.1, hb.1], fun s => ?_⟩
  simp only [Nesting.comp, Option.map_eq_some_iff] at h
  obtain ⟨⟨u, v⟩, huv, rfl⟩ := h
  rw [nest_append]
  dsimp only
  rw [List.append_assoc, ha.2, Option.bind_some, ha.1, cancel_eq huv, hb.2, List.append_assoc]

/-- Characters without effect outside strings and comments. -/
def dull (c : Char) : Bool := !(c == '[' || c == ']' || c == '{' || c == '}' || c == '"' || c == '#')

theorem dull_step {c : Char} (h : dull c = true) (s : List Char) : modeStep .plain c = .plain ∧ stackStep .plain s c = some s := by
  simp only [dull, Bool.not_eq_true', Bool.or_eq_false_iff, beq_eq_false_iff_ne] at h
  obtain ⟨⟨⟨⟨⟨h1, h2⟩, h3⟩, h4⟩, h5⟩, h6⟩ := h
  simp [modeStep, stackStep, *]

theorem Eff.dull {t : Text} (h : ∀ c ∈ t, dull c = true) : Eff t [] [] := by
  induction t with
  | nil => exact .nil
  | cons c t ih =>
    have h1 := ih (fun c hc => h c (by simp [hc]))
    have h2 := fun s => dull_step (h c (by simp)) s
    refine ⟨by simp only [mode, List.foldl_cons, (h2 []).1]; exact h1.1, fun s => ?_⟩
    simp only [nest, (h2 _).2, (h2 []).1, Option.bind_some, List.nil_append]
    exact h1.2 s

theorem Eff.open1 : Eff ['['] [] [']'] := ⟨rfl, fun _ => rfl⟩
theorem Eff.close1 : Eff [']'] [']'] [] := ⟨rfl, fun _ => rfl⟩
theorem Eff.open2 : Eff ['{'] [] ['}'] := ⟨rfl, fun _ => rfl⟩
theorem Eff.close2 : Eff ['}'] ['}'] [] := ⟨rfl, fun _ => rfl⟩

/-- the effect of a literal -/
def litEff (s : List Char) : Option (List Char × List Char) :=
  if s = ['['] then some ([], [']']) else if s = [']'] then some ([']'], [])
  else if s = ['{'] then some ([], ['}']) else if s = ['}'] then some (['}'], [])
  else if s.all dull then some ([], []) else none

theorem litEff_sound {s : List Char} {z} (h : litEff s = some z) : Eff s z.1 z.2 := by
  unfold litEff at h
  split at h
  · next e => cases h; rw [e]; exact Eff.open1
  split at h
  · next e => cases h; rw [e]; exact Eff.close1
  split at h
  · next e => cases h; rw [e]; exact Eff.open2
  split at h
  · next e => cases h; rw [e]; exact Eff.close2
  split at h
  · next e => cases h; exact Eff.dull (List.all_eq_true.1 e)
  · cases h

theorem comment_run : ∀ (b : Text), '\n' ∉ b → ∀ s x, mode .comment (b ++ '\n' :: x) = mode .plain x ∧ nest .comment s (b ++ '\n' :: x) = nest .plain s x := by
  intro b
  induction b with
  | nil => intro _ s x; exact ⟨rfl, rfl⟩
  | cons c b ih =>
    intro h s x
    have hc : c ≠ '\n' := fun e => h (by simp [e])
    have := ih (fun e => h (by simp [e])) s x
    have hs : modeStep .comment c = .comment := by simp [modeStep, hc]
    refine ⟨?_, ?_⟩
    · show mode (modeStep .comment c) _ = _; rw [hs]; exact this.1
    · simp only [List.cons_append, nest, stackStep, Option.bind_some, hs]; exact this.2

theorem blank_dull : ∀ c ∈ [' ', ',', '\t', '\n', '\x0b', '\x0c', '\r'], dull c = true := by decide

theorem Eff.cons_dull {c : Char} {t : Text} (hc : Nesting.dull c = true) {p q} (h : Eff t p q) : Eff (c :: t) p q := by
  have h2 := fun s => dull_step hc s
  refine ⟨by simp only [mode, List.foldl_cons, (h2 []).1]; exact h.1, fun s => ?_⟩
  simp only [nest, (h2 _).2, (h2 []).1, Option.bind_some]
  exact h.2 s

theorem Eff.ignorable {t : Text} (h : Ignorable t) : Eff t [] [] := by
  induction h with
  | nil => exact .nil
  | blank hc _ ih => exact ih.cons_dull (blank_dull _ hc)
  | @comment b s hb _ ih =>
    refine ⟨?_, fun st => ?_⟩
    · show mode .comment (b ++ '\n' :: s) = _
      rw [(comment_run b hb [] s).1]; exact ih.1
    · show nest .comment st (b ++ '\n' :: s) = _
      rw [(comment_run b hb st s).2]; exact ih.2 st

/-! ### Strings -/

/-- The states inside a string between two items. -/
def Between (md : Mode) (i : Text) : Prop := md = .string ∨ (md = .escape ∧ ∀ c s, i = c :: s → c ≠ '\\' ∧ c ≠ '"')

theorem nest_not_plain : ∀ (t : Text) (md : Mode), (∀ a b, t = a ++ b → b ≠ [] → mode md a ≠ .plain) → ∀ s, nest md s t = some s := by
  intro t
  induction t with
  | nil => intro md _ s; rfl
  | cons c t ih =>
    intro md h s
    have h0 : md ≠ .plain := h [] (c :: t) rfl (by simp)
    have : stackStep md s c = some s := by cases md <;> first | exact absurd rfl h0 | rfl
    simp only [nest, this, Option.bind_some]
    exact ih _ (fun a b e hb => h (c :: a) b (by simp [e]) hb) s

abbrev strItem : E := .alts [.nt .charNoDblQuote, .nt .escapedChar, .nt .simpleBackslash]

theorem isPlain_ne {c : Char} (h : isPlain c = true) : c ≠ '\\' ∧ c ≠ '"' := by
  simp only [isPlain, Bool.not_eq_true', Bool.or_eq_false_iff, beq_eq_false_iff_ne] at h; exact h

/-- plain characters, from inside a string -/
theorem plain_run : ∀ (m : Text), (∀ c ∈ m, isPlain c = true) → mode .string m = .string ∧ ∀ s, nest .string s m = some s := by
  intro m
  induction m with
  | nil => intro _; exact ⟨rfl, fun _ => rfl⟩
  | cons c m ih =>
    intro h
    obtain ⟨h1, h2⟩ := isPlain_ne (h c (by simp))
    have hs : modeStep .string c = .string := by simp [modeStep, h1, h2]
    have := ih (fun c hc => h c (by simp [hc]))
    refine ⟨by show mode (modeStep .string c) m = _; rw [hs]; exact this.1, fun s => ?_⟩
    simp only [nest, stackStep, Option.bind_some, hs]; exact this.2 s

theorem plusCls_ok {p : Char → Bool} {i t m r} (h : Der gram (.plus (.cls p)) i (.ok t m r)) : m ≠ [] ∧ ∀ c ∈ m, p c = true := by
  cases h with
  | seq h1 h2 =>
    cases h1 with
    | cls hc =>
      have := star_inv (P := fun m => ∀ c ∈ m, p c = true) (by simp) (fun x y hx hy c hc => (List.mem_append.1 hc).elim (hx c) (hy c))
        (fun i t m r h => by cases h with | cls h => exact ⟨rfl, by simpa using h⟩) h2 rfl _ _ _ rfl
      exact ⟨by simp, by simpa using ⟨hc, this.2.1⟩⟩

/-- one item of a string -/
theorem item_run {i t m r} (h : Der gram strItem i (.ok t m r)) {md : Mode} (hb : Between md i) : Between (mode md m) r ∧ ∀ s, nest md s m = some s := by
  have happ := h.append
  have key : (∃ c m', m = c :: m' ∧ isPlain c = true ∧ ∀ d ∈ m', isPlain d = true) ∨ (m = ['\\', '"'] ∨ m = ['\\', '\\']) ∨
      (m = ['\\'] ∧ ∀ c s, r = c :: s → c ≠ '\\' ∧ c ≠ '"') := by
    cases h with
    | altL h1 =>
      cases h1 with
      | nt h1 =>
        obtain ⟨h2, h3⟩ := plusCls_ok h1
        cases m with
        | nil => exact absurd rfl h2
        | cons c m => exact .inl ⟨c, m, rfl, h3 c (by simp), fun d hd => h3 d (by simp [hd])⟩
    | altR hf h1 =>
      cases h1 with
      | altL h1 =>
        cases h1 with
        | nt h1 =>
          cases h1 with
          | altL h1 => cases h1; exact .inr (.inl (.inl rfl))
          | altR _ h1 => cases h1; exact .inr (.inl (.inr rfl))
      | altR he h1 =>
        cases h1 with
        | nt h1 =>
          cases h1
          refine .inr (.inr ⟨rfl, fun c s hr => ?_⟩)
          subst hr
          refine ⟨?_, ?_⟩ <;> rintro rfl
          · have := he.det _ (.nt (.altR (run_sound 30 _ _ _ (by rfl)) (.lit ['\\', '\\'] s)))
            cases this
          · have := he.det _ (.nt (.altL (.lit ['\\', '"'] s)))
            cases this
  rcases key with ⟨c, m', rfl, hc, hm'⟩ | hm | ⟨rfl, hr⟩
  · obtain ⟨h1, h2⟩ := isPlain_ne hc
    have hs : modeStep md c = .string := by rcases hb with rfl | ⟨rfl, -⟩ <;> simp [modeStep, h1, h2]
    have hst : ∀ s, stackStep md s c = some s := by intro s; rcases hb with rfl | ⟨rfl, -⟩ <;> rfl
    have := plain_run m' hm'
    refine ⟨.inl (by show mode (modeStep md c) m' = _; rw [hs]; exact this.1), fun s => ?_⟩
    simp only [nest, hst, Option.bind_some, hs]; exact this.2 s
  · have hmd : md = .string := by
      rcases hb with hb | ⟨-, hb⟩
      · exact hb
      · exfalso
        rcases hm with rfl | rfl
        · exact (hb _ _ happ).1 rfl
        · exact (hb _ _ happ).1 rfl
    subst hmd
    rcases hm with rfl | rfl
    · exact ⟨.inl rfl, fun _ => rfl⟩
    · exact ⟨.inl rfl, fun _ => rfl⟩
  · have hmd : md = .string := by
      rcases hb with h | ⟨-, h⟩
      · exact h
      · exact absurd rfl (h _ _ happ).1
    subst hmd
    exact ⟨.inr ⟨rfl, hr⟩, fun _ => rfl⟩

theorem items_run {e i o} (h : Der gram e i o) : e = .star strItem → ∀ t m r, o = .ok t m r → ∀ md, Between md i →
    Between (mode md m) r ∧ ∀ s, nest md s m = some s := by
  induction h <;> intro he <;> cases he <;> intro t m r ho <;> cases ho
  case starNil h _ => intro md hb; exact ⟨hb, fun _ => rfl⟩
  case starCons ih =>
    intro md hb
    obtain ⟨h4, h5⟩ := item_run (by assumption) hb
    obtain ⟨h6, h7⟩ := ih rfl _ _ _ rfl _ h4
    exact ⟨by rw [mode_append]; exact h6, fun s => by rw [nest_append, h5, Option.bind_some, h7]⟩

theorem Eff.string {i t m r} (h : Der gram (gram .sfString) i (.ok t m r)) : Eff m [] [] := by
  cases h with
  | seq h1 h2 =>
    cases h1
    cases h2 with
    | seq h3 h4 =>
      rename_i ts m3 r3 tt m4
      obtain ⟨h5, h6⟩ := items_run h3 rfl _ _ _ rfl .string (.inl rfl)
      cases h4 with
      | cut h4 =>
        cases h4
        have hmd : mode .string m3 = .string := by
          rcases h5 with h5 | ⟨-, h5⟩
          · exact h5
          · exact absurd rfl (h5 '"' r rfl).2
        refine ⟨?_, fun s => ?_⟩
        · show mode .string (m3 ++ ['"']) = _
          rw [mode_append, hmd]; rfl
        · show nest .string s (m3 ++ ['"']) = some s
          rw [nest_append, h6, Option.bind_some, hmd]; rfl

/-! ### Expressions -/

/-- productions without a fixed effect -/
def loose : NT → Bool
  | .header | .vrmlFile | .charNoDblQuote | .simpleBackslash | .escapedChar | .extProtoURL => true
  | _ => false

/-- the effect of an expression -/
def eff : E → Option (List Char × List Char)
  | .eps => some ([], [])
  | .lit s => litEff s
  | .cls p => if p '[' || p ']' || p '{' || p '}' || p '"' || p '#' then none else some ([], [])
  | .seq a b => match eff a, eff b with
    | some x, some y => comp x y
    | _, _ => none
  | .alt a b => if eff a = eff b then eff a else none
  | .star a => if eff a = some ([], []) then some ([], []) else none
  | .nt n => if loose n then none else some ([], [])
  | .silent n => if loose n then none else some ([], [])
  | .cut a => eff a
  | .eof => some ([], [])

theorem gram_eff : ∀ n, loose n = false → n ≠ .ts → n ≠ .sfString → n ≠ .externProto → eff (gram n) = some ([], []) := by
  intro n
  cases n <;> intro h1 h2 h3 h4 <;> first | exact absurd h1 (by decide) | exact absurd rfl h2 | exact absurd rfl h3 | exact absurd rfl h4 | rfl

/-- `EXTERNPROTO` -/
def extWord : Text := ['E', 'X', 'T', 'E', 'R', 'N', 'P', 'R', 'O', 'T', 'O']

theorem occurs_shift {w m r : Text} (hm : mode .plain m = .plain) (h : ¬ Occurs w (m ++ r)) : ¬ Occurs w r := by
  rintro ⟨pre, suf, e, hp⟩
  exact h ⟨m ++ pre, suf, by rw [e, List.append_assoc], by rw [mode_append, hm, hp]⟩

theorem cls_dull {p : Char → Bool} {c : Char} (h : (p '[' || p ']' || p '{' || p '}' || p '"' || p '#') = false) (hc : p c = true) : dull c = true := by
  simp only [Bool.or_eq_false_iff] at h
  obtain ⟨⟨⟨⟨⟨h1, h2⟩, h3⟩, h4⟩, h5⟩, h6⟩ := h
  simp only [dull, Bool.not_eq_true', Bool.or_eq_false_iff, beq_eq_false_iff_ne]
  refine ⟨⟨⟨⟨⟨?_, ?_⟩, ?_⟩, ?_⟩, ?_⟩, ?_⟩ <;> rintro rfl <;> simp_all

theorem nt_eff {n : NT} {i t m r} (hl : loose n = false) (h : Der gram (gram n) i (.ok t m r)) (hx : ¬ Occurs extWord i)
    (ih : ∀ z, eff (gram n) = some z → Eff m z.1 z.2) : Eff m [] [] := by
  by_cases h1 : n = .ts
  · subst h1; exact Eff.ignorable (C07_only_ignorable_skipped (.silent h)).2.1
  by_cases h2 : n = .sfString
  · subst h2; exact Eff.string h
  by_cases h3 : n = .externProto
  · subst h3
    exfalso
    cases h with
    | seq h1 h2 =>
      cases h1 with
      | lit => exact hx ⟨[], _, rfl, rfl⟩
  exact ih _ (gram_eff n hl h1 h2 h3)

/-- **Effects are right**: what an expression accepts has its effect. -/
theorem der_eff {e : E} {i : Text} {o : Out NT} (h : Der gram e i o) : ¬ Occurs extWord i → ∀ t m r, o = .ok t m r →
    ∀ z, eff e = some z → Eff m z.1 z.2 := by
  induction h with
  | eps i => intro _ t m r ho z hz; cases ho; cases hz; exact .nil
  | lit s r => intro _ t m r' ho z hz; cases ho; exact litEff_sound hz
  | cls hc =>
    intro _ t m r ho z hz
    cases ho
    simp only [eff] at hz
    split at hz
    · cases hz
    · next hne =>
      cases hz
      exact Eff.dull (by simpa using cls_dull (by simpa using hne) hc)
  | seq h1 h2 ih1 ih2 =>
    intro hx t m r ho z hz
    cases ho
    simp only [eff] at hz
    split at hz
    · next x y hx1 hy1 =>
      have e1 := ih1 hx _ _ _ rfl _ hx1
      have hx' := hx
      rw [h1.append] at hx'
      have e2 := ih2 (occurs_shift e1.1 hx') _ _ _ rfl _ hy1
      exact Eff.comp e1 e2 hz
    · cases hz
  | altL h ih =>
    intro hx t m r ho z hz
    simp only [eff] at hz
    split at hz
    · exact ih hx t m r ho z hz
    · cases hz
  | altR h1 h2 ih1 ih2 =>
    intro hx t m r ho z hz
    simp only [eff] at hz
    split at hz
    · next he => exact ih2 hx t m r ho z (he ▸ hz)
    · cases hz
  | starNil => intro _ t m r ho z hz; cases ho; simp only [eff] at hz; split at hz <;> cases hz; exact .nil
  | starCons h1 hne h2 ih1 ih2 =>
    intro hx t m r ho z hz
    cases ho
    have hz' := hz
    simp only [eff] at hz
    split at hz
    · next he =>
      cases hz
      have e1 := ih1 hx _ _ _ rfl _ he
      have hx' := hx
      rw [h1.append] at hx'
      have e2 := ih2 (occurs_shift e1.1 hx') _ _ _ rfl _ hz'
      exact Eff.comp e1 e2 rfl
    · cases hz
  | nt h ih =>
    intro hx t m r ho z hz
    cases ho
    simp only [eff] at hz
    split at hz
    · cases hz
    · next hl => cases hz; exact nt_eff (by simpa using hl) h hx (fun z hz => ih hx _ _ _ rfl z hz)
  | silent h ih =>
    intro hx t m r ho z hz
    cases ho
    simp only [eff] at hz
    split at hz
    · cases hz
    · next hl => cases hz; exact nt_eff (by simpa using hl) h hx (fun z hz => ih hx _ _ _ rfl z hz)
  | cut h ih => intro hx t m r ho z hz; exact ih hx t m r ho z hz
  | eof => intro _ t m r ho z hz; cases ho; cases hz; exact .nil
  | litFail => intro _ t m r ho; cases ho
  | clsFail => intro _ t m r ho; cases ho
  | clsEnd => intro _ t m r ho; cases ho
  | seqFail1 => intro _ t m r ho; cases ho
  | seqErr1 => intro _ t m r ho; cases ho
  | seqFail2 => intro _ t m r ho; cases ho
  | seqErr2 => intro _ t m r ho; cases ho
  | altErr => intro _ t m r ho; cases ho
  | starErr1 => intro _ t m r ho; cases ho
  | starErr2 => intro _ t m r ho; cases ho
  | ntFail => intro _ t m r ho; cases ho
  | ntErr => intro _ t m r ho; cases ho
  | silentFail => intro _ t m r ho; cases ho
  | silentErr => intro _ t m r ho; cases ho
  | cutFail => intro _ t m r ho; cases ho
  | cutErr => intro _ t m r ho; cases ho
  | eofFail => intro _ t m r ho; cases ho

/-- The scene part of an accepted file. -/
theorem scene_nested {i t m r} (h : Der gram (.nt .vrmlScene) i (.ok t m r)) (hx : ¬ Occurs extWord i) : Nested m := by
  obtain ⟨h1, h2⟩ := der_eff h hx _ _ _ rfl ([], []) (by rfl)
  exact ⟨h1, h2 []⟩

/-- How an accepted file divides. -/
theorem file_split {text t m} (h : Der gram (gram .vrmlFile) text (.ok t m [])) : ∃ hdr body ts, text = hdr ++ body ∧ '\n' ∉ hdr ∧
    (body = [] ∨ ∃ s, body = '\n' :: s) ∧ Der gram (.nt .vrmlScene) body (.ok ts body []) := by
  have happ := h.append
  cases h with
  | seq h1 h2 =>
    cases h2 with
    | seq h3 h4 =>
      cases h4 with
      | cut h4 => cases h4 with
       | nt h4 =>
      cases h4
      cases h1 with
      | nt h1 =>
        rename_i m1 r1 _ _ _
        have hin := star_inv (P := fun m => ∀ c ∈ m, notNl c = true) (by simp) (fun x y hx hy c hc => (List.mem_append.1 hc).elim (hx c) (hy c))
          (fun i t m r h => by cases h with | cls h => exact ⟨rfl, by simpa using h⟩) h1 rfl _ _ _ rfl
        have h3a := h3.append
        rw [List.append_nil] at h3a
        have h3' := h3
        rw [← h3a] at h3'
        refine ⟨m1, r1, _, h1.append, fun hm => ?_, ?_, h3'⟩
        · have := hin.2.1 _ hm; exact absurd this (by decide)
        · cases hr : r1 with
          | nil => exact .inl rfl
          | cons c s =>
            right
            have hf := hin.2.2
            rw [hr] at hf
            cases hf with
            | clsFail hc =>
              simp only [notNl, Bool.not_eq_false', beq_iff_eq] at hc
              exact ⟨s, by rw [hc]⟩

end Verif.Nesting
