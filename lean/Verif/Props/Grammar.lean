import Verif.Model.Grammar
import Verif.Lemmas.Peg
/-
C07, C08: the grammar as a whole, and ignorable text.
-/
namespace Verif.Grammar
open Verif.Peg

/-- productions that may match the empty text -/
def emptyTbl : NT → Bool
  | .header | .vrmlFile | .vrmlScene | .extProtoURL | .ts | .eof => true
  | _ => false

/-- a rank decreasing along productions reachable without consuming text -/
def rankTbl : NT → Nat
  | .header | .ts | .eof | .name | .charNoDblQuote | .simpleBackslash | .escapedChar | .sfBool | .sfNumber
  | .fieldExposure | .eventDirection | .vector => 1
  | .use | .is | .nodegi | .sfString | .route | .proto | .externProto | .sfNull | .dataType => 2
  | .eventDecl | .fieldDecl | .extFieldDecl | .extProtoURL | .scriptEventDecl | .scriptFieldDecl
  | .attr | .node | .script => 3
  | .field | .rootItem => 4
  | .vrmlScene => 5
  | .vrmlFile => 6

theorem gram_empty : ∀ n, canEmpty emptyTbl (gram n) = true → emptyTbl n = true := by
  intro n; cases n <;> decide

theorem gram_ok : ∀ n, okExp emptyTbl rankTbl 7 (rankTbl n) (gram n) = true := by
  intro n; cases n <;> decide

/-- **C08** Every production of the grammar, on every text, has exactly one outcome: a unique parse, a failure,
or a syntax error. -/
theorem C08_one_outcome (n : NT) (i : List Char) :
    ∃ o, Der gram (.nt n) i o ∧ ∀ o', Der gram (.nt n) i o' → o' = o := by
  obtain ⟨o, ho⟩ := total gram_empty gram_ok i.length 7 (.nt n) i rfl (by cases n <;> decide)
  exact ⟨o, ho, fun o' h' => (ho.det o' h').symm⟩

/-- **C08** A parse never invents, drops or reorders text: the matched text followed by the rest is the input. -/
theorem C08_parse_splits_text {n : NT} {i m r : List Char} {ts : List (Tree NT)}
    (h : Der gram (.nt n) i (.ok ts m r)) : i = m ++ r := h.append

theorem star_not_fail {T} {g : T → Exp T} {a i} : ¬ Der g (.star a) i .fail := by
  intro h; cases h

/-- **C08** Parsing a file either accepts the whole text or raises a syntax error; it never stops silently
part-way. -/
theorem C08_file_all_or_error (i : List Char) :
    (∃ ts, Der gram (.nt .vrmlFile) i (.ok ts i [])) ∨ Der gram (.nt .vrmlFile) i .err := by
  obtain ⟨o, ho, -⟩ := C08_one_outcome .vrmlFile i
  cases o with
  | err => exact .inr ho
  | fail =>
    exfalso
    cases ho with
    | ntFail h =>
      simp only [gram, afterCut, Exp.seqs, List.map, List.cons_append, List.nil_append] at h
      cases h with
      | seqFail1 h => cases h with
        | ntFail h => exact star_not_fail h
      | seqFail2 _ h => cases h with
        | seqFail1 h => cases h with
          | ntFail h => exact star_not_fail h
        | seqFail2 _ h => cases h
  | ok ts m r =>
    left
    have hi := ho.append
    cases ho with
    | nt h =>
      simp only [gram, afterCut, Exp.seqs, List.map, List.cons_append, List.nil_append] at h
      cases h with
      | seq _ h => cases h with
        | seq _ h => cases h with
          | cut h => cases h with
            | nt h => cases h with
              | eof =>
                rename_i h1 _ _ h2
                simp only [List.append_nil] at hi
                subst hi
                have h3 : Der gram (gram .vrmlFile) _ _ := .seq h1 (.seq h2 (.cut (.nt .eof)))
                have h4 := Der.nt h3
                simp only [List.append_nil] at h4
                exact ⟨_, h4⟩

/-- Whether `"` and `\`-free texts etc. parse is computed by the interpreter: what it answers is the outcome. -/
theorem C08_interpreter_computes {f : Nat} {n : NT} {i : List Char} {o : Out NT}
    (h : run gram f (.nt n) i = some o) : ∀ o', Der gram (.nt n) i o' → o' = o :=
  fun o' h' => ((run_sound _ _ _ _ h).det o' h').symm

/-! ## Ignorable text -/

/-- Text without meaning: blanks (space, tab, newline, vertical tab, form feed, carriage return), commas and
comments from `#` to the end of the line. -/
inductive Ignorable : List Char → Prop
  | nil : Ignorable []
  | blank {c s} : c ∈ [' ', ',', '\t', '\n', '\x0b', '\x0c', '\r'] → Ignorable s → Ignorable (c :: s)
  | comment {body s} : '\n' ∉ body → Ignorable s → Ignorable ('#' :: (body ++ '\n' :: s))

/-- The text starts with something meaningful: no blank, no comma, no complete comment. -/
def Meaningful (r : List Char) : Prop :=
  (∀ c s, r = c :: s → c ∉ [' ', ',', '\t', '\n', '\x0b', '\x0c', '\r']) ∧
  (∀ s, r = '#' :: s → '\n' ∉ s)

theorem char_toNat_inj {a b : Char} (h : a.toNat = b.toNat) : a = b := by
  apply Char.ext; exact UInt32.toNat_inj.1 h

theorem isBlank_iff (c : Char) : isBlank c = true ↔ c ∈ [' ', ',', '\t', '\n', '\x0b', '\x0c', '\r'] := by
  constructor
  · intro h
    simp only [isBlank, Bool.or_eq_true, beq_iff_eq, Bool.and_eq_true, decide_eq_true_eq] at h
    rcases h with (h | h) | h
    · subst h; decide
    · subst h; decide
    · have : c.toNat = 9 ∨ c.toNat = 10 ∨ c.toNat = 11 ∨ c.toNat = 12 ∨ c.toNat = 13 := by omega
      rcases this with h | h | h | h | h
      · have : c = '\t' := char_toNat_inj h
        subst this; decide
      · have : c = '\n' := char_toNat_inj h
        subst this; decide
      · have : c = '\x0b' := char_toNat_inj h
        subst this; decide
      · have : c = '\x0c' := char_toNat_inj h
        subst this; decide
      · have : c = '\r' := char_toNat_inj h
        subst this; decide
  · intro h
    simp only [List.mem_cons, List.not_mem_nil, or_false] at h
    rcases h with h | h | h | h | h | h | h <;> subst h <;> decide

theorem Ignorable.append {a b} (ha : Ignorable a) (hb : Ignorable b) : Ignorable (a ++ b) := by
  induction ha with
  | nil => exact hb
  | blank h _ ih => exact .blank h ih
  | @comment body s h _ ih => simpa using Ignorable.comment h ih

theorem split_at_nl {a b x y : List Char} (ha : '\n' ∉ a) (hx : '\n' ∉ x)
    (h : a ++ '\n' :: b = x ++ '\n' :: y) : a = x ∧ b = y := by
  induction a generalizing x with
  | nil => cases x with
    | nil => simpa using h
    | cons c x => simp at h hx; exact absurd h.1 hx.1
  | cons d a ih => cases x with
    | nil => simp at h ha; exact absurd h.1.symm ha.1
    | cons c x =>
      simp at h ha hx
      obtain ⟨rfl, h⟩ := h
      obtain ⟨rfl, rfl⟩ := ih ha.2 hx.2 h
      exact ⟨rfl, rfl⟩

/-- A text has only one ignorable prefix followed by something meaningful. -/
theorem ignorable_unique {s r s' r' : List Char} (hs : Ignorable s) (hr : Meaningful r)
    (hs' : Ignorable s') (hr' : Meaningful r') (h : s ++ r = s' ++ r') : s = s' ∧ r = r' := by
  induction hs generalizing s' with
  | nil =>
    cases hs' with
    | nil => exact ⟨rfl, h⟩
    | blank hc _ => exact absurd hc (hr.1 _ _ h)
    | comment hb _ =>
      have h2 := hr.2 _ h
      simp at h2
  | blank hc _ ih =>
    cases hs' with
    | nil => exact absurd hc (hr'.1 _ _ h.symm)
    | blank hc' hs' =>
      simp at h
      obtain ⟨rfl, h⟩ := h
      obtain ⟨rfl, rfl⟩ := ih hs' h
      exact ⟨rfl, rfl⟩
    | comment hb _ =>
      simp at h
      rw [h.1] at hc
      exact absurd hc (by decide)
  | comment hb _ ih =>
    cases hs' with
    | nil =>
      have h2 := hr'.2 _ h.symm
      simp at h2
    | blank hc' hs' =>
      simp at h
      rw [← h.1] at hc'
      exact absurd hc' (by decide)
    | comment hb' hs' =>
      simp at h
      obtain ⟨h1, h2⟩ := split_at_nl hb hb' h
      obtain ⟨h3, h4⟩ := ih hs' h2
      subst h1 h3 h4
      exact ⟨rfl, rfl⟩

theorem starCls_ok (p : Char → Bool) (i : List Char) :
    Der gram (.star (.cls p)) i (.ok [] (i.takeWhile p) (i.dropWhile p)) := by
  induction i with
  | nil => exact .starNil .clsEnd
  | cons c r ih =>
    cases hp : p c with
    | true =>
      have := Der.starCons (.cls hp) (by simp) ih
      simpa [hp] using this
    | false => simpa [hp] using Der.starNil (g := gram) (a := .cls p) (.clsFail hp)

/-- Greedy run of a character class. -/
theorem starCls_der {p : Char → Bool} {m r : List Char} (hm : ∀ c ∈ m, p c = true)
    (hr : ∀ c s, r = c :: s → p c = false) : Der gram (.star (.cls p)) (m ++ r) (.ok [] m r) := by
  have h := starCls_ok p (m ++ r)
  have h1 : (m ++ r).takeWhile p = m := by
    rw [List.takeWhile_append_of_pos hm]
    cases r with
    | nil => simp
    | cons c s => simp [hr c s rfl]
  have h2 : (m ++ r).dropWhile p = r := by
    rw [List.dropWhile_append_of_pos hm]
    cases r with
    | nil => simp
    | cons c s => simp [hr c s rfl]
  rwa [h1, h2] at h

theorem plusCls_der {p : Char → Bool} {m r : List Char} (h0 : m ≠ []) (hm : ∀ c ∈ m, p c = true)
    (hr : ∀ c s, r = c :: s → p c = false) : Der gram (.plus (.cls p)) (m ++ r) (.ok [] m r) := by
  cases m with
  | nil => exact absurd rfl h0
  | cons c m =>
    exact .seq (.cls (hm c (by simp))) (starCls_der (fun d hd => hm d (by simp [hd])) hr)

/-- Invariants of greedy repetition. -/
theorem star_inv {T} {g : T → Exp T} {a : Exp T} {P : List Char → Prop} (h0 : P [])
    (happ : ∀ x y, P x → P y → P (x ++ y)) (ha : ∀ i t m r, Der g a i (.ok t m r) → t = [] ∧ P m)
    {e i o} (h : Der g e i o) : e = .star a → ∀ t m r, o = .ok t m r → t = [] ∧ P m ∧ Der g a r .fail := by
  induction h <;> intro he <;> cases he <;> intro t m r ho <;> cases ho
  case starNil h _ => exact ⟨rfl, h0, h⟩
  case starCons _ h1 _ _ ih =>
    obtain ⟨rfl, h4, h5⟩ := ih rfl _ _ _ rfl
    obtain ⟨rfl, h6⟩ := ha _ _ _ _ h1
    exact ⟨rfl, happ _ _ h6 h4, h5⟩

theorem mem_takeWhile {p : Char → Bool} {l : List Char} {c} (h : c ∈ l.takeWhile p) : p c = true := by
  induction l with
  | nil => simp at h
  | cons d l ih =>
    simp only [List.takeWhile] at h
    split at h
    · rename_i hp
      simp at h
      rcases h with rfl | h
      · exact hp
      · exact ih h
    · simp at h

/-- one comment -/
abbrev cmt : E := .seqs [kw "#", .star (.cls notNl), kw "\n"]

theorem cmt_ok {i t m r} (h : Der gram cmt i (.ok t m r)) :
    t = [] ∧ ∃ b, '\n' ∉ b ∧ m = '#' :: (b ++ ['\n']) := by
  cases h with
  | seq h1 h2 => cases h1 with
    | lit => cases h2 with
      | seq h2 h3 =>
        rename_i i2 t2 m2 r2 t3 m3
        have h := (starCls_ok notNl i2).det _ h2
        cases h
        generalize List.dropWhile notNl i2 = dd at h3
        cases h3 with
        | lit =>
          refine ⟨rfl, _, ?_, rfl⟩
          intro hc
          have := mem_takeWhile hc
          simp [notNl] at this

theorem cmt_fail {s} (h : Der gram cmt ('#' :: s) .fail) : '\n' ∉ s := by
  intro hn
  have hd : s.dropWhile notNl ≠ [] := by
    intro he
    have h1 : s.takeWhile notNl ++ s.dropWhile notNl = s := List.takeWhile_append_dropWhile
    rw [he, List.append_nil] at h1
    rw [← h1] at hn
    have := mem_takeWhile hn
    simp [notNl] at this
  obtain ⟨d, t, hdt⟩ := List.exists_cons_of_ne_nil hd
  have hdn : d = '\n' := by
    have := List.head_dropWhile_not notNl hd
    simp [hdt, notNl] at this
    exact this
  subst hdn
  have h1 := starCls_ok notNl s
  rw [hdt] at h1
  have h2 : Der gram cmt ('#' :: s) _ := .seq (.lit ['#'] s) (.seq h1 (.lit ['\n'] t))
  cases h2.det _ h

/-- **C07** The `ts` rule, on every text, skips exactly the maximal ignorable prefix and reports nothing. -/
theorem ts_total (i : List Char) : ∃ s r, Der gram ws i (.ok [] s r) ∧ Ignorable s ∧ Meaningful r := by
  obtain ⟨o, ho⟩ := total gram_empty gram_ok i.length 7 ws i rfl (by decide)
  have ho' := ho
  have hplus : ∀ (a : E) (P : List Char → Prop), P [] → (∀ x y, P x → P y → P (x ++ y)) →
      (∀ i t m r, Der gram a i (.ok t m r) → t = [] ∧ P m) →
      ∀ i t m r, Der gram (.plus a) i (.ok t m r) → t = [] ∧ P m := by
    intro a P h0 happ ha i t m r h
    cases h with
    | seq h1 h2 =>
      obtain ⟨rfl, h3⟩ := ha _ _ _ _ h1
      obtain ⟨rfl, h4, -⟩ := star_inv h0 happ ha h2 rfl _ _ _ rfl
      exact ⟨rfl, happ _ _ h3 h4⟩
  have happ : ∀ x y, Ignorable x → Ignorable y → Ignorable (x ++ y) := fun _ _ => Ignorable.append
  have hbody : ∀ i t m r, Der gram (.alt (.plus (.cls isBlank)) (.plus cmt)) i (.ok t m r) → t = [] ∧ Ignorable m := by
    intro i t m r h
    cases h with
    | altL h =>
      refine hplus _ _ .nil happ ?_ _ _ _ _ h
      intro i t m r h
      cases h with
      | cls hp => exact ⟨rfl, .blank ((isBlank_iff _).1 hp) .nil⟩
    | altR _ h =>
      refine hplus _ _ .nil happ ?_ _ _ _ _ h
      intro i t m r h
      obtain ⟨rfl, b, hb, rfl⟩ := cmt_ok h
      exact ⟨rfl, .comment hb .nil⟩
  cases ho with
  | silentFail h => exact absurd h star_not_fail
  | silentErr h =>
    exfalso
    have hne : ∀ (a : E), (∀ i, ¬ Der gram a i .err) → ∀ i, ¬ Der gram (.star a) i .err := by
      intro a ha i h
      generalize he : Exp.star a = e at h
      generalize ho : Out.err = o at h
      induction h <;> cases he <;> cases ho
      case starErr1 h _ => exact ha _ h
      case starErr2 h => exact h rfl rfl
    refine hne _ ?_ _ h
    intro i h
    cases h with
    | altErr h => cases h with
      | seqErr1 h => cases h
      | seqErr2 _ h => exact hne _ (fun i h => by cases h) _ h
    | altR _ h =>
      have hc : ∀ i, ¬ Der gram cmt i .err := by
        intro i h
        cases h with
        | seqErr1 h => cases h
        | seqErr2 _ h => cases h with
          | seqErr1 h => exact hne _ (fun i h => by cases h) _ h
          | seqErr2 _ h => cases h
      cases h with
      | seqErr1 h => exact hc _ h
      | seqErr2 _ h => exact hne _ hc _ h
  | silent h =>
    obtain ⟨rfl, h4, h5⟩ := star_inv .nil happ hbody h rfl _ _ _ rfl
    refine ⟨_, _, ho', h4, ?_, ?_⟩
    · intro c s hr hc
      subst hr
      cases h5 with
      | altR h5 _ => cases h5 with
        | seqFail1 h5 => cases h5 with
          | clsFail h5 => rw [(isBlank_iff c).2 hc] at h5; cases h5
        | seqFail2 _ h5 => exact star_not_fail h5
    · intro s hr
      subst hr
      cases h5 with
      | altR _ h5 => cases h5 with
        | seqFail1 h5 => exact cmt_fail h5
        | seqFail2 _ h5 => exact absurd h5 star_not_fail

/-- **C07** Every run of blanks, commas and newline-terminated comments is skipped completely, reporting
nothing, and the meaningful text that follows is left untouched. -/
theorem C07_ignorable_skipped {s r : List Char} (hs : Ignorable s) (hr : Meaningful r) :
    Der gram ws (s ++ r) (.ok [] s r) := by
  obtain ⟨s', r', h, hs', hr'⟩ := ts_total (s ++ r)
  obtain ⟨rfl, rfl⟩ := ignorable_unique hs hr hs' hr' h.append
  exact h

/-- **C07** Conversely, on every text, what is skipped is ignorable and what is left is meaningful. -/
theorem C07_only_ignorable_skipped {i s r : List Char} {t} (h : Der gram ws i (.ok t s r)) :
    t = [] ∧ Ignorable s ∧ Meaningful r := by
  obtain ⟨s', r', h', hs', hr'⟩ := ts_total i
  cases h'.det _ h
  exact ⟨rfl, hs', hr'⟩

/-- **C07** A comment that is not terminated by a newline is not skipped. -/
theorem C07_unterminated_comment_kept {body : List Char} (h : '\n' ∉ body) :
    Der gram ws ('#' :: body) (.ok [] [] ('#' :: body)) := by
  refine C07_ignorable_skipped (s := []) .nil ⟨?_, ?_⟩
  · intro c s hc; cases hc; decide
  · intro s hs; cases hs; exact h

example : Ignorable [' ', ',', '#', 'a', '#', '\n', '\t'] :=
  .blank (by decide) (.blank (by decide) (.comment (body := ['a', '#']) (by decide) (.blank (by decide) .nil)))
example : Meaningful ['{', ' '] := ⟨fun c s h => by cases h; decide, fun s h => by cases h⟩
/-- the hypotheses of C08's last theorem are met by actual texts -/
example : ∃ f ts m r, run gram f (.nt .field) ['1', ' ', '.', '5', ']'] = some (.ok ts m r) ∧ r = [']'] :=
  ⟨30, _, _, _, by rfl, rfl⟩

end Verif.Grammar
