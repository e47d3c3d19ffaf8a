import Verif.Model.TextOut
import Verif.Model.ParseVal
import Verif.Props.Grammar
/-
C01, C02, C04, C05, C06: text forms of simple values are read back.
-/
namespace Verif.Text
open Verif.Peg Verif.Grammar Verif.TextOut Verif.ParseVal

/-! ## Strings -/

/-- What the writer does to each character. -/
def escChar (c : Char) : List Char := if c = '\\' then ['\\', '\\'] else if c = '"' then ['\\', '"'] else [c]
def esc (s : List Char) : List Char := s.flatMap escChar

theorem join_split (c : Char) (sep s : List Char) :
    pyJoin sep (pySplit c s) = s.flatMap (fun d => if d = c then sep else [d]) := by
  have hne : ∀ s, pySplit c s ≠ [] := by
    intro s
    cases s with
    | nil => simp [pySplit]
    | cons d s =>
      simp only [pySplit]
      split
      · simp
      · split <;> simp
  induction s with
  | nil => simp [pySplit, pyJoin]
  | cons d s ih =>
    simp only [pySplit, List.flatMap_cons]
    by_cases hd : d = c
    · simp only [hd, if_true]
      rw [← ih]
      cases h : pySplit c s with
      | nil => exact absurd h (hne s)
      | cons w ws => simp [pyJoin]
    · simp only [hd, if_false]
      rw [← ih]
      cases h : pySplit c s with
      | nil => exact absurd h (hne s)
      | cons w ws => cases ws <;> simp [pyJoin]

theorem sfStringStr_eq (s : List Char) : sfStringStr s = ['"'] ++ esc s ++ ['"'] := by
  simp only [sfStringStr, join_split, List.flatMap_assoc, esc]
  congr 2
  have hcg : ∀ (f g : Char → List Char), (∀ c, f c = g c) → s.flatMap f = s.flatMap g := by
    intro f g h; rw [show f = g from funext h]
  apply hcg
  intro c
  by_cases h1 : c = '\\'
  · subst h1; decide
  · by_cases h2 : c = '"'
    · subst h2; decide
    · simp [h1, h2, escChar]

abbrev strItem : E := .alts [.nt .charNoDblQuote, .nt .escapedChar, .nt .simpleBackslash]

theorem lit_fail1 {c d : Char} {s i : List Char} (h : c ≠ d) : Der gram (.lit (c :: s)) (d :: i) .fail :=
  .litFail (fun hp => h (by simpa using (List.cons_prefix_cons.1 hp).1))

theorem lit_fail_nil {c : Char} {s : List Char} : Der gram (.lit (c :: s)) [] .fail :=
  .litFail (fun hp => by simp at hp)

theorem esc_head_plain {s : List Char} {r : List Char} (c : Char) (t : List Char)
    (h : esc (s.dropWhile isPlain) ++ '"' :: r = c :: t) : isPlain c = false := by
  cases hd : s.dropWhile isPlain with
  | nil => rw [hd] at h; simp [esc] at h; rw [← h.1]; decide
  | cons d u =>
    have hp : isPlain d = false := by
      have := List.head_dropWhile_not isPlain (l := s) (by simp [hd])
      simpa [hd] using this
    rw [hd] at h
    have hd' : d = '\\' ∨ d = '"' := by
      have hp' := hp
      simp [isPlain] at hp'
      by_cases h1 : d = '\\'
      · exact .inl h1
      · exact .inr (hp' h1)
    have he : ∃ v, escChar d = '\\' :: v := by
      rcases hd' with rfl | rfl
      · exact ⟨['\\'], by decide⟩
      · exact ⟨['"'], by decide⟩
    obtain ⟨v, hv⟩ := he
    simp [esc, hv] at h
    rw [← h.1]; decide

theorem esc_plain {m s : List Char} (hm : ∀ c ∈ m, isPlain c = true) : esc (m ++ s) = m ++ esc s := by
  induction m with
  | nil => rfl
  | cons c m ih =>
    have hc := hm c (by simp)
    have : escChar c = [c] := by
      simp [isPlain] at hc
      simp [escChar, hc]
    simp only [List.cons_append, esc, List.flatMap_cons, this, List.nil_append] at ih ⊢
    rw [ih (fun d hd => hm d (by simp [hd]))]

theorem strBody_der (r : List Char) : ∀ (n : Nat) (s : List Char), s.length ≤ n →
    ∃ kids, Der gram (.star strItem) (esc s ++ '"' :: r) (.ok kids (esc s) ('"' :: r)) ∧ decodeString kids = s := by
  have hend : Der gram (.star strItem) ('"' :: r) (.ok [] [] ('"' :: r)) := by
    refine .starNil (.altR ?_ (.altR ?_ ?_))
    · exact .ntFail (.seqFail1 (.clsFail (by decide)))
    · exact .ntFail (.altR (lit_fail1 (by decide)) (lit_fail1 (by decide)))
    · exact .ntFail (lit_fail1 (by decide))
  intro n
  induction n with
  | zero =>
    intro s hs
    have : s = [] := List.eq_nil_of_length_eq_zero (by omega)
    subst this
    exact ⟨[], by simpa [esc] using hend, rfl⟩
  | succ n ih =>
    intro s hs
    cases s with
    | nil => exact ⟨[], by simpa [esc] using hend, rfl⟩
    | cons c s =>
      by_cases hp : isPlain c = true
      · have hsplit : (c :: s).takeWhile isPlain ++ (c :: s).dropWhile isPlain = c :: s := List.takeWhile_append_dropWhile
        have hne : (c :: s).takeWhile isPlain ≠ [] := by simp [hp]
        have hall : ∀ d ∈ (c :: s).takeWhile isPlain, isPlain d = true := fun d hd => mem_takeWhile hd
        obtain ⟨kids, hk, hdk⟩ := ih ((c :: s).dropWhile isPlain) (by
          have := congrArg List.length hsplit
          have h2 := List.length_pos_iff.2 hne
          simp only [List.length_append] at this
          simp only [List.length_cons] at this hs
          omega)
        have h1 := plusCls_der (p := isPlain) (r := esc ((c :: s).dropWhile isPlain) ++ '"' :: r) hne hall
          (fun d t h => esc_head_plain d t h)
        have h2 : Der gram strItem _ _ := .altL (Der.nt (g := gram) (n := NT.charNoDblQuote) h1)
        have h3 := Der.starCons h2 hne hk
        have he : esc (c :: s) = (c :: s).takeWhile isPlain ++ esc ((c :: s).dropWhile isPlain) := by
          rw [← esc_plain hall, hsplit]
        refine ⟨[Tree.node NT.charNoDblQuote (List.takeWhile isPlain (c :: s)) []] ++ kids, ?_, ?_⟩
        · rw [he, List.append_assoc]
          exact h3
        · simp only [decodeString, List.map_append, List.map_cons, List.map_nil, stringPiece, List.flatten_append,
            List.flatten_cons, List.flatten_nil, List.append_nil] at hdk ⊢
          rw [hdk, hsplit]
      · have hc : c = '\\' ∨ c = '"' := by
          simp [isPlain] at hp
          by_cases h1 : c = '\\'
          · exact .inl h1
          · exact .inr (hp h1)
        obtain ⟨kids, hk, hdk⟩ := ih s (by simp at hs; omega)
        have hesc : Der gram (.nt .escapedChar) (esc (c :: s) ++ '"' :: r)
            (.ok [.node .escapedChar ['\\', c] []] ['\\', c] (esc s ++ '"' :: r)) := by
          rcases hc with rfl | rfl
          · refine .nt (.altR (.litFail ?_) (.lit ['\\', '\\'] _))
            intro h
            simp [esc, escChar] at h
          · exact .nt (.altL (.lit ['\\', '"'] _))
        have hbs : (esc (c :: s) ++ '"' :: r) = '\\' :: c :: (esc s ++ '"' :: r) := by
          rcases hc with rfl | rfl <;> simp [esc, escChar]
        have h2 : Der gram strItem (esc (c :: s) ++ '"' :: r) _ :=
          .altR (by rw [hbs]; exact .ntFail (.seqFail1 (.clsFail (by decide)))) (.altL hesc)
        have h3 := Der.starCons h2 (by simp) hk
        have he : esc (c :: s) = ['\\', c] ++ esc s := by rcases hc with rfl | rfl <;> simp [esc, escChar]
        rw [← he] at h3
        refine ⟨_, h3, ?_⟩
        · simp only [decodeString, List.map_append, List.map_cons, List.map_nil, stringPiece, List.flatten_append,
            List.flatten_cons, List.flatten_nil, List.append_nil] at hdk ⊢
          rw [hdk]; rfl

theorem sfString_der (s r : List Char) : ∃ kids,
    Der gram (.nt .sfString) (sfStringStr s ++ r) (.ok [.node .sfString (sfStringStr s) kids] (sfStringStr s) r) ∧
    decodeString kids = s := by
  obtain ⟨kids, hk, hd⟩ := strBody_der r s.length s (Nat.le_refl _)
  have h1 : Der gram (gram .sfString) (['"'] ++ (esc s ++ '"' :: r)) _ :=
    .seq (.lit ['"'] _) (.seq hk (.cut (.lit ['"'] r)))
  have h2 := Der.nt (g := gram) (n := NT.sfString) h1
  refine ⟨kids, ?_, hd⟩
  rw [sfStringStr_eq]
  simpa using h2

/-- **C01** For every string and every following text, the SFString grammar rule reads exactly the text the
SFString writer produced, leaves the rest untouched, and the processor decodes it to the original string. -/
theorem C01_sfstring_roundtrip (s r : List Char) : ∃ t,
    Der gram (.nt .sfString) (sfStringStr s ++ r) (.ok [t] (sfStringStr s) r) ∧ ParseVal.sfString [t] = some s := by
  obtain ⟨kids, h, hd⟩ := sfString_der s r
  exact ⟨_, h, by simp [ParseVal.sfString, ParseVal.Tree.kids, hd]⟩

/-- **C01** and this is the only outcome of the rule on that text. -/
theorem C01_sfstring_unique (s r : List Char) {o} (h : Der gram (.nt .sfString) (sfStringStr s ++ r) o) :
    ∃ t, o = .ok [t] (sfStringStr s) r ∧ ParseVal.sfString [t] = some s := by
  obtain ⟨t, h1, h2⟩ := C01_sfstring_roundtrip s r
  exact ⟨t, (h1.det _ h).symm, h2⟩

/-- **C01** The writer is injective and self-delimiting: different strings never get texts one of which is a
prefix of the other. -/
theorem C01_sfstring_selfdelimiting {s s' r r' : List Char} (h : sfStringStr s ++ r = sfStringStr s' ++ r') :
    s = s' ∧ r = r' := by
  obtain ⟨t, h1, h2⟩ := C01_sfstring_roundtrip s r
  obtain ⟨t', h1', h2'⟩ := C01_sfstring_roundtrip s' r'
  rw [h] at h1
  have := h1.det _ h1'
  injection this with a b c
  simp only [List.cons.injEq, and_true] at a
  subst a
  rw [h2] at h2'
  exact ⟨by simpa using h2', c⟩

example : sfStringStr ['a', '"', '\\', 'n'] = ['"', 'a', '\\', '"', '\\', '\\', 'n', '"'] := by decide

/-! ## Numbers -/

/-- Texts of one number: signs, digits and points, and possibly an exponent. -/
def NumTok (t : List Char) : Prop :=
  ∃ sg ds ex, t = sg ++ (ds ++ ex) ∧ (∀ c ∈ sg, isSign c = true) ∧ ds ≠ [] ∧ (∀ c ∈ ds, isDigDot c = true) ∧
    (ex = [] ∨ ∃ e xs, ex = e :: xs ∧ (e = 'e' ∨ e = 'E') ∧ xs ≠ [] ∧ ∀ c ∈ xs, isExpChar c = true)

/-- The text cannot continue a number: it does not start with a sign, a digit, a point, `e`, `E`, `x` or `X`. -/
def NumEnd (r : List Char) : Prop :=
  ∀ c s, r = c :: s → isExpChar c = false ∧ c ∉ ['e', 'E', 'x', 'X']

theorem NumTok.ne_nil {t} (h : NumTok t) : t ≠ [] := by
  obtain ⟨sg, ds, ex, rfl, -, hd, -⟩ := h
  simp [hd]

/-- The first character of a number text. -/
theorem NumTok.head {t} (h : NumTok t) : ∃ c s, t = c :: s ∧ isExpChar c = true := by
  obtain ⟨sg, ds, ex, rfl, hs, hd, hd', -⟩ := h
  cases sg with
  | cons c sg => exact ⟨c, _, rfl, by simp [isExpChar, hs c (by simp)]⟩
  | nil => cases ds with
    | nil => exact absurd rfl hd
    | cons c ds => exact ⟨c, _, rfl, by simp [isExpChar, hd' c (by simp)]⟩

theorem sign_not_digdot {c : Char} (h : isDigDot c = true) : isSign c = false := by
  by_cases h1 : c = '-'
  · subst h1; revert h; decide
  · by_cases h2 : c = '+'
    · subst h2; revert h; decide
    · simp [isSign, h1, h2]

abbrev hexAlt : E := .seqs [kw "0", .cls (fun c => c == 'x' || c == 'X'), .plus (.cls isHex)]
abbrev decAlt : E := .seq (.plus (.cls isDigDot)) (.opt (.seq (.cls (fun c => c == 'e' || c == 'E')) (.plus (.cls isExpChar))))

theorem hex_fail {i : List Char} (h : ∀ x s, i = '0' :: x :: s → x ≠ 'x' ∧ x ≠ 'X') : Der gram hexAlt i .fail := by
  by_cases h0 : ∃ s, i = '0' :: s
  · obtain ⟨s, rfl⟩ := h0
    refine .seqFail2 (.lit ['0'] s) (.seqFail1 ?_)
    cases s with
    | nil => exact .clsEnd
    | cons x s =>
      have := h x s rfl
      exact .clsFail (by simp [this.1, this.2])
  · refine .seqFail1 (.litFail ?_)
    rintro ⟨t, ht⟩
    exact h0 ⟨t, ht.symm⟩

theorem sfNumber_der {t r : List Char} (h : NumTok t) (hr : NumEnd r) :
    Der gram (.nt .sfNumber) (t ++ r) (.ok [.node .sfNumber t []] t r) := by
  obtain ⟨sg, ds, ex, rfl, hs, hd, hd', he⟩ := h
  have hsg : Der gram (.star (.cls isSign)) (sg ++ (ds ++ ex ++ r)) (.ok [] sg (ds ++ ex ++ r)) := by
    refine starCls_der hs ?_
    intro c s hc
    cases ds with
    | nil => exact absurd rfl hd
    | cons d ds =>
      simp at hc
      rw [← hc.1]
      exact sign_not_digdot (hd' d (by simp))
  have hhex : Der gram hexAlt (ds ++ ex ++ r) .fail := by
    refine hex_fail ?_
    intro x s hx
    cases ds with
    | nil => exact absurd rfl hd
    | cons d ds =>
      cases ds with
      | cons d' ds =>
        simp at hx
        have := hd' d' (by simp)
        obtain ⟨rfl, rfl, -⟩ := hx
        constructor <;> (intro h; subst h; revert this; decide)
      | nil =>
        rcases he with rfl | ⟨e, xs, rfl, he, -⟩
        · simp at hx
          have := (hr x s hx.2).2
          simp at this
          exact ⟨this.2.2.1, this.2.2.2⟩
        · simp at hx
          obtain ⟨-, rfl, -⟩ := hx
          rcases he with rfl | rfl <;> decide
  have hdec : Der gram decAlt (ds ++ ex ++ r) (.ok [] (ds ++ ex) r) := by
    rcases he with rfl | ⟨e, xs, rfl, he, hx, hx'⟩
    · have h1 : Der gram (.plus (.cls isDigDot)) (ds ++ r) (.ok [] ds r) := by
        refine plusCls_der hd hd' ?_
        intro c s hc
        have := (hr c s hc).1
        simp [isExpChar] at this
        exact this.2
      have h2 : Der gram (.opt (.seq (.cls (fun c => c == 'e' || c == 'E')) (.plus (.cls isExpChar)))) r (.ok [] [] r) := by
        refine .altR (.seqFail1 ?_) (.eps r)
        cases r with
        | nil => exact .clsEnd
        | cons c s =>
          have := (hr c s rfl).2
          simp at this
          exact .clsFail (by simp [this.1, this.2.1])
      have h3 : Der gram decAlt _ _ := .seq h1 h2
      simpa using h3
    · have h1 : Der gram (.plus (.cls isDigDot)) (ds ++ (e :: xs ++ r)) (.ok [] ds (e :: xs ++ r)) := by
        refine plusCls_der hd hd' ?_
        intro c s hc
        simp at hc
        rw [← hc.1]
        rcases he with rfl | rfl <;> decide
      have h2 : Der gram (.opt (.seq (.cls (fun c => c == 'e' || c == 'E')) (.plus (.cls isExpChar)))) (e :: xs ++ r)
          (.ok [] (e :: xs) r) := by
        refine .altL (.seq (m1 := [e]) (.cls (by rcases he with rfl | rfl <;> decide)) (plusCls_der hx hx' ?_))
        intro c s hc
        exact (hr c s hc).1
      have h3 : Der gram decAlt _ _ := .seq h1 h2
      simpa using h3
  have h4 : Der gram (gram .sfNumber) (sg ++ (ds ++ ex ++ r)) (.ok [] (sg ++ (ds ++ ex)) r) :=
    .seq hsg (.altR hhex hdec)
  have h5 := Der.nt (g := gram) (n := NT.sfNumber) h4
  simpa using h5

/-! ### Integers -/

theorem digitChar_props (d : Nat) (hd : d < 10) :
    isDigit (digitChar d) = true ∧ isDigDot (digitChar d) = true ∧ digitVal (digitChar d) = d ∧
    digitChar d ≠ '-' ∧ digitChar d ≠ '+' ∧ (digitChar d = '0' → d = 0) := by
  have h : ∀ d : Fin 10, isDigit (digitChar d) = true ∧ isDigDot (digitChar d) = true ∧ digitVal (digitChar d) = d ∧
    digitChar d ≠ '-' ∧ digitChar d ≠ '+' ∧ (digitChar d = '0' → d = 0) := by decide
  have := h ⟨d, hd⟩
  simp only [Fin.ext_iff] at this
  exact this

theorem natStr_ne_nil (n : Nat) : natStr n ≠ [] := by
  rw [natStr]; split <;> simp

theorem natStr_digit (n : Nat) : ∀ c ∈ natStr n, isDigit c = true := by
  induction n using Nat.strongRecOn with
  | _ n ih =>
  intro c hc
  rw [natStr] at hc
  split at hc
  · rename_i h; simp at hc; subst hc; exact (digitChar_props n h).1
  · simp at hc
    rcases hc with hc | hc
    · exact ih _ (by omega) c hc
    · subst hc; exact (digitChar_props _ (by omega)).1

theorem digitsVal_append (b : Nat) (l : List Char) (c : Char) :
    digitsVal b (l ++ [c]) = digitsVal b l * b + digitVal c := by
  simp [digitsVal]

theorem natStr_val (n : Nat) : digitsVal 10 (natStr n) = n := by
  induction n using Nat.strongRecOn with
  | _ n ih =>
  rw [natStr]
  split
  · rename_i h; simp [digitsVal, (digitChar_props n h).2.2.1]
  · rw [digitsVal_append, ih _ (by omega), (digitChar_props _ (by omega : n % 10 < 10)).2.2.1]
    omega

/-- The first digit is `0` only for zero. -/
theorem natStr_head (n : Nat) (s : List Char) (h : natStr n = '0' :: s) : n = 0 ∧ s = [] := by
  induction n using Nat.strongRecOn generalizing s with
  | _ n ih =>
  rw [natStr] at h
  split at h
  · rename_i hn
    simp at h
    exact ⟨(digitChar_props n hn).2.2.2.2.2 h.1, by simp [h.2]⟩
  · rename_i hn
    cases hq : natStr (n / 10) with
    | nil => exact absurd hq (natStr_ne_nil _)
    | cons c t =>
      rw [hq] at h
      simp at h
      rw [h.1] at hq
      have := (ih (n / 10) (by omega) t hq).1
      omega

theorem natBase0_natStr (n : Nat) : natBase0 (natStr n) = some n := by
  have hdig := natStr_digit n
  have hval := natStr_val n
  cases h : natStr n with
  | nil => exact absurd h (natStr_ne_nil n)
  | cons c s =>
    simp only [natBase0]
    split
    · rename_i h0
      subst h0
      obtain ⟨rfl, rfl⟩ := natStr_head n s h
      rfl
    · rw [h] at hdig hval
      have : (c :: s).all isDigit = true := List.all_eq_true.2 hdig
      simp only [this, if_true, hval]

theorem isDigit_props {c : Char} (h : isDigit c = true) : c ≠ '-' ∧ c ≠ '+' ∧ isDigDot c = true := by
  refine ⟨?_, ?_, by simp [isDigDot, h]⟩ <;> (intro hc; subst hc; revert h; decide)

theorem intBase0_intStr (n : Int) : intBase0 (intStr n) = some n := by
  simp only [intStr]
  split
  · rename_i h
    simp only [intBase0, if_true, natBase0_natStr, Option.map_some]
    congr 1
    omega
  · rename_i h
    cases hs : natStr n.natAbs with
    | nil => exact absurd hs (natStr_ne_nil _)
    | cons c s =>
      have hc := isDigit_props (natStr_digit n.natAbs c (by simp [hs]))
      simp only [intBase0, hc.1, hc.2.1, if_false]
      rw [← hs, natBase0_natStr]
      simp only [Option.map_some]
      congr 1
      omega

theorem intStr_numTok (n : Int) : NumTok (intStr n) := by
  have hd : ∀ c ∈ natStr n.natAbs, isDigDot c = true := fun c hc => (isDigit_props (natStr_digit _ c hc)).2.2
  simp only [intStr]
  split
  · exact ⟨['-'], natStr n.natAbs, [], by simp, by decide, natStr_ne_nil _, hd, .inl rfl⟩
  · exact ⟨[], natStr n.natAbs, [], by simp, by decide, natStr_ne_nil _, hd, .inl rfl⟩

/-- **C06** For every integer and every following text that cannot continue a number, the number rule reads
exactly the text the SFInt32 writer produced and the processor converts it back to the same integer. -/
theorem C06_sfint32_roundtrip (n : Int) {r : List Char} (hr : NumEnd r) : ∃ t,
    Der gram (.nt .sfNumber) (sfInt32Str n ++ r) (.ok [t] (sfInt32Str n) r) ∧ ParseVal.sfInt32 [t] = some n :=
  ⟨_, sfNumber_der (intStr_numTok n) hr, by simp [ParseVal.sfInt32, ParseVal.Tree.text, sfInt32Str, intBase0_intStr]⟩

/-- one hexadecimal digit, spelled by its position in the alphabet of digits, in lower or upper case -/
def hexDigit (d : Bool × Nat) : Char :=
  (if d.1 then "0123456789ABCDEF".toList else "0123456789abcdef".toList).getD d.2 '0'

/-- **C06** The `0x`/`0X` form is read whole and in base 16: for every non-empty list of digits below sixteen, each
written in either case. -/
theorem C06_hex_base16 (x : Char) (hx0 : x = 'x' ∨ x = 'X') (ds : List (Bool × Nat)) (h0 : ds ≠ []) (hd : ∀ d ∈ ds, d.2 < 16)
    {r : List Char} (hr : ∀ c s, r = c :: s → isHex c = false) : ∃ t,
    Der gram (.nt .sfNumber) ('0' :: x :: (ds.map hexDigit ++ r)) (.ok [t] ('0' :: x :: ds.map hexDigit) r) ∧
    ParseVal.sfInt32 [t] = some ((ds.foldl (fun a d => 16 * a + d.2) 0 : Nat) : Int) := by
  have hx : ∀ d : Bool × Nat, d.2 < 16 → isHex (hexDigit d) = true ∧ digitVal (hexDigit d) = d.2 := by
    have h : ∀ (b : Bool) (d : Fin 16), isHex (hexDigit (b, d)) = true ∧ digitVal (hexDigit (b, d)) = d := by decide
    intro d hd; exact h d.1 ⟨d.2, hd⟩
  have hall : ∀ c ∈ ds.map hexDigit, isHex c = true := by
    intro c hc
    obtain ⟨d, hd', rfl⟩ := List.mem_map.1 hc
    exact (hx d (hd d hd')).1
  have hne : ds.map hexDigit ≠ [] := by simpa using h0
  have h1 : Der gram (gram .sfNumber) ([] ++ (['0'] ++ ([x] ++ (ds.map hexDigit ++ r))))
      (.ok [] ([] ++ (['0'] ++ ([x] ++ ds.map hexDigit))) r) :=
    .seq (.starNil (.clsFail (by decide))) (.altL (.seq (.lit ['0'] _) (.seq (.cls (by rcases hx0 with rfl | rfl <;> decide))
      (plusCls_der hne hall hr))))
  have h2 := Der.nt (g := gram) (n := NT.sfNumber) h1
  refine ⟨_, h2, ?_⟩
  have hfold : ∀ a, (ds.map hexDigit).foldl (fun a c => a * 16 + digitVal c) a = ds.foldl (fun a d => 16 * a + d.2) a := by
    clear h0 hr hall hne h1 h2
    induction ds with
    | nil => intro a; rfl
    | cons d ds ih =>
      intro a
      simp only [List.map_cons, List.foldl_cons]
      rw [ih (fun e he => hd e (by simp [he])), (hx d (hd d (by simp))).2, Nat.mul_comm]
  have hb : (ds.map hexDigit).all isHex = true := List.all_eq_true.2 hall
  simp only [ParseVal.sfInt32, ParseVal.Tree.text, List.nil_append, List.cons_append, intBase0, natBase0,
    show ('0' : Char) ≠ '-' by decide, show ('0' : Char) ≠ '+' by decide, if_false, if_true, hx0, hne, hb,
    ne_eq, not_false_eq_true, and_self, Option.map_some]
  simp only [digitsVal, hfold]

theorem allSome_iff {α β : Type} {f : α → Option β} {l : List α} {r : List β} : ParseVal.allSome f l = some r ↔ l.map f = r.map some := by
  induction l generalizing r with
  | nil => cases r <;> simp [ParseVal.allSome]
  | cons a l ih =>
    simp only [ParseVal.allSome]
    constructor
    · intro h
      split at h
      · next b bs h1 h2 => cases h; simp [h1, ih.1 h2]
      · cases h
    · intro h
      cases r with
      | nil => cases h
      | cons b r =>
        simp only [List.map_cons, List.cons.injEq] at h
        rw [h.1, ih.2 h.2]

/-- **C06** A list of numbers is read exactly if each of its numbers is; it then has one value for each of them, in order, the value that the number has alone. -/
theorem C06_list_one_value_each (ts : List ParseVal.PTree) (l : List Int) :
    ParseVal.mfInt32 ts = some l ↔ ts.map (fun t => ParseVal.sfInt32 [t]) = l.map some := allSome_iff

theorem C06_list_one_float_each {F : Type} (float : List Char → Option F) (ts : List ParseVal.PTree) (l : List F) :
    ParseVal.mfFloat float ts = some l ↔ ts.map (fun t => ParseVal.sfFloat float [t]) = l.map some := allSome_iff

/-- a list is refused because of one of its numbers -/
example : ParseVal.mfInt32 [.node .sfNumber ['7'] [], .node .sfNumber ['0', '1', '2'] []] = none ∧ ParseVal.mfInt32 [.node .sfNumber ['7'] [], .node .sfNumber ['-', '0', 'x', '1', 'F'] []] = some [7, -31] := by decide +kernel

/-- **C06** A decimal text with a superfluous leading zero is matched by the number rule but cannot be
converted: `int("012", 0)` raises. -/
theorem C06_leading_zero_rejected (n : Nat) (hn : n ≠ 0) : intBase0 ('0' :: natStr n) = none := by
  cases hs : natStr n with
  | nil => exact absurd hs (natStr_ne_nil n)
  | cons c s =>
    have hc := natStr_digit n c (by simp [hs])
    have h1 : c ≠ 'x' := by intro h; subst h; revert hc; decide
    have h2 : c ≠ 'X' := by intro h; subst h; revert hc; decide
    have h3 : c ≠ '0' := by
      intro h; subst h; exact hn (natStr_head n s hs).1
    simp [intBase0, natBase0, h1, h2, h3]

example : sfInt32Str (-120) = ['-', '1', '2', '0'] := by simp [sfInt32Str, intStr, natStr]; decide
example : NumEnd [',', ' '] := by intro c s h; cases h; decide

end Verif.Text
