import Verif.Props.Text
import Mathlib.Data.Rat.Defs
import Mathlib.Algebra.Field.Rat
import Mathlib.Tactic.Ring
import Mathlib.Tactic.FieldSimp
import Mathlib.Tactic.NormNum
/-
C03: the compact float text denotes the same number.
-/
namespace Verif.Number
open Verif.Peg Verif.Grammar Verif.TextOut Verif.ParseVal Verif.Text

/-! ### Specification: what a decimal text denotes

Python's `float(text)` is the double nearest to the decimal number the text denotes (and the sign of a zero is
kept), so two texts with the same sign and the same rational magnitude are read as the same float. -/

/-- an optional sign -/
def splitSign : List Char → Bool × List Char
  | '-' :: s => (true, s)
  | '+' :: s => (false, s)
  | s => (false, s)

/-- exponent part: nothing, or `e`/`E`, an optional sign and digits -/
def expVal : List Char → Option Int
  | [] => some 0
  | _ :: s =>
    let (neg, ds) := splitSign s
    if ds ≠ [] ∧ ds.all isDigit then some (if neg then -(digitsVal 10 ds : Int) else (digitsVal 10 ds : Int)) else none

/-- mantissa: digits with at most one point, at least one digit: the digits and how many follow the point -/
def mantVal (m : List Char) : Option (Nat × Nat) :=
  let ip := m.takeWhile isDigit
  match m.dropWhile isDigit with
  | [] => if ip ≠ [] then some (digitsVal 10 ip, 0) else none
  | p :: fp => if p = '.' ∧ fp.all isDigit ∧ ip ++ fp ≠ [] then some (digitsVal 10 (ip ++ fp), fp.length) else none

def notE (c : Char) : Bool := !(c == 'e' || c == 'E')

/-- Sign and exact magnitude of a decimal text; `none` when Python's `float` would raise. -/
def decVal (t : List Char) : Option (Bool × ℚ) :=
  let (neg, u) := splitSign t
  match mantVal (u.takeWhile notE), expVal (u.dropWhile notE) with
  | some (n, k), some x => some (neg, (n : ℚ) * (10 : ℚ) ^ (x - (k : Int)))
  | _, _ => none

/-- Texts that Python's `str` produces for a finite float (or an int): an optional minus, digits, optionally a
point and digits, optionally `e`, a sign and digits. -/
def PyRepr (t : List Char) : Prop :=
  ∃ sg ip fp ex, t = sg ++ (ip ++ (fp ++ ex)) ∧ (sg = [] ∨ sg = ['-']) ∧
    (ip ≠ [] ∧ ∀ c ∈ ip, isDigit c = true) ∧
    (fp = [] ∨ ∃ f, fp = '.' :: f ∧ f ≠ [] ∧ ∀ c ∈ f, isDigit c = true) ∧
    (ex = [] ∨ ∃ s e, ex = 'e' :: s :: e ∧ (s = '+' ∨ s = '-') ∧ e ≠ [] ∧ ∀ c ∈ e, isDigit c = true)

/-! ### Denotation of assembled texts -/

theorem isDigit_ne {c : Char} (h : isDigit c = true) {d : Char} (hd : isDigit d = false) : c ≠ d := by
  intro he; subst he; rw [h] at hd; cases hd

theorem splitSign_minus (s : List Char) : splitSign ('-' :: s) = (true, s) := rfl

theorem splitSign_none {c : Char} {s : List Char} (h1 : c ≠ '-') (h2 : c ≠ '+') :
    splitSign (c :: s) = (false, c :: s) := by
  unfold splitSign
  split
  · rename_i h; simp at h; exact absurd h.1 h1
  · rename_i h; simp at h; exact absurd h.1 h2
  · rfl

theorem takeWhile_all {p : Char → Bool} {m r : List Char} (hm : ∀ c ∈ m, p c = true)
    (hr : ∀ c s, r = c :: s → p c = false) : (m ++ r).takeWhile p = m ∧ (m ++ r).dropWhile p = r := by
  rw [List.takeWhile_append_of_pos hm, List.dropWhile_append_of_pos hm]
  cases r with
  | nil => simp
  | cons c s => simp [hr c s rfl]

/-- exponent part of an assembled text -/
def ExPart (ex : List Char) (x : Int) : Prop :=
  (ex = [] ∨ ∃ s, ex = 'e' :: s) ∧ expVal ex = some x

/-- point part of an assembled text -/
def FpPart (fp f : List Char) : Prop :=
  (fp = [] ∧ f = []) ∨ (fp = '.' :: f)

theorem decVal_asm {sg ip fp f ex : List Char} {x : Int} (hsg : sg = [] ∨ sg = ['-'])
    (hip : ∀ c ∈ ip, isDigit c = true) (hfp : FpPart fp f) (hf : ∀ c ∈ f, isDigit c = true)
    (hne : ip ++ f ≠ []) (hex : ExPart ex x) :
    decVal (sg ++ (ip ++ (fp ++ ex))) =
      some (decide (sg = ['-']), (digitsVal 10 (ip ++ f) : ℚ) * (10 : ℚ) ^ (x - (f.length : Int))) := by
  have hfpd : ∀ c ∈ fp, isDigDot c = true := by
    rcases hfp with ⟨rfl, rfl⟩ | rfl
    · simp
    · intro c hc
      simp at hc
      rcases hc with rfl | hc
      · decide
      · simp [isDigDot, hf c hc]
  have hnotE : ∀ c ∈ ip ++ fp, notE c = true := by
    intro c hc
    have : isDigDot c = true := by
      rcases List.mem_append.1 hc with h | h
      · simp [isDigDot, hip c h]
      · exact hfpd c h
    simp only [notE, Bool.not_eq_true', Bool.or_eq_false_iff, beq_eq_false_iff_ne]
    constructor <;> (intro he; subst he; revert this; decide)
  have hexE : ∀ c s, ex = c :: s → notE c = false := by
    intro c s hc
    rcases hex.1 with rfl | ⟨s', rfl⟩
    · cases hc
    · cases hc; decide
  obtain ⟨ht, hdw⟩ := takeWhile_all hnotE hexE
  have hmant : mantVal (ip ++ fp) = some (digitsVal 10 (ip ++ f), f.length) := by
    have hfd : ∀ c s, fp = c :: s → isDigit c = false := by
      intro c s hc
      rcases hfp with ⟨rfl, rfl⟩ | rfl
      · cases hc
      · cases hc; decide
    obtain ⟨h1, h2⟩ := takeWhile_all hip hfd
    simp only [mantVal, h1, h2]
    rcases hfp with ⟨rfl, rfl⟩ | rfl
    · simp at hne; simp [hne]
    · have : f.all isDigit = true := List.all_eq_true.2 hf
      show (if ('.' : Char) = '.' ∧ f.all isDigit = true ∧ ip ++ f ≠ [] then some (digitsVal 10 (ip ++ f), f.length) else none) = _
      rw [if_pos ⟨rfl, this, hne⟩]
  have hu : splitSign (sg ++ (ip ++ (fp ++ ex))) = (decide (sg = ['-']), ip ++ (fp ++ ex)) := by
    rcases hsg with rfl | rfl
    · simp only [List.nil_append]
      cases hi : ip with
      | cons c ip' =>
        have hc := hip c (by simp [hi])
        rw [List.cons_append, splitSign_none (isDigit_ne hc (by decide)) (isDigit_ne hc (by decide))]
        simp
      | nil =>
        rcases hfp with ⟨rfl, rfl⟩ | rfl
        · simp [hi] at hne
        · rw [List.nil_append, List.cons_append, splitSign_none (by decide) (by decide)]
          simp
    · rfl
  simp only [decVal, hu]
  rw [← List.append_assoc, ht, hdw, hmant, hex.2]

theorem exPart_of {ex : List Char}
    (h : ex = [] ∨ ∃ s e, ex = 'e' :: s :: e ∧ (s = '+' ∨ s = '-') ∧ e ≠ [] ∧ ∀ c ∈ e, isDigit c = true) :
    ∃ x, ExPart ex x := by
  rcases h with rfl | ⟨s, e, rfl, hs, he, hd⟩
  · exact ⟨0, .inl rfl, rfl⟩
  · have ha : e.all isDigit = true := List.all_eq_true.2 hd
    rcases hs with rfl | rfl
    · exact ⟨_, .inr ⟨_, rfl⟩, by simp only [expVal, splitSign]; rw [if_pos ⟨he, ha⟩]⟩
    · exact ⟨_, .inr ⟨_, rfl⟩, by simp only [expVal, splitSign]; rw [if_pos ⟨he, ha⟩]⟩

theorem numTok_asm {sg ip fp ex : List Char} (hsg : sg = [] ∨ sg = ['-'])
    (hip : ∀ c ∈ ip, isDigit c = true) (hne : ip ++ fp ≠ [])
    (hfp : ∀ c ∈ fp, isDigDot c = true)
    (hex : ex = [] ∨ ∃ s e, ex = 'e' :: s :: e ∧ (s = '+' ∨ s = '-') ∧ e ≠ [] ∧ ∀ c ∈ e, isDigit c = true) :
    NumTok (sg ++ (ip ++ (fp ++ ex))) := by
  refine ⟨sg, ip ++ fp, ex, by simp, ?_, hne, ?_, ?_⟩
  · rcases hsg with rfl | rfl <;> decide
  · intro c hc
    rcases List.mem_append.1 hc with h | h
    · simp [isDigDot, hip c h]
    · exact hfp c h
  · rcases hex with rfl | ⟨s, e, rfl, hs, he, hd⟩
    · exact .inl rfl
    · refine .inr ⟨'e', s :: e, rfl, .inl rfl, by simp, ?_⟩
      intro c hc
      simp at hc
      rcases hc with rfl | hc
      · rcases hs with rfl | rfl <;> decide
      · simp [isExpChar, isDigDot, hd c hc]

theorem digitsVal_zero_cons (f : List Char) : digitsVal 10 ('0' :: f) = digitsVal 10 f := by
  simp [digitsVal, digitVal]

/-- The compact text and what it denotes, with the facts needed below. -/
theorem compact (t : List Char) (h : PyRepr t) :
    NumTok (sfFloatStr t) ∧ (∃ v, decVal t = some v) ∧ decVal (sfFloatStr t) = decVal t := by
  obtain ⟨sg, ip, fp, ex, rfl, hsg, ⟨hi0, hip⟩, hfp, hex⟩ := h
  obtain ⟨x, hx⟩ := exPart_of hex
  obtain ⟨f, hF, hfd, hfpd⟩ : ∃ f, FpPart fp f ∧ (∀ c ∈ f, isDigit c = true) ∧ (∀ c ∈ fp, isDigDot c = true) := by
    rcases hfp with rfl | ⟨f, rfl, -, hf⟩
    · exact ⟨[], .inl ⟨rfl, rfl⟩, by simp, by simp⟩
    · refine ⟨f, .inr rfl, hf, ?_⟩
      intro c hc
      simp at hc
      rcases hc with rfl | hc
      · decide
      · simp [isDigDot, hf c hc]
  have hbase := decVal_asm hsg hip hF hfd (by simp [hi0]) hx
  -- shape of a text starting with a digit and then a point
  have hzero : ip ++ (fp ++ ex) = '0' :: '.' :: (ip ++ (fp ++ ex)).drop 2 →
      ip = ['0'] ∧ fp = '.' :: f ∧ f ≠ [] := by
    intro hz
    cases hip' : ip with
    | nil => exact absurd hip' hi0
    | cons c ip2 =>
      rw [hip'] at hz
      cases ip2 with
      | cons d ip3 =>
        simp at hz
        have hd := hip d (by simp [hip'])
        rw [hz.2] at hd
        exact absurd hd (by decide)
      | nil =>
        simp at hz
        rcases hfp with rfl | ⟨f', rfl, hf0, -⟩
        · rcases hex with rfl | ⟨s, e, rfl, -⟩
          · simp at hz
          · simp at hz
        · rcases hF with ⟨hF, -⟩ | hF
          · cases hF
          · cases hF
            exact ⟨by rw [hz.1], rfl, hf0⟩
  have htake : ∀ (a b : Char) (l : List Char), l.take 2 = [a, b] → l = a :: b :: l.drop 2 := by
    intro a b l hl
    have := List.take_append_drop 2 l
    rw [hl] at this
    exact this.symm
  unfold sfFloatStr
  split
  · -- '0.0'
    rename_i h0
    refine ⟨⟨[], ['0'], [], rfl, by simp, by simp, by decide, .inl rfl⟩, ⟨_, hbase⟩, ?_⟩
    rw [h0]
    · have e1 := decVal_asm (sg := []) (ip := ['0']) (fp := []) (f := []) (ex := []) (x := 0) (.inl rfl) (by decide)
        (.inl ⟨rfl, rfl⟩) (by simp) (by simp) ⟨.inl rfl, rfl⟩
      have e2 := decVal_asm (sg := []) (ip := ['0']) (fp := ['.', '0']) (f := ['0']) (ex := []) (x := 0) (.inl rfl) (by decide)
        (.inr rfl) (by decide) (by simp) ⟨.inl rfl, rfl⟩
      simp only [List.nil_append, List.append_nil, List.cons_append] at e1 e2
      rw [e1, e2]
      simp [digitsVal, digitVal]
  · split
    · -- '0.…'
      rename_i _ h0
      have hsg' : sg = [] := by
        rcases hsg with h | h
        · exact h
        · rw [h] at h0; simp at h0
      subst hsg'
      have h1 := htake _ _ _ h0
      simp only [List.nil_append] at h1
      obtain ⟨h2, h3, h4⟩ := hzero h1
      subst h2 h3
      simp only [List.nil_append, List.cons_append, List.drop_succ_cons, List.drop_zero]
      have e1 := decVal_asm (sg := []) (ip := []) (fp := '.' :: f) (f := f) (.inl rfl) (by simp) (.inr rfl) hfd (by simpa using h4) hx
      have n1 := numTok_asm (sg := []) (ip := []) (fp := '.' :: f) (.inl rfl) (by simp) (by simp) hfpd hex
      simp only [List.nil_append, List.cons_append] at e1 n1 hbase
      refine ⟨n1, ⟨_, hbase⟩, ?_⟩
      rw [e1, hbase, digitsVal_zero_cons]
    · split
      · -- '-0.…'
        rename_i _ _ h0
        have hsg' : sg = ['-'] := by
          rcases hsg with h | h
          · exfalso
            subst h
            cases hip' : ip with
            | nil => exact hi0 hip'
            | cons c ip2 =>
              have hc := hip c (by simp [hip'])
              rw [hip'] at h0
              simp at h0
              rw [h0.1] at hc
              exact absurd hc (by decide)
          · exact h
        subst hsg'
        have h1 : (ip ++ (fp ++ ex)).take 2 = ['0', '.'] := by
          simp only [List.cons_append, List.nil_append, List.take_succ_cons, List.cons.injEq, true_and] at h0
          exact h0
        obtain ⟨h2, h3, h4⟩ := hzero (htake _ _ _ h1)
        subst h2 h3
        simp only [List.nil_append, List.cons_append, List.drop_succ_cons, List.drop_zero]
        have e1 := decVal_asm (sg := ['-']) (ip := []) (fp := '.' :: f) (f := f) (.inr rfl) (by simp) (.inr rfl) hfd (by simpa using h4) hx
        have n1 := numTok_asm (sg := ['-']) (ip := []) (fp := '.' :: f) (.inr rfl) (by simp) (by simp) hfpd hex
        simp only [List.nil_append, List.cons_append] at e1 n1 hbase
        refine ⟨n1, ⟨_, hbase⟩, ?_⟩
        rw [e1, hbase, digitsVal_zero_cons]
      · split
        · -- '….0'
          rename_i _ _ _ h0
          obtain ⟨l, hl⟩ : ∃ l, sg ++ (ip ++ (fp ++ ex)) = l ++ ['.', '0'] := by
            refine ⟨(sg ++ (ip ++ (fp ++ ex))).take ((sg ++ (ip ++ (fp ++ ex))).length - 2), ?_⟩
            rw [← h0, List.take_append_drop]
          have hlast2 : ∀ (u e : List Char), (∀ c ∈ e, isDigit c = true) → 2 ≤ e.length → u ++ e = l ++ ['.', '0'] → False := by
            intro u e he hlen hue
            obtain ⟨e', a, b, rfl⟩ : ∃ e' a b, e = e' ++ [a, b] := by
              refine ⟨e.take (e.length - 2), e[e.length - 2], e[e.length - 1], ?_⟩
              conv => lhs; rw [← List.take_append_drop (e.length - 2) e]
              congr 1
              rw [List.drop_eq_getElem_cons (by omega), List.drop_eq_getElem_cons (by omega)]
              have : e.length - 2 + 1 = e.length - 1 := by omega
              simp only [this]
              rw [List.drop_eq_nil_of_le (by omega)]
            rw [← List.append_assoc] at hue
            have := (List.append_inj' hue rfl).2
            simp at this
            have hd := he a (by simp)
            rw [this.1] at hd
            exact absurd hd (by decide)
          have hexnil : ex = [] := by
            rcases hex with h | ⟨s, e, rfl, hs, he, hd⟩
            · exact h
            · exfalso
              cases e with
              | nil => exact he rfl
              | cons a e' =>
                cases e' with
                | cons b e'' =>
                  refine hlast2 (sg ++ (ip ++ (fp ++ ['e', s]))) (a :: b :: e'') hd (by simp) ?_
                  rw [← hl]; simp
                | nil =>
                  have h9 : (sg ++ (ip ++ (fp ++ ['e']))) ++ [s, a] = l ++ ['.', '0'] := by rw [← hl]; simp
                  have := (List.append_inj' h9 rfl).2
                  simp at this
                  rcases hs with rfl | rfl <;> exact absurd this.1 (by decide)
          subst hexnil
          have hf1 : fp = ['.', '0'] := by
            rcases hF with ⟨rfl, rfl⟩ | rfl
            · exfalso
              simp only [List.append_nil] at hl
              by_cases h2 : 2 ≤ ip.length
              · exact hlast2 sg ip hip h2 hl
              · cases ip with
                | nil => exact hi0 rfl
                | cons a ip2 =>
                  cases ip2 with
                  | cons b ip3 => simp at h2
                  | nil =>
                    rcases hsg with rfl | rfl
                    · have := congrArg List.length hl
                      simp at this
                    · have := (List.append_inj' (s₁ := []) (t₁ := ['-', a]) hl rfl).2
                      simp at this
            · rcases hfp with h | ⟨f', hf', hf0, -⟩
              · cases h
              · cases hf'
                cases f with
                | nil => exact absurd rfl hf0
                | cons a f2 =>
                  cases f2 with
                  | nil =>
                    have h9 : (sg ++ ip) ++ ['.', a] = l ++ ['.', '0'] := by rw [← hl]; simp
                    have := (List.append_inj' h9 rfl).2
                    simp at this
                    rw [this]
                  | cons b f3 =>
                    exfalso
                    refine hlast2 (sg ++ (ip ++ ['.'])) (a :: b :: f3) hfd (by simp) ?_
                    rw [← hl]; simp
          subst hf1
          have hf2 : f = ['0'] := by
            rcases hF with ⟨h, -⟩ | h
            · cases h
            · cases h; rfl
          subst hf2
          have hx0 : x = 0 := by
            have := hx.2
            simp [expVal] at this
            exact this.symm
          subst hx0
          have htk : (sg ++ (ip ++ (['.', '0'] ++ []))).take ((sg ++ (ip ++ (['.', '0'] ++ []))).length - 2) = sg ++ (ip ++ ([] ++ [])) := by
            have : sg ++ (ip ++ (['.', '0'] ++ [])) = (sg ++ (ip ++ ([] ++ []))) ++ ['.', '0'] := by simp
            rw [this]
            exact List.take_left' (by simp; omega)
          rw [htk]
          have e1 := decVal_asm (sg := sg) (ip := ip) (fp := []) (f := []) (ex := []) (x := 0) hsg hip (.inl ⟨rfl, rfl⟩) (by simp) (by simpa using hi0) ⟨.inl rfl, rfl⟩
          refine ⟨numTok_asm hsg hip (by simpa using hi0) (by simp) (.inl rfl), ⟨_, hbase⟩, ?_⟩
          rw [e1, hbase]
          congr 2
          rw [digitsVal_append]
          simp [digitVal]
        · exact ⟨numTok_asm hsg hip (by simp [hi0]) hfpd hex, ⟨_, hbase⟩, rfl⟩

/-- **C03** For every text Python writes for a finite number, the compact text denotes the same number (same sign,
same exact magnitude). -/
theorem C03_compaction_preserves_value {t : List Char} (h : PyRepr t) :
    (∃ v, decVal t = some v) ∧ decVal (sfFloatStr t) = decVal t :=
  (compact t h).2

/-- **C03** The number rule reads the whole compact text as one number, before any text that cannot continue a
number. -/
theorem C03_compact_is_one_number {t r : List Char} (h : PyRepr t) (hr : NumEnd r) :
    Der gram (.nt .sfNumber) (sfFloatStr t ++ r) (.ok [.node .sfNumber (sfFloatStr t) []] (sfFloatStr t) r) :=
  sfNumber_der (compact t h).1 hr

/-- **C03** The compact text is never longer. -/
theorem C03_compact_not_longer (t : List Char) : (sfFloatStr t).length ≤ t.length := by
  unfold sfFloatStr
  split
  · rename_i h; subst h; decide
  · split
    · simp
    · split
      · rename_i h
        have := congrArg List.length h
        simp at this
        simp; omega
      · split
        · simp
        · exact Nat.le_refl _

/-- **C03** Infinities and NaN are outside the claim: their texts are not numbers to the reader. -/
theorem C03_inf_nan_not_read : Der gram (.nt .sfNumber) (sfFloatStr ['i', 'n', 'f']) .fail ∧
    Der gram (.nt .sfNumber) (sfFloatStr ['n', 'a', 'n']) .fail := by
  constructor <;> exact run_sound 20 _ _ _ (by rfl)

example : PyRepr ['-', '0', '.', '2', '5'] :=
  ⟨['-'], ['0'], ['.', '2', '5'], [], rfl, .inr rfl, ⟨by simp, by decide⟩, .inr ⟨['2', '5'], rfl, by simp, by decide⟩, .inl rfl⟩
example : PyRepr ['1', 'e', '-', '0', '7'] :=
  ⟨[], ['1'], [], ['e', '-', '0', '7'], rfl, .inl rfl, ⟨by simp, by decide⟩, .inl rfl,
    .inr ⟨'-', ['0', '7'], rfl, .inr rfl, by simp, by decide⟩⟩
example : decVal ['-', '0', '.', '2', '5'] = some (true, 1 / 4) := by
  have := decVal_asm (sg := ['-']) (ip := ['0']) (fp := ['.', '2', '5']) (f := ['2', '5']) (ex := []) (x := 0) (.inr rfl)
    (by decide) (.inr rfl) (by decide) (by simp) ⟨.inl rfl, rfl⟩
  simp only [List.nil_append, List.cons_append, List.append_nil] at this
  rw [this]
  simp [digitsVal, digitVal]
  norm_num

end Verif.Number
