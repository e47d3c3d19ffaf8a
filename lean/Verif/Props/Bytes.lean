import Verif.Model.Bytes
import Mathlib.Tactic.Common
import Mathlib.Tactic.SplitIfs
/-
C84: texts and bytes (vrml/_bytes.py).
-/
namespace Verif.Bytes

/-- A character that has an encoding: a code point that is not a surrogate. -/
def Scalar (c : Nat) : Prop := c < 0xD800 ∨ (0xE000 ≤ c ∧ c < 0x110000)

theorem enc_isSome (c : Nat) : (enc c).isSome ↔ Scalar c := by
  unfold enc Scalar
  split_ifs <;> simp <;> omega

theorem cont_iff {b : Nat} : cont b = true ↔ 0x80 ≤ b ∧ b < 0xC0 := by simp [cont]

/-- decoding the encoding of a character -/
theorem dec_enc {c : Nat} {b : List Nat} (h : enc c = some b) (r : List Nat) : dec (b ++ r) = some (c, b.length) := by
  unfold enc at h
  split_ifs at h with h1 h2 h3 h4 h5
  · cases h; simp [dec, h1]
  · cases h
    have e1 : ¬ (0xC0 + c / 64 < 0x80) := by omega
    have e2 : ¬ (0xC0 + c / 64 < 0xC2) := by omega
    have e3 : 0xC0 + c / 64 < 0xE0 := by omega
    have e4 : cont (0x80 + c % 64) = true := cont_iff.mpr (by omega)
    simp only [List.cons_append, List.nil_append, dec, e1, e2, e3, e4, if_true, if_false, List.length_cons, List.length_nil]
    simp only [Option.some.injEq, Prod.mk.injEq, and_true]
    omega
  · cases h
    have e1 : ¬ (0xE0 + c / 4096 < 0x80) := by omega
    have e2 : ¬ (0xE0 + c / 4096 < 0xC2) := by omega
    have e3 : ¬ (0xE0 + c / 4096 < 0xE0) := by omega
    have e4 : 0xE0 + c / 4096 < 0xF0 := by omega
    have e5 : cont (0x80 + c / 64 % 64) = true := cont_iff.mpr (by omega)
    have e6 : cont (0x80 + c % 64) = true := cont_iff.mpr (by omega)
    have e7 : (0xE0 + c / 4096 == 0xE0 && decide (0x80 + c / 64 % 64 < 0xA0)) = false := by
      simp only [Bool.and_eq_false_iff, beq_eq_false_iff_ne, decide_eq_false_iff_not]; omega
    have e8 : (0xE0 + c / 4096 == 0xED && decide (0xA0 ≤ 0x80 + c / 64 % 64)) = false := by
      simp only [Bool.and_eq_false_iff, beq_eq_false_iff_ne, decide_eq_false_iff_not]; omega
    simp only [List.cons_append, List.nil_append, dec, e1, e2, e3, e4, e5, e6, e7, e8, if_true, if_false, List.length_cons,
      List.length_nil, Bool.and_self, Bool.not_false]
    simp only [Option.some.injEq, Prod.mk.injEq, and_true]
    omega
  · cases h
    have e1 : ¬ (0xF0 + c / 262144 < 0x80) := by omega
    have e2 : ¬ (0xF0 + c / 262144 < 0xC2) := by omega
    have e3 : ¬ (0xF0 + c / 262144 < 0xE0) := by omega
    have e4 : ¬ (0xF0 + c / 262144 < 0xF0) := by omega
    have e4' : 0xF0 + c / 262144 < 0xF5 := by omega
    have e5 : cont (0x80 + c / 4096 % 64) = true := cont_iff.mpr (by omega)
    have e6 : cont (0x80 + c / 64 % 64) = true := cont_iff.mpr (by omega)
    have e6' : cont (0x80 + c % 64) = true := cont_iff.mpr (by omega)
    have e7 : (0xF0 + c / 262144 == 0xF0 && decide (0x80 + c / 4096 % 64 < 0x90)) = false := by
      simp only [Bool.and_eq_false_iff, beq_eq_false_iff_ne, decide_eq_false_iff_not]; omega
    have e8 : (0xF0 + c / 262144 == 0xF4 && decide (0x90 ≤ 0x80 + c / 4096 % 64)) = false := by
      simp only [Bool.and_eq_false_iff, beq_eq_false_iff_ne, decide_eq_false_iff_not]; omega
    simp only [List.cons_append, List.nil_append, dec, e1, e2, e3, e4, e4', e5, e6, e6', e7, e8, if_true, if_false, List.length_cons,
      List.length_nil, Bool.and_self, Bool.not_false]
    simp only [Option.some.injEq, Prod.mk.injEq, and_true]
    omega

/-- what is decoded is the encoding of the character -/
theorem enc_dec {b : List Nat} {c k : Nat} (h : dec b = some (c, k)) : enc c = some (b.take k) ∧ 0 < k ∧ k ≤ b.length := by
  cases b with
  | nil => simp [dec] at h
  | cons a bs =>
    simp only [dec] at h
    split_ifs at h with h1 h2 h3 h4 h5
    · cases h; simp [enc, h1]
    · cases bs with
      | nil => simp at h
      | cons b bs =>
        simp only at h
        split_ifs at h with hb
        simp only [Option.some.injEq, Prod.mk.injEq] at h
        obtain ⟨rfl, rfl⟩ := h
        rw [cont_iff] at hb
        refine ⟨?_, by omega, by simp⟩
        unfold enc
        rw [if_neg (by omega), if_pos (by omega)]
        simp only [List.take_succ_cons, List.take_zero]
        simp only [Option.some.injEq, List.cons.injEq, and_true]
        omega
    · rcases bs with _ | ⟨b, _ | ⟨c', bs⟩⟩
      · simp at h
      · simp at h
      · simp only at h
        split_ifs at h with hb
        simp only [Option.some.injEq, Prod.mk.injEq] at h
        obtain ⟨rfl, rfl⟩ := h
        simp only [Bool.and_eq_true, cont_iff, Bool.not_eq_true', Bool.and_eq_false_iff, beq_eq_false_iff_ne,
          decide_eq_false_iff_not] at hb
        refine ⟨?_, by omega, by simp⟩
        unfold enc
        rw [if_neg (by omega), if_neg (by omega), if_pos (by omega), if_neg (by omega)]
        simp only [List.take_succ_cons, List.take_zero]
        simp only [Option.some.injEq, List.cons.injEq, and_true]
        omega
    · rcases bs with _ | ⟨b, _ | ⟨c', _ | ⟨d, bs⟩⟩⟩
      · simp at h
      · simp at h
      · simp at h
      · simp only at h
        split_ifs at h with hb
        simp only [Option.some.injEq, Prod.mk.injEq] at h
        obtain ⟨rfl, rfl⟩ := h
        simp only [Bool.and_eq_true, cont_iff, Bool.not_eq_true', Bool.and_eq_false_iff, beq_eq_false_iff_ne,
          decide_eq_false_iff_not] at hb
        refine ⟨?_, by omega, by simp⟩
        unfold enc
        rw [if_neg (by omega), if_neg (by omega), if_neg (by omega), if_pos (by omega)]
        simp only [List.take_succ_cons, List.take_zero]
        simp only [Option.some.injEq, List.cons.injEq, and_true]
        omega

theorem decodeN_encode : ∀ (s b : List Nat) (n : Nat), encode s = some b → b.length ≤ n → decodeN n b = some s
  | [], b, n, h, _ => by
    simp only [encode, Option.some.injEq] at h
    subst h
    cases n <;> simp [decodeN]
  | c :: s, b, n, h, hn => by
    simp only [encode] at h
    cases h1 : enc c with
    | none => simp [h1] at h
    | some b1 =>
      cases h2 : encode s with
      | none => simp [h1, h2] at h
      | some b2 =>
        simp only [h1, h2, Option.some.injEq] at h
        subst h
        have hd := dec_enc h1 b2
        obtain ⟨-, hk, -⟩ := enc_dec hd
        cases b1 with
        | nil => simp at hk
        | cons a b1 =>
          cases n with
          | zero => simp at hn
          | succ n =>
            simp only [List.cons_append] at hd ⊢
            simp only [decodeN, hd]
            have : (a :: (b1 ++ b2)).drop (a :: b1).length = b2 := by
              rw [← List.cons_append, List.drop_left]
            rw [this, decodeN_encode s b2 n h2 (by simp at hn; omega)]

theorem encode_decodeN : ∀ (n : Nat) (b s : List Nat), decodeN n b = some s → encode s = some b
  | n, [], s, h => by
    cases n <;> simp only [decodeN, Option.some.injEq] at h <;> subst h <;> rfl
  | 0, _ :: _, s, h => by simp [decodeN] at h
  | n + 1, a :: bs, s, h => by
    simp only [decodeN] at h
    cases h1 : dec (a :: bs) with
    | none => simp [h1] at h
    | some ck =>
      obtain ⟨c, k⟩ := ck
      simp only [h1] at h
      cases h2 : decodeN n ((a :: bs).drop k) with
      | none => simp [h2] at h
      | some t =>
        simp only [h2, Option.some.injEq] at h
        subst h
        simp only [encode, (enc_dec h1).1, encode_decodeN n _ _ h2, List.take_append_drop]

/-- **C84** Decoding is exactly the inverse of encoding: bytes are decoded to a text if and only if they are its encoding. -/
theorem C84_decode_iff (b s : List Nat) : asStr (.bytes b) = some s ↔ as8bit (.str s) = some b :=
  ⟨encode_decodeN _ _ _, fun h => decodeN_encode _ _ _ h (Nat.le_refl _)⟩

theorem encode_isSome (s : List Nat) : (encode s).isSome ↔ ∀ c ∈ s, Scalar c := by
  induction s with
  | nil => simp [encode]
  | cons c s ih =>
    rw [List.forall_mem_cons, ← ih, ← enc_isSome, encode]
    cases enc c <;> cases encode s <;> simp

/-- **C84** Every text without surrogates has bytes and comes back from them; any other text raises. -/
theorem C84_text_round_trip (s : List Nat) :
    ((∀ c ∈ s, Scalar c) → ∃ b, as8bit (.str s) = some b ∧ asStr (.bytes b) = some s ∧ asUnicode (.bytes b) = s) ∧
    ((∃ c ∈ s, ¬ Scalar c) → as8bit (.str s) = none) := by
  constructor
  · intro h
    obtain ⟨b, hb⟩ := Option.isSome_iff_exists.mp ((encode_isSome s).mpr h)
    have hd := (C84_decode_iff b s).mpr hb
    refine ⟨b, hb, hd, ?_⟩
    simp only [asStr] at hd
    simp [asUnicode, hd]
  · rintro ⟨c, hc, h⟩
    cases e : as8bit (.str s) with
    | none => rfl
    | some b =>
      simp only [as8bit] at e
      exact absurd ((encode_isSome s).mp (by simp [e]) c hc) h

/-- **C84** `as_unicode` never fails; it loses nothing exactly for bytes that are the encoding of a text: for all others the
text it returns (one character per byte) has other bytes. -/
theorem C84_fallback (b : List Nat) :
    (∀ s, asStr (.bytes b) = some s → asUnicode (.bytes b) = s) ∧
    (asStr (.bytes b) = none → asUnicode (.bytes b) = b ∧ as8bit (.str (asUnicode (.bytes b))) ≠ some b) ∧
    (as8bit (.str (asUnicode (.bytes b))) = some b ↔ ∃ s, asStr (.bytes b) = some s) := by
  have h2 : asStr (.bytes b) = none → asUnicode (.bytes b) = b ∧ as8bit (.str (asUnicode (.bytes b))) ≠ some b := by
    intro h
    have e : asUnicode (.bytes b) = b := by simp only [asStr] at h; simp [asUnicode, h, latin1]
    refine ⟨e, fun h' => ?_⟩
    rw [e] at h'
    rw [(C84_decode_iff b b).mpr h'] at h
    cases h
  have h1 : ∀ s, asStr (.bytes b) = some s → asUnicode (.bytes b) = s := by
    intro s h
    simp only [asStr] at h
    simp [asUnicode, h]
  refine ⟨h1, h2, ?_, ?_⟩
  · intro h
    cases e : asStr (.bytes b) with
    | none => exact absurd h (h2 e).2
    | some s => exact ⟨s, rfl⟩
  · rintro ⟨s, h⟩
    rw [h1 s h]
    exact (C84_decode_iff b s).mp h

/-- **C84** Every other object is treated as its text `str(x)` is; texts stay as they are, and so do bytes. -/
theorem C84_other_objects (s b : List Nat) : as8bit (.other s) = as8bit (.str s) ∧ asUnicode (.other s) = asUnicode (.str s) ∧ asStr (.other s) = asStr (.str s) ∧
    asUnicode (.str s) = s ∧ asStr (.str s) = some s ∧ as8bit (.bytes b) = some b := ⟨rfl, rfl, rfl, rfl, rfl, rfl⟩

/-- **C84** The bytes of a joined text are the joined bytes, so a text can be written in pieces. -/
theorem C84_pieces (s t b c : List Nat) (hs : as8bit (.str s) = some b) (ht : as8bit (.str t) = some c) :
    as8bit (.str (s ++ t)) = some (b ++ c) ∧ asStr (.bytes (b ++ c)) = some (s ++ t) := by
  have h : encode (s ++ t) = some (b ++ c) := by
    simp only [as8bit] at hs ht
    induction s generalizing b with
    | nil => simp only [encode, Option.some.injEq] at hs; subst hs; simpa using ht
    | cons x s ih =>
      simp only [encode] at hs
      cases h1 : enc x with
      | none => simp [h1] at hs
      | some b1 =>
        cases h2 : encode s with
        | none => simp [h1, h2] at hs
        | some b2 =>
          simp only [h1, h2, Option.some.injEq] at hs
          subst hs
          simp only [List.cons_append, encode, h1, ih b2 h2, List.append_assoc]
  exact ⟨h, (C84_decode_iff _ _).mpr h⟩

/-- "é€😀" and back; a lone continuation byte is not UTF-8 and becomes one character. -/
example : as8bit (.str [0xE9, 0x20AC, 0x1F600]) = some [0xC3, 0xA9, 0xE2, 0x82, 0xAC, 0xF0, 0x9F, 0x98, 0x80] ∧
    asStr (.bytes [0xC3, 0xA9, 0xE2, 0x82, 0xAC, 0xF0, 0x9F, 0x98, 0x80]) = some [0xE9, 0x20AC, 0x1F600] ∧
    asStr (.bytes [0x41, 0xA9]) = none ∧ asUnicode (.bytes [0x41, 0xA9]) = [0x41, 0xA9] ∧ as8bit (.str [0xD800]) = none ∧
    asStr (.bytes [0xC0, 0x80]) = none ∧ asStr (.bytes [0xED, 0xA0, 0x80]) = none := by decide

end Verif.Bytes
