import Verif.Spec.Strings
import Verif.Lemmas.Nesting
import Verif.Props.Lineariser
/-!
Bracket balance of what the writer writes.
-/
namespace Verif.Lin
open Verif.Peg Verif.Grammar Verif.TextOut Verif.Text Verif.SceneText Verif.ListText Verif.Nesting
variable {F : Type}

/-- Opened minus closed brackets outside strings and comments. -/
def wgt : Mode → Char → Int
  | .plain, c => if c = '[' then 1 else if c = ']' then -1 else 0
  | _, _ => 0

def bal : Mode → Text → Int
  | _, [] => 0
  | m, c :: t => wgt m c + bal (modeStep m c) t

theorem bal_append : ∀ (a : Text) (m : Mode) (b : Text), bal m (a ++ b) = bal m a + bal (mode m a) b := by
  intro a
  induction a with
  | nil => intro m b; simp [bal, mode]
  | cons c a ih => intro m b; simp only [List.cons_append, bal, ih, mode, List.foldl_cons]; omega

theorem step_count {m : Mode} {s s' : List Char} {c : Char} (h : stackStep m s c = some s') : (s'.count ']' : Int) = s.count ']' + wgt m c := by
  cases m with
  | plain =>
    simp only [stackStep] at h
    split at h
    · next e => cases h; subst e; simp [wgt]
    split at h
    · next e => cases h; subst e; simp [wgt]
    split at h
    · next h1 h2 e =>
      cases s with
      | nil => cases h
      | cons d s =>
        dsimp only at h
        split at h
        · next e2 =>
          cases h; subst e2
          rcases e with rfl | rfl <;> simp [wgt]
        · cases h
    · next h1 h2 e => cases h; simp [wgt, h1, not_or.1 e]
  | _ => simp only [stackStep, Option.some.injEq] at h; subst h; simp [wgt]

theorem nest_bal : ∀ (t : Text) (m : Mode) (s s' : List Char), nest m s t = some s' → (s'.count ']' : Int) = s.count ']' + bal m t := by
  intro t
  induction t with
  | nil => intro m s s' h; cases h; simp [bal]
  | cons c t ih =>
    intro m s s' h
    simp only [nest, Option.bind_eq_some_iff] at h
    obtain ⟨s1, h1, h2⟩ := h
    have := ih _ _ _ h2
    have := step_count h1
    simp only [bal]; omega

theorem Nested.bal {t : Text} (h : Nested t) : bal .plain t = 0 := by
  have := nest_bal t _ _ _ h.2
  simpa using this.symm

/-! ### Pieces of text -/

/-- Text that starts and ends outside strings and comments, with balance `k`. -/
def Bal (k : Int) (t : Text) : Prop := mode .plain t = .plain ∧ bal .plain t = k

theorem Bal.append {a b : Text} {j k : Int} (ha : Bal j a) (hb : Bal k b) : Bal (j + k) (a ++ b) :=
  ⟨by rw [mode_append, ha.1, hb.1], by rw [bal_append, ha.1, ha.2, hb.2]⟩

theorem Bal.append0 {a b : Text} (ha : Bal 0 a) (hb : Bal 0 b) : Bal 0 (a ++ b) := ha.append hb

theorem Bal.nil : Bal 0 [] := ⟨rfl, rfl⟩

theorem Bal.ign {w : Text} (h : Ignorable w) : Bal 0 w := by
  have := Eff.ignorable h
  exact ⟨this.1, by simpa using (nest_bal w _ _ _ (this.2 [])).symm⟩

theorem Bal.clean {t : Text} (h : Clean t) : Bal 0 t := by
  induction t with
  | nil => exact .nil
  | cons c t ih =>
    obtain ⟨h1, h2, h3, h4⟩ := h c (by simp)
    obtain ⟨h5, h6⟩ := ih (fun d hd => h d (by simp [hd]))
    have hs : modeStep .plain c = .plain := by simp [modeStep, h3, h4]
    exact ⟨by show mode (modeStep .plain c) t = _; rw [hs, h5], by simp only [bal, hs, h6]; simp [wgt, h1, h2]⟩

theorem Clean.append {a b : Text} (ha : Clean a) (hb : Clean b) : Clean (a ++ b) := fun c hc => (List.mem_append.1 hc).elim (ha c) (hb c)
theorem Clean.sub {a b : Text} (hb : Clean b) (h : ∀ c ∈ a, c ∈ b) : Clean a := fun c hc => hb c (h c hc)
theorem clean_dec {t : Text} (h : t.all (fun c => c != '[' && c != ']' && c != '"' && c != '#') = true) : Clean t := by
  intro c hc
  have := List.all_eq_true.1 h c hc
  simp only [Bool.and_eq_true, bne_iff_ne] at this
  exact ⟨this.1.1.1, this.1.1.2, this.1.2, this.2⟩

theorem Bal.string (s : Text) : Bal 0 (sfStringStr s) := by
  obtain ⟨tr, hd, -⟩ := (str_item s).der [] trivial
  have h : ∀ {i t m r}, Der gram fieldItem i (.ok t m r) → (∃ x, i = '"' :: x) → Bal 0 m := by
    rintro i t m r h ⟨x, rfl⟩
    have hs : Der gram (.nt .sfString) ('"' :: x) (.ok t m r) := by
      cases h with
      | altL h => have := h.det _ (run_sound 30 _ _ (.fail) (by rfl)); cases this
      | altR _ h => cases h with
        | altL h => have := h.det _ (run_sound 30 _ _ (.fail) (by rfl)); cases this
        | altR _ h => cases h with
          | altL h => have := h.det _ (run_sound 30 _ _ (.fail) (by rfl)); cases this
          | altR _ h => cases h with
            | altL h => exact h
            | altR _ h =>
              have : Der gram (.alts [useGroup, .nt .script, .nt .node]) ('"' :: x) .fail := run_sound 30 _ _ _ (by rfl)
              have := h.det _ this
              cases this
    cases hs with
    | nt hs =>
      have := Eff.string hs
      exact ⟨this.1, by simpa using (nest_bal m _ _ _ (this.2 [])).symm⟩
  obtain ⟨t, ht⟩ := str_head s
  exact h hd ⟨t, by rw [ht]; simp⟩

theorem Bal.join {sep : Text} (hs : Bal 0 sep) : ∀ {l : List Text}, (∀ t ∈ l, Bal 0 t) → Bal 0 (pyJoin sep l) := by
  intro l
  induction l with
  | nil => intro _; exact .nil
  | cons a l ih =>
    intro h
    cases l with
    | nil => exact h a (by simp)
    | cons b l => exact (h a (by simp)).append0 (hs.append0 (ih (fun t ht => h t (by simp [ht]))))

theorem Bal.flatten : ∀ {l : List Text}, (∀ t ∈ l, Bal 0 t) → Bal 0 l.flatten := by
  intro l
  induction l with
  | nil => intro _; exact .nil
  | cons a l ih => intro h; exact (h a (by simp)).append0 (ih (fun t ht => h t (by simp [ht])))

theorem Bal.bracket {t : Text} (h : Bal 0 t) : Bal 0 (['['] ++ t ++ [']']) := by
  have := ((show Bal 1 ['['] from ⟨rfl, rfl⟩).append h).append (show Bal (-1) [']'] from ⟨rfl, rfl⟩)
  exact this

theorem Bal.bracket2 {t : Text} (h : Bal 0 t) : Bal 0 (['[', ' '] ++ t ++ [' ', ']']) := by
  have := ((show Bal 1 ['[', ' '] from ⟨rfl, rfl⟩).append h).append (show Bal (-1) [' ', ']'] from ⟨rfl, rfl⟩)
  exact this

theorem Bal.strings {lv : LinValues} (hlv : PlainOptions lv) (l : List Text) : Bal 0 (mfStringStr lv l) := by
  unfold mfStringStr
  split
  · exact ⟨rfl, rfl⟩
  dsimp only
  have hl : ∀ t ∈ l.map sfStringStr, Bal 0 t := by
    intro t ht
    obtain ⟨s, -, rfl⟩ := List.mem_map.1 ht
    exact Bal.string s
  split
  · have hsep : Bal 0 (lv.subelspacer ++ ['\n'] ++ lv.curindent ++ lv.indent) :=
      Bal.ign (((hlv.subelspacer.append (.blank (by decide) .nil)).append hlv.curindent).append hlv.indent)
    split
    · have h1 : Bal 0 (((l.map sfStringStr).map (fun el => lv.subelspacer ++ ['\n'] ++ lv.curindent ++ lv.indent ++ el)).flatten) := by
        refine Bal.flatten (fun t ht => ?_)
        obtain ⟨s, hs, rfl⟩ := List.mem_map.1 ht
        exact hsep.append0 (hl s hs)
      have h2 : Bal 0 (['\n'] ++ lv.curindent) := Bal.ign (.blank (by decide) hlv.curindent)
      have := (((show Bal 1 ['['] from ⟨rfl, rfl⟩).append h1).append h2).append (show Bal (-1) [']', '\n'] from ⟨rfl, rfl⟩)
      simpa [List.append_assoc] using this
    · exact Bal.flatten hl
  · split
    · exact Bal.bracket2 (Bal.join (Bal.ign hlv.subelspacer) hl)
    · exact Bal.join (Bal.ign hlv.subelspacer) hl

theorem digit_clean {c : Char} (h : isDigit c = true) : c ≠ '[' ∧ c ≠ ']' ∧ c ≠ '"' ∧ c ≠ '#' := by
  refine ⟨?_, ?_, ?_, ?_⟩ <;> rintro rfl <;> revert h <;> decide

theorem nat_clean (n : Nat) : Clean (natStr n) := fun c hc => digit_clean (natStr_digit n c hc)

theorem int_clean (n : Int) : Clean (intStr n) := by
  unfold intStr
  split
  · intro c hc
    rcases List.mem_cons.1 hc with rfl | hc
    · decide
    · exact nat_clean _ c hc
  · exact nat_clean _

theorem float_clean {t : Text} (h : Clean t) : Clean (sfFloatStr t) := by
  unfold sfFloatStr
  split
  · exact clean_dec (by decide)
  split
  · exact h.sub (fun c hc => List.mem_of_mem_drop hc)
  split
  · exact (clean_dec (by decide)).append (h.sub (fun c hc => List.mem_of_mem_drop hc))
  split
  · exact h.sub (fun c hc => List.mem_of_mem_take hc)
  · exact h

theorem chunk_bal {sep : Text} (hs : Bal 0 sep) (n : Nat) : ∀ (k : Nat) (l : List Text), l.length ≤ k → (∀ t ∈ l, Bal 0 t) → ∀ out, chunkJoin n sep l = some out → ∀ t ∈ out, Bal 0 t := by
  intro k
  induction k with
  | zero =>
    intro l hk _ out h
    have : l = [] := List.length_eq_zero_iff.1 (by omega)
    subst this
    rw [chunkJoin] at h; cases h; simp
  | succ k ih =>
    intro l hk hl out h
    cases l with
    | nil => rw [chunkJoin] at h; cases h; simp
    | cons a l =>
      cases n with
      | zero => rw [chunkJoin] at h; cases h
      | succ m =>
        rw [chunkJoin] at h
        cases hc : chunkJoin (m + 1) sep (l.drop m) with
        | none => rw [hc] at h; cases h
        | some rest =>
          rw [hc] at h
          cases h
          intro t ht
          rcases List.mem_cons.1 ht with rfl | ht
          · exact Bal.join hs (fun t ht => hl t (List.mem_of_mem_take ht))
          · exact ih _ (by simp at hk ⊢; omega) (fun t ht => hl t (by simp [List.mem_of_mem_drop ht])) _ hc t ht

theorem mfSimple_bal {lv : LinValues} (hlv : PlainOptions lv) {l : List Text} (hl : ∀ t ∈ l, Bal 0 t) {out : Text} (h : mfSimpleStr lv l = some out) : Bal 0 out := by
  unfold mfSimpleStr at h
  split at h
  · next ss hss => cases h; exact Bal.bracket2 (Bal.join ⟨rfl, rfl⟩ (chunk_bal (Bal.ign hlv.numsep) _ _ l (Nat.le_refl _) hl _ hss))
  · cases h

theorem mfVec_bal {lv : LinValues} (hlv : PlainOptions lv) {k : Nat} {l : List (List Text)} (hl : ∀ r ∈ l, ∀ t ∈ r, Bal 0 t) {out : Text} (h : mfVecStr lv k l = some out) : Bal 0 out := by
  unfold mfVecStr at h
  split at h
  · cases h; exact ⟨rfl, rfl⟩
  dsimp only at h
  have hs : ∀ t ∈ l.map (pyJoin lv.numsep), Bal 0 t := by
    intro t ht
    obtain ⟨r, hr, rfl⟩ := List.mem_map.1 ht
    exact Bal.join (Bal.ign hlv.numsep) (hl r hr)
  split at h
  · cases h; exact Bal.bracket (Bal.join (Bal.ign hlv.subelspacer) hs)
  · split at h
    · next ss hss => cases h; exact Bal.bracket (Bal.join ⟨rfl, rfl⟩ (chunk_bal (Bal.ign hlv.subelspacer) _ _ _ (Nat.le_refl _) hs _ hss))
    · cases h

theorem simple_bal {lv : LinValues} (hlv : PlainOptions lv) {d : FieldDecl F} (hd : ∀ x, Clean (d.str x)) {v : Val F} {t : Text} (h : simpleText lv d v = .ok t) : Bal 0 t := by
  have hnum : ∀ (l : List F), ∀ t ∈ l.map d.str, Bal 0 t := by
    intro l t ht
    obtain ⟨x, -, rfl⟩ := List.mem_map.1 ht
    exact Bal.clean (hd x)
  cases v with
  | bool b => cases h; cases b <;> exact ⟨rfl, rfl⟩
  | int n => cases h; exact Bal.clean (int_clean n)
  | num x => cases h; exact Bal.clean (float_clean (hd x))
  | str s => cases h; exact Bal.string s
  | ints l =>
    simp only [simpleText] at h
    split at h
    · next t' ht =>
      cases h
      refine mfSimple_bal hlv (fun t ht => ?_) ht
      obtain ⟨x, -, rfl⟩ := List.mem_map.1 ht
      exact Bal.clean (int_clean x)
    · cases h
  | nums l =>
    simp only [simpleText] at h
    split at h
    · split at h
      · next t' ht => cases h; exact mfSimple_bal hlv (hnum l) ht
      · cases h
    · cases h
      refine Bal.join (Bal.ign hlv.numsep) (fun t ht => ?_)
      obtain ⟨x, hx, rfl⟩ := List.mem_map.1 ht
      obtain ⟨y, -, rfl⟩ := List.mem_map.1 hx
      exact Bal.clean (float_clean (hd y))
  | rows l =>
    simp only [simpleText] at h
    split at h
    · split at h
      · next t' ht =>
        cases h
        refine mfVec_bal hlv (fun r hr t ht => ?_) ht
        obtain ⟨x, hx, rfl⟩ := List.mem_map.1 hr
        exact hnum x t ht
      · cases h
    · cases h
  | strs l => cases h
  | ref o => cases h
  | refs l => cases h

/-! ### The separator ends comments -/

theorem sep_comment {w : Text} (h : Ignorable w) : bal .comment w = 0 ∧ (mode .comment w = .plain ∨ mode .comment w = .comment) ∧ ('\n' ∈ w → mode .comment w = .plain) := by
  induction h with
  | nil => exact ⟨rfl, .inr rfl, by simp⟩
  | @blank c s hc hs ih =>
    by_cases e : c = '\n'
    · subst e
      have := Bal.ign hs
      have h1 : mode .comment ('\n' :: s) = .plain := this.1
      exact ⟨by simp only [bal, modeStep, if_true, this.2]; rfl, .inl h1, fun _ => h1⟩
    · have hm : modeStep .comment c = .comment := by simp [modeStep, e]
      have h1 : mode .comment (c :: s) = mode .comment s := by show mode (modeStep .comment c) s = _; rw [hm]
      refine ⟨by simp only [bal, hm, ih.1]; rfl, by rw [h1]; exact ih.2.1, fun hmem => ?_⟩
      rw [h1]; exact ih.2.2 (by simpa [Ne.symm e] using hmem)
  | @comment b s hb hs ih =>
    have := Bal.ign hs
    have hm := (comment_run b hb [] s).1
    have hn : ∀ b : Text, '\n' ∉ b → bal .comment (b ++ '\n' :: s) = bal .plain s := by
      intro b
      induction b with
      | nil => intro _; simp [bal, wgt, modeStep]
      | cons c b ih =>
        intro h
        have hc : c ≠ '\n' := fun e => h (by simp [e])
        have := ih (fun e => h (by simp [e]))
        simp [bal, wgt, modeStep, hc, this]
    have h1 : mode .comment ('#' :: (b ++ '\n' :: s)) = .plain := by
      show mode .comment (b ++ '\n' :: s) = _
      rw [hm]; exact this.1
    exact ⟨by show 0 + bal .comment (b ++ '\n' :: s) = 0; rw [hn b hb, this.2]; rfl, .inl h1, fun _ => h1⟩

end Verif.Lin
