import Verif.Lemmas.Layout
/-!
The grammar looks at layout only where it skips it.
-/
namespace Verif.Layout
open Verif.Peg Verif.Grammar

abbrev PTree := Tree NT

/-- productions whose text is a single word or string, or part of one -/
def isLeaf : NT → Bool
  | .name | .use | .is | .nodegi | .dataType | .fieldExposure | .eventDirection | .sfNumber | .sfBool | .sfString
  | .charNoDblQuote | .escapedChar | .simpleBackslash => true
  | _ => false

/-- Where a production may be tried, and where it ends. -/
def sig : NT → Option (Pos × Pos)
  | .rootItem => some (.loose, .clean)
  | .vrmlScene => some (.loose, .loose)
  | .proto | .externProto | .fieldDecl | .eventDecl | .extFieldDecl | .route | .node | .script | .scriptEventDecl
  | .scriptFieldDecl | .sfNull | .attr => some (.word, .clean)
  | .fieldExposure | .dataType | .eventDirection | .use | .is | .nodegi | .name | .sfNumber | .sfBool => some (.word, .word)
  | .extProtoURL | .field => some (.clean, .clean)
  | .vector => some (.clean, .loose)
  | .header | .vrmlFile | .sfString | .charNoDblQuote | .simpleBackslash | .escapedChar | .ts | .eof => none

/-- Tried at a place of kind `p`, `e` ends at a place of the kind returned; `none` = not known to ignore layout. -/
def chk (p : Pos) : E → Option Pos
  | .eps => some p
  | .lit s =>
    if s ≠ [] ∧ s.all (fun c => !specials.contains c) then (if p.le .word then some .word else none)
    else match s with
      | [c] => if ['[', ']', '{', '}'].contains c && p.le .clean then some .loose else none
      | _ => none
  | .cls f => if specials.all (fun c => !f c) && p.le .word then some .word else none
  | .seq a b => match chk p a with
    | some q => chk q b
    | none => none
  | .alt a b => match chk p a, chk p b with
    | some q, some q' => some (q.max q')
    | _, _ => none
  | .star a => if canEmpty emptyTbl a then none else
    match chk p a with
    | some q => match chk (p.max q) a with
      | some q' => if q'.le (p.max q) then some (p.max q) else none
      | none => none
    | none => none
  | .nt n => if n = .sfString then (if p.le .clean then some .loose else none) else
    match sig n with
    | some (s, q) => if p.le s then some q else none
    | none => none
  | .silent n => if n = .ts then some .clean else none
  | .cut a => chk p a
  | .eof => none

/-- no layout inside -/
def tsFree : E → Bool
  | .eps | .lit _ | .cls _ => true
  | .seq a b => tsFree a && tsFree b
  | .alt a b => tsFree a && tsFree b
  | .star a => tsFree a
  | .nt n => isLeaf n
  | .silent _ => false
  | .cut a => tsFree a
  | .eof => false

theorem gram_chk : ∀ n s q, n ≠ .sfString → sig n = some (s, q) → ∃ q', chk s (gram n) = some q' ∧ q'.le q = true := by
  intro n s q hn h
  cases n <;> first | exact absurd rfl hn | (cases h; exact ⟨_, by rfl, by decide⟩) | cases h

theorem gram_leaf : ∀ n, n ≠ .sfString → isLeaf n = true → tsFree (gram n) = true := by
  intro n hn h
  cases n <;> first | exact absurd rfl hn | rfl | cases h

/-! ### Trees up to layout -/

/-- productions whose text can be looked at as a value although they contain layout -/
def isValue : NT → Bool
  | .vector | .node | .script | .sfNull => true
  | _ => false

mutual
/-- the tree without the texts that contain layout -/
def norm : PTree → PTree
  | .node n m k => if isLeaf n then .node n m k else .node n (if isValue n then ['['] else []) (norms k)
def norms : List PTree → List PTree
  | [] => []
  | t :: l => norm t :: norms l
end

theorem norms_append (a b : List PTree) : norms (a ++ b) = norms a ++ norms b := by
  induction a with
  | nil => rfl
  | cons t a ih => simp [norms, ih]

/-- outcomes that are the same up to layout -/
def OSim (q : Pos) (b : Bool) : Out NT → Out NT → Prop
  | .ok t m r, .ok t' m' r' => norms t = norms t' ∧ Rel q r r' ∧ (b = true → t = t' ∧ m = m')
  | .fail, .fail => True
  | .err, .err => True
  | _, _ => False

theorem OSim.mono {q q' b o o'} (h : OSim q b o o') (hl : q.le q' = true) : OSim q' b o o' := by
  cases o <;> cases o' <;> first | exact h | exact ⟨h.1, h.2.1.mono hl, h.2.2⟩

theorem OSim.fail_inv {q b o} (h : OSim q b .fail o) : o = .fail := by cases o <;> first | rfl | cases h
theorem OSim.err_inv {q b o} (h : OSim q b .err o) : o = .err := by cases o <;> first | rfl | cases h
theorem OSim.ok_inv {q b t m r o} (h : OSim q b (.ok t m r) o) : ∃ t' m' r', o = .ok t' m' r' ∧ norms t = norms t' ∧ Rel q r r' ∧ (b = true → t = t' ∧ m = m') := by
  cases o with
  | ok t' m' r' => exact ⟨t', m', r', rfl, h⟩
  | fail => cases h
  | err => cases h

theorem pos_word {p : Pos} (h : p.le .word = true) {i j} (hr : Rel p i j) : SameTokens i j := hr.mono h

theorem cls_fail_sim {f : Char → Bool} (hf : ∀ c, f c = true → c ∉ specials) {i j} (h : SameTokens i j)
    (hi : ∀ c r, i = c :: r → f c = false) : Der gram (.cls f) j .fail := by
  cases j with
  | nil => exact .clsEnd
  | cons c r =>
    cases hc : f c with
    | false => exact .clsFail hc
    | true =>
      obtain ⟨r', rfl, -⟩ := char_sim h.symm (hf c hc)
      rw [hi c r' rfl] at hc; cases hc

theorem not_special {f : Char → Bool} (h : specials.all (fun c => !f c) = true) : ∀ c, f c = true → c ∉ specials := by
  intro c hc hm
  have := List.all_eq_true.1 h c hm
  simp [hc] at this

/-- The main lemma: at related places the outcomes are related. -/
theorem sim {e i o} (h : Der gram e i o) : ∀ p q j, chk p e = some q → Rel p i j → ∃ o', Der gram e j o' ∧ OSim q (tsFree e) o o' := by
  induction h with
  | eps i => intro p q j hc hr; cases hc; exact ⟨_, .eps j, rfl, hr, fun _ => ⟨rfl, rfl⟩⟩
  | lit s r =>
    intro p q j hc hr
    simp only [chk] at hc
    split at hc
    · rename_i hs
      split at hc
      · cases hc
        rename_i hp
        have hs' : ∀ c ∈ s, c ∉ specials := by
          intro c hc; have := List.all_eq_true.1 hs.2 c hc; simpa using this
        obtain ⟨j', rfl, h'⟩ := lit_sim (pos_word hp hr) hs'
        exact ⟨_, .lit s j', rfl, h', fun _ => ⟨rfl, rfl⟩⟩
      · cases hc
    · split at hc
      · rename_i c _
        split at hc
        · cases hc
          rename_i hb
          simp only [Bool.and_eq_true] at hb
          obtain ⟨r', rfl, h'⟩ := bracket_sim (hr.mono hb.2) (by simpa using hb.1)
          exact ⟨_, .lit [c] r', rfl, h', fun _ => ⟨rfl, rfl⟩⟩
        · cases hc
      · cases hc
  | @litFail s i hn =>
    intro p q j hc hr
    refine ⟨.fail, .litFail ?_, trivial⟩
    rintro ⟨j', rfl⟩
    apply hn
    simp only [chk] at hc
    split at hc
    · rename_i hs
      split at hc
      · cases hc
        rename_i hp
        have hs' : ∀ c ∈ s, c ∉ specials := by
          intro c hc; have := List.all_eq_true.1 hs.2 c hc; simpa using this
        obtain ⟨i', rfl, h'⟩ := lit_sim (pos_word hp hr).symm hs'
        exact ⟨_, rfl⟩
      · cases hc
    · split at hc
      · rename_i c _
        split at hc
        · cases hc
          rename_i hb
          simp only [Bool.and_eq_true] at hb
          have hr' := hr.mono hb.2
          obtain ⟨r', rfl, h'⟩ := bracket_sim ⟨hr'.1.symm, hr'.2.2, hr'.2.1⟩ (by simpa using hb.1)
          exact ⟨_, rfl⟩
        · cases hc
      · cases hc
  | @cls f c r hf =>
    intro p q j hc hr
    simp only [chk] at hc
    split at hc
    · rename_i hb
      cases hc
      simp only [Bool.and_eq_true] at hb
      obtain ⟨r', rfl, h'⟩ := char_sim (pos_word hb.2 hr) (not_special hb.1 c hf)
      exact ⟨_, .cls hf, rfl, h', fun _ => ⟨rfl, rfl⟩⟩
    · cases hc
  | @clsFail f c r hf =>
    intro p q j hc hr
    simp only [chk] at hc
    split at hc
    · rename_i hb
      cases hc
      simp only [Bool.and_eq_true] at hb
      exact ⟨_, cls_fail_sim (not_special hb.1) (pos_word hb.2 hr) (by intro d s h; cases h; exact hf), trivial⟩
    · cases hc
  | @clsEnd f =>
    intro p q j hc hr
    simp only [chk] at hc
    split at hc
    · rename_i hb
      cases hc
      simp only [Bool.and_eq_true] at hb
      exact ⟨_, cls_fail_sim (not_special hb.1) (pos_word hb.2 hr) (by intro d s h; cases h), trivial⟩
    · cases hc
  | seq _ _ ih1 ih2 =>
    intro p q j hc hr
    simp only [chk] at hc
    split at hc
    · rename_i q1 hq1
      obtain ⟨o1, h1, s1⟩ := ih1 _ _ _ hq1 hr
      obtain ⟨t1, m1, r1, rfl, hn1, hr1, he1⟩ := s1.ok_inv
      obtain ⟨o2, h2, s2⟩ := ih2 _ _ _ hc hr1
      obtain ⟨t2, m2, r2, rfl, hn2, hr2, he2⟩ := s2.ok_inv
      refine ⟨_, .seq h1 h2, by rw [norms_append, norms_append, hn1, hn2], hr2, ?_⟩
      intro hb
      simp only [tsFree, Bool.and_eq_true] at hb
      obtain ⟨rfl, rfl⟩ := he1 hb.1
      obtain ⟨rfl, rfl⟩ := he2 hb.2
      exact ⟨rfl, rfl⟩
    · cases hc
  | seqFail1 _ ih1 =>
    intro p q j hc hr
    simp only [chk] at hc
    split at hc
    · rename_i q1 hq1
      obtain ⟨o1, h1, s1⟩ := ih1 _ _ _ hq1 hr
      rw [s1.fail_inv] at h1
      exact ⟨_, .seqFail1 h1, trivial⟩
    · cases hc
  | seqErr1 _ ih1 =>
    intro p q j hc hr
    simp only [chk] at hc
    split at hc
    · rename_i q1 hq1
      obtain ⟨o1, h1, s1⟩ := ih1 _ _ _ hq1 hr
      rw [s1.err_inv] at h1
      exact ⟨_, .seqErr1 h1, trivial⟩
    · cases hc
  | seqFail2 _ _ ih1 ih2 =>
    intro p q j hc hr
    simp only [chk] at hc
    split at hc
    · rename_i q1 hq1
      obtain ⟨o1, h1, s1⟩ := ih1 _ _ _ hq1 hr
      obtain ⟨t1, m1, r1, rfl, hn1, hr1, he1⟩ := s1.ok_inv
      obtain ⟨o2, h2, s2⟩ := ih2 _ _ _ hc hr1
      rw [s2.fail_inv] at h2
      exact ⟨_, .seqFail2 h1 h2, trivial⟩
    · cases hc
  | seqErr2 _ _ ih1 ih2 =>
    intro p q j hc hr
    simp only [chk] at hc
    split at hc
    · rename_i q1 hq1
      obtain ⟨o1, h1, s1⟩ := ih1 _ _ _ hq1 hr
      obtain ⟨t1, m1, r1, rfl, hn1, hr1, he1⟩ := s1.ok_inv
      obtain ⟨o2, h2, s2⟩ := ih2 _ _ _ hc hr1
      rw [s2.err_inv] at h2
      exact ⟨_, .seqErr2 h1 h2, trivial⟩
    · cases hc
  | altL _ ih =>
    intro p q j hc hr
    simp only [chk] at hc
    split at hc
    · rename_i q1 q2 hq1 hq2
      cases hc
      obtain ⟨o1, h1, s1⟩ := ih _ _ _ hq1 hr
      obtain ⟨t1, m1, r1, rfl, hn1, hr1, he1⟩ := s1.ok_inv
      refine ⟨_, .altL h1, hn1, hr1.mono (Pos.le_max_left _ _), ?_⟩
      intro hb
      simp only [tsFree, Bool.and_eq_true] at hb
      exact he1 hb.1
    · cases hc
  | altErr _ ih =>
    intro p q j hc hr
    simp only [chk] at hc
    split at hc
    · rename_i q1 q2 hq1 hq2
      cases hc
      obtain ⟨o1, h1, s1⟩ := ih _ _ _ hq1 hr
      rw [s1.err_inv] at h1
      exact ⟨_, .altErr h1, trivial⟩
    · cases hc
  | @altR a b i o _ _ ih1 ih2 =>
    intro p q j hc hr
    simp only [chk] at hc
    split at hc
    · rename_i q1 q2 hq1 hq2
      cases hc
      obtain ⟨o1, h1, s1⟩ := ih1 _ _ _ hq1 hr
      rw [s1.fail_inv] at h1
      obtain ⟨o2, h2, s2⟩ := ih2 _ _ _ hq2 hr
      refine ⟨_, .altR h1 h2, ?_⟩
      have h3 := s2.mono (Pos.le_max_right q1 q2)
      cases o <;> cases o2 <;> first | exact h3 | skip
      refine ⟨h3.1, h3.2.1, fun hb => ?_⟩
      simp only [tsFree, Bool.and_eq_true] at hb
      exact h3.2.2 hb.2
    · cases hc
  | starNil _ ih =>
    intro p q j hc hr
    simp only [chk] at hc
    repeat' split at hc
    all_goals first | cases hc | skip
    rename_i q1 hq1 _ _ _ _
    obtain ⟨o1, h1, s1⟩ := ih _ _ _ hq1 hr
    rw [s1.fail_inv] at h1
    exact ⟨_, .starNil h1, rfl, hr.mono (Pos.le_max_left _ _), fun _ => ⟨rfl, rfl⟩⟩
  | starErr1 _ ih =>
    intro p q j hc hr
    simp only [chk] at hc
    repeat' split at hc
    all_goals first | cases hc | skip
    rename_i q1 hq1 _ _ _ _
    obtain ⟨o1, h1, s1⟩ := ih _ _ _ hq1 hr
    rw [s1.err_inv] at h1
    exact ⟨_, .starErr1 h1, trivial⟩
  | @starCons a i t1 m1 r1 t2 m2 r2 _ _ _ ih1 ih2 =>
    intro p q j hc hr
    have hc0 := hc
    simp only [chk] at hc
    repeat' split at hc
    all_goals first | cases hc | skip
    rename_i hce _ q1 hq1 _ q2 hq2 hle
    have hr' := hr.mono (Pos.le_max_left p q1)
    obtain ⟨o1, h1, s1⟩ := ih1 _ _ _ hq2 hr'
    obtain ⟨t1, m1, r1, rfl, hn1, hr1, he1⟩ := s1.ok_inv
    have hstar : chk (p.max q1) (.star a) = some (p.max q1) := by
      simp only [chk]
      rw [if_neg hce, hq2]
      simp only [Pos.max_of_le hle, hq2, hle, if_true]
    obtain ⟨o2, h2, s2⟩ := ih2 _ _ _ hstar (hr1.mono hle)
    obtain ⟨t2, m2, r2, rfl, hn2, hr2, he2⟩ := s2.ok_inv
    refine ⟨_, .starCons h1 ?_ h2, by rw [norms_append, norms_append, hn1, hn2], hr2, ?_⟩
    · intro he
      exact hce (canEmpty_sound gram_empty h1 _ _ _ rfl he)
    · intro hb
      obtain ⟨rfl, rfl⟩ := he1 hb
      obtain ⟨rfl, rfl⟩ := he2 hb
      exact ⟨rfl, rfl⟩
  | @starErr2 a i t1 m1 r1 _ _ _ ih1 ih2 =>
    intro p q j hc hr
    simp only [chk] at hc
    repeat' split at hc
    all_goals first | cases hc | skip
    rename_i hce _ q1 hq1 _ q2 hq2 hle
    have hr' := hr.mono (Pos.le_max_left p q1)
    obtain ⟨o1, h1, s1⟩ := ih1 _ _ _ hq2 hr'
    obtain ⟨t1, m1, r1, rfl, hn1, hr1, he1⟩ := s1.ok_inv
    have hstar : chk (p.max q1) (.star a) = some (p.max q1) := by
      simp only [chk]
      rw [if_neg hce, hq2]
      simp only [Pos.max_of_le hle, hq2, hle, if_true]
    obtain ⟨o2, h2, s2⟩ := ih2 _ _ _ hstar (hr1.mono hle)
    rw [s2.err_inv] at h2
    exact ⟨_, .starErr2 h1 (fun he => hce (canEmpty_sound gram_empty h1 _ _ _ rfl he)) h2, trivial⟩
  | @nt n i t m r hd ih =>
    intro p q j hc hr
    simp only [chk] at hc
    split at hc
    · rename_i hn
      subst hn
      split at hc
      · cases hc
        rename_i hp
        rcases string_sim (hr.mono hp) (Der.nt (g := gram) (n := NT.sfString) hd) with h | h | ⟨t', m', r1, r2, ho, h, hrel⟩
        · cases h.1
        · cases h.1
        · cases ho
          exact ⟨_, h, rfl, hrel, fun _ => ⟨rfl, rfl⟩⟩
      · cases hc
    · rename_i hn
      split at hc
      · rename_i s q' hsig
        split at hc
        · cases hc
          rename_i hp
          obtain ⟨q1, hq1, hle⟩ := gram_chk n _ _ hn hsig
          obtain ⟨o1, h1, s1⟩ := ih _ _ _ hq1 (hr.mono hp)
          obtain ⟨t1, m1, r1, rfl, hn1, hr1, he1⟩ := s1.ok_inv
          refine ⟨_, Der.nt (g := gram) (n := n) h1, ?_, hr1.mono hle, ?_⟩
          · simp only [norms, norm]
            cases hl : isLeaf n with
            | true =>
              obtain ⟨rfl, rfl⟩ := he1 (gram_leaf n hn hl)
              rfl
            | false => simp [hn1]
          · intro hb
            obtain ⟨rfl, rfl⟩ := he1 (gram_leaf n hn hb)
            exact ⟨rfl, rfl⟩
        · cases hc
      · cases hc
  | @ntFail n i hd ih =>
    intro p q j hc hr
    simp only [chk] at hc
    split at hc
    · rename_i hn
      subst hn
      split at hc
      · cases hc
        rename_i hp
        rcases string_sim (hr.mono hp) (Der.ntFail (g := gram) (n := NT.sfString) hd) with h | h | ⟨t', m', r1, r2, ho, h, hrel⟩
        · exact ⟨_, h.2, trivial⟩
        · cases h.1
        · cases ho
      · cases hc
    · rename_i hn
      split at hc
      · rename_i s q' hsig
        split at hc
        · cases hc
          rename_i hp
          obtain ⟨q1, hq1, hle⟩ := gram_chk n _ _ hn hsig
          obtain ⟨o1, h1, s1⟩ := ih _ _ _ hq1 (hr.mono hp)
          rw [s1.fail_inv] at h1
          exact ⟨_, .ntFail h1, trivial⟩
        · cases hc
      · cases hc
  | @ntErr n i hd ih =>
    intro p q j hc hr
    simp only [chk] at hc
    split at hc
    · rename_i hn
      subst hn
      split at hc
      · cases hc
        rename_i hp
        rcases string_sim (hr.mono hp) (Der.ntErr (g := gram) (n := NT.sfString) hd) with h | h | ⟨t', m', r1, r2, ho, h, hrel⟩
        · cases h.1
        · exact ⟨_, h.2, trivial⟩
        · cases ho
      · cases hc
    · rename_i hn
      split at hc
      · rename_i s q' hsig
        split at hc
        · cases hc
          rename_i hp
          obtain ⟨q1, hq1, hle⟩ := gram_chk n _ _ hn hsig
          obtain ⟨o1, h1, s1⟩ := ih _ _ _ hq1 (hr.mono hp)
          rw [s1.err_inv] at h1
          exact ⟨_, .ntErr h1, trivial⟩
        · cases hc
      · cases hc
  | @silent n i t m r hd ih =>
    intro p q j hc hr
    simp only [chk] at hc
    split at hc
    · rename_i hn
      subst hn
      cases hc
      obtain ⟨w, r1, w', r', h1, h2, hrel⟩ := ws_sim hr
      cases (Der.silent (g := gram) (n := NT.ts) hd).det _ h1
      exact ⟨_, h2, rfl, hrel, fun hb => by cases hb⟩
    · cases hc
  | @silentFail n i hd ih =>
    intro p q j hc hr
    simp only [chk] at hc
    split at hc
    · rename_i hn
      subst hn
      cases hc
      obtain ⟨w, r1, w', r', h1, h2, hrel⟩ := ws_sim hr
      cases (Der.silentFail (g := gram) (n := NT.ts) hd).det _ h1
    · cases hc
  | @silentErr n i hd ih =>
    intro p q j hc hr
    simp only [chk] at hc
    split at hc
    · rename_i hn
      subst hn
      cases hc
      obtain ⟨w, r1, w', r', h1, h2, hrel⟩ := ws_sim hr
      cases (Der.silentErr (g := gram) (n := NT.ts) hd).det _ h1
    · cases hc
  | cut _ ih =>
    intro p q j hc hr
    obtain ⟨o1, h1, s1⟩ := ih _ _ _ hc hr
    obtain ⟨t1, m1, r1, rfl, hn1, hr1, he1⟩ := s1.ok_inv
    exact ⟨_, .cut h1, hn1, hr1, he1⟩
  | cutFail _ ih =>
    intro p q j hc hr
    obtain ⟨o1, h1, s1⟩ := ih _ _ _ hc hr
    rw [s1.fail_inv] at h1
    exact ⟨_, .cutFail h1, trivial⟩
  | cutErr _ ih =>
    intro p q j hc hr
    obtain ⟨o1, h1, s1⟩ := ih _ _ _ hc hr
    rw [s1.err_inv] at h1
    exact ⟨_, .cutErr h1, trivial⟩
  | eof => intro p q j hc hr; cases hc
  | eofFail => intro p q j hc hr; cases hc

end Verif.Layout
