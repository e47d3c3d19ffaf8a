import Verif.Spec.Layout
/-!
Texts that differ in layout only are parsed alike.
-/
namespace Verif.Layout
open Verif.Peg Verif.Grammar

theorem SameTokens.symm {i j} (h : SameTokens i j) : SameTokens j i := by
  induction h with
  | same s => exact .same s
  | char hc _ ih => exact .char hc ih
  | gap a b c d _ ih => exact .gap b a d c ih
  | mark k a a' b b' _ ih => exact .mark k a' a b' b ih
  | ending a b => exact .ending b a

theorem ign_head {c s} (h : Ignorable (c :: s)) : c ∈ specials := by
  cases h with
  | blank h _ => simp only [List.mem_cons, List.not_mem_nil, or_false] at h; rcases h with h | h | h | h | h | h | h <;> subst h <;> decide
  | comment _ _ => decide

theorem mark_head {k} (h : Mark k) : ∃ c s, k = c :: s ∧ c ∈ specials ∧ Meaningful (c :: s) := by
  cases h with
  | @bracket c h =>
    refine ⟨c, [], rfl, ?_, ?_⟩
    · simp only [List.mem_cons, List.not_mem_nil, or_false] at h; rcases h with h | h | h | h <;> subst h <;> decide
    · refine ⟨?_, ?_⟩
      · rintro d s hd; cases hd
        simp only [List.mem_cons, List.not_mem_nil, or_false] at h; rcases h with h | h | h | h <;> subst h <;> decide
      · rintro s hd; cases hd; revert h; decide
  | @string s h =>
    refine ⟨'"', s ++ ['"'], rfl, by decide, ?_, ?_⟩
    · rintro d s hd; cases hd; decide
    · rintro s hd; cases hd

theorem mark_mean {k} (h : Mark k) (r : List Char) : Meaningful (k ++ r) := by
  cases h with
  | @bracket c h =>
    refine ⟨?_, ?_⟩
    · rintro d s hd; cases hd
      simp only [List.mem_cons, List.not_mem_nil, or_false] at h; rcases h with h | h | h | h <;> subst h <;> decide
    · rintro s hd; cases hd; exact absurd h (by decide)
  | @string s h =>
    refine ⟨?_, ?_⟩
    · rintro d s hd; cases hd; decide
    · rintro s hd; cases hd

theorem char_mean {c r} (h : c ∉ specials) : Meaningful (c :: r) := by
  refine ⟨?_, ?_⟩
  · rintro d s hd hm; cases hd; apply h
    simp only [List.mem_cons, List.not_mem_nil, or_false] at hm; rcases hm with h | h | h | h | h | h | h <;> subst h <;> decide
  · rintro s hd; cases hd; exact absurd (by decide) h

theorem nil_mean : Meaningful [] := ⟨(fun _ _ h => nomatch h), (fun _ h => nomatch h)⟩

theorem gap_not_mean {w r} (hw : Ignorable w) (hr : Meaningful (w ++ r)) : w = [] := by
  cases hw with
  | nil => rfl
  | blank h _ => exact absurd h (hr.1 _ _ rfl)
  | comment h _ =>
    have := hr.2 _ rfl
    simp at this

/-! ### Positions -/

/-- What is known about a position in the two texts: at a meaningful place; anywhere; after a bracket or a string. -/
inductive Pos | clean | word | loose
deriving DecidableEq, Repr

def Pos.le : Pos → Pos → Bool
  | .clean, _ => true
  | .word, .clean => false
  | .word, _ => true
  | .loose, .loose => true
  | .loose, _ => false

def Pos.max : Pos → Pos → Pos
  | .clean, p => p
  | p, .clean => p
  | .word, p => p
  | .loose, _ => .loose

def Rel : Pos → List Char → List Char → Prop
  | .clean, i, j => SameTokens i j ∧ Meaningful i ∧ Meaningful j
  | .word, i, j => SameTokens i j
  | .loose, i, j => ∃ w w' r r', i = w ++ r ∧ j = w' ++ r' ∧ Ignorable w ∧ Ignorable w' ∧ SameTokens r r'

theorem Rel.mono {p q : Pos} {i j} (h : Rel p i j) (hl : p.le q = true) : Rel q i j := by
  cases p <;> cases q <;> first | exact h | cases hl | skip
  · exact h.1
  · exact ⟨[], [], i, j, rfl, rfl, .nil, .nil, h.1⟩
  · exact ⟨[], [], i, j, rfl, rfl, .nil, .nil, h⟩

theorem Pos.le_max_left (p q : Pos) : p.le (p.max q) = true := by cases p <;> cases q <;> rfl
theorem Pos.le_max_right (p q : Pos) : q.le (p.max q) = true := by cases p <;> cases q <;> rfl
theorem Pos.max_of_le {p q : Pos} (h : q.le p = true) : p.max q = p := by cases p <;> cases q <;> first | rfl | cases h
theorem Pos.le_trans {p q r : Pos} (h : p.le q = true) (h' : q.le r = true) : p.le r = true := by
  cases p <;> cases q <;> cases r <;> simp_all [Pos.le]

/-- skipping layout on both sides -/
theorem skip_same {i j} (h : SameTokens i j) :
    ∃ w r w' r', i = w ++ r ∧ j = w' ++ r' ∧ Ignorable w ∧ Ignorable w' ∧ Rel .clean r r' := by
  induction h with
  | same s =>
    obtain ⟨w, r, h, hw, hr⟩ := ts_total s
    exact ⟨w, r, w, r, h.append, h.append, hw, hw, .same _, hr, hr⟩
  | char hc h _ => exact ⟨[], _, [], _, rfl, rfl, .nil, .nil, .char hc h, char_mean hc, char_mean hc⟩
  | @gap w w' r r' hw hw' _ _ _ ih =>
    obtain ⟨a, b, a', b', rfl, rfl, ha, ha', hb⟩ := ih
    exact ⟨w ++ a, b, w' ++ a', b', by simp, by simp, hw.append ha, hw'.append ha', hb⟩
  | @mark a a' b b' k r r' hk ha ha' hb hb' h _ =>
    exact ⟨a, _, a', _, rfl, rfl, ha, ha', .mark (a := []) (a' := []) hk .nil .nil hb hb' h, mark_mean hk _, mark_mean hk _⟩
  | @ending w w' hw hw' => exact ⟨w, [], w', [], by simp, by simp, hw, hw', .same _, nil_mean, nil_mean⟩

theorem ws_sim {p i j} (h : Rel p i j) : ∃ w r w' r', Der gram ws i (.ok [] w r) ∧ Der gram ws j (.ok [] w' r') ∧ Rel .clean r r' := by
  obtain ⟨w, w', r, r', rfl, rfl, hw, hw', h⟩ := h.mono (q := .loose) (by cases p <;> rfl)
  obtain ⟨a, b, a', b', rfl, rfl, ha, ha', hb⟩ := skip_same h
  refine ⟨w ++ a, b, w' ++ a', b', ?_, ?_, hb⟩
  · have := C07_ignorable_skipped (hw.append ha) hb.2.1
    simpa using this
  · have := C07_ignorable_skipped (hw'.append ha') hb.2.2
    simpa using this

/-- a word character in one text is there in the other -/
theorem char_sim {c r j} (h : SameTokens (c :: r) j) (hc : c ∉ specials) : ∃ r', j = c :: r' ∧ SameTokens r r' := by
  generalize hi : c :: r = i at h
  cases h with
  | same s => exact ⟨r, hi.symm, .same _⟩
  | char _ h => cases hi; exact ⟨_, rfl, h⟩
  | @gap w w' r r' hw hw' hne _ _ =>
    cases w with
    | nil => exact absurd rfl hne
    | cons d w => cases hi; exact absurd (ign_head hw) hc
  | @mark a a' b b' k r r' hk ha _ _ _ _ =>
    cases a with
    | nil =>
      obtain ⟨d, s, rfl, hd, -⟩ := mark_head hk
      cases hi; exact absurd hd hc
    | cons d a => cases hi; exact absurd (ign_head ha) hc
  | ending hw _ => subst hi; exact absurd (ign_head hw) hc

theorem lit_sim {s i j} (h : SameTokens (s ++ i) j) (hs : ∀ c ∈ s, c ∉ specials) : ∃ j', j = s ++ j' ∧ SameTokens i j' := by
  induction s generalizing j with
  | nil => exact ⟨j, rfl, h⟩
  | cons c s ih =>
    obtain ⟨r', rfl, h1⟩ := char_sim (r := s ++ i) h (hs c (by simp))
    obtain ⟨j', rfl, h2⟩ := ih h1 (fun d hd => hs d (by simp [hd]))
    exact ⟨j', rfl, h2⟩

/-- a bracket or brace at a meaningful place in both texts -/
theorem bracket_sim {c r j} (h : Rel .clean (c :: r) j) (hc : c ∈ ['[', ']', '{', '}']) : ∃ r', j = c :: r' ∧ Rel .loose r r' := by
  obtain ⟨h, hm, hm'⟩ := h
  generalize hi : c :: r = i at h
  cases h with
  | same s => exact ⟨r, hi.symm, [], [], r, r, rfl, rfl, .nil, .nil, .same _⟩
  | char hs h =>
    cases hi
    exfalso; apply hs
    simp only [List.mem_cons, List.not_mem_nil, or_false] at hc; rcases hc with h | h | h | h <;> subst h <;> decide
  | @gap w w' r r' hw hw' hne _ _ => rw [hi] at hm; exact absurd (gap_not_mean hw hm) hne
  | @mark a a' b b' k r r' hk ha ha' hb hb' h =>
    rw [hi] at hm
    obtain rfl := gap_not_mean ha hm
    obtain rfl := gap_not_mean ha' hm'
    cases hk with
    | bracket _ =>
      cases hi
      exact ⟨_, rfl, b, b', _, _, rfl, rfl, hb, hb', h⟩
    | string _ => cases hi; exact absurd hc (by decide)
  | @ending w w' hw _ =>
    subst hi
    have := gap_not_mean (r := []) hw (by simpa using hm)
    cases this

/-! ### Strings -/

abbrev strItem : E := .alts [.nt .charNoDblQuote, .nt .escapedChar, .nt .simpleBackslash]

theorem body_der {s} (hs : StrBody s) : ∃ t, ∀ r, Der gram (.star strItem) (s ++ '"' :: r) (.ok t s ('"' :: r)) := by
  have key : ∀ n s, s.length = n → StrBody s → ∃ t, ∀ r, Der gram (.star strItem) (s ++ '"' :: r) (.ok t s ('"' :: r)) := by
    intro n
    induction n using Nat.strongRecOn with
    | _ n ih =>
    intro s hn hs
    cases hs with
    | nil =>
      refine ⟨[], fun r => .starNil ?_⟩
      exact run_sound 30 _ _ _ (by rfl)
    | @plain c s h1 h2 hs =>
      -- a run of plain characters
      have hsplit : ∀ s, StrBody s → StrBody (s.dropWhile isPlain) := by
        intro s hs
        induction hs with
        | nil => exact .nil
        | @plain c s h1 h2 _ ih => simpa [isPlain, h1, h2] using ih
        | @escaped c s h _ => simpa [isPlain] using StrBody.escaped h
      have hp : isPlain c = true := by simp [isPlain, h1, h2]
      obtain ⟨t, ht⟩ := ih (s.dropWhile isPlain).length (by
        have := (List.dropWhile_suffix (p := isPlain) (l := s)).length_le
        simp at hn; omega) _ rfl (hsplit s hs)
      refine ⟨[.node .charNoDblQuote (c :: s.takeWhile isPlain) []] ++ t, fun r => ?_⟩
      have hrun : Der gram (.nt .charNoDblQuote) ((c :: s.takeWhile isPlain) ++ (s.dropWhile isPlain ++ '"' :: r))
          (.ok [.node .charNoDblQuote (c :: s.takeWhile isPlain) []] (c :: s.takeWhile isPlain) (s.dropWhile isPlain ++ '"' :: r)) := by
        refine Der.nt (g := gram) (n := NT.charNoDblQuote) (plusCls_der (by simp) ?_ ?_)
        · intro d hd
          rcases List.mem_cons.1 hd with rfl | hd
          · exact hp
          · exact mem_takeWhile hd
        · intro d x hx
          cases hdd : s.dropWhile isPlain with
          | nil => rw [hdd] at hx; cases hx; rfl
          | cons e y =>
            have := List.head_dropWhile_not isPlain (l := s) (by rw [hdd]; simp)
            simp only [hdd, List.head_cons] at this
            rw [hdd] at hx; cases hx
            simpa using this
      have := Der.starCons (a := strItem) (Der.altL hrun) (by simp) (ht r)
      have e : s.takeWhile isPlain ++ s.dropWhile isPlain = s := List.takeWhile_append_dropWhile
      have e2 : (c :: s.takeWhile isPlain) ++ (s.dropWhile isPlain ++ '"' :: r) = c :: s ++ '"' :: r := by
        rw [← List.append_assoc, List.cons_append, e]
      have e3 : (c :: s.takeWhile isPlain) ++ s.dropWhile isPlain = c :: s := by rw [List.cons_append, e]
      rw [e2, e3] at this
      exact this
    | @escaped c s hs =>
      have hno : ∀ x, Der gram (.nt .charNoDblQuote) ('\\' :: x) .fail := fun x => run_sound 30 _ _ _ (by rfl)
      by_cases h1 : c = '"' ∨ c = '\\'
      · obtain ⟨t, ht⟩ := ih s.length (by simp at hn; omega) s rfl hs
        refine ⟨[.node .escapedChar ['\\', c] []] ++ t, fun r => ?_⟩
        have hesc : Der gram (.nt .escapedChar) (['\\', c] ++ (s ++ '"' :: r)) (.ok [.node .escapedChar ['\\', c] []] ['\\', c] (s ++ '"' :: r)) := by
          rcases h1 with rfl | rfl
          · exact Der.nt (g := gram) (n := NT.escapedChar) (.altL (.lit _ _))
          · refine Der.nt (g := gram) (n := NT.escapedChar) (.altR (.litFail ?_) (.lit _ _))
            rintro ⟨x, hx⟩; cases hx
        exact Der.starCons (Der.altR (hno _) (.altL hesc)) (by simp) (ht r)
      · simp only [not_or] at h1
        obtain ⟨t, ht⟩ := ih (c :: s).length (by simp at hn ⊢; omega) (c :: s) rfl (.plain h1.1 h1.2 hs)
        refine ⟨[.node .simpleBackslash ['\\'] []] ++ t, fun r => ?_⟩
        have hfail : Der gram (.nt .escapedChar) (['\\'] ++ (c :: s ++ '"' :: r)) .fail := by
          refine Der.ntFail (.altR (.litFail ?_) (.litFail ?_))
          · rintro ⟨x, hx⟩; simp at hx; exact h1.1 hx.1.symm
          · rintro ⟨x, hx⟩; simp at hx; exact h1.2 hx.1.symm
        have hback : Der gram (.nt .simpleBackslash) (['\\'] ++ (c :: s ++ '"' :: r)) (.ok [.node .simpleBackslash ['\\'] []] ['\\'] (c :: s ++ '"' :: r)) :=
          Der.nt (g := gram) (n := NT.simpleBackslash) (.lit _ _)
        exact Der.starCons (Der.altR (hno _) (.altR hfail hback)) (by simp) (ht r)
  exact key _ s rfl hs

theorem string_der {s} (hs : StrBody s) : ∃ t, ∀ r, Der gram (.nt .sfString) (('"' :: (s ++ ['"'])) ++ r)
    (.ok [.node .sfString ('"' :: (s ++ ['"'])) t] ('"' :: (s ++ ['"'])) r) := by
  obtain ⟨t, ht⟩ := body_der hs
  refine ⟨t, fun r => ?_⟩
  have h : Der gram (gram .sfString) (['"'] ++ (s ++ '"' :: r)) (.ok ([] ++ (t ++ [])) (['"'] ++ (s ++ ['"'])) r) :=
    .seq (.lit _ _) (.seq (ht r) (.cut (.lit ['"'] r)))
  have := Der.nt (g := gram) (n := NT.sfString) h
  simpa using this

theorem string_fail {c r} (h : c ≠ '"') : Der gram (.nt .sfString) (c :: r) .fail := by
  refine .ntFail (.seqFail1 (.litFail ?_))
  rintro ⟨x, hx⟩; cases hx; exact h rfl

theorem string_fail_nil : Der gram (.nt .sfString) [] .fail := .ntFail (.seqFail1 (.litFail (by rintro ⟨x, hx⟩; cases hx)))

/-- outcomes of a string at a meaningful place -/
theorem string_sim {i j o} (h : Rel .clean i j) (hd : Der gram (.nt .sfString) i o) :
    (o = .fail ∧ Der gram (.nt .sfString) j .fail) ∨ (o = .err ∧ Der gram (.nt .sfString) j .err) ∨
    ∃ t m r r', o = .ok t m r ∧ Der gram (.nt .sfString) j (.ok t m r') ∧ Rel .loose r r' := by
  obtain ⟨h, hm, hm'⟩ := h
  have hfail : Der gram (.nt .sfString) i .fail → Der gram (.nt .sfString) j .fail → (o = .fail ∧ Der gram (.nt .sfString) j .fail) ∨ (o = .err ∧ Der gram (.nt .sfString) j .err) ∨
    ∃ t m r r', o = .ok t m r ∧ Der gram (.nt .sfString) j (.ok t m r') ∧ Rel .loose r r' := fun a b => .inl ⟨hd.det _ a, b⟩
  cases h with
  | same s =>
    cases o with
    | ok t m r => exact .inr (.inr ⟨t, m, r, r, rfl, hd, [], [], r, r, rfl, rfl, .nil, .nil, .same _⟩)
    | fail => exact .inl ⟨rfl, hd⟩
    | err => exact .inr (.inl ⟨rfl, hd⟩)
  | @char c r r' hc h =>
    have : c ≠ '"' := by rintro rfl; exact hc (by decide)
    exact hfail (string_fail this) (string_fail this)
  | gap hw _ hne _ _ => exact absurd (gap_not_mean hw hm) hne
  | @mark a a' b b' k r r' hk ha ha' hb hb' h =>
    obtain rfl := gap_not_mean ha hm
    obtain rfl := gap_not_mean ha' hm'
    cases hk with
    | @bracket c hc =>
      have : c ≠ '"' := by rintro rfl; exact absurd hc (by decide)
      exact hfail (string_fail this) (string_fail this)
    | string hs =>
      obtain ⟨t, ht⟩ := string_der hs
      refine .inr (.inr ⟨_, _, _, _, hd.det _ (ht (b ++ r)), ht (b' ++ r'), b, b', r, r', rfl, rfl, hb, hb', h⟩)
  | @ending w w' hw hw' =>
    have h1 := gap_not_mean (r := []) hw (by simpa using hm)
    have h2 := gap_not_mean (r := []) hw' (by simpa using hm')
    subst h1 h2
    exact hfail string_fail_nil string_fail_nil

end Verif.Layout
