import Verif.Model.Peg
/-
General facts about the matching relation `Der`: it splits the text, it is deterministic, it is total on
grammars that pass a left-recursion check, and the interpreter `run` computes it.
-/
namespace Verif.Peg
variable {T : Type}

theorem lit_prefix {s i : List Char} (h : s.isPrefixOf i = true) : s ++ i.drop s.length = i := by
  obtain ⟨t, rfl⟩ := List.isPrefixOf_iff_prefix.1 h
  simp

theorem run_sound {g : T → Exp T} : ∀ f e i o, run g f e i = some o → Der g e i o := by
  intro f
  induction f with
  | zero => intro e i o h; simp [run] at h
  | succ f ih =>
    intro e i o h
    cases e with
    | eps => simp [run] at h; subst h; exact .eps i
    | lit s =>
      simp only [run] at h
      split at h
      · rename_i hp
        cases h
        have := Der.lit (g := g) s (i.drop s.length)
        rwa [lit_prefix hp] at this
      · rename_i hp
        cases h
        exact .litFail (fun hh => hp (List.isPrefixOf_iff_prefix.2 hh))
    | cls p =>
      cases i with
      | nil => simp [run] at h; subst h; exact .clsEnd
      | cons c r =>
        simp only [run] at h
        split at h
        · rename_i hp; cases h; exact .cls hp
        · rename_i hp; cases h; exact .clsFail (by simpa using hp)
    | seq a b =>
      simp only [run] at h
      split at h
      · rename_i h1
        split at h <;> rename_i h2 <;> first | cases h | skip
        · exact .seq (ih _ _ _ h1) (ih _ _ _ h2)
        · exact .seqFail2 (ih _ _ _ h1) (ih _ _ _ h2)
        · exact .seqErr2 (ih _ _ _ h1) (ih _ _ _ h2)
      · rename_i h1; cases h; exact .seqFail1 (ih _ _ _ h1)
      · rename_i h1; cases h; exact .seqErr1 (ih _ _ _ h1)
      · cases h
    | alt a b =>
      simp only [run] at h
      split at h <;> rename_i h1
      · exact .altR (ih _ _ _ h1) (ih _ _ _ h)
      · cases h; exact .altL (ih _ _ _ h1)
      · cases h; exact .altErr (ih _ _ _ h1)
      · cases h
    | star a =>
      simp only [run] at h
      split at h <;> rename_i h1
      · cases h; exact .starNil (ih _ _ _ h1)
      · cases h; exact .starErr1 (ih _ _ _ h1)
      · split at h
        · cases h
        · split at h <;> rename_i h2 <;> first | cases h | skip
          · exact .starCons (ih _ _ _ h1) (by simp) (ih _ _ _ h2)
          · exact .starErr2 (ih _ _ _ h1) (by simp) (ih _ _ _ h2)
      · cases h
    | nt n =>
      simp only [run] at h
      split at h <;> rename_i h1 <;> cases h
      · exact .nt (ih _ _ _ h1)
      · exact .ntFail (ih _ _ _ h1)
      · exact .ntErr (ih _ _ _ h1)
    | silent n =>
      simp only [run] at h
      cases o with
      | ok => exact .silent (ih _ _ _ h)
      | fail => exact .silentFail (ih _ _ _ h)
      | err => exact .silentErr (ih _ _ _ h)
    | cut a =>
      simp only [run] at h
      split at h <;> rename_i h1 <;> cases h
      · exact .cutFail (ih _ _ _ h1)
      · exact .cut (ih _ _ _ h1)
      · exact .cutErr (ih _ _ _ h1)
    | eof =>
      cases i with
      | nil => simp [run] at h; subst h; exact .eof
      | cons c r => simp [run] at h; subst h; exact .eofFail

/-- A successful match splits the text into the matched part and the rest. -/
theorem der_append {g : T → Exp T} {e i o} (h : Der g e i o) :
    ∀ ts m r, o = .ok ts m r → i = m ++ r := by
  induction h <;> intro ts m r ho <;> cases ho <;> simp_all

theorem Der.append {g : T → Exp T} {e i ts m r} (h : Der g e i (.ok ts m r)) : i = m ++ r :=
  der_append h _ _ _ rfl

/-- Matching is deterministic. -/
theorem Der.det {g : T → Exp T} {e i o} (h : Der g e i o) : ∀ o', Der g e i o' → o = o' := by
  induction h with
  | eps => intro o' h'; cases h'; rfl
  | lit s r =>
    intro o' h'
    generalize hi : s ++ r = i at h'
    cases h' with
    | lit s' r' => simp_all
    | litFail hn => exact absurd ⟨r, hi⟩ hn
  | litFail hn =>
    intro o' h'
    cases h' with
    | lit s' r' => exact absurd ⟨r', rfl⟩ hn
    | litFail => rfl
  | cls hp => intro o' h'; cases h' <;> simp_all
  | clsFail hp => intro o' h'; cases h' <;> simp_all
  | clsEnd => intro o' h'; cases h'; rfl
  | seq h1 h2 ih1 ih2 =>
    intro o' h'
    cases h' with
    | seq a b => cases ih1 _ a; cases ih2 _ b; rfl
    | seqFail1 a => cases ih1 _ a
    | seqErr1 a => cases ih1 _ a
    | seqFail2 a b => cases ih1 _ a; cases ih2 _ b
    | seqErr2 a b => cases ih1 _ a; cases ih2 _ b
  | seqFail1 h1 ih1 => intro o' h'; cases h' with
    | seq a b => cases ih1 _ a
    | seqFail1 a => rfl
    | seqErr1 a => cases ih1 _ a
    | seqFail2 a b => rfl
    | seqErr2 a b => cases ih1 _ a
  | seqErr1 h1 ih1 => intro o' h'; cases h' with
    | seq a b => cases ih1 _ a
    | seqFail1 a => cases ih1 _ a
    | seqErr1 a => rfl
    | seqFail2 a b => cases ih1 _ a
    | seqErr2 a b => rfl
  | seqFail2 h1 h2 ih1 ih2 => intro o' h'; cases h' with
    | seq a b => cases ih1 _ a; cases ih2 _ b
    | seqFail1 a => rfl
    | seqErr1 a => cases ih1 _ a
    | seqFail2 a b => rfl
    | seqErr2 a b => cases ih1 _ a; cases ih2 _ b
  | seqErr2 h1 h2 ih1 ih2 => intro o' h'; cases h' with
    | seq a b => cases ih1 _ a; cases ih2 _ b
    | seqFail1 a => cases ih1 _ a
    | seqErr1 a => rfl
    | seqFail2 a b => cases ih1 _ a; cases ih2 _ b
    | seqErr2 a b => rfl
  | altL h ih => intro o' h'; cases h' with
    | altL a => exact ih _ a
    | altErr a => cases ih _ a
    | altR a b => cases ih _ a
  | altErr h ih => intro o' h'; cases h' with
    | altL a => cases ih _ a
    | altErr a => rfl
    | altR a b => cases ih _ a
  | altR h1 h2 ih1 ih2 => intro o' h'; cases h' with
    | altL a => cases ih1 _ a
    | altErr a => cases ih1 _ a
    | altR a b => exact ih2 _ b
  | starNil h ih => intro o' h'; cases h' with
    | starNil a => rfl
    | starErr1 a => cases ih _ a
    | starCons a => cases ih _ a
    | starErr2 a => cases ih _ a
  | starErr1 h ih => intro o' h'; cases h' with
    | starNil a => cases ih _ a
    | starErr1 a => rfl
    | starCons a => cases ih _ a
    | starErr2 a => rfl
  | starCons h1 hm h2 ih1 ih2 => intro o' h'; cases h' with
    | starNil a => cases ih1 _ a
    | starErr1 a => cases ih1 _ a
    | starCons a _ b => cases ih1 _ a; cases ih2 _ b; rfl
    | starErr2 a _ b => cases ih1 _ a; cases ih2 _ b
  | starErr2 h1 hm h2 ih1 ih2 => intro o' h'; cases h' with
    | starNil a => cases ih1 _ a
    | starErr1 a => rfl
    | starCons a _ b => cases ih1 _ a; cases ih2 _ b
    | starErr2 a _ b => rfl
  | nt h ih => intro o' h'; cases h' with
    | nt a => cases ih _ a; rfl
    | ntFail a => cases ih _ a
    | ntErr a => cases ih _ a
  | ntFail h ih => intro o' h'; cases h' with
    | nt a => cases ih _ a
    | ntFail a => rfl
    | ntErr a => cases ih _ a
  | ntErr h ih => intro o' h'; cases h' with
    | nt a => cases ih _ a
    | ntFail a => cases ih _ a
    | ntErr a => rfl
  | silent h ih => intro o' h'; cases h' with
    | silent a => cases ih _ a; rfl
    | silentFail a => cases ih _ a
    | silentErr a => cases ih _ a
  | silentFail h ih => intro o' h'; cases h' with
    | silent a => cases ih _ a
    | silentFail a => rfl
    | silentErr a => cases ih _ a
  | silentErr h ih => intro o' h'; cases h' with
    | silent a => cases ih _ a
    | silentFail a => cases ih _ a
    | silentErr a => rfl
  | cut h ih => intro o' h'; cases h' with
    | cut a => cases ih _ a; rfl
    | cutFail a => cases ih _ a
    | cutErr a => cases ih _ a
  | cutFail h ih => intro o' h'; cases h' with
    | cut a => cases ih _ a
    | cutFail a => rfl
    | cutErr a => rfl
  | cutErr h ih => intro o' h'; cases h' with
    | cut a => cases ih _ a
    | cutFail a => rfl
    | cutErr a => rfl
  | eof => intro o' h'; cases h'; rfl
  | eofFail => intro o' h'; cases h'; rfl

/-- May `e` match the empty text? (`tbl` answers for productions) -/
def canEmpty (tbl : T → Bool) : Exp T → Bool
  | .eps => true
  | .lit s => s.isEmpty
  | .cls _ => false
  | .seq a b => canEmpty tbl a && canEmpty tbl b
  | .alt a b => canEmpty tbl a || canEmpty tbl b
  | .star _ => true
  | .nt n => tbl n
  | .silent n => tbl n
  | .cut a => canEmpty tbl a
  | .eof => true

/-- No left recursion (productions reachable before consuming anything have rank below `k`), and no star over
something that may match the empty text. `K` bounds all ranks. -/
def okExp (tbl : T → Bool) (rank : T → Nat) (K : Nat) : Nat → Exp T → Bool
  | k, .seq a b => okExp tbl rank K k a && (if canEmpty tbl a then okExp tbl rank K k b else okExp tbl rank K K b)
  | k, .alt a b => okExp tbl rank K k a && okExp tbl rank K k b
  | k, .star a => okExp tbl rank K k a && !canEmpty tbl a
  | k, .nt n => rank n < k
  | k, .silent n => rank n < k
  | k, .cut a => okExp tbl rank K k a
  | _, _ => true

theorem canEmpty_sound {g : T → Exp T} {tbl : T → Bool} (htbl : ∀ n, canEmpty tbl (g n) = true → tbl n = true)
    {e i o} (h : Der g e i o) : ∀ ts m r, o = .ok ts m r → m = [] → canEmpty tbl e = true := by
  induction h <;> intro ts m r' ho hm <;> cases ho <;> simp_all [canEmpty]

/-- A grammar passing the check gives every expression that passes it an outcome on every text. -/
theorem total {g : T → Exp T} {tbl : T → Bool} {rank : T → Nat} {K : Nat}
    (htbl : ∀ n, canEmpty tbl (g n) = true → tbl n = true)
    (hok : ∀ n, okExp tbl rank K (rank n) (g n) = true) :
    ∀ (l k : Nat) (e : Exp T) (i : List Char), i.length = l → okExp tbl rank K k e = true →
      ∃ o, Der g e i o := by
  intro l
  induction l using Nat.strongRecOn with
  | _ l ihl =>
  intro k
  induction k using Nat.strongRecOn with
  | _ k ihk =>
  intro e
  have shorter : ∀ (i : List Char) a t1 m1 r1, i.length = l → Der g a i (.ok t1 m1 r1) → m1 ≠ [] → r1.length < l := by
    intro i a t1 m1 r1 hl h hm
    have := h.append
    subst this
    simp at hl
    have : 0 < m1.length := List.length_pos_iff.2 hm
    omega
  induction e with
  | eps => intro i _ _; exact ⟨_, .eps i⟩
  | lit s =>
    intro i _ _
    by_cases hp : s <+: i
    · obtain ⟨t, rfl⟩ := hp; exact ⟨_, .lit s t⟩
    · exact ⟨_, .litFail hp⟩
  | cls p =>
    intro i _ _
    cases i with
    | nil => exact ⟨_, .clsEnd⟩
    | cons c r => cases hp : p c with
      | true => exact ⟨_, .cls hp⟩
      | false => exact ⟨_, .clsFail hp⟩
  | seq a b iha ihb =>
    intro i hl hk
    simp only [okExp, Bool.and_eq_true] at hk
    obtain ⟨o, ho⟩ := iha i hl hk.1
    cases o with
    | fail => exact ⟨_, .seqFail1 ho⟩
    | err => exact ⟨_, .seqErr1 ho⟩
    | ok t1 m1 r1 =>
      have : ∃ o, Der g b r1 o := by
        by_cases hm : m1 = []
        · subst hm
          have he := canEmpty_sound htbl ho _ _ _ rfl rfl
          have hi : i = r1 := by simpa using ho.append
          subst hi
          exact ihb i hl (by simpa [he] using hk.2)
        · have hlt := shorter _ _ _ _ _ hl ho hm
          by_cases he : canEmpty tbl a
          · exact ihl _ hlt k b r1 rfl (by simpa [he] using hk.2)
          · exact ihl _ hlt K b r1 rfl (by simpa [he] using hk.2)
      obtain ⟨o2, ho2⟩ := this
      cases o2 with
      | ok => exact ⟨_, .seq ho ho2⟩
      | fail => exact ⟨_, .seqFail2 ho ho2⟩
      | err => exact ⟨_, .seqErr2 ho ho2⟩
  | alt a b iha ihb =>
    intro i hl hk
    simp only [okExp, Bool.and_eq_true] at hk
    obtain ⟨o, ho⟩ := iha i hl hk.1
    cases o with
    | ok => exact ⟨_, .altL ho⟩
    | err => exact ⟨_, .altErr ho⟩
    | fail => obtain ⟨o2, ho2⟩ := ihb i hl hk.2; exact ⟨_, .altR ho ho2⟩
  | star a iha =>
    intro i hl hk
    have hk' := hk
    simp only [okExp, Bool.and_eq_true, Bool.not_eq_true'] at hk
    obtain ⟨o, ho⟩ := iha i hl hk.1
    cases o with
    | fail => exact ⟨_, .starNil ho⟩
    | err => exact ⟨_, .starErr1 ho⟩
    | ok t1 m1 r1 =>
      have hm : m1 ≠ [] := by
        intro hm; subst hm
        have := canEmpty_sound htbl ho _ _ _ rfl rfl
        rw [hk.2] at this; cases this
      obtain ⟨o2, ho2⟩ := ihl _ (shorter _ _ _ _ _ hl ho hm) k (.star a) r1 rfl hk'
      cases o2 with
      | ok => exact ⟨_, .starCons ho hm ho2⟩
      | fail => cases ho2 
      | err => exact ⟨_, .starErr2 ho hm ho2⟩
  | nt n =>
    intro i hl hk
    simp only [okExp, decide_eq_true_eq] at hk
    obtain ⟨o, ho⟩ := ihk _ hk (g n) i hl (hok n)
    cases o with
    | ok => exact ⟨_, .nt ho⟩
    | fail => exact ⟨_, .ntFail ho⟩
    | err => exact ⟨_, .ntErr ho⟩
  | silent n =>
    intro i hl hk
    simp only [okExp, decide_eq_true_eq] at hk
    obtain ⟨o, ho⟩ := ihk _ hk (g n) i hl (hok n)
    cases o with
    | ok => exact ⟨_, .silent ho⟩
    | fail => exact ⟨_, .silentFail ho⟩
    | err => exact ⟨_, .silentErr ho⟩
  | cut a iha =>
    intro i hl hk
    obtain ⟨o, ho⟩ := iha i hl hk
    cases o with
    | ok => exact ⟨_, .cut ho⟩
    | fail => exact ⟨_, .cutFail ho⟩
    | err => exact ⟨_, .cutErr ho⟩
  | eof =>
    intro i _ _
    cases i with
    | nil => exact ⟨_, .eof⟩
    | cons c r => exact ⟨_, .eofFail⟩

end Verif.Peg
