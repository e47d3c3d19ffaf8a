import Verif.Model.X3D
import Verif.Spec.X3D
import Verif.Props.Grammar
/-!
The grammar of vrml200x simulates that of VRML97 on texts without the new keywords and without `vector`s.
-/
namespace Verif.X3D
open Verif.Peg Verif.Grammar

/-! ### Static checks on expressions -/

/-- May a match of `e` report a production in `v`? -/
def canRep (tbl : NT → Bool) : Exp NT → Bool
  | .seq a b => canRep tbl a || canRep tbl b
  | .alt a b => canRep tbl a || canRep tbl b
  | .star a => canRep tbl a
  | .nt n => tbl n
  | .silent n => tbl n
  | .cut a => canRep tbl a
  | _ => false

/-- May matching `e` fail? -/
def canFail (tbl : NT → Bool) : Exp NT → Bool
  | .eps => false
  | .seq a b => canFail tbl a || canFail tbl b
  | .alt a b => canFail tbl a && canFail tbl b
  | .star _ => false
  | .nt n => tbl n
  | .silent n => tbl n
  | .cut _ => false
  | _ => true

def vecTbl : NT → Bool
  | .field | .attr | .node | .script | .fieldDecl | .scriptFieldDecl | .proto | .rootItem | .vrmlScene | .vector | .vrmlFile => true
  | _ => false

def failTbl : NT → Bool
  | .ts | .vrmlScene | .header => false
  | _ => true

theorem vecTbl_ok : ∀ n, canRep vecTbl (gram n) = true → vecTbl n = true := by intro n; cases n <;> decide
theorem failTbl_ok : ∀ n, canFail failTbl (gram n) = true → failTbl n = true := by intro n; cases n <;> decide
/-! ### Trees without vectors -/

theorem noVecs_append (a b : List (Tree NT)) : noVecs (a ++ b) = (noVecs a && noVecs b) := by
  induction a with
  | nil => simp [noVecs]
  | cons t a ih => simp [noVecs, ih, Bool.and_assoc]

theorem canRep_sound {e i o} (h : Der gram e i o) : ∀ ts m r, o = .ok ts m r → canRep vecTbl e = false → noVecs ts = true := by
  induction h with
  | @nt n i t m r h ih =>
    intro ts m' r' ho hc
    cases ho
    simp only [canRep] at hc
    have h1 : canRep vecTbl (gram n) = false := by
      cases h2 : canRep vecTbl (gram n) with
      | false => rfl
      | true => rw [vecTbl_ok n h2] at hc; cases hc
    have h2 : (n != .vector) = true := by
      cases n <;> first | rfl | (cases hc)
    simp [noVecs, noVec, h2, ih _ _ _ rfl h1]
  | @silent n i t m r h ih =>
    intro ts m' r' ho hc
    cases ho
    simp only [canRep] at hc
    have h1 : canRep vecTbl (gram n) = false := by
      cases h2 : canRep vecTbl (gram n) with
      | false => rfl
      | true => rw [vecTbl_ok n h2] at hc; cases hc
    exact ih _ _ _ rfl h1
  | _ => intro ts m' r' ho hc; cases ho <;> simp_all [canRep, noVecs, noVecs_append]

theorem canFail_sound {e i o} (h : Der gram e i o) : o = .fail → canFail failTbl e = true := by
  induction h with
  | @ntFail n i h ih => intro _; exact failTbl_ok n (ih rfl)
  | @silentFail n i h ih => intro _; exact failTbl_ok n (ih rfl)
  | _ => intro ho; cases ho <;> simp_all [canFail]

/-! ### Congruence -/

theorem star_congr {T} {g : T → Exp T} {a b : Exp T} (hab : ∀ i o, Der g a i o → Der g b i o) {i o} (h : Der g (.star a) i o) : Der g (.star b) i o := by
  generalize he : Exp.star a = e at h
  induction h with
  | starNil h => cases he; exact .starNil (hab _ _ h)
  | starErr1 h => cases he; exact .starErr1 (hab _ _ h)
  | starCons h hm _ _ ih => cases he; exact .starCons (hab _ _ h) hm (ih rfl)
  | starErr2 h hm _ _ ih => cases he; exact .starErr2 (hab _ _ h) hm (ih rfl)
  | _ => cases he

theorem seq_congr {T} {g : T → Exp T} {a b a' b' : Exp T} (ha : ∀ i o, Der g a i o → Der g a' i o) (hb : ∀ i o, Der g b i o → Der g b' i o) (i o)
    (h : Der g (.seq a b) i o) : Der g (.seq a' b') i o := by
  cases h with
  | seq h1 h2 => exact .seq (ha _ _ h1) (hb _ _ h2)
  | seqFail1 h1 => exact .seqFail1 (ha _ _ h1)
  | seqErr1 h1 => exact .seqErr1 (ha _ _ h1)
  | seqFail2 h1 h2 => exact .seqFail2 (ha _ _ h1) (hb _ _ h2)
  | seqErr2 h1 h2 => exact .seqErr2 (ha _ _ h1) (hb _ _ h2)

theorem alt_congr {T} {g : T → Exp T} {a b a' b' : Exp T} (ha : ∀ i o, Der g a i o → Der g a' i o) (hb : ∀ i o, Der g b i o → Der g b' i o) (i o)
    (h : Der g (.alt a b) i o) : Der g (.alt a' b') i o := by
  cases h with
  | altL h1 => exact .altL (ha _ _ h1)
  | altErr h1 => exact .altErr (ha _ _ h1)
  | altR h1 h2 => exact .altR (ha _ _ h1) (hb _ _ h2)

/-- A production that never matches can be dropped from a choice. -/
theorem drop_vector {b : E2} (i o) (h : Der gram2 (.alt (.nt (.old .vector)) b) i o) : Der gram2 b i o := by
  cases h with
  | altL h => cases h with
    | nt h => cases h; rename_i h; cases h
  | altErr h => cases h with
    | ntErr h => cases h
  | altR _ h => exact h

theorem field_drop {i o} (h : Der gram2 (lift (gram .field)) i o) : Der gram2 (gram2 (.old .field)) i o := by
  refine alt_congr (fun i o h => ?_) (fun i o h => h) i o h
  refine seq_congr (fun i o h => h) (fun i o h => ?_) i o h
  refine seq_congr (fun i o h => h) (fun i o h => ?_) i o h
  refine seq_congr (fun i o h => ?_) (fun i o h => h) i o h
  refine star_congr (fun i o h => ?_) h
  exact seq_congr (fun i o h => drop_vector i o h) (fun i o h => h) i o h

/-! ### The simulation -/

theorem NoNew.suffix {m r : List Char} (h : NoNew (m ++ r)) : NoNew r :=
  fun w hw hi => h w hw (hi.trans (List.suffix_append m r).isInfix)

theorem NoNew.rest {e i ts m r} (h : NoNew i) (hd : Der gram e i (.ok ts m r)) : NoNew r := by
  rw [hd.append] at h; exact h.suffix

mutual
def liftT : Tree NT → Tree NT2
  | .node n m ts => .node (.old n) m (liftTs ts)
def liftTs : List (Tree NT) → List (Tree NT2)
  | [] => []
  | t :: ts => liftT t :: liftTs ts
end

theorem liftTs_append (a b : List (Tree NT)) : liftTs (a ++ b) = liftTs a ++ liftTs b := by
  induction a with
  | nil => rfl
  | cons t a ih => simp [liftTs, ih]

mutual
theorem back_lift : ∀ t : Tree NT, back (liftT t) = t
  | .node n m ts => by simp [liftT, back, NT2.back, backs_lift ts]
theorem backs_lift : ∀ ts : List (Tree NT), backs (liftTs ts) = ts
  | [] => rfl
  | t :: ts => by simp [liftTs, backs, back_lift t, backs_lift ts]
end

theorem lit_skip {w : List Char} {b : E2} {i o} (hw : ¬ w <+: i) (h : Der gram2 b i o) : Der gram2 (.alt (lit2 w) b) i o :=
  .altR (.litFail hw) h

theorem NoNew.pre {w i} (h : NoNew i) (hw : w ∈ newWords) : ¬ w <+: i := fun hp => h w hw hp.isInfix

/-- What the grammar of vrml200x makes of an outcome in the VRML97 grammar: a parse with a list within a list is a syntax
error, everything else is the same. -/
def conv : Out NT → Out NT2
  | .ok ts m r => if noVecs ts then .ok (liftTs ts) m r else .err
  | .fail => .fail
  | .err => .err

/-- from the body of a production to the production -/
theorem step {n : NT} (h1 : n ≠ .header) (h2 : n ≠ .vrmlFile) (h3 : n ≠ .vector) {i o} (hn : NoNew i) (h : Der gram2 (lift (gram n)) i o) :
    Der gram2 (gram2 (.old n)) i o := by
  cases n with
  | header => exact absurd rfl h1
  | vector => exact absurd rfl h3
  | field => exact field_drop h
  | fieldExposure => exact lit_skip (hn.pre (by decide)) (lit_skip (hn.pre (by decide)) h)
  | eventDirection => exact lit_skip (hn.pre (by decide)) (lit_skip (hn.pre (by decide)) h)
  | _ => exact h

/-- the elements of a list -/
def items : Exp NT := .star (.seq fieldItem ws)

/-- Expressions in which a reported vector is never dropped by a failure of what follows, and a vector occurs only in
lists closed by a bracket. -/
inductive Nm : Exp NT → Prop
  | eps : Nm .eps
  | lit {s} : Nm (.lit s)
  | cls {p} : Nm (.cls p)
  | list : Nm (.seq items (.seq (.cut (.lit [']'])) ws))
  | seq {a b} : Nm a → Nm b → (canRep vecTbl a && canFail failTbl b) = false → Nm (.seq a b)
  | alt {a b} : Nm a → Nm b → Nm (.alt a b)
  | star {a} : Nm a → Nm (.star a)
  | nt {n} : n ≠ .header → n ≠ .vrmlFile → n ≠ .vector → Nm (.nt n)
  | silent {n} : n ≠ .header → n ≠ .vrmlFile → n ≠ .vector → Nm (.silent n)
  | cut {a} : Nm a → Nm (.cut a)
  | eof : Nm .eof

theorem nm_ok (n : NT) (h1 : n ≠ .header) (h2 : n ≠ .vrmlFile) (h3 : n ≠ .vector) : Nm (gram n) := by
  cases n <;> first | contradiction | (repeat (first | exact Nm.list | decide | apply Nm.seq | apply Nm.alt | constructor))

/-- the elements of a list other than vectors -/
def plainItem : Exp NT := .alts [.nt .sfNumber, .nt .sfBool, .nt .sfString, useGroup, .nt .script, .nt .node]

theorem nm_plainItem : Nm plainItem := by
  repeat (first | decide | apply Nm.seq | apply Nm.alt | constructor)

theorem vec_fails (i) : Der gram2 (.nt (.old .vector)) i .fail := by
  refine .ntFail ?_
  cases i with
  | nil => exact .clsEnd
  | cons c i => exact .clsFail rfl

/-- No other element begins with a bracket. -/
theorem bracket_fails (r : List Char) : Der gram2 (lift plainItem) ('[' :: r) .fail := by
  have lf : ∀ c s, c ≠ '[' → Der gram2 (lit2 (c :: s)) ('[' :: r) .fail := by
    intro c s hc
    refine .litFail (fun ⟨t, ht⟩ => ?_)
    simp only [List.cons_append, List.cons.injEq] at ht
    exact hc ht.1
  have hname : Der gram2 (.nt (.old .name)) ('[' :: r) .fail := .ntFail (.seqFail1 (.clsFail rfl))
  have hdef : Der gram2 (lift defGroup) ('[' :: r) (.ok [] [] ('[' :: r)) := .altR (.seqFail1 (lf _ _ (by decide))) (.eps _)
  refine .altR ?_ (.altR ?_ (.altR ?_ (.altR ?_ (.altR ?_ ?_))))
  · refine .ntFail (.seqFail2 (t1 := []) (m1 := []) (.starNil (.clsFail rfl)) (.altR (.seqFail1 (lf _ _ (by decide))) (.seqFail1 (.seqFail1 (.clsFail rfl)))))
  · exact .ntFail (.altR (lf _ _ (by decide)) (lf _ _ (by decide)))
  · exact .ntFail (.seqFail1 (lf _ _ (by decide)))
  · exact .seqFail1 (lf _ _ (by decide))
  · exact .ntFail (.seqFail2 hdef (.seqFail1 (lf _ _ (by decide))))
  · exact .ntFail (.seqFail2 hdef (.seqFail1 (.ntFail hname)))

theorem vec_starts {i o} (h : Der gram (.nt .vector) i o) (ho : o ≠ .fail) : ∃ r, i = '[' :: r := by
  have key : ∀ o, Der gram (gram .vector) i o → o ≠ .fail → ∃ r, i = '[' :: r := by
    intro o h ho
    cases h with
    | seq h1 h2 => cases h1; exact ⟨_, rfl⟩
    | seqFail1 h1 => exact absurd rfl ho
    | seqErr1 h1 => cases h1
    | seqFail2 h1 h2 => exact absurd rfl ho
    | seqErr2 h1 h2 => cases h1; exact ⟨_, rfl⟩
  cases h with
  | nt h => exact key _ h (by simp)
  | ntFail h => exact absurd rfl ho
  | ntErr h => exact key _ h (by simp)

/-- what holds for elements of lists -/
def ItemSim (e : Exp NT) (i : List Char) (o : Out NT) : Prop :=
  Der gram2 (lift e) i (conv o) ∨ (conv o = .err ∧ (∃ r, i = '[' :: r) ∧ Der gram2 (lift e) i .fail)

/-- what holds for the elements of a list -/
def ItemsSim (e : Exp NT) (i : List Char) (o : Out NT) : Prop :=
  Der gram2 (lift e) i (conv o) ∨ (conv o = .err ∧ ∃ ts m r, Der gram2 (lift e) i (.ok ts m ('[' :: r)))

theorem conv_vec {ts m r} (h : noVecs ts = false) : conv (.ok ts m r) = .err := by simp [conv, h]
theorem conv_ok {ts m r} (h : noVecs ts = true) : conv (.ok ts m r) = .ok (liftTs ts) m r := by simp [conv, h]

theorem conv_seq {t1 t2 m m1 m2 r r1} (h : conv (.ok (t1 ++ t2) m r) = .err ∨ True) :
    (noVecs t1 = true → noVecs t2 = true → conv (.ok (t1 ++ t2) m r) = .ok (liftTs t1 ++ liftTs t2) m r) ∧
    (conv (.ok t1 m1 r1) = .err → conv (.ok (t1 ++ t2) m r) = .err) ∧ (conv (.ok t2 m2 r) = .err → conv (.ok (t1 ++ t2) m r) = .err) := by
  simp only [conv, noVecs_append, Bool.and_eq_true, liftTs_append]
  cases noVecs t1 <;> cases noVecs t2 <;> simp

theorem der_seq {a b : Exp NT} {i t1 m1 r1 t2 m2 r2} (h1 : Der gram2 (lift a) i (conv (.ok t1 m1 r1))) (h2 : Der gram2 (lift b) r1 (conv (.ok t2 m2 r2))) :
    Der gram2 (lift (.seq a b)) i (conv (.ok (t1 ++ t2) (m1 ++ m2) r2)) := by
  cases e1 : noVecs t1 with
  | false =>
    rw [conv_vec e1] at h1
    rw [conv_vec (by rw [noVecs_append, e1]; rfl)]
    exact .seqErr1 h1
  | true =>
    rw [conv_ok e1] at h1
    cases e2 : noVecs t2 with
    | false =>
      rw [conv_vec e2] at h2
      rw [conv_vec (by rw [noVecs_append, e1, e2]; rfl)]
      exact .seqErr2 h1 h2
    | true =>
      rw [conv_ok e2] at h2
      rw [conv_ok (by rw [noVecs_append, e1, e2]; rfl), liftTs_append]
      exact .seq h1 h2

theorem der_seqErr2 {a b : Exp NT} {i t1 m1 r1} (h1 : Der gram2 (lift a) i (conv (.ok t1 m1 r1))) (h2 : Der gram2 (lift b) r1 .err) :
    Der gram2 (lift (.seq a b)) i .err := by
  cases e1 : noVecs t1 with
  | false => rw [conv_vec e1] at h1; exact .seqErr1 h1
  | true => rw [conv_ok e1] at h1; exact .seqErr2 h1 h2

theorem der_starCons {a : Exp NT} {i t1 m1 r1 t2 m2 r2} (h1 : Der gram2 (lift a) i (conv (.ok t1 m1 r1))) (hm : m1 ≠ [])
    (h2 : Der gram2 (lift (.star a)) r1 (conv (.ok t2 m2 r2))) : Der gram2 (lift (.star a)) i (conv (.ok (t1 ++ t2) (m1 ++ m2) r2)) := by
  cases e1 : noVecs t1 with
  | false =>
    rw [conv_vec e1] at h1
    rw [conv_vec (by rw [noVecs_append, e1]; rfl)]
    exact .starErr1 h1
  | true =>
    rw [conv_ok e1] at h1
    cases e2 : noVecs t2 with
    | false =>
      rw [conv_vec e2] at h2
      rw [conv_vec (by rw [noVecs_append, e1, e2]; rfl)]
      exact .starErr2 h1 hm h2
    | true =>
      rw [conv_ok e2] at h2
      rw [conv_ok (by rw [noVecs_append, e1, e2]; rfl), liftTs_append]
      exact .starCons h1 hm h2

theorem der_starErr2 {a : Exp NT} {i t1 m1 r1} (h1 : Der gram2 (lift a) i (conv (.ok t1 m1 r1))) (hm : m1 ≠ []) (h2 : Der gram2 (lift (.star a)) r1 .err) :
    Der gram2 (lift (.star a)) i .err := by
  cases e1 : noVecs t1 with
  | false => rw [conv_vec e1] at h1; exact .starErr1 h1
  | true => rw [conv_ok e1] at h1; exact .starErr2 h1 hm h2

theorem der_nt {n : NT} {i o} (h : Der gram2 (gram2 (.old n)) i (conv o)) (hv : n ≠ .vector) :
    Der gram2 (.nt (.old n)) i (conv (match o with | .ok t m r => .ok [.node n m t] m r | .fail => .fail | .err => .err)) := by
  cases o with
  | fail => exact .ntFail h
  | err => exact .ntErr h
  | ok t m r =>
    have e : noVecs [.node n m t] = noVecs t := by
      have : (n != .vector) = true := by simpa using hv
      simp [noVecs, noVec, this]
    cases e1 : noVecs t with
    | false => rw [conv_vec e1] at h; rw [show conv _ = .err from conv_vec (e.trans e1)]; exact .ntErr h
    | true => rw [conv_ok e1] at h; rw [show conv _ = _ from conv_ok (e.trans e1)]; exact .nt h

theorem der_silent {n : NT} {i o} (h : Der gram2 (gram2 (.old n)) i o) : Der gram2 (.silent (.old n)) i o := by
  cases o with
  | fail => exact .silentFail h
  | err => exact .silentErr h
  | ok t m r => exact .silent h

theorem conv_noVec {e i ts m r} (h : Der gram e i (.ok ts m r)) (hc : canRep vecTbl e = false) : conv (.ok ts m r) = .ok (liftTs ts) m r :=
  conv_ok (canRep_sound h _ _ _ rfl hc)

theorem sim {e i o} (h : Der gram e i o) : NoNew i →
    (Nm e → Der gram2 (lift e) i (conv o)) ∧ (e = fieldItem ∨ e = .seq fieldItem ws → ItemSim e i o) ∧ (e = items → ItemsSim e i o) := by
  induction h with
  | eps i => intro _; refine ⟨fun _ => .eps i, ?_, ?_⟩ <;> simp [fieldItem, items, Exp.alts, Exp.seqs]
  | lit s r => intro _; refine ⟨fun _ => .lit s r, ?_, ?_⟩ <;> simp [fieldItem, items, Exp.alts, Exp.seqs]
  | litFail h => intro _; refine ⟨fun _ => .litFail h, ?_, ?_⟩ <;> simp [fieldItem, items, Exp.alts, Exp.seqs]
  | cls h => intro _; refine ⟨fun _ => .cls h, ?_, ?_⟩ <;> simp [fieldItem, items, Exp.alts, Exp.seqs]
  | clsFail h => intro _; refine ⟨fun _ => .clsFail h, ?_, ?_⟩ <;> simp [fieldItem, items, Exp.alts, Exp.seqs]
  | clsEnd => intro _; refine ⟨fun _ => .clsEnd, ?_, ?_⟩ <;> simp [fieldItem, items, Exp.alts, Exp.seqs]
  | eof => intro _; refine ⟨fun _ => .eof, ?_, ?_⟩ <;> simp [fieldItem, items, Exp.alts, Exp.seqs]
  | eofFail => intro _; refine ⟨fun _ => .eofFail, ?_, ?_⟩ <;> simp [fieldItem, items, Exp.alts, Exp.seqs]
  | @seq a b i t1 m1 r1 t2 m2 r2 h1 h2 ih1 ih2 =>
    intro hn
    have ih1 := ih1 hn
    have ih2 := ih2 (hn.rest h1)
    refine ⟨fun hk => ?_, fun he => ?_, fun he => by cases he⟩
    · cases hk with
      | list =>
        have h2' := ih2.1 (by repeat (first | decide | constructor))
        rcases ih1.2.2 rfl with h | ⟨he, ts, m, r, h⟩
        · exact der_seq h h2'
        · have : conv (.ok (t1 ++ t2) (m1 ++ m2) r2) = .err := ((conv_seq (m1 := m1) (r1 := r1) (m2 := m2) (.inr trivial)).2.1 he)
          rw [this]
          exact .seqErr2 h (.seqErr1 (.cutFail (.litFail (by rintro ⟨t, ht⟩; cases ht))))
      | seq ha hb hc => exact der_seq (ih1.1 ha) (ih2.1 hb)
    · rcases he with he | he
      · simp [fieldItem, Exp.alts] at he
      · cases he
        have h2' := ih2.1 (.silent (by decide) (by decide) (by decide))
        rcases ih1.2.1 (.inl rfl) with h | ⟨he, hr, h⟩
        · exact .inl (der_seq h h2')
        · exact .inr ⟨(conv_seq (m1 := m1) (r1 := r1) (m2 := m2) (.inr trivial)).2.1 he, hr, .seqFail1 h⟩
  | @seqFail1 a b i h1 ih1 =>
    intro hn
    have ih1 := ih1 hn
    refine ⟨fun hk => ?_, fun he => ?_, fun he => by cases he⟩
    · cases hk with
      | list => exact absurd h1 star_not_fail
      | seq ha hb hc => exact .seqFail1 (ih1.1 ha)
    · rcases he with he | he
      · simp [fieldItem, Exp.alts] at he
      · cases he
        rcases ih1.2.1 (.inl rfl) with h | ⟨he, hr, h⟩
        · exact .inl (.seqFail1 h)
        · cases he
  | @seqErr1 a b i h1 ih1 =>
    intro hn
    have ih1 := ih1 hn
    refine ⟨fun hk => ?_, fun he => ?_, fun he => by cases he⟩
    · cases hk with
      | list =>
        rcases ih1.2.2 rfl with h | ⟨he, ts, m, r, h⟩
        · exact .seqErr1 h
        · exact .seqErr2 h (.seqErr1 (.cutFail (.litFail (by rintro ⟨t, ht⟩; cases ht))))
      | seq ha hb hc => exact .seqErr1 (ih1.1 ha)
    · rcases he with he | he
      · simp [fieldItem, Exp.alts] at he
      · cases he
        rcases ih1.2.1 (.inl rfl) with h | ⟨he, hr, h⟩
        · exact .inl (.seqErr1 h)
        · exact .inr ⟨rfl, hr, .seqFail1 h⟩
  | @seqFail2 a b i t1 m1 r1 h1 h2 ih1 ih2 =>
    intro hn
    have ih1 := ih1 hn
    have ih2 := ih2 (hn.rest h1)
    refine ⟨fun hk => ?_, fun he => ?_, fun he => by cases he⟩
    · cases hk with
      | list => exact absurd (canFail_sound h2 rfl) (by decide)
      | seq ha hb hc =>
        rw [canFail_sound h2 rfl, Bool.and_true] at hc
        have h := ih1.1 ha
        rw [conv_noVec h1 hc] at h
        exact .seqFail2 h (ih2.1 hb)
    · rcases he with he | he
      · simp [fieldItem, Exp.alts] at he
      · cases he
        exact absurd (canFail_sound h2 rfl) (by decide)
  | @seqErr2 a b i t1 m1 r1 h1 h2 ih1 ih2 =>
    intro hn
    have ih1 := ih1 hn
    have ih2 := ih2 (hn.rest h1)
    refine ⟨fun hk => ?_, fun he => ?_, fun he => by cases he⟩
    · cases hk with
      | list =>
        have h2' := ih2.1 (by repeat (first | decide | constructor))
        rcases ih1.2.2 rfl with h | ⟨he, ts, m, r, h⟩
        · exact der_seqErr2 h h2'
        · exact .seqErr2 h (.seqErr1 (.cutFail (.litFail (by rintro ⟨t, ht⟩; cases ht))))
      | seq ha hb hc => exact der_seqErr2 (ih1.1 ha) (ih2.1 hb)
    · rcases he with he | he
      · simp [fieldItem, Exp.alts] at he
      · cases he
        have h2' := ih2.1 (.silent (by decide) (by decide) (by decide))
        rcases ih1.2.1 (.inl rfl) with h | ⟨he, hr, h⟩
        · exact .inl (der_seqErr2 h h2')
        · exact .inr ⟨rfl, hr, .seqFail1 h⟩
  | @altL a b i t m r h ih =>
    intro hn
    have ih := ih hn
    refine ⟨fun hk => ?_, fun he => ?_, fun he => by cases he⟩
    · cases hk with
      | alt ha hb =>
        have h' := ih.1 ha
        cases e1 : noVecs t with
        | false => rw [conv_vec e1] at h' ⊢; exact .altErr h'
        | true => rw [conv_ok e1] at h' ⊢; exact .altL h'
    · rcases he with he | he
      · cases he
        obtain ⟨r', rfl⟩ := vec_starts h (by simp)
        refine .inr ⟨conv_vec ?_, ⟨r', rfl⟩, .altR (vec_fails _) (bracket_fails r')⟩
        cases h with
        | nt h => rfl
      · cases he
  | @altErr a b i h ih =>
    intro hn
    have ih := ih hn
    refine ⟨fun hk => ?_, fun he => ?_, fun he => by cases he⟩
    · cases hk with
      | alt ha hb => exact .altErr (ih.1 ha)
    · rcases he with he | he
      · cases he
        obtain ⟨r', rfl⟩ := vec_starts h (by simp)
        exact .inr ⟨rfl, ⟨r', rfl⟩, .altR (vec_fails _) (bracket_fails r')⟩
      · cases he
  | @altR a b i o h1 h2 ih1 ih2 =>
    intro hn
    have ih1 := ih1 hn
    have ih2 := ih2 hn
    refine ⟨fun hk => ?_, fun he => ?_, fun he => by cases he⟩
    · cases hk with
      | alt ha hb => exact .altR (ih1.1 ha) (ih2.1 hb)
    · rcases he with he | he
      · cases he
        exact .inl (.altR (vec_fails _) (ih2.1 nm_plainItem))
      · cases he
  | @starNil a i h ih =>
    intro hn
    have ih := ih hn
    refine ⟨fun hk => ?_, fun he => (by rcases he with he | he <;> cases he), fun he => ?_⟩
    · cases hk with
      | star ha => exact .starNil (ih.1 ha)
    · cases he
      rcases ih.2.1 (.inr rfl) with h | ⟨he, hr, h⟩
      · exact .inl (.starNil h)
      · cases he
  | @starErr1 a i h ih =>
    intro hn
    have ih := ih hn
    refine ⟨fun hk => ?_, fun he => (by rcases he with he | he <;> cases he), fun he => ?_⟩
    · cases hk with
      | star ha => exact .starErr1 (ih.1 ha)
    · cases he
      rcases ih.2.1 (.inr rfl) with h | ⟨he, ⟨r, rfl⟩, h⟩
      · exact .inl (.starErr1 h)
      · exact .inr ⟨rfl, _, _, _, .starNil h⟩
  | @starCons a i t1 m1 r1 t2 m2 r2 h1 hm h2 ih1 ih2 =>
    intro hn
    have ih1 := ih1 hn
    have ih2 := ih2 (hn.rest h1)
    refine ⟨fun hk => ?_, fun he => (by rcases he with he | he <;> cases he), fun he => ?_⟩
    · cases hk with
      | star ha => exact der_starCons (ih1.1 ha) hm (ih2.1 (.star ha))
    · cases he
      rcases ih1.2.1 (.inr rfl) with h | ⟨he, ⟨r, rfl⟩, h⟩
      · rcases ih2.2.2 rfl with h' | ⟨he', ts, m, r, h'⟩
        · exact .inl (der_starCons h hm h')
        · have : conv (.ok (t1 ++ t2) (m1 ++ m2) r2) = .err := ((conv_seq (m1 := m1) (r1 := r1) (m2 := m2) (.inr trivial)).2.2 he')
          cases e1 : noVecs t1 with
          | false => rw [conv_vec e1] at h; rw [ItemsSim, this]; exact .inl (.starErr1 h)
          | true => rw [conv_ok e1] at h; exact .inr ⟨this, _, _, _, .starCons h hm h'⟩
      · exact .inr ⟨(conv_seq (m1 := m1) (r1 := r1) (m2 := m2) (.inr trivial)).2.1 he, _, _, _, .starNil h⟩
  | @starErr2 a i t1 m1 r1 h1 hm h2 ih1 ih2 =>
    intro hn
    have ih1 := ih1 hn
    have ih2 := ih2 (hn.rest h1)
    refine ⟨fun hk => ?_, fun he => (by rcases he with he | he <;> cases he), fun he => ?_⟩
    · cases hk with
      | star ha => exact der_starErr2 (ih1.1 ha) hm (ih2.1 (.star ha))
    · cases he
      rcases ih1.2.1 (.inr rfl) with h | ⟨he, ⟨r, rfl⟩, h⟩
      · rcases ih2.2.2 rfl with h' | ⟨he', ts, m, r, h'⟩
        · exact .inl (der_starErr2 h hm h')
        · cases e1 : noVecs t1 with
          | false => rw [conv_vec e1] at h; exact .inl (.starErr1 h)
          | true => rw [conv_ok e1] at h; exact .inr ⟨rfl, _, _, _, .starCons h hm h'⟩
      · exact .inr ⟨rfl, _, _, _, .starNil h⟩
  | @nt n i t m r h ih =>
    intro hn
    refine ⟨fun hk => ?_, fun he => (by rcases he with he | he <;> cases he), fun he => by cases he⟩
    cases hk with
    | nt h1 h2 h3 => exact der_nt (step h1 h2 h3 hn ((ih hn).1 (nm_ok n h1 h2 h3))) h3
  | @ntFail n i h ih =>
    intro hn
    refine ⟨fun hk => ?_, fun he => (by rcases he with he | he <;> cases he), fun he => by cases he⟩
    cases hk with
    | nt h1 h2 h3 => exact der_nt (o := .fail) (step h1 h2 h3 hn ((ih hn).1 (nm_ok n h1 h2 h3))) h3
  | @ntErr n i h ih =>
    intro hn
    refine ⟨fun hk => ?_, fun he => (by rcases he with he | he <;> cases he), fun he => by cases he⟩
    cases hk with
    | nt h1 h2 h3 => exact der_nt (o := .err) (step h1 h2 h3 hn ((ih hn).1 (nm_ok n h1 h2 h3))) h3
  | @silent n i t m r h ih =>
    intro hn
    refine ⟨fun hk => ?_, fun he => (by rcases he with he | he <;> cases he), fun he => by cases he⟩
    cases hk with
    | silent h1 h2 h3 => exact der_silent (step h1 h2 h3 hn ((ih hn).1 (nm_ok n h1 h2 h3)))
  | @silentFail n i h ih =>
    intro hn
    refine ⟨fun hk => ?_, fun he => (by rcases he with he | he <;> cases he), fun he => by cases he⟩
    cases hk with
    | silent h1 h2 h3 => exact der_silent (step h1 h2 h3 hn ((ih hn).1 (nm_ok n h1 h2 h3)))
  | @silentErr n i h ih =>
    intro hn
    refine ⟨fun hk => ?_, fun he => (by rcases he with he | he <;> cases he), fun he => by cases he⟩
    cases hk with
    | silent h1 h2 h3 => exact der_silent (step h1 h2 h3 hn ((ih hn).1 (nm_ok n h1 h2 h3)))
  | @cut a i t m r h ih =>
    intro hn
    refine ⟨fun hk => ?_, fun he => (by rcases he with he | he <;> cases he), fun he => by cases he⟩
    cases hk with
    | cut ha =>
      have h' := (ih hn).1 ha
      cases e1 : noVecs t with
      | false => rw [conv_vec e1] at h' ⊢; exact .cutErr h'
      | true => rw [conv_ok e1] at h' ⊢; exact .cut h'
  | @cutFail a i h ih =>
    intro hn
    refine ⟨fun hk => ?_, fun he => (by rcases he with he | he <;> cases he), fun he => by cases he⟩
    cases hk with
    | cut ha => exact .cutFail ((ih hn).1 ha)
  | @cutErr a i h ih =>
    intro hn
    refine ⟨fun hk => ?_, fun he => (by rcases he with he | he <;> cases he), fun he => by cases he⟩
    cases hk with
    | cut ha => exact .cutErr ((ih hn).1 ha)

end Verif.X3D
