import Verif.Lemmas.X3D
import Verif.Lemmas.Layout5
import Verif.Props.ProtoText
/-!
C70: the X3D (vrml200x) grammar.
-/
namespace Verif.X3D
open Verif.Peg Verif.Grammar Verif.TextOut Verif.SceneText
open Verif.Lin hiding disp_node disp_attr
variable {F : Type}

/-! ### Every text has one outcome -/

def emptyTbl2 : NT2 → Bool
  | .old n => match n with
    | .vrmlScene | .extProtoURL | .ts | .eof => true
    | _ => false
  | _ => false

def rankTbl2 : NT2 → Nat
  | .old .header => 6
  | .old .vrmlFile => 7
  | .old n => rankTbl n
  | .headerStatement | .headerComment | .newLine | .componentStatement | .metaStatement | .profileStatement => 5
  | _ => 5

theorem gram2_empty : ∀ n, canEmpty emptyTbl2 (gram2 n) = true → emptyTbl2 n = true := by
  intro n; cases n with
  | old n => cases n <;> decide
  | _ => decide

theorem gram2_ok : ∀ n, okExp emptyTbl2 rankTbl2 8 (rankTbl2 n) (gram2 n) = true := by
  intro n; cases n with
  | old n => cases n <;> decide
  | _ => decide

/-- **C70** Every production of the X3D grammar, on every text, has exactly one outcome. -/
theorem C70_one_outcome (n : NT2) (i : List Char) : ∃ o, Der gram2 (.nt n) i o ∧ ∀ o', Der gram2 (.nt n) i o' → o' = o := by
  obtain ⟨o, ho⟩ := total gram2_empty gram2_ok i.length 8 (.nt n) i rfl (by cases n with | old n => cases n <;> decide | _ => decide)
  exact ⟨o, ho, fun o' h' => (ho.det o' h').symm⟩

/-- **C70** A parse never invents, drops or reorders text. -/
theorem C70_parse_splits_text {n : NT2} {i m r : List Char} {ts : List (Tree NT2)} (h : Der gram2 (.nt n) i (.ok ts m r)) : i = m ++ r := h.append

/-- **C70** A file is accepted as a whole, or raises a syntax error, or is refused because its header is refused; it is
never accepted in part. -/
theorem C70_file_whole (i : List Char) :
    (∃ ts, Der gram2 (.nt (.old .vrmlFile)) i (.ok ts i [])) ∨ Der gram2 (.nt (.old .vrmlFile)) i .err ∨
    (Der gram2 (.nt (.old .vrmlFile)) i .fail ∧ Der gram2 (.nt (.old .header)) i .fail) := by
  obtain ⟨o, ho, -⟩ := C70_one_outcome (.old .vrmlFile) i
  cases o with
  | err => exact .inr (.inl ho)
  | fail =>
    refine .inr (.inr ⟨ho, ?_⟩)
    cases ho with
    | ntFail h => cases h with
      | seqFail1 h => exact h
      | seqFail2 _ h => cases h with
        | seqFail1 h => cases h with
          | ntFail h => exact absurd h star_not_fail
        | seqFail2 _ h => cases h
  | ok ts m r =>
    left
    have hi := ho.append
    have hr : r = [] := by
      cases ho with
      | nt h => cases h with
        | seq _ h => cases h with
          | seq _ h => cases h with
            | cut h => cases h with
              | nt h => cases h; rfl
    subst hr
    simp only [List.append_nil] at hi
    subst hi
    exact ⟨ts, ho⟩

/-! ### The header -/

theorem starCls2 {p : Char → Bool} : ∀ {m r : List Char}, (∀ c ∈ m, p c = true) → (∀ c s, r = c :: s → p c = false) →
    Der gram2 (.star (.cls p)) (m ++ r) (.ok [] m r)
  | [], [], _, _ => .starNil .clsEnd
  | [], c :: s, _, hr => .starNil (.clsFail (hr c s rfl))
  | c :: m, r, hm, hr => Der.starCons (t1 := []) (m1 := [c]) (t2 := []) (.cls (hm c (by simp))) (by simp) (starCls2 (fun d hd => hm d (by simp [hd])) hr)

theorem lit2_fail {s i : List Char} (h : ¬ s <+: i) : Der gram2 (lit2 s) i .fail := .litFail h

theorem head_fail {c d : Char} {s i : List Char} (h : c ≠ d) : Der gram2 (lit2 (c :: s)) (d :: i) .fail := by
  refine .litFail (fun ⟨t, ht⟩ => ?_)
  simp only [List.cons_append, List.cons.injEq] at ht
  exact h ht.1

/-- one blank before something that is neither blank nor a comment -/
theorem ws2_one {b c : Char} {r : List Char} (hb : isBlank b = true) (hc : isBlank c = false) (hc' : c ≠ '#') : Der gram2 ws2 (b :: c :: r) (.ok [] [b] (c :: r)) := by
  have h0 : Der gram2 (.star (.cls isBlank)) (c :: r) (.ok [] [] (c :: r)) := .starNil (.clsFail hc)
  have h1 : Der gram2 (.plus (.cls isBlank)) (b :: c :: r) (.ok ([] ++ []) ([b] ++ []) (c :: r)) := .seq (.cls hb) h0
  have h2 : Der gram2 (gram2 (.old .ts)) (c :: r) (.ok [] [] (c :: r)) :=
    .starNil (.altR (.seqFail1 (.clsFail hc)) (.seqFail1 (.seqFail1 (head_fail (Ne.symm hc')))))
  exact .silent (.starCons (.altL h1) (by simp) h2)

theorem nl_der (r : List Char) : Der gram2 nl2 ('\n' :: r) (.ok [] ['\n'] r) :=
  .silent (.altR (head_fail (by decide)) (.altR (head_fail (by decide)) (.lit ['\n'] r)))

theorem name2_der {nm r : List Char} (h : LegalName nm) (hr : NameEnd r) :
    Der gram2 (.nt (.old .name)) (nm ++ r) (.ok [.node (.old .name) nm []] nm r) := by
  obtain ⟨c, s, rfl, hc, hs⟩ := h
  have h1 : Der gram2 (gram2 (.old .name)) (c :: (s ++ r)) (.ok ([] ++ []) ([c] ++ s) r) := .seq (.cls hc) (starCls2 hs (fun d t hd => hr d t hd))
  exact Der.nt (g := gram2) (n := NT2.old .name) h1

/-- the comment of a header line -/
theorem comment_der {c r : List Char} (h1 : '\n' ∉ c) (h2 : '\r' ∉ c) :
    ∃ ts, Der gram2 (.opt (.nt .headerComment)) (c ++ '\n' :: r) (.ok ts c ('\n' :: r)) := by
  have hp : ∀ d ∈ c, notEol d = true := by
    intro d hd
    have h3 : d ≠ '\n' := by rintro rfl; exact h1 hd
    have h4 : d ≠ '\r' := by rintro rfl; exact h2 hd
    simp [notEol, h3, h4]
  cases c with
  | nil => exact ⟨_, .altR (.ntFail (.seqFail1 (.clsFail rfl))) (.eps _)⟩
  | cons d c =>
    have : Der gram2 (gram2 .headerComment) (d :: (c ++ '\n' :: r)) (.ok ([] ++ []) ([d] ++ c) ('\n' :: r)) :=
      .seq (.cls (hp d (by simp))) (starCls2 (fun e he => hp e (by simp [he])) (fun e s he => by cases he; rfl))
    exact ⟨_, .altL (.nt this)⟩

theorem legal_nonblank {nm : List Char} (h : LegalName nm) : ∃ c s, nm = c :: s ∧ isBlank c = false ∧ c ≠ '#' := by
  obtain ⟨c, s, rfl, hc, -⟩ := h
  refine ⟨c, s, rfl, ?_, ?_⟩
  · cases hb : isBlank c with
    | false => rfl
    | true =>
      rw [isBlank_iff] at hb
      simp only [List.mem_cons, List.not_mem_nil, or_false] at hb
      rcases hb with rfl | rfl | rfl | rfl | rfl | rfl | rfl <;> exact absurd hc (by decide)
  · rintro rfl; exact absurd hc (by decide)

/-- the two header lines and what the other header statements take -/
theorem header_any {c nm r r1 r2 mC mM : List Char} {tsC tsM : List (Tree NT2)} (hc : GoodComment c) (hn : LegalName nm)
    (hcs : Der gram2 (.star (.nt .componentStatement)) r (.ok tsC mC r1)) (hms : Der gram2 (.star (.nt .metaStatement)) r1 (.ok tsM mM r2)) :
    ∃ ts, Der gram2 (.nt (.old .header)) (x3dHeader c nm ++ r) (.ok [.node (.old .header) (x3dHeader c nm ++ (mC ++ mM)) ts] (x3dHeader c nm ++ (mC ++ mM)) r2) := by
  obtain ⟨n1, n2, n3⟩ := hc
  obtain ⟨a, s, rfl, ha, ha'⟩ := legal_nonblank hn
  obtain ⟨ts, hcm⟩ := comment_der (r := chars "PROFILE " ++ (a :: s ++ '\n' :: r)) n1 n2
  have hfirst : Der gram2 (.seqs [lit2 ['#', 'X', '3', 'D'], ws2, .nt (.old .sfNumber), ws2, lit2 ['u', 't', 'f', '8'], ws2, .opt (.nt .headerComment), nl2])
      ('#' :: (c ++ '\n' :: (chars "PROFILE " ++ (a :: s ++ '\n' :: r)))) .fail := by
    rcases n3 with n3 | ⟨t, rfl⟩
    · refine .seqFail1 (lit2_fail ?_)
      rintro ⟨t, ht⟩
      simp only [List.cons_append, List.nil_append, List.cons.injEq, true_and] at ht
      match c, ht with
      | [], ht => simp at ht
      | [x], ht => simp at ht
      | [x, y], ht => simp at ht
      | x :: y :: z :: c, ht =>
        simp only [List.cons_append, List.cons.injEq] at ht
        obtain ⟨rfl, rfl, rfl, -⟩ := ht
        exact n3 ⟨c, rfl⟩
    · refine .seqFail2 (t1 := []) (m1 := ['#', 'X', '3', 'D']) (.lit ['#', 'X', '3', 'D'] _) (.seqFail2 (ws2_one (b := ' ') (c := 'V') rfl rfl (by decide)) (.seqFail1 (.ntFail ?_)))
      exact .seqFail2 (t1 := []) (m1 := []) (.starNil (.clsFail rfl)) (.altR (.seqFail1 (head_fail (by decide))) (.seqFail1 (.seqFail1 (.clsFail rfl))))
  have hst : Der gram2 (.nt .headerStatement) ('#' :: (c ++ '\n' :: (chars "PROFILE " ++ (a :: s ++ '\n' :: r))))
      (.ok [.node .headerStatement ('#' :: (c ++ ['\n'])) ts] ('#' :: (c ++ ['\n'])) (chars "PROFILE " ++ (a :: s ++ '\n' :: r))) := by
    have : Der gram2 (gram2 .headerStatement) ('#' :: (c ++ '\n' :: (chars "PROFILE " ++ (a :: s ++ '\n' :: r)))) (.ok ([] ++ (ts ++ [])) (['#'] ++ (c ++ ['\n']))
        (chars "PROFILE " ++ (a :: s ++ '\n' :: r))) := .altR hfirst (.seq (.lit ['#'] _) (.seq hcm (nl_der _)))
    simp only [List.append_nil, List.nil_append] at this
    exact .nt this
  have hpr : Der gram2 (.nt .profileStatement) (chars "PROFILE " ++ (a :: s ++ '\n' :: r))
      (.ok [.node .profileStatement (chars "PROFILE " ++ (a :: s ++ ['\n'])) [.node .profileName (a :: s) [.node (.old .name) (a :: s) []]]] (chars "PROFILE " ++ (a :: s ++ ['\n'])) r) := by
    have hname : Der gram2 (.nt .profileName) ((a :: s) ++ '\n' :: r) (.ok [.node .profileName (a :: s) [.node (.old .name) (a :: s) []]] (a :: s) ('\n' :: r)) :=
      .nt (name2_der hn (nameEnd_cons (by decide)))
    have : Der gram2 (gram2 .profileStatement) (chars "PROFILE " ++ (a :: s ++ '\n' :: r)) (.ok ([] ++ ([] ++ ([.node .profileName (a :: s) [.node (.old .name) (a :: s) []]] ++ [])))
        (['P', 'R', 'O', 'F', 'I', 'L', 'E'] ++ ([' '] ++ ((a :: s) ++ ['\n']))) r) :=
      .seq (.lit ['P', 'R', 'O', 'F', 'I', 'L', 'E'] _) (.seq (ws2_one rfl ha ha') (.seq hname (nl_der _)))
    exact .nt this
  have := Der.seq hst (Der.seq hpr (Der.seq hcs hms))
  have e1 : x3dHeader c (a :: s) ++ r = '#' :: (c ++ '\n' :: (chars "PROFILE " ++ (a :: s ++ '\n' :: r))) := by simp [x3dHeader]
  have e2 : '#' :: (c ++ ['\n']) ++ (chars "PROFILE " ++ (a :: s ++ ['\n']) ++ (mC ++ mM)) = x3dHeader c (a :: s) ++ (mC ++ mM) := by simp [x3dHeader]
  rw [e2] at this
  rw [e1]
  exact ⟨_, .nt this⟩

/-- the two header lines, before anything that is not another header statement -/
theorem header2_der {c nm r : List Char} (hc : GoodComment c) (hn : LegalName nm) (h1 : ¬ chars "COMPONENT" <+: r) (h2 : ¬ chars "META" <+: r) :
    ∃ ts, Der gram2 (.nt (.old .header)) (x3dHeader c nm ++ r) (.ok [.node (.old .header) (x3dHeader c nm) ts] (x3dHeader c nm) r) := by
  have hcs : Der gram2 (.star (.nt .componentStatement)) r (.ok [] [] r) := .starNil (.ntFail (.seqFail1 (lit2_fail h1)))
  have hms : Der gram2 (.star (.nt .metaStatement)) r (.ok [] [] r) := .starNil (.ntFail (.seqFail1 (lit2_fail h2)))
  obtain ⟨ts, h⟩ := header_any hc hn hcs hms
  simp only [List.append_nil] at h
  exact ⟨ts, h⟩

/-- A component statement as the grammar accepts it: blanks around the colon. -/
def componentLine (name level : List Char) : Text := chars "COMPONENT " ++ (name ++ chars " : " ++ level)

/-- A support level: digits, the first one not 0. -/
def GoodLevel (level : List Char) : Prop := level ≠ [] ∧ level.head? ≠ some '0' ∧ ∀ c ∈ level, c.isDigit = true

theorem digit_chars {c : Char} (h : c.isDigit = true) : isDigDot c = true ∧ isBlank c = false ∧ c ≠ '#' ∧ isSign c = false ∧ isNameRest c = true := by
  simp only [Char.isDigit, Bool.and_eq_true, decide_eq_true_eq] at h
  obtain ⟨h1, h2⟩ := h
  have g1 : 48 ≤ c.toNat := h1
  have g2 : c.toNat ≤ 57 := h2
  obtain ⟨n, hn⟩ : ∃ n, n = c.toNat := ⟨_, rfl⟩
  have hc : c = Char.ofNat n := by rw [hn, Char.ofNat_toNat]
  rw [← hn] at g1 g2
  clear hn h1 h2
  subst hc
  have : n = 48 ∨ n = 49 ∨ n = 50 ∨ n = 51 ∨ n = 52 ∨ n = 53 ∨ n = 54 ∨ n = 55 ∨ n = 56 ∨ n = 57 := by omega
  rcases this with rfl | rfl | rfl | rfl | rfl | rfl | rfl | rfl | rfl | rfl <;> decide

theorem level_der {level r : List Char} (h : GoodLevel level) : ∃ ts, Der gram2 (.nt (.old .sfNumber)) (level ++ '\n' :: r) (.ok ts level ('\n' :: r)) := by
  obtain ⟨h1, h2, h3⟩ := h
  match level, h1 with
  | d :: l, _ =>
  have hd := digit_chars (h3 d (by simp))
  have h0 : d ≠ '0' := fun e => h2 (by simp [e])
  have k1 : Der gram2 (.plus (.cls isDigDot)) (d :: (l ++ '\n' :: r)) (.ok ([] ++ []) ([d] ++ l) ('\n' :: r)) :=
    .seq (.cls hd.1) (starCls2 (fun e he => (digit_chars (h3 e (by simp [he]))).1) (fun e s he => by cases he; rfl))
  have k2 : Der gram2 (gram2 (.old .sfNumber)) (d :: (l ++ '\n' :: r)) (.ok ([] ++ ([] ++ [])) ([] ++ (([d] ++ l) ++ [])) ('\n' :: r)) :=
    .seq (.starNil (.clsFail hd.2.2.2.1)) (.altR (.seqFail1 (head_fail (Ne.symm h0))) (.seq k1 (.altR (.seqFail1 (.clsFail rfl)) (.eps _))))
  simp only [List.append_nil, List.nil_append] at k2
  exact ⟨_, .nt k2⟩

/-- the header with one component statement -/
theorem header3_der {c nm name level r : List Char} (hc : GoodComment c) (hn : LegalName nm) (hcn : LegalName name) (hl : GoodLevel level) :
    ∃ ts, Der gram2 (.nt (.old .header)) (x3dHeader c nm ++ componentLine name level ++ '\n' :: r)
      (.ok [.node (.old .header) (x3dHeader c nm ++ componentLine name level) ts] (x3dHeader c nm ++ componentLine name level) ('\n' :: r)) := by
  obtain ⟨ts, hlev⟩ := level_der (r := r) hl
  obtain ⟨d, l, rfl⟩ : ∃ d l, level = d :: l := by
    cases level with
    | nil => exact absurd rfl hl.1
    | cons d l => exact ⟨d, l, rfl⟩
  have hd := digit_chars (hl.2.2 d (by simp))
  have hlev' : Der gram2 (.nt .componentSupportLevel) (d :: l ++ '\n' :: r) (.ok _ (d :: l) ('\n' :: r)) := .nt hlev
  obtain ⟨a, s, rfl, ha, ha'⟩ := legal_nonblank hcn
  have hname : Der gram2 (.nt .componentNameId) ((a :: s) ++ ' ' :: ':' :: ' ' :: (d :: l ++ '\n' :: r)) (.ok _ (a :: s) (' ' :: ':' :: ' ' :: (d :: l ++ '\n' :: r))) :=
    .nt (name2_der hcn (nameEnd_cons (by decide)))
  have hst : ∃ t, Der gram2 (.nt .componentStatement) (componentLine (a :: s) (d :: l) ++ '\n' :: r) (.ok [t] (componentLine (a :: s) (d :: l)) ('\n' :: r)) := by
    have := Der.seq (g := gram2) (.lit ['C', 'O', 'M', 'P', 'O', 'N', 'E', 'N', 'T'] (' ' :: ((a :: s) ++ ' ' :: ':' :: ' ' :: (d :: l ++ '\n' :: r))))
      (.seq (ws2_one rfl ha ha') (.seq hname (.seq (ws2_one (b := ' ') (c := ':') rfl (by decide) (by decide))
        (.seq (.lit [':'] _) (.seq (ws2_one (b := ' ') rfl hd.2.1 hd.2.2.1) hlev')))))
    have := Der.nt (g := gram2) (n := .componentStatement) this
    simp only [componentLine, List.cons_append, List.nil_append, List.append_assoc] at this ⊢
    exact ⟨_, this⟩
  obtain ⟨t, hst⟩ := hst
  have hno : Der gram2 (.star (.nt .componentStatement)) ('\n' :: r) (.ok [] [] ('\n' :: r)) := .starNil (.ntFail (.seqFail1 (head_fail (by decide))))
  have hcs := Der.starCons hst (by simp [componentLine]) hno
  have hms : Der gram2 (.star (.nt .metaStatement)) ('\n' :: r) (.ok [] [] ('\n' :: r)) := .starNil (.ntFail (.seqFail1 (head_fail (by decide))))
  obtain ⟨ts, h⟩ := header_any hc hn hcs hms
  simp only [List.append_nil, ← List.append_assoc] at h
  exact ⟨ts, h⟩

/-- a string without quotes and backslashes -/
theorem string2_der {k r : List Char} (hk : ∀ c ∈ k, isPlain c = true) :
    ∃ ts, Der gram2 (.nt (.old .sfString)) ('"' :: (k ++ '"' :: r)) (.ok ts ('"' :: (k ++ ['"'])) r) := by
  have hend : Der gram2 (lift (.alts [.nt .charNoDblQuote, .nt .escapedChar, .nt .simpleBackslash])) ('"' :: r) .fail :=
    .altR (.ntFail (.seqFail1 (.clsFail rfl))) (.altR (.ntFail (.altR (head_fail (by decide)) (head_fail (by decide)))) (.ntFail (head_fail (by decide))))
  have hstar : ∃ ts, Der gram2 (.star (lift (.alts [.nt .charNoDblQuote, .nt .escapedChar, .nt .simpleBackslash]))) (k ++ '"' :: r) (.ok ts k ('"' :: r)) := by
    cases k with
    | nil => exact ⟨_, .starNil hend⟩
    | cons c k =>
      have h1 : Der gram2 (gram2 (.old .charNoDblQuote)) (c :: (k ++ '"' :: r)) (.ok ([] ++ []) ([c] ++ k) ('"' :: r)) :=
        .seq (.cls (hk c (by simp))) (starCls2 (fun d hd => hk d (by simp [hd])) (fun d s e => by cases e; rfl))
      have h2 := Der.starCons (T := NT2) (g := gram2) (a := lift (.alts [.nt .charNoDblQuote, .nt .escapedChar, .nt .simpleBackslash])) (.altL (.nt h1)) (by simp) (.starNil hend)
      simp only [List.append_nil] at h2
      exact ⟨_, h2⟩
  obtain ⟨ts, hstar⟩ := hstar
  have h3 : Der gram2 (gram2 (.old .sfString)) ('"' :: (k ++ '"' :: r)) (.ok ([] ++ (ts ++ [])) (['"'] ++ (k ++ ['"'])) r) :=
    .seq (.lit ['"'] _) (.seq hstar (.cut (.lit ['"'] r)))
  exact ⟨_, .nt h3⟩

/-- A META statement, with plain strings. -/
def metaLine (key value : List Char) : Text := chars "META \"" ++ (key ++ chars "\" \"" ++ value ++ chars "\"")

/-- the header with one META statement -/
theorem header4_der {c nm key value r : List Char} (hc : GoodComment c) (hn : LegalName nm) (hk : ∀ c ∈ key, isPlain c = true) (hv : ∀ c ∈ value, isPlain c = true) :
    ∃ ts, Der gram2 (.nt (.old .header)) (x3dHeader c nm ++ metaLine key value ++ '\n' :: r)
      (.ok [.node (.old .header) (x3dHeader c nm ++ metaLine key value) ts] (x3dHeader c nm ++ metaLine key value) ('\n' :: r)) := by
  obtain ⟨t2, h2⟩ := string2_der (r := '\n' :: r) hv
  obtain ⟨t1, h1⟩ := string2_der (r := ' ' :: '"' :: (value ++ '"' :: '\n' :: r)) hk
  have k1 : Der gram2 (.nt .metakey) ('"' :: (key ++ '"' :: ' ' :: '"' :: (value ++ '"' :: '\n' :: r))) (.ok _ ('"' :: (key ++ ['"'])) (' ' :: '"' :: (value ++ '"' :: '\n' :: r))) := .nt h1
  have k2 : Der gram2 (.nt .metavalue) ('"' :: (value ++ '"' :: '\n' :: r)) (.ok _ ('"' :: (value ++ ['"'])) ('\n' :: r)) := .nt h2
  have hst : ∃ t, Der gram2 (.nt .metaStatement) (metaLine key value ++ '\n' :: r) (.ok [t] (metaLine key value) ('\n' :: r)) := by
    have := Der.seq (g := gram2) (.lit ['M', 'E', 'T', 'A'] _) (.seq (ws2_one (b := ' ') (c := '"') rfl (by decide) (by decide))
      (.seq k1 (.seq (ws2_one (b := ' ') (c := '"') rfl (by decide) (by decide)) k2)))
    have := Der.nt (g := gram2) (n := .metaStatement) this
    simp only [metaLine, List.cons_append, List.nil_append, List.append_assoc] at this ⊢
    exact ⟨_, this⟩
  obtain ⟨t, hst⟩ := hst
  have hno : Der gram2 (.star (.nt .metaStatement)) ('\n' :: r) (.ok [] [] ('\n' :: r)) := .starNil (.ntFail (.seqFail1 (head_fail (by decide))))
  have hms := Der.starCons hst (by simp [metaLine]) hno
  have hcs : Der gram2 (.star (.nt .componentStatement)) (metaLine key value ++ '\n' :: r) (.ok [] [] _) := .starNil (.ntFail (.seqFail1 (head_fail (by decide))))
  obtain ⟨ts, h⟩ := header_any hc hn hcs hms
  simp only [List.append_nil, List.nil_append, ← List.append_assoc] at h
  exact ⟨ts, h⟩

/-! ### VRML97 scenes under an X3D header -/

/-- the scene and the end of the file -/
def sceneEof : Exp NT := .seq (.nt .vrmlScene) (.cut (.nt .eof))

theorem nm_sceneEof : Nm sceneEof := by
  repeat (first | decide | apply Nm.seq | constructor)

theorem sceneEof_total (i : List Char) : ∃ o, Der gram sceneEof i o :=
  total gram_empty gram_ok i.length 7 sceneEof i rfl (by decide)

theorem vector_tree {a : List Char} {ts m r} (h : Der gram sceneEof a (.ok ts m r)) :
    r = [] ∧ ∃ sm kids em ek, ts = [.node .vrmlScene sm kids, .node .eof em ek] := by
  cases h with
  | seq h1 h2 => cases h1 with
    | nt h1 => cases h2 with
      | cut h2 => cases h2 with
        | nt h2 => cases h2; exact ⟨rfl, _, _, _, _, rfl⟩

/-- a VRML97 file is its header line and the rest -/
theorem file97 {line a : List Char} (hl : '\n' ∉ line) {ts m} : Der gram (gram .vrmlFile) (line ++ '\n' :: a) (.ok ts m []) ↔
    ∃ ts' m', ts = .node .header line [] :: ts' ∧ m = line ++ m' ∧ Der gram sceneEof ('\n' :: a) (.ok ts' m' []) := by
  constructor
  · intro h
    cases h with
    | seq h1 h2 =>
      cases h1.det _ (Verif.Layout.header_der hl)
      exact ⟨_, _, rfl, rfl, h2⟩
  · rintro ⟨ts', m', rfl, rfl, h⟩
    exact .seq (Verif.Layout.header_der hl) h

variable {base : Text → Option (Class F)} {fl : Floats F}

theorem reads_under {line body H : List Char} {hts : List (Tree NT2)} (hl : '\n' ∉ line)
    (hh : Der gram2 (.nt (.old .header)) (H ++ '\n' :: body) (.ok [.node (.old .header) H hts] H ('\n' :: body)))
    (hn : NoNew ('\n' :: body)) (f : FSt F) :
    ReadsX3D base fl (H ++ '\n' :: body) f ↔ (ReadsFile base fl (line ++ '\n' :: body) f ∧ PlainLists (line ++ '\n' :: body)) := by
  constructor
  · rintro ⟨hdr, sm, kids, eof, m, hd, hr⟩
    obtain ⟨o, ho⟩ := sceneEof_total ('\n' :: body)
    have hs := (sim ho hn).1 nm_sceneEof
    generalize hts : [hdr, Tree.node (.old .vrmlScene) sm kids, eof] = ts at hd
    cases hd with
    | @seq _ _ _ t1 m1 r1 t2 m2 _ h1 h2 =>
      cases h1.det _ hh
      have := hs.det _ h2
      cases o with
      | fail => cases this
      | err => cases this
      | ok ts0 m0 r0 =>
        cases e1 : noVecs ts0 with
        | false => rw [conv_vec e1] at this; cases this
        | true =>
          rw [conv_ok e1] at this
          cases this
          obtain ⟨-, sm0, kids0, em, ek, rfl⟩ := vector_tree ho
          simp only [liftTs, liftT, List.cons_append, List.nil_append, List.cons.injEq, Tree.node.injEq, true_and] at hts
          obtain ⟨-, ⟨rfl, rfl⟩, -⟩ := hts
          rw [backs_lift] at hr
          refine ⟨⟨_, _, _, _, _, (file97 hl).2 ⟨_, _, rfl, rfl, ho⟩, hr⟩, fun ts m h => ?_⟩
          obtain ⟨ts', m', rfl, rfl, h'⟩ := (file97 hl).1 h
          cases h'.det _ ho
          simp only [noVecs, noVec, Bool.and_eq_true] at e1 ⊢
          exact ⟨by decide, e1⟩
  · rintro ⟨⟨hdr, sm, kids, eof, m, hd, hr⟩, hpl⟩
    have hv := hpl _ _ hd
    obtain ⟨ts', m', e1, rfl, h⟩ := (file97 hl).1 hd
    simp only [List.cons.injEq] at e1
    obtain ⟨rfl, rfl⟩ := e1
    have hv' : noVecs [Tree.node .vrmlScene sm kids, eof] = true := by
      simp only [noVecs, Bool.and_eq_true] at hv ⊢; exact hv.2
    have hs := (sim h hn).1 nm_sceneEof
    rw [conv_ok hv'] at hs
    have := Der.seq hh hs
    simp only [liftTs, liftT, List.cons_append, List.nil_append] at this
    exact ⟨_, _, _, _, _, this, by rw [backs_lift]; exact hr⟩

/-- **C70** Take a VRML97 file, replace its first line by an X3D header (a comment and a profile) and an empty line.  If
none of the words new in X3D occurs in it, the X3D parser reads it exactly when the VRML97 parser reads it and it has no
list within a list, and both read the same scene and the same prototypes. -/
theorem C70_reads_vrml97 {line comment profile body : List Char} (hl : '\n' ∉ line) (hc : GoodComment comment) (hp : LegalName profile)
    (hn : NoNew ('\n' :: body)) (f : FSt F) :
    ReadsX3D base fl (x3dHeader comment profile ++ '\n' :: body) f ↔
      (ReadsFile base fl (line ++ '\n' :: body) f ∧ PlainLists (line ++ '\n' :: body)) := by
  obtain ⟨hts, hh⟩ := header2_der (r := '\n' :: body) hc hp (by rintro ⟨t, ht⟩; cases ht) (by rintro ⟨t, ht⟩; cases ht)
  exact reads_under hl hh hn f

/-- **C70** The same for a header with a component statement, `COMPONENT name : level`, blanks around the colon. -/
theorem C70_reads_component {line comment profile name level body : List Char} (hl : '\n' ∉ line) (hc : GoodComment comment) (hp : LegalName profile)
    (hcn : LegalName name) (hlv : GoodLevel level) (hn : NoNew ('\n' :: body)) (f : FSt F) :
    ReadsX3D base fl (x3dHeader comment profile ++ (chars "COMPONENT " ++ (name ++ chars " : " ++ level)) ++ '\n' :: body) f ↔
      (ReadsFile base fl (line ++ '\n' :: body) f ∧ PlainLists (line ++ '\n' :: body)) := by
  obtain ⟨hts, hh⟩ := header3_der (r := body) hc hp hcn hlv
  exact reads_under hl hh hn f

/-- **C70** The same for a header with a META statement of two strings. -/
theorem C70_reads_meta {line comment profile key value body : List Char} (hl : '\n' ∉ line) (hc : GoodComment comment) (hp : LegalName profile)
    (hk : ∀ c ∈ key, c ≠ '"' ∧ c ≠ '\\') (hv : ∀ c ∈ value, c ≠ '"' ∧ c ≠ '\\') (hn : NoNew ('\n' :: body)) (f : FSt F) :
    ReadsX3D base fl (x3dHeader comment profile ++ (chars "META \"" ++ (key ++ chars "\" \"" ++ value ++ chars "\"")) ++ '\n' :: body) f ↔
      (ReadsFile base fl (line ++ '\n' :: body) f ∧ PlainLists (line ++ '\n' :: body)) := by
  have hpl : ∀ {l : List Char}, (∀ c ∈ l, c ≠ '"' ∧ c ≠ '\\') → ∀ c ∈ l, isPlain c = true := fun h c hc => by
    obtain ⟨h1, h2⟩ := h c hc
    simp [isPlain, h1, h2]
  obtain ⟨hts, hh⟩ := header4_der (r := body) hc hp (hpl hk) (hpl hv)
  exact reads_under hl hh hn f

/-- **C70** On the text after the header the two parsers agree, production by production: the same tree, the same failure, a
syntax error for a syntax error; only a list within a list is a syntax error in X3D. -/
theorem C70_same_parse {n : NT} (h1 : n ≠ .header) (h2 : n ≠ .vrmlFile) (h3 : n ≠ .vector) {i : List Char} (hn : NoNew i) {o : Out NT} (h : Der gram (.nt n) i o) :
    match o with
    | .ok ts m r => (noVecs ts = true → ∃ ts2, backs ts2 = ts ∧ Der gram2 (.nt (.old n)) i (.ok ts2 m r)) ∧ (noVecs ts = false → Der gram2 (.nt (.old n)) i .err)
    | .fail => Der gram2 (.nt (.old n)) i .fail
    | .err => Der gram2 (.nt (.old n)) i .err := by
  have hs := (sim h hn).1 (.nt h1 h2 h3)
  cases o with
  | fail => exact hs
  | err => exact hs
  | ok ts m r =>
    refine ⟨fun hv => ?_, fun hv => ?_⟩
    · rw [conv_ok hv] at hs; exact ⟨_, backs_lift ts, hs⟩
    · rw [conv_vec hv] at hs; exact hs

/-! ### What the header does not accept -/

/-- the profile is mandatory -/
theorem no_profile {i : List Char} {o} (h : Der gram2 (.nt .headerStatement) i o) (ho : ∀ ts m r, o = .ok ts m r → ¬ chars "PROFILE" <+: r) (he : o ≠ .err) :
    Der gram2 (.nt (.old .vrmlFile)) i .fail := by
  cases o with
  | err => exact absurd rfl he
  | fail => exact .ntFail (.seqFail1 (.ntFail (.seqFail1 h)))
  | ok ts m r => exact .ntFail (.seqFail1 (.ntFail (.seqFail2 h (.seqFail1 (.ntFail (.seqFail1 (lit2_fail (ho _ _ _ rfl))))))))

/-- the second form of the first line -/
theorem plain_comment {c r : List Char} (h1 : '\n' ∉ c) (h2 : '\r' ∉ c) (h3 : ¬ chars "X3D" <+: c) :
    ∃ ts m, Der gram2 (.nt .headerStatement) ('#' :: c ++ '\n' :: r) (.ok ts m r) := by
  obtain ⟨ts, hcm⟩ := comment_der (r := r) h1 h2
  refine ⟨_, _, .nt (.altR (.seqFail1 (lit2_fail ?_)) (.seq (.lit ['#'] _) (.seq hcm (nl_der _))))⟩
  rintro ⟨t, ht⟩
  simp only [List.cons_append, List.nil_append, List.cons.injEq, true_and] at ht
  match c, ht with
  | [], ht => simp at ht
  | [x], ht => simp at ht
  | [x, y], ht => simp at ht
  | x :: y :: z :: c, ht =>
    simp only [List.cons_append, List.cons.injEq] at ht
    obtain ⟨rfl, rfl, rfl, -⟩ := ht
    exact h3 ⟨c, rfl⟩

/-- **C70** A VRML97 file as it is, is never read by the X3D parser: the line with the profile is mandatory. -/
theorem C70_vrml97_header_refused {body : List Char} (h : ¬ chars "PROFILE" <+: body) (f : FSt F) :
    ¬ ReadsX3D base fl (chars "#VRML V2.0 utf8" ++ '\n' :: body) f := by
  rintro ⟨hdr, sm, kids, eof, m, hd, hr⟩
  obtain ⟨ts, m, hh⟩ := plain_comment (c := chars "VRML V2.0 utf8") (r := body) (by decide) (by decide) (by decide)
  have := no_profile hh (fun _ _ _ e => by cases e; exact h) (by simp)
  cases (Der.nt hd).det _ this

/-- **C70** (finding) The header the grammar describes, `#X3D 3.0 utf8`, followed by a line with the profile, is never
accepted: blanks after `utf8` include the end of the line, and the comment then swallows the profile. -/
theorem C70_refuted_version_header {profile body : List Char} (hp : LegalName profile) (h : ¬ chars "PROFILE" <+: body) (f : FSt F) :
    ¬ ReadsX3D base fl (chars "#X3D 3.0 utf8\nPROFILE " ++ profile ++ '\n' :: body) f := by
  rintro ⟨hdr, sm, kids, eof, m, hd, hr⟩
  have hp' : '\n' ∉ chars "PROFILE " ++ profile ∧ '\r' ∉ chars "PROFILE " ++ profile := by
    obtain ⟨c, s, rfl, hc, hs⟩ := hp
    constructor <;>
    · intro hm
      simp only [List.mem_append, List.mem_cons] at hm
      rcases hm with hm | rfl | hm
      · revert hm; decide
      · exact absurd hc (by decide)
      · exact absurd (hs _ hm) (by decide)
  obtain ⟨ts, hcm⟩ := comment_der (c := chars "PROFILE " ++ profile) (r := body) hp'.1 hp'.2
  have hnum : ∀ r, Der gram2 (.nt (.old .sfNumber)) ('3' :: '.' :: '0' :: ' ' :: r) (.ok [.node (.old .sfNumber) ['3', '.', '0'] []] ['3', '.', '0'] (' ' :: r)) := by
    intro r
    have h1 : Der gram2 (.plus (.cls isDigDot)) ('3' :: '.' :: '0' :: ' ' :: r) (.ok ([] ++ []) (['3'] ++ ['.', '0']) (' ' :: r)) :=
      .seq (.cls rfl) (starCls2 (m := ['.', '0']) (by decide) (fun c s e => by cases e; rfl))
    have h2 : Der gram2 (gram2 (.old .sfNumber)) ('3' :: '.' :: '0' :: ' ' :: r) (.ok ([] ++ ([] ++ [])) ([] ++ (['3', '.', '0'] ++ [])) (' ' :: r)) :=
      .seq (.starNil (.clsFail rfl)) (.altR (.seqFail1 (head_fail (by decide))) (.seq h1 (.altR (.seqFail1 (.clsFail rfl)) (.eps _))))
    exact .nt h2
  have hfirst := Der.nt (g := gram2) (n := .headerStatement) (Der.altL (b := .seqs [lit2 ['#'], .opt (.nt .headerComment), nl2]) (Der.seq (.lit ['#', 'X', '3', 'D'] _) (.seq (ws2_one (b := ' ') (c := '3') rfl rfl (by decide))
    (.seq (hnum _) (.seq (ws2_one (b := ' ') (c := 'u') rfl rfl (by decide)) (.seq (.lit ['u', 't', 'f', '8'] _) (.seq (ws2_one (b := '\n') (c := 'P') rfl rfl (by decide)) (.seq hcm (nl_der _)))))))))
  have := no_profile hfirst (fun _ _ _ e => by cases e; exact h) (by simp)
  have hd' := Der.nt (n := NT2.old .vrmlFile) hd
  simp only [List.cons_append, List.nil_append] at hd' this
  cases hd'.det _ this

/-- a component statement with the colon directly after the name -/
theorem tight_name {name level : List Char} (hcn : LegalName name) (hlv : GoodLevel level) : LegalName (name ++ ':' :: level) := by
  obtain ⟨a, s, rfl, h1, h2⟩ := hcn
  refine ⟨a, s ++ ':' :: level, rfl, h1, fun d hd => ?_⟩
  simp only [List.mem_append, List.mem_cons] at hd
  rcases hd with hd | rfl | hd
  · exact h2 d hd
  · decide
  · exact (digit_chars (hlv.2.2 d hd)).2.2.2.2

/-- a component statement is no item of a scene -/
theorem no_item {a : Char} {s r : List Char} (hb : isBlank a = false) (hh : a ≠ '#') (hbr : a ≠ '{') :
    Der gram2 (lift (.alts [.nt .proto, .nt .externProto, .nt .route, useGroup, .nt .script, .nt .node])) (chars "COMPONENT " ++ (a :: s ++ r)) .fail := by
  have hd : ∀ x, Der gram2 (lift defGroup) ('C' :: x) (.ok [] [] ('C' :: x)) := fun x => .altR (.seqFail1 (head_fail (by decide))) (.eps _)
  have hnm : Der gram2 (.nt (.old .nodegi)) (chars "COMPONENT" ++ ' ' :: (a :: s ++ r)) (.ok _ (chars "COMPONENT") (' ' :: (a :: s ++ r))) :=
    .nt (name2_der (nm := chars "COMPONENT") ⟨'C', _, rfl, by decide, by decide⟩ (nameEnd_cons (by decide)))
  have hnode : Der gram2 (.nt (.old .node)) (chars "COMPONENT" ++ ' ' :: (a :: s ++ r)) .fail :=
    .ntFail (.seqFail2 (hd _) (.seqFail2 hnm (.seqFail2 (ws2_one rfl hb hh) (.seqFail1 (head_fail (Ne.symm hbr))))))
  exact
    .altR (.ntFail (.seqFail1 (head_fail (by decide)))) (.altR (.ntFail (.seqFail1 (head_fail (by decide)))) (.altR (.ntFail (.seqFail1 (head_fail (by decide))))
      (.altR (.seqFail1 (head_fail (by decide))) (.altR (.ntFail (.seqFail2 (hd _) (.seqFail1 (head_fail (by decide))))) hnode))))

/-- no scene begins with a component statement -/
theorem no_component {a : Char} {s r : List Char} (hb : isBlank a = false) (hh : a ≠ '#') (hbr : a ≠ '{') :
    Der gram2 (.nt (.old .rootItem)) (chars "COMPONENT " ++ (a :: s ++ r)) .fail := by
  have hw0 : ∀ x, Der gram2 ws2 ('C' :: x) (.ok [] [] ('C' :: x)) := fun x =>
    .silent (.starNil (.altR (.seqFail1 (.clsFail rfl)) (.seqFail1 (.seqFail1 (head_fail (by decide))))))
  exact .ntFail (.seqFail2 (hw0 _) (.seqFail1 (no_item hb hh hbr)))

/-- **C70** (finding) The component statement of X3D, `COMPONENT name:level` without blanks, is never accepted: the name takes the
colon and the level with it.  (The next line may begin with anything but a colon, a blank or a comment.) -/
theorem C70_refuted_component {comment profile name level body : List Char} {c : Char} (hc : GoodComment comment) (hp : LegalName profile)
    (hcn : LegalName name) (hlv : GoodLevel level) (h1 : isBlank c = false) (h2 : c ≠ '#') (h3 : c ≠ ':') (f : FSt F) :
    ¬ ReadsX3D base fl (x3dHeader comment profile ++ (chars "COMPONENT " ++ (name ++ ':' :: level ++ '\n' :: c :: body))) f := by
  rintro ⟨hdr, sm, kids, eof, m, hd, hr⟩
  have ht := tight_name hcn hlv
  generalize name ++ ':' :: level = nm at ht hd
  obtain ⟨a, s, rfl, ha, ha'⟩ := legal_nonblank ht
  have hbr : a ≠ '{' := by
    rintro rfl
    obtain ⟨x, y, e, k, -⟩ := ht
    cases e
    exact absurd k (by decide)
  have hcs : Der gram2 (.nt .componentStatement) (chars "COMPONENT " ++ (a :: s ++ '\n' :: c :: body)) .fail := by
    have hname : Der gram2 (.nt .componentNameId) ((a :: s) ++ '\n' :: c :: body) (.ok _ (a :: s) ('\n' :: c :: body)) :=
      .nt (name2_der ht (nameEnd_cons (by decide)))
    exact .ntFail (.seqFail2 (.lit ['C', 'O', 'M', 'P', 'O', 'N', 'E', 'N', 'T'] (' ' :: ((a :: s) ++ '\n' :: c :: body)))
      (.seqFail2 (ws2_one rfl ha ha') (.seqFail2 hname (.seqFail2 (ws2_one rfl h1 h2) (.seqFail1 (head_fail (Ne.symm h3)))))))
  have hms : Der gram2 (.nt .metaStatement) (chars "COMPONENT " ++ (a :: s ++ '\n' :: c :: body)) .fail := .ntFail (.seqFail1 (head_fail (by decide)))
  obtain ⟨ts, hh⟩ := header_any hc hp (.starNil hcs) (.starNil hms)
  have hsc : Der gram2 (.nt (.old .vrmlScene)) (chars "COMPONENT " ++ (a :: s ++ '\n' :: c :: body)) (.ok _ [] _) := .nt (.starNil (no_component ha ha' hbr))
  generalize [hdr, Tree.node (.old .vrmlScene) sm kids, eof] = ts at hd
  cases hd with
  | @seq _ _ _ t1 m1 r1 t2 m2 _ k1 k2 =>
    cases k1.det _ hh
    cases k2 with
    | seq k3 k4 =>
      cases k3.det _ hsc
      cases k4 with
      | cut k5 => cases k5 with
        | nt k6 => cases k6

/-- **C70** (finding) A second component statement on the next line is never accepted: nothing takes the end of the line between
two header statements. -/
theorem C70_refuted_two_components {comment profile name level name' rest : List Char} (hc : GoodComment comment) (hp : LegalName profile)
    (hcn : LegalName name) (hlv : GoodLevel level) (hcn' : LegalName name') (f : FSt F) :
    ¬ ReadsX3D base fl (x3dHeader comment profile ++ (chars "COMPONENT " ++ (name ++ chars " : " ++ level)) ++ '\n' :: (chars "COMPONENT " ++ (name' ++ rest))) f := by
  rintro ⟨hdr, sm, kids, eof, m, hd, hr⟩
  obtain ⟨a, s, rfl, ha, ha'⟩ := legal_nonblank hcn'
  have hbr : a ≠ '{' := by
    rintro rfl
    obtain ⟨x, y, e, k, -⟩ := hcn'
    cases e
    exact absurd k (by decide)
  obtain ⟨hts, hh⟩ := header3_der (r := chars "COMPONENT " ++ (a :: s ++ rest)) hc hp hcn hlv
  have hitem : Der gram2 (.nt (.old .rootItem)) ('\n' :: (chars "COMPONENT " ++ (a :: s ++ rest))) .fail :=
    .ntFail (.seqFail2 (ws2_one (b := '\n') (c := 'C') rfl (by decide) (by decide)) (.seqFail1 (no_item ha ha' hbr)))
  have hsc : Der gram2 (.nt (.old .vrmlScene)) ('\n' :: (chars "COMPONENT " ++ (a :: s ++ rest))) (.ok _ [] _) := .nt (.starNil hitem)
  generalize [hdr, Tree.node (.old .vrmlScene) sm kids, eof] = ts at hd
  cases hd with
  | @seq _ _ _ t1 m1 r1 t2 m2 _ k1 k2 =>
    cases k1.det _ hh
    cases k2 with
    | seq k3 k4 =>
      cases k3.det _ hsc
      cases k4 with
      | cut k5 => cases k5 with
        | nt k6 => cases k6

/-! ### The new words -/

/-- The whole reader, computed. -/
def readX3DText (base : Text → Option (Class F)) (fl : Floats F) (fuel : Nat) (text : Text) : Option (FSt F) :=
  match run gram2 fuel (gram2 (.old .vrmlFile)) text with
  | some (.ok [_, .node (.old .vrmlScene) _ kids, _] _ []) => readItems base fl (backs kids) ⟨[], ⟨Scene.empty, 0⟩⟩
  | _ => none

theorem readsX3D_of {fuel : Nat} {text : Text} {f : FSt F} (h : readX3DText base fl fuel text = some f) : ReadsX3D base fl text f := by
  unfold readX3DText at h
  split at h
  · next hd sm kids e m hrun => exact ⟨_, _, _, _, _, run_sound _ _ _ _ hrun, h⟩
  · cases h

/-- **C70** A text is read as one file only. -/
theorem C70_one_file {text : Text} {f f' : FSt F} (h : ReadsX3D base fl text f) (h' : ReadsX3D base fl text f') : f = f' := by
  obtain ⟨hdr, sm, kids, eof, m, hd, hr⟩ := h
  obtain ⟨hdr', sm', kids', eof', m', hd', hr'⟩ := h'
  cases hd.det _ hd'
  rw [hr] at hr'
  cases hr'
  rfl

/-- An X3D file with one prototype that uses the new words. -/
def exX3D : Text := x3dHeader (chars "X3D V3.0 utf8") (chars "Immersive") ++
  chars "\nPROTO P [ inputOutput SFFloat width 3 outputOnly SFTime done ] { Group { } }\nP { }"

/-- **C70** (finding) The X3D words are accepted but misunderstood: a field declared `inputOutput` is not exposed, and an
event declared `outputOnly` comes in. -/
theorem C70_refuted_new_words : ∃ f, ReadsX3D exLookup exFloats exX3D f ∧ ∃ p, f.protos.lookup (chars "P") = some p ∧
    p.fields.map (fun x => (x.decl.name, x.exposed)) = [(chars "externalURL", true), (chars "width", false)] ∧
    p.events = [⟨chars "done", chars "SFTime", false⟩] := by
  have h : (readX3DText exLookup exFloats 300 exX3D).map (fun f => (f.protos.lookup (chars "P")).map
      (fun p => (p.fields.map (fun x => (x.decl.name, x.exposed)), p.events))) =
      some (some ([(chars "externalURL", true), (chars "width", false)], [⟨chars "done", chars "SFTime", false⟩])) := by decide +kernel
  simp only [Option.map_eq_some_iff] at h
  obtain ⟨f, hf, p, hp, he⟩ := h
  simp only [Prod.mk.injEq] at he
  exact ⟨f, readsX3D_of hf, p, hp, he.1, he.2⟩

/-- A VRML97 scene that meets the hypotheses of `C70_reads_vrml97`, and is read. -/
example : ∃ f, ReadsX3D exLookup exFloats (x3dHeader (chars "X3D V3.0 utf8") (chars "Immersive") ++ '\n' :: chars "DEF A Group { children [ Group { } ] }") f ∧
    ReadsFile exLookup exFloats (chars "#VRML V2.0 utf8" ++ '\n' :: chars "DEF A Group { children [ Group { } ] }") f ∧ f.rs.sc.children = [0] := by
  have h : (readX3DText exLookup exFloats 300 (x3dHeader (chars "X3D V3.0 utf8") (chars "Immersive") ++ '\n' :: chars "DEF A Group { children [ Group { } ] }")).map
    (fun f => f.rs.sc.children) = some [0] := by decide +kernel
  simp only [Option.map_eq_some_iff] at h
  obtain ⟨f, hf, hch⟩ := h
  refine ⟨f, readsX3D_of hf, ((C70_reads_vrml97 (by decide) ⟨by decide, by decide, .inr (by decide)⟩ ⟨'I', _, rfl, by decide, by decide⟩ ?_ f).1 (readsX3D_of hf)).1, hch⟩
  unfold NoNew
  decide +kernel

/-- A scene under a header with a component statement: it meets the hypotheses of `C70_reads_component`, and is read. -/
example : ∃ f, ReadsX3D exLookup exFloats (x3dHeader (chars "X3D V3.0 utf8") (chars "Immersive") ++ (chars "COMPONENT " ++ (chars "Grouping" ++ chars " : " ++ chars "12")) ++ '\n' :: chars "DEF A Group { children [ Group { } ] }") f ∧
    ReadsFile exLookup exFloats (chars "#VRML V2.0 utf8" ++ '\n' :: chars "DEF A Group { children [ Group { } ] }") f ∧ f.rs.sc.children = [0] := by
  have h : (readX3DText exLookup exFloats 300 (x3dHeader (chars "X3D V3.0 utf8") (chars "Immersive") ++ (chars "COMPONENT " ++ (chars "Grouping" ++ chars " : " ++ chars "12")) ++ '\n' :: chars "DEF A Group { children [ Group { } ] }")).map
    (fun f => f.rs.sc.children) = some [0] := by decide +kernel
  simp only [Option.map_eq_some_iff] at h
  obtain ⟨f, hf, hch⟩ := h
  refine ⟨f, readsX3D_of hf, ((C70_reads_component (by decide) ⟨by decide, by decide, .inr (by decide)⟩ ⟨'I', _, rfl, by decide, by decide⟩ ⟨'G', _, rfl, by decide, by decide⟩ ⟨by decide, by decide, by decide⟩ ?_ f).1 (readsX3D_of hf)).1, hch⟩
  unfold NoNew
  decide +kernel

/-- A scene under a header with a META statement. -/
example : ∃ f, ReadsX3D exLookup exFloats (x3dHeader (chars "X3D V3.0 utf8") (chars "Immersive") ++ (chars "META \"" ++ (chars "title" ++ chars "\" \"" ++ chars "a b" ++ chars "\"")) ++ '\n' :: chars "DEF A Group { children [ Group { } ] }") f ∧
    ReadsFile exLookup exFloats (chars "#VRML V2.0 utf8" ++ '\n' :: chars "DEF A Group { children [ Group { } ] }") f ∧ f.rs.sc.children = [0] := by
  have h : (readX3DText exLookup exFloats 300 (x3dHeader (chars "X3D V3.0 utf8") (chars "Immersive") ++ (chars "META \"" ++ (chars "title" ++ chars "\" \"" ++ chars "a b" ++ chars "\"")) ++ '\n' :: chars "DEF A Group { children [ Group { } ] }")).map
    (fun f => f.rs.sc.children) = some [0] := by decide +kernel
  simp only [Option.map_eq_some_iff] at h
  obtain ⟨f, hf, hch⟩ := h
  refine ⟨f, readsX3D_of hf, ((C70_reads_meta (by decide) ⟨by decide, by decide, .inr (by decide)⟩ ⟨'I', _, rfl, by decide, by decide⟩ (by decide) (by decide) ?_ f).1 (readsX3D_of hf)).1, hch⟩
  unfold NoNew
  decide +kernel

end Verif.X3D
