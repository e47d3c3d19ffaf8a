/-
Semantics of the SimpleParse grammars used by /repo/vrml/vrml97/parser.py:15-72.

SimpleParse itself (`simpleparse.parser.Parser`, a dependency, not in /repo) is modelled by its documented
behaviour: sequences, ordered choice (first of group that matches wins), greedy repetition without
backtracking, `!` turning a failure of the following elements into a syntax error, `<name>` productions that
are not reported, all other productions reported as (tag, start, stop, children).
Start and stop positions are represented by the matched text itself (`getString` is all the processor uses).
Texts are lists of characters.
-/
namespace Verif.Peg

/-- Parse tree: production tag, matched text, children. -/
inductive Tree (T : Type)
  | node (tag : T) (text : List Char) (kids : List (Tree T))

/-- Grammar expressions. -/
inductive Exp (T : Type)
  /-- empty sequence -/
  | eps
  /-- literal text `'...'` -/
  | lit (s : List Char)
  /-- one character of a class `[...]` or of a negated class `-[...]` -/
  | cls (p : Char → Bool)
  /-- `a, b` -/
  | seq (a b : Exp T)
  /-- `a / b` -/
  | alt (a b : Exp T)
  /-- `a*` -/
  | star (a : Exp T)
  /-- a production, reported -/
  | nt (n : T)
  /-- a production `<n>`, not reported -/
  | silent (n : T)
  /-- `a!`, or any element after a lone `!` in a sequence -/
  | cut (a : Exp T)
  /-- end of the text -/
  | eof

/-- `a+` -/
def Exp.plus {T : Type} (a : Exp T) : Exp T := .seq a (.star a)
/-- `a?` -/
def Exp.opt {T : Type} (a : Exp T) : Exp T := .alt a .eps

/-- `a, b, c, ...` -/
def Exp.seqs {T : Type} : List (Exp T) → Exp T
  | [] => .eps
  | [a] => a
  | a :: l => .seq a (seqs l)

/-- `a / b / c / ...` -/
def Exp.alts {T : Type} : List (Exp T) → Exp T
  | [] => .cls (fun _ => false)
  | [a] => a
  | a :: l => .alt a (alts l)

/-- Outcome of matching an expression: success with the reported trees, the matched text and the rest of
the text; failure; or a raised syntax error. -/
inductive Out (T : Type)
  | ok (ts : List (Tree T)) (m : List Char) (r : List Char)
  | fail
  | err

variable {T : Type}

/-- `Der g e i o`: under grammar `g`, matching `e` at the start of the text `i` has outcome `o`. -/
inductive Der (g : T → Exp T) : Exp T → List Char → Out T → Prop
  | eps (i) : Der g .eps i (.ok [] [] i)
  | lit (s r) : Der g (.lit s) (s ++ r) (.ok [] s r)
  | litFail {s i} : ¬ s <+: i → Der g (.lit s) i .fail
  | cls {p c r} : p c = true → Der g (.cls p) (c :: r) (.ok [] [c] r)
  | clsFail {p c r} : p c = false → Der g (.cls p) (c :: r) .fail
  | clsEnd {p} : Der g (.cls p) [] .fail
  | seq {a b i t1 m1 r1 t2 m2 r2} : Der g a i (.ok t1 m1 r1) → Der g b r1 (.ok t2 m2 r2) →
      Der g (.seq a b) i (.ok (t1 ++ t2) (m1 ++ m2) r2)
  | seqFail1 {a b i} : Der g a i .fail → Der g (.seq a b) i .fail
  | seqErr1 {a b i} : Der g a i .err → Der g (.seq a b) i .err
  | seqFail2 {a b i t1 m1 r1} : Der g a i (.ok t1 m1 r1) → Der g b r1 .fail → Der g (.seq a b) i .fail
  | seqErr2 {a b i t1 m1 r1} : Der g a i (.ok t1 m1 r1) → Der g b r1 .err → Der g (.seq a b) i .err
  | altL {a b i t m r} : Der g a i (.ok t m r) → Der g (.alt a b) i (.ok t m r)
  | altErr {a b i} : Der g a i .err → Der g (.alt a b) i .err
  | altR {a b i o} : Der g a i .fail → Der g b i o → Der g (.alt a b) i o
  | starNil {a i} : Der g a i .fail → Der g (.star a) i (.ok [] [] i)
  | starErr1 {a i} : Der g a i .err → Der g (.star a) i .err
  | starCons {a i t1 m1 r1 t2 m2 r2} : Der g a i (.ok t1 m1 r1) → m1 ≠ [] →
      Der g (.star a) r1 (.ok t2 m2 r2) → Der g (.star a) i (.ok (t1 ++ t2) (m1 ++ m2) r2)
  | starErr2 {a i t1 m1 r1} : Der g a i (.ok t1 m1 r1) → m1 ≠ [] → Der g (.star a) r1 .err →
      Der g (.star a) i .err
  | nt {n i t m r} : Der g (g n) i (.ok t m r) → Der g (.nt n) i (.ok [.node n m t] m r)
  | ntFail {n i} : Der g (g n) i .fail → Der g (.nt n) i .fail
  | ntErr {n i} : Der g (g n) i .err → Der g (.nt n) i .err
  | silent {n i t m r} : Der g (g n) i (.ok t m r) → Der g (.silent n) i (.ok t m r)
  | silentFail {n i} : Der g (g n) i .fail → Der g (.silent n) i .fail
  | silentErr {n i} : Der g (g n) i .err → Der g (.silent n) i .err
  | cut {a i t m r} : Der g a i (.ok t m r) → Der g (.cut a) i (.ok t m r)
  | cutFail {a i} : Der g a i .fail → Der g (.cut a) i .err
  | cutErr {a i} : Der g a i .err → Der g (.cut a) i .err
  | eof : Der g .eof [] (.ok [] [] [])
  | eofFail {c r} : Der g .eof (c :: r) .fail

/-- An executable interpreter with a recursion bound, used to compute concrete cases; `none` = bound hit.
(A star whose body matches the empty text would loop: `none`.) -/
def run (g : T → Exp T) : Nat → Exp T → List Char → Option (Out T)
  | 0, _, _ => none
  | f + 1, e, i =>
    match e with
    | .eps => some (.ok [] [] i)
    | .lit s => if s.isPrefixOf i then some (.ok [] s (i.drop s.length)) else some .fail
    | .cls p => match i with
      | [] => some .fail
      | c :: r => if p c then some (.ok [] [c] r) else some .fail
    | .seq a b => match run g f a i with
      | some (.ok t1 m1 r1) => match run g f b r1 with
        | some (.ok t2 m2 r2) => some (.ok (t1 ++ t2) (m1 ++ m2) r2)
        | some .fail => some .fail
        | some .err => some .err
        | none => none
      | some .fail => some .fail
      | some .err => some .err
      | none => none
    | .alt a b => match run g f a i with
      | some .fail => run g f b i
      | some (.ok t m r) => some (.ok t m r)
      | some .err => some .err
      | none => none
    | .star a => match run g f a i with
      | some .fail => some (.ok [] [] i)
      | some .err => some .err
      | some (.ok t1 m1 r1) => match m1 with
        | [] => none
        | c :: m1' => match run g f (.star a) r1 with
          | some (.ok t2 m2 r2) => some (.ok (t1 ++ t2) (c :: m1' ++ m2) r2)
          | some .err => some .err
          | _ => none
      | none => none
    | .nt n => match run g f (g n) i with
      | some (.ok t m r) => some (.ok [.node n m t] m r)
      | some .fail => some .fail
      | some .err => some .err
      | none => none
    | .silent n => run g f (g n) i
    | .cut a => match run g f a i with
      | some .fail => some .err
      | some (.ok t m r) => some (.ok t m r)
      | some .err => some .err
      | none => none
    | .eof => match i with
      | [] => some (.ok [] [] [])
      | _ :: _ => some .fail

end Verif.Peg
