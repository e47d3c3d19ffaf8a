import Verif.Lemmas.Balance
/-!
Bracket balance of what the writer writes: the writer's states.
-/
namespace Verif.Lin
open Verif.Peg Verif.Grammar Verif.TextOut Verif.Text Verif.SceneText Verif.ListText Verif.Nesting
variable {F : Type}

/-- Where the written text ends, and its balance. -/
def St.M (st : St) : Mode := mode .plain (textOf st.out)
def St.B (st : St) : Int := bal .plain (textOf st.out)

/-- outside strings -/
def _root_.Verif.Nesting.Mode.Outer (m : Mode) : Prop := m = .plain ∨ m = .comment

/-- A finished node can be copied. -/
def SliceOk (l : List Chunk) : Prop := (mode .plain (textOf l)).Outer ∧ 0 ≤ bal .plain (textOf l)

structure SInv (st : St) : Prop where
  outer : st.M.Outer
  slices : ∀ e ∈ st.done, ∀ b, e.2.2 = some b → b ≤ st.out.length ∧ SliceOk ((st.out.take b).drop e.2.1)

/-- From state `a` to state `b` at least `k` brackets more were opened than closed, and one more if a `bad` node was begun;
the nodes held by the nodes that were begun are known. -/
structure Wr (bad : Nat → Prop) (kid : Nat → Nat → Prop) (k : Int) (a b : St) : Prop where
  inv : SInv b
  up : ∀ j, Done a j → Done b j
  pre : a.out <+: b.out
  bal : a.B + k ≤ b.B
  bad : ∀ j, bad j → ¬ Done a j → Done b j → a.B + k + 1 ≤ b.B
  kids : ∀ j, ¬ Done a j → Done b j → ∀ c, kid j c → Done b c

variable {bad : Nat → Prop} {kid : Nat → Nat → Prop}

theorem Wr.refl {a : St} (h : SInv a) : Wr bad kid 0 a a :=
  ⟨h, fun _ h => h, List.prefix_rfl, by omega, fun j _ h1 h2 => absurd h2 h1, fun j h1 h2 => absurd h2 h1⟩

theorem Wr.trans {a b c : St} {k l : Int} (h1 : Wr bad kid k a b) (h2 : Wr bad kid l b c) : Wr bad kid (k + l) a c where
  inv := h2.inv
  up j h := h2.up j (h1.up j h)
  pre := h1.pre.trans h2.pre
  bal := by have := h1.bal; have := h2.bal; omega
  bad j hj ha hc := by
    have e1 := h1.bal
    have e2 := h2.bal
    by_cases hb : Done b j
    · have := h1.bad j hj ha hb; omega
    · have := h2.bad j hj hb hc; omega
  kids j ha hc x hx := by
    by_cases hb : Done b j
    · exact h2.up _ (h1.kids j ha hb x hx)
    · exact h2.kids j hb hc x hx

theorem Wr.trans0 {a b c : St} (h1 : Wr bad kid 0 a b) (h2 : Wr bad kid 0 b c) : Wr bad kid 0 a c := h1.trans h2


/-- Something is written; nothing is begun. -/
theorem Wr.app {a b : St} {l : List Chunk} (h : SInv a) (ho : b.out = a.out ++ l) (hd : b.done = a.done) (hm : (mode a.M (textOf l)).Outer) :
    Wr bad kid (Lin.bal a.M (textOf l)) a b := by
  have hM : b.M = mode a.M (textOf l) := by simp only [St.M, ho, textOf_append, mode_append]
  have hB : b.B = a.B + Lin.bal a.M (textOf l) := by simp only [St.B, St.M, ho, textOf_append, bal_append]
  have hD : ∀ j, Done b j ↔ Done a j := by intro j; simp only [Done, St.look, hd]
  refine ⟨⟨by rw [hM]; exact hm, fun e he x hx => ?_⟩, fun j => (hD j).2, by rw [ho]; exact List.prefix_append _ _, by omega,
    fun j _ h1 h2 => absurd ((hD j).1 h2) h1, fun j h1 h2 => absurd ((hD j).1 h2) h1⟩
  rw [hd] at he
  obtain ⟨h1, h2⟩ := h.slices e he x hx
  refine ⟨by rw [ho]; simp; omega, ?_⟩
  rw [ho, List.take_append_of_le_length h1]; exact h2

theorem wr_write {a : St} (h : SInv a) {t : Text} (hm : (mode a.M t).Outer) : Wr bad kid (Lin.bal a.M t) a (a.write t) := by
  have := Wr.app (bad := bad) (kid := kid) (b := a.write t) (l := [Chunk.text t]) h rfl rfl (by simpa [textOf, Chunk.toText] using hm)
  simpa [textOf, Chunk.toText] using this

/-- Plain text is written after plain text. -/
theorem wr_plain {a : St} (h : SInv a) (hp : a.M = .plain) {t : Text} {k : Int} (ht : Bal k t) :
    Wr bad kid k a (a.write t) ∧ (a.write t).M = .plain := by
  refine ⟨?_, ?_⟩
  · have := wr_write (bad := bad) (kid := kid) h (t := t) (by rw [hp, ht.1]; exact .inl rfl)
    rw [hp, ht.2] at this; exact this
  · simp only [St.M, St.write, textOf_append, mode_append]
    have : mode .plain (textOf a.out) = .plain := hp
    rw [this]; simp [textOf, Chunk.toText, ht.1]

/-- A separator and plain text are written after anything. -/
theorem wr_sep {lv : LinValues} (hs : Ignorable lv.fullSep) (hn : '\n' ∈ lv.fullSep) {a : St} (h : SInv a) {t : Text} {k : Int} (ht : Bal k t) :
    Wr bad kid k a (a.write (lv.fullSep ++ t)) ∧ (a.write (lv.fullSep ++ t)).M = .plain := by
  rcases h.outer with hp | hc
  · have := wr_plain (bad := bad) (kid := kid) h hp ((Bal.ign hs).append ht)
    rwa [Int.zero_add] at this
  · obtain ⟨h1, -, h2⟩ := sep_comment hs
    have h2 := h2 hn
    have hm : mode .comment (lv.fullSep ++ t) = .plain := by rw [mode_append, h2, ht.1]
    have hb : Lin.bal .comment (lv.fullSep ++ t) = k := by rw [bal_append, h1, h2, ht.2]; omega
    refine ⟨?_, ?_⟩
    · have := wr_write (bad := bad) (kid := kid) h (t := lv.fullSep ++ t) (by rw [hc, hm]; exact .inl rfl)
      rw [hc, hb] at this; exact this
    · have hc' : mode .plain (textOf a.out) = .comment := hc
      simp only [St.M, St.write, textOf_append, mode_append, hc']
      simpa [textOf, Chunk.toText, mode_append] using hm

theorem SInv.level {a : St} (h : SInv a) (k : Nat) : SInv { a with level := k } := ⟨h.outer, h.slices⟩

theorem Wr.lvl {a b : St} {k : Int} (h : Wr bad kid k a b) (n : Nat) : Wr bad kid k a { b with level := n } :=
  ⟨h.inv.level n, h.up, h.pre, h.bal, h.bad, h.kids⟩

theorem Wr.lvl' {a b : St} {k : Int} {n : Nat} (h : Wr bad kid k { a with level := n } b) : Wr bad kid k a b :=
  ⟨h.inv, h.up, h.pre, h.bal, h.bad, h.kids⟩

variable {lv : LinValues} {fl : Floats F} {lin : St → Nat → Res St}

/-- What is assumed of the formatting options. -/
structure LineOptions (lv : LinValues) : Prop where
  plain : PlainOptions lv
  line : '\n' ∈ lv.fullSep

theorem LineOptions.cur (h : LineOptions lv) (st : St) : Ignorable (st.cur lv) := by
  simp only [St.cur]
  induction st.level with
  | zero => exact .nil
  | succ n ih => simp only [List.replicate_succ, List.flatten_cons]; exact h.plain.indent.append ih

theorem LineOptions.at (h : LineOptions lv) (st : St) : PlainOptions { lv with curindent := st.cur lv } :=
  ⟨h.plain.subelspacer, h.cur st, h.plain.indent, h.plain.numsep, h.plain.fullSep, h.plain.courtesyspace, h.plain.numsep_ne, h.plain.subelspacer_ne⟩

theorem wr_elems (ho : LineOptions lv) (hl : ∀ st i st', SInv st → st.M = .plain → lin st i = .ok st' → Wr bad kid 0 st st' ∧ Done st' i) :
    ∀ l st st', SInv st → linElems lv lin st l = .ok st' → Wr bad kid 0 st st' ∧ ∀ i, some i ∈ l → Done st' i := by
  intro l
  induction l with
  | nil => intro st st' hi he; simp only [linElems, Except.ok.injEq] at he; subst he; exact ⟨.refl hi, by simp⟩
  | cons o l ih =>
    intro st st' hi he
    obtain ⟨h1, h2⟩ := wr_sep (bad := bad) (kid := kid) ho.plain.fullSep ho.line hi ((Bal.ign (ho.cur st)).append0 (Bal.ign ho.plain.indent))
    rw [← List.append_assoc] at h1 h2
    cases o with
    | none =>
      simp only [linElems] at he
      obtain ⟨h3, -⟩ := wr_plain (bad := bad) (kid := kid) h1.inv h2 (t := ['N', 'U', 'L', 'L']) (k := 0) ⟨rfl, rfl⟩
      obtain ⟨h4, h5⟩ := ih _ _ h3.inv he
      exact ⟨(h1.trans0 h3).trans0 h4, by simpa using h5⟩
    | some i =>
      simp only [linElems] at he
      split at he
      · cases he
      · next st1 hlin =>
        obtain ⟨h3, h6⟩ := hl _ _ _ h1.inv h2 hlin
        obtain ⟨h4, h5⟩ := ih _ _ h3.inv he
        refine ⟨(h1.trans0 h3).trans0 h4, fun j hj => ?_⟩
        rcases List.mem_cons.1 hj with hj | hj
        · cases hj; exact h4.up _ h6
        · exact h5 j hj

theorem wr_mf (ho : LineOptions lv) (hl : ∀ st i st', SInv st → st.M = .plain → lin st i = .ok st' → Wr bad kid 0 st st' ∧ Done st' i)
    {l st st'} (hi : SInv st) (hp : st.M = .plain) (he : linMF lv lin st l = .ok st') : Wr bad kid 0 st st' ∧ ∀ i, some i ∈ l → Done st' i := by
  simp only [linMF] at he
  split at he
  · next h0 =>
    simp only [Except.ok.injEq] at he
    subst he
    refine ⟨(wr_plain hi hp ?_).1, by simp [h0]⟩
    have := ((show Bal 1 [' ', '['] from ⟨rfl, rfl⟩).append (Bal.ign ho.plain.courtesyspace)).append (show Bal (-1) [']'] from ⟨rfl, rfl⟩)
    exact this
  · split at he
    · cases he
    · next st1 h1 =>
      simp only [Except.ok.injEq] at he
      subst he
      have hi' : SInv { st with level := st.level + 1 } := hi.level _
      obtain ⟨h2, h3⟩ := wr_plain (bad := bad) (kid := kid) hi' hp (t := ['[', ' ']) (k := 1) ⟨rfl, rfl⟩
      obtain ⟨h4, h5⟩ := wr_elems ho hl _ _ _ h2.inv h1
      obtain ⟨h6, h7⟩ := wr_sep (bad := bad) (kid := kid) ho.plain.fullSep ho.line h4.inv ((Bal.ign (ho.cur st1)).append (show Bal (-1) [']'] from ⟨rfl, rfl⟩))
      rw [← List.append_assoc] at h6 h7
      refine ⟨?_, fun i hx => ?_⟩
      · exact (((h2.trans h4).trans h6).lvl' (n := st.level + 1)).lvl _
      · exact h6.up _ (h5 i hx)

/-- one value; a list of strings that is not empty leaves a bracket open -/
theorem wr_field (ho : LineOptions lv) (hl : ∀ st i st', SInv st → st.M = .plain → lin st i = .ok st' → Wr bad kid 0 st st' ∧ Done st' i)
    {d : FieldDecl F} (hd : ∀ x, Clean (d.str x)) {v : Val F} {st st'} (hi : SInv st) (hp : st.M = .plain) (he : linField lv lin st d v = .ok st') :
    (Wr bad kid 0 st st' ∧ ∀ i ∈ v.nodes, Done st' i) ∧ (∀ s l, v = .strs (s :: l) → Wr bad kid 1 st st') := by
  have simple : (∀ T, simpleText lv d v = .ok T → linField lv lin st d v = .ok (st.write T)) →
      (∀ e, simpleText lv d v = .error e → linField lv lin st d v = .error e) → v.nodes = [] → (∀ s l, v ≠ .strs (s :: l)) →
      (Wr bad kid 0 st st' ∧ ∀ i ∈ v.nodes, Done st' i) ∧ (∀ s l, v = .strs (s :: l) → Wr bad kid 1 st st') := by
    intro h1 h2 h3 h4
    refine ⟨⟨?_, by simp [h3]⟩, fun s l h => absurd h (h4 s l)⟩
    cases hs : simpleText lv d v with
    | error e => rw [h2 e hs] at he; cases he
    | ok T => rw [h1 T hs] at he; cases he; exact (wr_plain hi hp (simple_bal ho.plain hd hs)).1
  cases v with
  | ref o =>
    cases o with
    | none =>
      simp only [linField, Except.ok.injEq] at he; subst he
      exact ⟨⟨(wr_plain hi hp (show Bal 0 ['N', 'U', 'L', 'L'] from ⟨rfl, rfl⟩)).1, by simp [Val.nodes]⟩, fun s l h => by cases h⟩
    | some i =>
      obtain ⟨h1, h2⟩ := hl _ _ _ hi hp he
      exact ⟨⟨h1, by simpa [Val.nodes] using h2⟩, fun s l h => by cases h⟩
  | refs l =>
    obtain ⟨h1, h2⟩ := wr_mf ho hl hi hp he
    exact ⟨⟨h1, by simpa [Val.nodes] using h2⟩, fun s l h => by cases h⟩
  | strs l =>
    cases l with
    | nil =>
      obtain ⟨h1, h2⟩ := wr_mf ho hl hi hp he
      exact ⟨⟨h1, by simp [Val.nodes]⟩, fun s l h => by cases h⟩
    | cons a l =>
      have key : Wr bad kid 1 st st' := by
        simp only [linField, Except.ok.injEq] at he; subst he
        have hi' : SInv { st with level := st.level + 1 } := hi.level _
        obtain ⟨h2, h3⟩ := wr_plain (bad := bad) (kid := kid) hi' hp (t := ['[', ' ']) (k := 1) ⟨rfl, rfl⟩
        obtain ⟨h4, h5⟩ := wr_plain (bad := bad) (kid := kid) h2.inv h3 (((Bal.ign ho.plain.fullSep).append0 (Bal.ign (ho.cur { st with level := st.level + 1 }))).append0 (Bal.ign ho.plain.indent))
        obtain ⟨h6, h7⟩ := wr_plain (bad := bad) (kid := kid) h4.inv h5 (Bal.strings (ho.at _) (a :: l))
        exact ((h2.trans h4).trans h6).lvl' (n := st.level + 1)
      refine ⟨⟨?_, by simp [Val.nodes]⟩, fun _ _ _ => key⟩
      exact ⟨key.inv, key.up, key.pre, by have := key.bal; omega, fun j h1 h2 h3 => by have := key.bad j h1 h2 h3; omega, key.kids⟩
  | bool b => exact simple (fun T hT => by simp only [linField, hT]) (fun T hT => by simp only [linField, hT]) rfl (by simp)
  | int b => exact simple (fun T hT => by simp only [linField, hT]) (fun T hT => by simp only [linField, hT]) rfl (by simp)
  | num b => exact simple (fun T hT => by simp only [linField, hT]) (fun T hT => by simp only [linField, hT]) rfl (by simp)
  | str b => exact simple (fun T hT => by simp only [linField, hT]) (fun T hT => by simp only [linField, hT]) rfl (by simp)
  | ints b => exact simple (fun T hT => by simp only [linField, hT]) (fun T hT => by simp only [linField, hT]) rfl (by simp)
  | nums b => exact simple (fun T hT => by simp only [linField, hT]) (fun T hT => by simp only [linField, hT]) rfl (by simp)
  | rows b => exact simple (fun T hT => by simp only [linField, hT]) (fun T hT => by simp only [linField, hT]) rfl (by simp)

theorem Wr.weaken {a b : St} {k : Int} (h : Wr bad kid k a b) (hk : 0 ≤ k) : Wr bad kid 0 a b :=
  ⟨h.inv, h.up, h.pre, by have := h.bal; omega, fun j h1 h2 h3 => by have := h.bad j h1 h2 h3; omega, h.kids⟩

/-- the attributes -/
theorem wr_attrs (ho : LineOptions lv) (hl : ∀ st i st', SInv st → st.M = .plain → lin st i = .ok st' → Wr bad kid 0 st st' ∧ Done st' i)
    {n : Node F} {isn : Text → Option Text} (his : ∀ f nm, isn f = some nm → Clean nm) : ∀ l st st', (∀ d ∈ l, Clean d.name ∧ ∀ x, Clean (d.str x)) → SInv st →
    linAttrs lv fl lin n isn st l = .ok st' →
    Wr bad kid 0 st st' ∧ (∀ d ∈ l, ∀ v, isn d.name = none → d.read n = some v → omitted fl d.dflt v = some false →
      (∀ i ∈ v.nodes, Done st' i) ∧ (∀ s m, v = .strs (s :: m) → Wr bad kid 1 st st')) := by
  intro l
  induction l with
  | nil => intro st st' _ hi he; simp only [linAttrs, Except.ok.injEq] at he; subst he; exact ⟨.refl hi, by simp⟩
  | cons d l ih =>
    intro st st' hcl hi he
    have hcl' : ∀ d ∈ l, Clean d.name ∧ ∀ x, Clean (d.str x) := fun d hd => hcl d (by simp [hd])
    obtain ⟨hc1, hc2⟩ := hcl d (by simp)
    simp only [linAttrs] at he
    split at he
    · cases he
    · next v hv =>
      split at he
      · next nm hnm =>
        have hb : Bal 0 (st.cur lv ++ (lv.indent ++ (d.name ++ ([' ', 'I', 'S', ' '] ++ (nm ++ ['\t']))))) :=
          (Bal.ign (ho.cur st)).append0 ((Bal.ign ho.plain.indent).append0 ((Bal.clean hc1).append0 ((show Bal 0 [' ', 'I', 'S', ' '] from ⟨rfl, rfl⟩).append0
            ((Bal.clean (his _ _ hnm)).append0 ⟨rfl, rfl⟩))))
        obtain ⟨h1, -⟩ := wr_sep (bad := bad) (kid := kid) ho.plain.fullSep ho.line hi hb
        have e : lv.fullSep ++ (st.cur lv ++ (lv.indent ++ (d.name ++ ([' ', 'I', 'S', ' '] ++ (nm ++ ['\t']))))) =
          lv.fullSep ++ st.cur lv ++ lv.indent ++ d.name ++ [' ', 'I', 'S', ' '] ++ nm ++ ['\t'] := by simp
        rw [e] at h1
        obtain ⟨h2, h3⟩ := ih _ _ hcl' h1.inv he
        refine ⟨h1.trans0 h2, fun d' hd' v' hn hr hom => ?_⟩
        rcases List.mem_cons.1 hd' with rfl | hd'
        · rw [hnm] at hn; cases hn
        · obtain ⟨h4, h5⟩ := h3 d' hd' v' hn hr hom
          exact ⟨h4, fun s m hs => by have := h1.trans (h5 s m hs); rwa [Int.zero_add] at this⟩
      · next hnm =>
        split at he
        · cases he
        · next hom =>
          obtain ⟨h2, h3⟩ := ih _ _ hcl' hi he
          refine ⟨h2, fun d' hd' v' hn hr hom' => ?_⟩
          rcases List.mem_cons.1 hd' with rfl | hd'
          · rw [hv] at hr; cases hr; rw [hom] at hom'; cases hom'
          · exact h3 d' hd' v' hn hr hom'
        · next hom =>
          split at he
          · cases he
          · next st1 hf =>
            have hb : Bal 0 (st.cur lv ++ (lv.indent ++ (d.name ++ ['\t']))) :=
              (Bal.ign (ho.cur st)).append0 ((Bal.ign ho.plain.indent).append0 ((Bal.clean hc1).append0 ⟨rfl, rfl⟩))
            obtain ⟨h1, hp⟩ := wr_sep (bad := bad) (kid := kid) ho.plain.fullSep ho.line hi hb
            have e : lv.fullSep ++ (st.cur lv ++ (lv.indent ++ (d.name ++ ['\t']))) = lv.fullSep ++ st.cur lv ++ lv.indent ++ d.name ++ ['\t'] := by simp
            rw [e] at h1 hp
            obtain ⟨⟨h4, h5⟩, h6⟩ := wr_field ho hl hc2 h1.inv hp hf
            obtain ⟨h2, h3⟩ := ih _ _ hcl' h4.inv he
            refine ⟨(h1.trans0 h4).trans0 h2, fun d' hd' v' hn hr hom' => ?_⟩
            rcases List.mem_cons.1 hd' with rfl | hd'
            · rw [hv] at hr; cases hr
              exact ⟨fun i hx => h2.up _ (h5 i hx), fun s m hs => (h1.trans (h6 s m hs)).trans h2⟩
            · obtain ⟨h7, h8⟩ := h3 d' hd' v' hn hr hom'
              exact ⟨h7, fun s m hs => (h1.trans0 h4).trans (h8 s m hs)⟩

theorem wr_default (ho : LineOptions lv) (hl : ∀ st i st', SInv st → st.M = .plain → lin st i = .ok st' → Wr bad kid 0 st st' ∧ Done st' i)
    {d : FieldDecl F} (hd : ∀ x, Clean (d.str x)) {st st'} (hi : SInv st) (hp : st.M = .plain) (he : linDefault lv lin st d = .ok st') :
    Wr bad kid 0 st st' ∧ ∀ v, d.default = some v → ∀ i ∈ v.nodes, Done st' i := by
  simp only [linDefault] at he
  split at he
  · cases he
  · next u hu =>
    have hdef : d.default = coerce d.kind d.conv u := by simp [FieldDecl.default, hu]
    split at he
    · cases he
    · next l hc =>
      simp only [Except.ok.injEq] at he; subst he
      refine ⟨(wr_plain hi hp (Bal.strings (ho.at st) l)).1, fun v hv => ?_⟩
      rw [hdef, hc] at hv; cases hv; simp [Val.nodes]
    · next v _ hc =>
      obtain ⟨⟨h1, h2⟩, -⟩ := wr_field ho hl hd hi hp he
      refine ⟨h1, fun v' hv => ?_⟩
      rw [hdef, hc] at hv; cases hv; exact h2

theorem wr_decls (ho : LineOptions lv) (hl : ∀ st i st', SInv st → st.M = .plain → lin st i = .ok st' → Wr bad kid 0 st st' ∧ Done st' i) :
    ∀ (l : List (PField F)) st st', (∀ f ∈ l, Clean f.decl.name ∧ Clean f.decl.cls ∧ ∀ x, Clean (f.decl.str x)) → SInv st → linDecls lv lin st l = .ok st' →
    Wr bad kid 0 st st' ∧ ∀ f ∈ l, ∀ v, f.decl.default = some v → ∀ i ∈ v.nodes, Done st' i := by
  intro l
  induction l with
  | nil => intro st st' _ hi he; simp only [linDecls, Except.ok.injEq] at he; subst he; exact ⟨.refl hi, by simp⟩
  | cons f l ih =>
    intro st st' hcl hi he
    obtain ⟨hc1, hc2, hc3⟩ := hcl f (by simp)
    simp only [linDecls] at he
    split at he
    · cases he
    · next st1 h1 =>
      have hhead : Clean (fieldHead f) := by
        unfold fieldHead
        have : ∀ b : Bool, Clean (if b then chars "exposedField" else chars "field") := by intro b; cases b <;> exact clean_dec (by decide)
        exact ((((this _).append (clean_dec (by decide))).append hc2).append (clean_dec (by decide))).append hc1 |>.append (clean_dec (by decide))
      obtain ⟨h2, hp⟩ := wr_sep (bad := bad) (kid := kid) ho.plain.fullSep ho.line hi ((Bal.ign (ho.cur st)).append0 (Bal.clean hhead))
      rw [← List.append_assoc] at h2 hp
      obtain ⟨h3, h4⟩ := wr_default ho hl hc3 h2.inv hp h1
      obtain ⟨h5, h6⟩ := ih _ _ (fun f hf => hcl f (by simp [hf])) h3.inv he
      refine ⟨(h2.trans0 h3).trans0 h5, fun g hg v hv i hx => ?_⟩
      rcases List.mem_cons.1 hg with rfl | hg
      · exact h5.up _ (h4 v hv i hx)
      · exact h6 g hg v hv i hx

theorem events_clean {e : EventDecl} (h : Clean e.name ∧ Clean e.type) : Clean (eventText e) := by
  unfold eventText
  have : ∀ b : Bool, Clean (if b then chars "eventOut" else chars "eventIn") := by intro b; cases b <;> exact clean_dec (by decide)
  exact ((((this _).append (clean_dec (by decide))).append h.2).append (clean_dec (by decide))).append h.1

theorem wr_begin (ho : LineOptions lv) (hl : ∀ st i st', SInv st → st.M = .plain → lin st i = .ok st' → Wr bad kid 0 st st' ∧ Done st' i)
    {n : Node F} (hn : CleanNode n) {st st'} (hi : SInv st) (hp : st.M = .plain) (he : linBegin lv lin st n.cls = .ok st') :
    Wr bad kid 0 st st' ∧ (n.cls.proto ≠ scriptName → st' = st) ∧
      ∀ d ∈ n.cls.fields, Visible d → Declared n.cls d.name → ∀ v, d.default = some v → ∀ i ∈ v.nodes, Done st' i := by
  simp only [linBegin] at he
  split at he
  · next hs =>
    split at he
    · cases he
    · next st1 h1 =>
      simp only [Except.ok.injEq] at he
      subst he
      have hb : Bal 0 (eventsText lv (St.cur lv { st with level := st.level + 1 }) n.cls.events) := by
        refine Bal.flatten (fun t ht => ?_)
        obtain ⟨e, he, rfl⟩ := List.mem_map.1 ht
        exact ((Bal.ign ho.plain.fullSep).append0 (Bal.ign (ho.cur _))).append0 (Bal.clean (events_clean (hn.events e (declEvents_mem.1 he).1)))
      obtain ⟨h2, hp2⟩ := wr_plain (bad := bad) (kid := kid) (hi.level (st.level + 1)) hp hb
      obtain ⟨h3, h4⟩ := wr_decls ho hl _ _ _ (fun f hf => by
        obtain ⟨d, hd, -, -, rfl⟩ := (scriptFields_mem hs).1 hf
        exact hn.fields d hd) h2.inv h1
      refine ⟨((h2.trans0 h3).lvl' (n := st.level + 1)).lvl _, fun h => absurd hs h, fun d hd hv hdec v hdf i hx => ?_⟩
      exact h4 _ ((scriptFields_mem hs).2 ⟨d, hd, hv, hdec, rfl⟩) v hdf i hx
  · next hs =>
    simp only [Except.ok.injEq] at he; subst he
    exact ⟨.refl hi, fun _ => rfl, fun d _ _ hdec => absurd hdec.1 hs⟩

/-- The closing of a node, after plain text if no attribute was written. -/
theorem closing_bal (ho : LineOptions lv) {n : Node F} (hn : CleanNode n) {st : St} (hi : SInv st) {start : Nat} {b : Bool}
    (hb : b = true → n.cls.proto ≠ scriptName → st.M = .plain) :
    (mode st.M (closing lv st n start b)).Outer ∧ bal st.M (closing lv st n start b) = 0 := by
  have sep : ∀ t : Text, (mode .plain t).Outer ∧ bal .plain t = 0 → (mode st.M (lv.fullSep ++ st.cur lv ++ t)).Outer ∧ bal st.M (lv.fullSep ++ st.cur lv ++ t) = 0 := by
    intro t ⟨h1, h2⟩
    have hc := Bal.ign (ho.cur st)
    have : mode st.M lv.fullSep = .plain ∧ bal st.M lv.fullSep = 0 := by
      rcases hi.outer with h | h
      · rw [h]; exact Bal.ign ho.plain.fullSep
      · obtain ⟨h3, -, h4⟩ := sep_comment ho.plain.fullSep
        rw [h]; exact ⟨h4 ho.line, h3⟩
    refine ⟨by rw [mode_append, mode_append, this.1, hc.1]; exact h1, ?_⟩
    rw [bal_append, bal_append, mode_append, this.1, this.2, hc.1, hc.2, h2]; rfl
  have comm : ∀ t : Text, Clean t → (mode .comment t).Outer ∧ bal .comment t = 0 := by
    intro t
    induction t with
    | nil => intro _; exact ⟨.inr rfl, rfl⟩
    | cons c t ih =>
      intro h
      have h' : Clean t := fun d hd => h d (by simp [hd])
      by_cases hc : c = '\n'
      · subst hc
        have := Bal.clean h'
        exact ⟨by show (mode .plain t).Outer; rw [this.1]; exact .inl rfl, by show 0 + bal .plain t = 0; rw [this.2]; rfl⟩
      · have hm : modeStep .comment c = .comment := by simp [modeStep, hc]
        exact ⟨by show (mode (modeStep .comment c) t).Outer; rw [hm]; exact (ih h').1, by show 0 + bal (modeStep .comment c) t = 0; rw [hm, (ih h').2]; rfl⟩
  unfold closing
  split
  · next hs =>
    have hc : Clean (if n.DEF = [] then n.cls.proto else defPart n.DEF) := by
      split
      · exact hn.proto
      · unfold defPart; split
        · exact clean_dec (by decide)
        · exact ((clean_dec (by decide)).append hn.DEF).append (clean_dec (by decide))
    rw [List.append_assoc]
    refine sep _ ?_
    obtain ⟨h1, h2⟩ := comm _ hc
    exact ⟨h1, (show 0 + (0 + bal .comment (if n.DEF = [] then n.cls.proto else defPart n.DEF)) = 0 by rw [h2]; rfl)⟩
  · next hs =>
    split
    · next hb' =>
      have hM := hb hb' hs
      rw [hM]
      have := (Bal.ign ho.plain.courtesyspace).append0 (show Bal 0 ['}'] from ⟨rfl, rfl⟩)
      exact ⟨by rw [this.1]; exact .inl rfl, this.2⟩
    · dsimp only
      have h1 : (mode st.M (lv.fullSep ++ st.cur lv ++ ['}'])).Outer ∧ bal st.M (lv.fullSep ++ st.cur lv ++ ['}']) = 0 := sep _ ⟨.inl rfl, rfl⟩
      split
      · split
        · have hc : Clean (chars "EndNode " ++ (if n.DEF = [] then n.cls.proto else n.DEF)) := by
            refine (clean_dec (by decide)).append ?_
            split
            · exact hn.proto
            · exact hn.DEF
          obtain ⟨h2, h3⟩ := comm _ hc
          have := sep (['}'] ++ (chars " #EndNode " ++ (if n.DEF = [] then n.cls.proto else n.DEF))) ⟨h2, (show 0 + (0 + (0 + bal .comment (chars "EndNode " ++ (if n.DEF = [] then n.cls.proto else n.DEF)))) = 0 by rw [h3]; rfl)⟩
          simpa only [List.append_assoc] using this
        · exact h1
      · exact h1

/-- what a node holds, as far as it is written -/
def Kid (fl : Floats F) (sc : Scene F) (i j : Nat) : Prop :=
  ∃ n, sc.heap i = some n ∧ ((∃ d v, WrittenAttr fl sc i n d v ∧ j ∈ v.nodes) ∨
    ∃ d v, d ∈ n.cls.fields ∧ Visible d ∧ Declared n.cls d.name ∧ d.default = some v ∧ j ∈ v.nodes)

theorem head_bal {n : Node F} (hn : CleanNode n) (i : Nat) : Bal 0 (textOf [Chunk.head i n.DEF n.cls.proto]) := by
  have : textOf [Chunk.head i n.DEF n.cls.proto] = defPart n.DEF ++ ((if n.cls.proto = scriptName then [' '] else []) ++ (n.cls.proto ++ [' ', '{'])) := by
    simp [textOf, Chunk.toText]
  rw [this]
  refine Bal.append0 (Bal.clean ?_) (Bal.append0 (Bal.clean ?_) ((Bal.clean hn.proto).append0 ⟨rfl, rfl⟩))
  · unfold defPart; split
    · exact clean_dec (by decide)
    · exact ((clean_dec (by decide)).append hn.DEF).append (clean_dec (by decide))
  · split
    · exact clean_dec (by decide)
    · exact clean_dec (by decide)

/-- nothing is written if the number of pieces does not change -/
theorem prefix_length {α : Type} {a b : List α} (h : a <+: b) (hl : b.length = a.length) : b = a := (h.eq_of_length hl.symm).symm

theorem done_cons_iff {st st' : St} {i j : Nat} {x : Nat × Option Nat} (h : st'.done = (i, x) :: st.done) : Done st' j ↔ j = i ∨ Done st j := by
  unfold Done
  rw [look_cons st i j x st' h]
  by_cases hj : j = i
  · simp [hj]
  · simp [hj]

theorem lookup_mem {α : Type} {l : List (Nat × α)} {i : Nat} {x : α} (h : l.lookup i = some x) : (i, x) ∈ l := by
  induction l with
  | nil => cases h
  | cons e l ih =>
    rw [List.lookup_cons] at h
    split at h
    · next hb => cases h; have : i = e.1 := by simpa using hb
                 subst this; simp
    · exact List.mem_cons_of_mem _ (ih h)

theorem wr_node (ho : LineOptions lv) {sc : Scene F} (hc : CleanScene sc) : ∀ fuel st i st', SInv st → st.M = .plain →
    linNode lv fl sc fuel st i = .ok st' → Wr (HasStrings fl sc) (Kid fl sc) 0 st st' ∧ Done st' i := by
  intro fuel
  induction fuel with
  | zero => intro st i st' _ _ he; simp [linNode] at he
  | succ fuel ih =>
    intro st i st' hi hp he
    simp only [linNode] at he
    split at he
    · cases he
    · next n hn =>
      have hcn := hc.nodes i n hn
      split at he
      · next start stop hlook =>
        have hdone : Done st i := ⟨_, hlook⟩
        split at he
        · cases he
          have hb : Bal 0 (textOf [Chunk.use i n.DEF]) := by
            have : textOf [Chunk.use i n.DEF] = ['U', 'S', 'E', ' '] ++ n.DEF := by simp [textOf, Chunk.toText]
            rw [this]
            exact Bal.append0 ⟨rfl, rfl⟩ (Bal.clean hcn.DEF)
          have := Wr.app (bad := HasStrings fl sc) (kid := Kid fl sc) (b := { st with out := st.out ++ [Chunk.use i n.DEF] }) hi rfl rfl (by rw [hp, hb.1]; exact .inl rfl)
          rw [hp, hb.2] at this
          exact ⟨this, this.up _ hdone⟩
        · split at he
          · next stop =>
            cases he
            have hmem : (i, (start, some stop)) ∈ st.done := by
              exact lookup_mem hlook
            obtain ⟨hlen, h1, h2⟩ := hi.slices _ hmem stop rfl
            dsimp only at h1 h2
            have e : textOf ([Chunk.text warning] ++ (st.out.take stop).drop start) = warning ++ textOf ((st.out.take stop).drop start) := by simp [textOf, Chunk.toText]
            have hw : mode .plain warning = .plain ∧ bal .plain warning = 0 := ⟨by decide, by decide⟩
            have := Wr.app (bad := HasStrings fl sc) (kid := Kid fl sc) (l := [Chunk.text warning] ++ (st.out.take stop).drop start)
              (b := { st with out := st.out ++ [Chunk.text warning] ++ (st.out.take stop).drop start, warned := true }) hi (by simp) rfl
              (by rw [hp, e, mode_append, hw.1]; exact h1)
            have := this.weaken (by rw [hp, e, bal_append, hw.1, hw.2]; omega)
            exact ⟨this, this.up _ hdone⟩
          · cases he
            have hw : mode .plain errorText = .comment ∧ bal .plain errorText = 0 := ⟨by decide, by decide⟩
            have e : textOf [Chunk.text errorText] = errorText := by simp [textOf, Chunk.toText]
            have := Wr.app (bad := HasStrings fl sc) (kid := Kid fl sc) (l := [Chunk.text errorText])
              (b := { st with out := st.out ++ [Chunk.text errorText], warned := true }) hi rfl rfl (by rw [hp, e, hw.1]; exact .inr rfl)
            rw [hp, e, hw.2] at this
            exact ⟨this, this.up _ hdone⟩
      · next hlook =>
        have hnew : ¬ Done st i := by rintro ⟨x, hx⟩; rw [hlook] at hx; cases hx
        split at he
        · cases he
        · next stb hbeg =>
          split at he
          · cases he
          · next sta hatt =>
            simp only [Except.ok.injEq] at he
            -- the opening
            generalize hs1 : ({ out := st.out ++ [Chunk.head i n.DEF n.cls.proto], done := (i, st.out.length, none) :: st.done, level := st.level, warned := st.warned } : St) = s1
            have hh := head_bal hcn i
            have hM1 : s1.M = .plain := by
              subst hs1
              have : mode .plain (textOf st.out) = .plain := hp
              simp only [St.M, textOf_append, mode_append, this, hh.1]
            have hB1 : s1.B = st.B := by
              subst hs1
              have : mode .plain (textOf st.out) = .plain := hp
              simp only [St.B, textOf_append, bal_append, this, hh.2]; omega
            have hD1 : ∀ j, Done s1 j ↔ j = i ∨ Done st j := by
              intro j
              subst hs1
              exact done_cons_iff rfl
            have hI1 : SInv s1 := by
              refine ⟨by rw [hM1]; exact .inl rfl, fun e hem x hx => ?_⟩
              subst hs1
              rcases List.mem_cons.1 hem with rfl | hem
              · cases hx
              · obtain ⟨h1, h2⟩ := hi.slices e hem x hx
                refine ⟨by simp; omega, ?_⟩
                show SliceOk (((st.out ++ [Chunk.head i n.DEF n.cls.proto]).take x).drop e.2.1)
                rw [List.take_append_of_le_length h1]; exact h2
            have hbeg' : linBegin lv (linNode lv fl sc fuel) { s1 with level := s1.level + 1 } n.cls = .ok stb := by subst hs1; exact hbeg
            obtain ⟨hw1, hsame, hdecl⟩ := wr_begin ho ih hcn (st := { s1 with level := s1.level + 1 }) (hI1.level _) hM1 hbeg'
            have hw1 := hw1.lvl'
            obtain ⟨hw2, hattr⟩ := wr_attrs ho ih (fun f nm h => hc.is i f nm (isOf_some h)) _ _ _
              (fun d hd => ⟨(hcn.fields d (attrFields_mem.1 hd).1).1, (hcn.fields d (attrFields_mem.1 hd).1).2.2⟩) hw1.inv hatt
            have hw12 := hw1.trans0 hw2
            -- the closing
            have hlen1 : (st.out ++ [Chunk.head i n.DEF n.cls.proto]) = s1.out := by subst hs1; rfl
            have hcl := closing_bal ho hcn hw2.inv (start := st.out.length) (b := sta.out.length == (st.out ++ [Chunk.head i n.DEF n.cls.proto]).length) (by
              intro hb _
              have hb : sta.out.length = s1.out.length := by rw [← hlen1]; simpa using hb
              have := prefix_length hw12.pre hb
              show mode .plain (textOf sta.out) = .plain
              rw [this]; exact hM1)
            generalize closing lv sta n st.out.length (sta.out.length == (st.out ++ [Chunk.head i n.DEF n.cls.proto]).length) = K at hcl he
            have hw3 := wr_write (bad := HasStrings fl sc) (kid := Kid fl sc) hw2.inv (t := K) hcl.1
            rw [hcl.2] at hw3
            have hw := hw12.trans0 hw3
            -- the end
            have hout : st'.out = (sta.write K).out := by subst he; rfl
            have hdn : st'.done = (i, (st.out.length, some (sta.write K).out.length)) :: (sta.write K).done := by subst he; rfl
            have hM' : st'.M = (sta.write K).M := by simp only [St.M, hout]
            have hB' : st'.B = (sta.write K).B := by simp only [St.B, hout]
            have hD' : ∀ j, Done st' j ↔ j = i ∨ Done (sta.write K) j := by
              intro j
              exact done_cons_iff hdn
            have hDi : Done (sta.write K) i := hw.up i ((hD1 i).2 (.inl rfl))
            have hD'' : ∀ j, Done st' j ↔ Done (sta.write K) j := fun j => ⟨fun h => ((hD' j).1 h).elim (fun e => e ▸ hDi) id, fun h => (hD' j).2 (.inr h)⟩
            have hpre : s1.out <+: (sta.write K).out := hw.pre
            have hsl : SliceOk (((sta.write K).out.take (sta.write K).out.length).drop st.out.length) := by
              rw [List.take_length]
              obtain ⟨ext, hext⟩ := hpre
              have h1 : (sta.write K).out = st.out ++ ([Chunk.head i n.DEF n.cls.proto] ++ ext) := by rw [← hext, ← hlen1]; simp
              rw [h1, List.drop_left]
              have hMp : mode .plain (textOf st.out) = .plain := hp
              have hout' := hw.inv.outer
              have hbal := hw.bal
              rw [hB1] at hbal
              have e1 : (sta.write K).M = mode .plain (textOf ([Chunk.head i n.DEF n.cls.proto] ++ ext)) := by
                simp only [St.M, h1, textOf_append st.out, mode_append, hMp]
              have e2 : (sta.write K).B = st.B + bal .plain (textOf ([Chunk.head i n.DEF n.cls.proto] ++ ext)) := by
                simp only [St.B, h1, textOf_append st.out, bal_append, hMp]
              exact ⟨by rw [← e1]; exact hout', by omega⟩
            refine ⟨⟨⟨by rw [hM']; exact hw.inv.outer, fun e hem x hx => ?_⟩, fun j hj => (hD'' j).2 (hw.up j ((hD1 j).2 (.inr hj))), ?_, ?_, fun j hbad hj hj' => ?_, fun j hj hj' c hk => ?_⟩, (hD'' i).2 hDi⟩
            · rw [hdn] at hem
              rw [hout]
              rcases List.mem_cons.1 hem with rfl | hem
              · cases hx
                exact ⟨Nat.le_refl _, hsl⟩
              · exact hw.inv.slices e hem x hx
            · rw [hout]
              have h0 : st.out <+: s1.out := by rw [← hlen1]; exact List.prefix_append _ _
              exact h0.trans hpre
            · have := hw.bal; rw [hB1] at this; rw [hB']; exact this
            · have hj' := (hD'' j).1 hj'
              rw [hB', ← hB1]
              by_cases hji : j = i
              · subst hji
                obtain ⟨n', d, s, l, hn', hwa⟩ := hbad
                rw [hn] at hn'; cases hn'
                have hisn : sc.isOf j d.name = none := by
                  cases h : sc.isOf j d.name with
                  | none => rfl
                  | some nm => exact absurd (isOf_some h) (hwa.shown.2 nm)
                have h1 := (hattr d (attrFields_mem.2 ⟨hwa.mem, hwa.shown.1, hwa.own⟩) _ hisn hwa.read hwa.differs).2 s l rfl
                have := ((hw1.trans h1).trans hw3).bal
                omega
              · exact hw.bad j hbad (fun h => ((hD1 j).1 h).elim hji hj) hj'
            · have hj' := (hD'' j).1 hj'
              rw [hD'']
              by_cases hji : j = i
              · subst hji
                obtain ⟨n', hn', h⟩ := hk
                rw [hn] at hn'; cases hn'
                rcases h with ⟨d, v, hwa, hc⟩ | ⟨d, v, hd, hv, hdec, hdf, hc⟩
                · have hisn : sc.isOf j d.name = none := by
                    cases h : sc.isOf j d.name with
                    | none => rfl
                    | some nm => exact absurd (isOf_some h) (hwa.shown.2 nm)
                  exact hw3.up _ ((hattr d (attrFields_mem.2 ⟨hwa.mem, hwa.shown.1, hwa.own⟩) _ hisn hwa.read hwa.differs).1 c hc)
                · exact hw3.up _ (hw2.up _ (hdecl d hd hv hdec v hdf c hc))
              · exact hw.kids j (fun h => ((hD1 j).1 h).elim hji hj) hj' c hk

theorem wr_children (ho : LineOptions lv) (hl : ∀ st i st', SInv st → st.M = .plain → lin st i = .ok st' → Wr bad kid 0 st st' ∧ Done st' i) :
    ∀ l st st', SInv st → st.M = .plain → linChildren lv lin st l = .ok st' → Wr bad kid 0 st st' ∧ ∀ i ∈ l, Done st' i := by
  intro l
  induction l with
  | nil => intro st st' hi _ he; simp only [linChildren, Except.ok.injEq] at he; subst he; exact ⟨.refl hi, by simp⟩
  | cons i l ih =>
    intro st st' hi hp he
    simp only [linChildren] at he
    split at he
    · cases he
    · next st1 h1 =>
      obtain ⟨h2, h3⟩ := hl _ _ _ hi hp h1
      obtain ⟨h4, hp4⟩ := wr_sep (bad := bad) (kid := kid) ho.plain.fullSep ho.line h2.inv Bal.nil
      rw [List.append_nil] at h4 hp4
      obtain ⟨h5, h6⟩ := ih _ _ h4.inv hp4 he
      refine ⟨(h2.trans0 h4).trans0 h5, fun j hj => ?_⟩
      rcases List.mem_cons.1 hj with rfl | hj
      · exact h5.up _ (h4.up _ h3)
      · exact h6 j hj

theorem wr_body (ho : LineOptions lv) {sc : Scene F} (hc : CleanScene sc) {fuel : Nat} {st : St} (he : linBody lv fl sc fuel = .ok st) :
    Wr (HasStrings fl sc) (Kid fl sc) 0 ⟨[], [], 0, false⟩ st ∧ ∀ i ∈ sc.children, Done st i := by
  have h0 : SInv ⟨[], [], 0, false⟩ := ⟨.inl rfl, by simp⟩
  simp only [linBody] at he
  split at he
  · cases he
  · next st1 h1 =>
    simp only [Except.ok.injEq] at he
    obtain ⟨h2, h3⟩ := wr_children ho (wr_node ho hc fuel) _ _ _ h0 rfl h1
    have hdef : ∀ i, Clean (sc.defOf i) := by
      intro i
      unfold Scene.defOf
      split
      · next n hn => exact (hc.nodes i n hn).DEF
      · exact clean_dec (by decide)
    have key : ∀ (l : List Rt) (s : St), (∀ r ∈ l, Clean r.srcField ∧ Clean r.dstField) → SInv s →
        Wr (HasStrings fl sc) (Kid fl sc) 0 s (l.foldl (fun st r => st.write (routeText lv sc.defOf r)) s) := by
      intro l
      induction l with
      | nil => intro s _ hs; exact .refl hs
      | cons r l ih =>
        intro s hl hs
        obtain ⟨hr1, hr2⟩ := hl r (by simp)
        have hb : Bal 0 (['R', 'O', 'U', 'T', 'E', ' '] ++ (sc.defOf r.src ++ (['.'] ++ (r.srcField ++ ([' ', 'T', 'O', ' '] ++ (sc.defOf r.dst ++ (['.'] ++ r.dstField))))))) :=
          Bal.clean ((clean_dec (by decide)).append ((hdef _).append ((clean_dec (by decide)).append (hr1.append ((clean_dec (by decide)).append
            ((hdef _).append ((clean_dec (by decide)).append hr2)))))))
        obtain ⟨h4, -⟩ := wr_sep (bad := HasStrings fl sc) (kid := Kid fl sc) ho.plain.fullSep ho.line hs hb
        have e : lv.fullSep ++ (['R', 'O', 'U', 'T', 'E', ' '] ++ (sc.defOf r.src ++ (['.'] ++ (r.srcField ++ ([' ', 'T', 'O', ' '] ++ (sc.defOf r.dst ++ (['.'] ++ r.dstField))))))) = routeText lv sc.defOf r := by
          simp [routeText]
        rw [e] at h4
        exact h4.trans0 (ih _ (fun r hr => hl r (by simp [hr])) h4.inv)
    subst he
    have h4 := key sc.routes st1 hc.routes h2.inv
    exact ⟨h2.trans0 h4, fun i hi => h4.up _ (h3 i hi)⟩

theorem written_done {sc : Scene F} {st : St} (h : Wr (HasStrings fl sc) (Kid fl sc) 0 ⟨[], [], 0, false⟩ st) (hch : ∀ i ∈ sc.children, Done st i) {i : Nat}
    (hi : Written fl sc i) : Done st i := by
  have h0 : ∀ j, ¬ Done ⟨[], [], 0, false⟩ j := by rintro j ⟨x, hx⟩; simp [St.look] at hx
  induction hi with
  | child hi => exact hch _ hi
  | attr _ hn hwa hj ih => exact h.kids _ (h0 _) ih _ ⟨_, hn, .inl ⟨_, _, hwa, hj⟩⟩
  | decl _ hn hd hv hdec hdf hj ih => exact h.kids _ (h0 _) ih _ ⟨_, hn, .inr ⟨_, _, hd, hv, hdec, hdf, hj⟩⟩

end Verif.Lin
