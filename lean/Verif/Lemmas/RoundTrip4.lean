import Verif.Lemmas.RoundTrip3
/-!
Lemmas for C09, continued: writing succeeds, without warnings when shared nodes are named.
-/
namespace Verif.Lin
open Verif.Peg Verif.Grammar Verif.TextOut Verif.Text Verif.SceneText Verif.ListText
variable {F : Type}
variable {lk : Text → Option (Class F)} {fl : Floats F} {src : Scene F} {P : Nat → Prop} {lv : LinValues} {lin : St → Nat → Res St}

/-! ### Success -/

/-- how many of the nodes are not yet known -/
def todo (all : List Nat) (st : St) : Nat := all.countP (fun j => (st.look j).isNone)

theorem todo_le {all : List Nat} {st st' : St} (h : ∀ j, Done st j → Done st' j) : todo all st' ≤ todo all st := by
  apply List.countP_mono_left
  intro j _ hj
  cases hs : st.look j with
  | none => rfl
  | some x =>
    obtain ⟨y, hy⟩ := h j ⟨x, hs⟩
    rw [hy] at hj; cases hj

theorem countP_lt {p q : Nat → Bool} {i : Nat} : ∀ l : List Nat, (∀ x, q x = true → p x = true) → i ∈ l → p i = true → q i = false → l.countP q < l.countP p := by
  intro l h
  induction l with
  | nil => intro h; cases h
  | cons a l ih =>
    intro hi hp hq
    have hle : l.countP q ≤ l.countP p := List.countP_mono_left (fun x _ => h x)
    simp only [List.countP_cons]
    rcases List.mem_cons.1 hi with rfl | hi
    · simp only [hp, hq, if_true, Bool.false_eq_true, if_false]; omega
    · have := ih hi hp hq
      by_cases hqa : q a = true
      · simp only [hqa, h a hqa, if_true]; omega
      · have hqa' : q a = false := by simpa using hqa
        simp only [hqa', Bool.false_eq_true, if_false]
        split <;> omega

theorem todo_lt {all : List Nat} {st st' : St} {i : Nat} (h : ∀ j, Done st j → Done st' j) (hi : i ∈ all) (h0 : st.look i = none) (h1 : Done st' i) :
    todo all st' < todo all st := by
  refine countP_lt all (fun j hj => ?_) hi (by simp [h0]) (by obtain ⟨x, hx⟩ := h1; simp [hx])
  cases hs : st.look j with
  | none => rfl
  | some x =>
    obtain ⟨y, hy⟩ := h j ⟨x, hs⟩
    rw [hy] at hj; cases hj

/-- The function succeeds on the nodes of the scene while fewer than `fuel` are unknown. -/
def Succ (P : Nat → Prop) (all : List Nat) (fuel : Nat) (lin : St → Nat → Res St) : Prop :=
  ∀ st i, P i → todo all st < fuel → ∃ st', lin st i = .ok st'

variable {all : List Nat} {fuel : Nat}

theorem succ_elems (hm : Mono lin) (hs : Succ P all fuel lin) : ∀ (l : List (Option Nat)) st, (∀ j, some j ∈ l → P j) → todo all st < fuel →
    ∃ st', linElems lv lin st l = .ok st' := by
  intro l
  induction l with
  | nil => intro st _ _; exact ⟨st, rfl⟩
  | cons o l ih =>
    intro st hP ht
    have hP' : ∀ j, some j ∈ l → P j := fun j hj => hP j (by simp [hj])
    cases o with
    | none => simp only [linElems]; exact ih _ hP' ht
    | some i =>
      simp only [linElems]
      obtain ⟨st1, h1⟩ := hs (st.write (lv.fullSep ++ st.cur lv ++ lv.indent)) i (hP i (by simp)) ht
      rw [h1]
      refine ih st1 hP' (Nat.lt_of_le_of_lt (todo_le (hm _ _ _ h1).2) ht)

theorem mem_nodes {l : List (Option Nat)} {j : Nat} (h : some j ∈ l) : j ∈ (Val.refs l : Val F).nodes := by
  simp only [Val.nodes, List.mem_filterMap, id]; exact ⟨_, h, rfl⟩

theorem succ_field (hlv : GoodOptions lv) (hm : Mono lin) (hs : Succ P all fuel lin) {d : FieldDecl F} {v : Val F} (hv : Readable fl d v)
    {st : St} (hP : ∀ j ∈ v.nodes, P j) (ht : todo all st < fuel) : ∃ st', linField lv lin st d v = .ok st' := by
  have simple : (∀ o, v ≠ .ref o) → (∀ l, v ≠ .refs l) → (∀ l, v ≠ .strs l) →
      (∀ T, simpleText lv d v = .ok T → linField lv lin st d v = .ok (st.write T)) → ∃ st', linField lv lin st d v = .ok st' := by
    intro h1 h2 h3 h4
    obtain ⟨T, e1, -⟩ := simple_read hlv hv h1 h2 h3
    exact ⟨_, h4 T e1⟩
  cases v with
  | ref o =>
    cases o with
    | none => exact ⟨_, rfl⟩
    | some i => exact hs st i (hP i (by simp [Val.nodes])) ht
  | refs l =>
    simp only [linField, linMF]
    by_cases h0 : l = []
    · exact ⟨_, by rw [if_pos h0]⟩
    · rw [if_neg h0]
      obtain ⟨st1, h1⟩ := succ_elems (lv := lv) hm hs l (({ st with level := st.level + 1 } : St).write ['[', ' ']) (fun j hj => hP j (mem_nodes hj)) ht
      rw [h1]
      exact ⟨_, rfl⟩
  | strs l =>
    obtain ⟨-, rfl⟩ := hv
    exact ⟨_, rfl⟩
  | bool b => exact simple (by simp) (by simp) (by simp) (fun T hT => by simp only [linField, hT])
  | int b => exact simple (by simp) (by simp) (by simp) (fun T hT => by simp only [linField, hT])
  | num b => exact simple (by simp) (by simp) (by simp) (fun T hT => by simp only [linField, hT])
  | str b => exact simple (by simp) (by simp) (by simp) (fun T hT => by simp only [linField, hT])
  | ints b => exact simple (by simp) (by simp) (by simp) (fun T hT => by simp only [linField, hT])
  | nums b => exact simple (by simp) (by simp) (by simp) (fun T hT => by simp only [linField, hT])
  | rows b => exact simple (by simp) (by simp) (by simp) (fun T hT => by simp only [linField, hT])

theorem succ_attrs (hlv : GoodOptions lv) (hm : Mono lin) (hs : Succ P all fuel lin) {n : Node F} {isn : Text → Option Text} : ∀ (l : List (FieldDecl F)) st,
    (∀ d ∈ l, ∃ v, d.read n = some v ∧ (isn d.name = none → ∃ b, omitted fl d.dflt v = some b ∧ (b = false → Readable fl d v) ∧ ∀ j ∈ v.nodes, P j)) → todo all st < fuel →
    ∃ st', linAttrs lv fl lin n isn st l = .ok st' := by
  intro l
  induction l with
  | nil => intro st _ _; exact ⟨st, rfl⟩
  | cons d l ih =>
    intro st hd ht
    have hd' := fun e he => hd e (List.mem_cons_of_mem d he)
    obtain ⟨v, h1, h2'⟩ := hd d (by simp)
    simp only [linAttrs, h1]
    cases hisn : isn d.name with
    | some nm => exact ih _ hd' (Nat.lt_of_le_of_lt (todo_le (Up.of rfl rfl : Up st (st.write _)).2) ht)
    | none =>
    obtain ⟨b, h2, h3, h4⟩ := h2' hisn
    simp only [h2]
    cases b with
    | true => exact ih st hd' ht
    | false =>
      simp only
      obtain ⟨st1, h5⟩ := succ_field (lv := lv) hlv hm hs (h3 rfl) (st := st.write (lv.fullSep ++ st.cur lv ++ lv.indent ++ d.name ++ ['\t'])) h4 ht
      rw [h5]
      exact ih st1 hd' (Nat.lt_of_le_of_lt (todo_le (mono_field hm h5).2) ht)

theorem succ_default (hlv : GoodOptions lv) (hm : Mono lin) (hs : Succ P all fuel lin) {d : FieldDecl F} {v : Val F} (hd : d.default = some v)
    (hv : (∃ l, v = .strs l ∧ d.kind = .mfString) ∨ Readable fl d v) {st : St} (hP : ∀ j ∈ v.nodes, P j) (ht : todo all st < fuel) :
    ∃ st', linDefault lv lin st d = .ok st' := by
  simp only [FieldDecl.default, Option.bind_eq_some_iff] at hd
  obtain ⟨u, h1, h2⟩ := hd
  simp only [linDefault, h1, h2]
  split
  · rename_i h3; cases h3
  · exact ⟨_, rfl⟩
  · rename_i h4 h3
    cases h3
    rcases hv with ⟨l, rfl, -⟩ | hv
    · exact absurd rfl (h4 l)
    · exact succ_field hlv hm hs hv hP ht

theorem succ_decls (hlv : GoodOptions lv) (hm : Mono lin) (hs : Succ P all fuel lin) : ∀ (l : List (PField F)) st,
    (∀ f ∈ l, ∃ v, f.decl.default = some v ∧ ((∃ l, v = .strs l ∧ f.decl.kind = .mfString) ∨ Readable fl f.decl v) ∧ ∀ j ∈ v.nodes, P j) → todo all st < fuel →
    ∃ st', linDecls lv lin st l = .ok st' := by
  intro l
  induction l with
  | nil => intro st _ _; exact ⟨st, rfl⟩
  | cons f l ih =>
    intro st hd ht
    obtain ⟨v, h1, h2, h3⟩ := hd f (by simp)
    obtain ⟨st1, h4⟩ := succ_default hlv hm hs h1 h2 (st := st.write (lv.fullSep ++ st.cur lv ++ fieldHead f)) h3 ht
    simp only [linDecls, h4]
    exact ih st1 (fun e he => hd e (List.mem_cons_of_mem _ he)) (Nat.lt_of_le_of_lt (todo_le (mono_default hm h4).2) ht)

theorem succ_begin (hlv : GoodOptions lv) (hm : Mono lin) (hs : Succ P all fuel lin) (hh : GoodHeap lk fl src P) {i : Nat} {n : Node F} (hP : P i) (hn : src.heap i = some n)
    {st : St} (ht : todo all st < fuel) : ∃ st', linBegin lv lin st n.cls = .ok st' := by
  have hg := hh.good i n hP hn
  unfold linBegin
  split
  · rename_i hp
    rcases hg.cls with ⟨h1, -⟩ | hsc
    · exact absurd hp (safe_ne_script h1)
    · obtain ⟨st', h⟩ := succ_decls hlv hm hs (scriptFields n.cls) (({ st with level := st.level + 1 } : St).write (eventsText lv (({ st with level := st.level + 1 } : St).cur lv) n.cls.events)) (fun f hf => by
        obtain ⟨d, h1, h2, h3, rfl⟩ := (scriptFields_mem hp).1 hf
        obtain ⟨v, g1, g2, g3⟩ := (hsc.decls d h1 h2 h3).value
        refine ⟨v, g1, g3, fun j hj => hh.closed i n hP hn d h1 ⟨h2, fun nm hm => ?_⟩ v g2 j hj⟩
        obtain ⟨-, d0, q1, q2, q3, q4⟩ := hg.isField _ _ hm
        exact q3 (by rw [q4]; exact h3)) ht
      simp only [h]
      exact ⟨_, rfl⟩
  · exact ⟨_, rfl⟩

theorem succ_node (hlv : GoodOptions lv) (hh : GoodHeap lk fl src P) (hfin : ∀ i, P i → i ∈ all)
    (hw : ∀ i, P i → ∃ n, src.heap i = some n ∧ ∀ d ∈ n.cls.fields, Visible d → ∃ v, d.read n = some v ∧ (Shown src i d → ¬ Declared n.cls d.name → ∃ b, omitted fl d.dflt v = some b)) :
    ∀ fuel, Succ P all fuel (linNode lv fl src fuel) := by
  intro fuel
  induction fuel with
  | zero => intro st i _ h; omega
  | succ fuel ih =>
    intro st i hP ht
    obtain ⟨n, hn, hf⟩ := hw i hP
    simp only [linNode, hn]
    cases hl : st.look i with
    | some x =>
      simp only
      split
      · exact ⟨_, rfl⟩
      · split <;> exact ⟨_, rfl⟩
    | none =>
      simp only
      have hlt : todo all ⟨st.out ++ [Chunk.head i n.DEF n.cls.proto], (i, (st.out.length, none)) :: st.done, st.level + 1, st.warned⟩ < todo all st :=
        todo_lt (fun j hj => done_cons (by rfl) hj) (hfin i hP) hl ⟨(st.out.length, none), by simp [St.look]⟩
      obtain ⟨stb, hb⟩ := succ_begin hlv (mono_node fuel) ih hh hP hn (st := ⟨st.out ++ [Chunk.head i n.DEF n.cls.proto], (i, (st.out.length, none)) :: st.done, st.level + 1, st.warned⟩) (by omega)
      have hle := todo_le (all := all) (mono_begin (mono_node fuel) hb).2
      rw [hb]
      simp only
      obtain ⟨st1, h1⟩ := succ_attrs (fl := fl) hlv (mono_node fuel) ih (n := n) (isn := src.isOf i) (attrFields n.cls) stb (fun d hd => by
          obtain ⟨hd1, hd2, hd3⟩ := attrFields_mem.1 hd
          obtain ⟨v, e1, e2'⟩ := hf d hd1 hd2
          refine ⟨v, e1, fun hno => ?_⟩
          have hsh : Shown src i d := ⟨hd2, isOf_none hno⟩
          obtain ⟨b, e2⟩ := e2' hsh hd3
          exact ⟨b, e2, fun hb => (hh.good i n hP hn).written d hd1 hsh hd3 v e1 (hb ▸ e2), hh.closed i n hP hn d hd1 hsh v e1⟩) (by omega)
      rw [h1]
      exact ⟨_, rfl⟩

theorem succ_children (hm : Mono lin) (hs : Succ P all fuel lin) : ∀ (l : List Nat) st, (∀ j ∈ l, P j) → todo all st < fuel →
    ∃ st', linChildren lv lin st l = .ok st' := by
  intro l
  induction l with
  | nil => intro st _ _; exact ⟨st, rfl⟩
  | cons i l ih =>
    intro st hP ht
    obtain ⟨st1, h1⟩ := hs st i (hP i (by simp)) ht
    simp only [linChildren, h1]
    refine ih _ (fun j hj => hP j (by simp [hj])) (Nat.lt_of_le_of_lt (todo_le fun j hj => ?_) ht)
    exact (Grow.of_done (b := st1.write lv.fullSep) rfl).done ((hm _ _ _ h1).2 j hj)

theorem todo_all (st : St) : todo all st ≤ all.length := List.countP_le_length

/-- The writer never needs more depth than there are nodes. -/
theorem body_succeeds (hlv : GoodOptions lv) {sc : Scene F} (hh : GoodHeap lk fl sc (Reach sc)) (hw : Writable fl sc all) (hf : all.length < fuel) :
    ∃ st, linBody lv fl sc fuel = .ok st := by
  obtain ⟨st1, h1⟩ := succ_children (lv := lv) (mono_node fuel) (succ_node hlv hh hw.finite hw.node fuel) sc.children ⟨[], [], 0, false⟩
    (fun j hj => .child hj) (Nat.lt_of_le_of_lt (todo_all _) hf)
  exact ⟨_, by rw [linBody, h1]⟩

/-! ### No warnings -/

section
variable (sc : Scene F)

/-- every known node is held in one of the places `S` -/
def Cov (st : St) (S : Loc → Prop) : Prop := ∀ j, Done st j → ∃ l, S l ∧ Refers sc l j
end
/-- the places in `S` belong to known nodes -/
def Own (st : St) (S : Loc → Prop) : Prop := ∀ o f p, S (.field o f p) → Done st o
/-- places of nodes that became known -/
def NewLoc (st st' : St) (l : Loc) : Prop := ∃ o f p, l = .field o f p ∧ Done st' o ∧ ¬ Done st o
/-- `S`, `Q` and the places of new nodes -/
def More (S Q : Loc → Prop) (st st' : St) (l : Loc) : Prop := S l ∨ Q l ∨ NewLoc st st' l

variable {sc : Scene F}

theorem Cov.mono {st : St} {S T : Loc → Prop} (h : Cov sc st S) (hs : ∀ l, S l → T l) : Cov sc st T := fun j hj => by
  obtain ⟨l, h1, h2⟩ := h j hj; exact ⟨l, hs l h1, h2⟩

theorem Cov.of_done {st st' : St} {S : Loc → Prop} (h : Cov sc st S) (hd : st'.done = st.done) : Cov sc st' S := fun j hj =>
  h j ((Grow.of_done (a := st') hd.symm).done hj)
theorem Own.of_done {st st' : St} {S : Loc → Prop} (h : Own st S) (hd : st'.done = st.done) : Own st' S := fun o f p hs =>
  (Grow.of_done hd).done (h o f p hs)

theorem Own.more {S Q : Loc → Prop} {st st' : St} (h : Own st S) (hup : ∀ j, Done st j → Done st' j) (hq : Own st' Q) : Own st' (More S Q st st') := by
  intro o f p hs
  rcases hs with hs | hs | ⟨o', f', p', he, h1, h2⟩
  · exact hup o (h o f p hs)
  · exact hq o f p hs
  · cases he; exact h1

/-- `lin` gives no warning when called for a place not seen before. -/
def NoWarn (sc : Scene F) (lin : St → Nat → Res St) : Prop :=
  ∀ st i st' S l, lin st i = .ok st' → Refers sc l i → (∀ o f p, l = .field o f p → Done st o) → ¬ S l → Cov sc st S → Own st S → st.warned = false →
    st'.warned = false ∧ Cov sc st' (More S (fun x => x = l) st st')

theorem reach_of_refers {l : Loc} {j : Nat} (h : Refers sc l j) : Reach sc j := by
  cases h with
  | child h => exact .child (List.mem_of_getElem? h)
  | field h1 h2 h3 h4 h5 h6 => exact .field h1 h2 h3 h4 h5 (List.mem_of_getElem? h6)

theorem nowarn_elems (hm : Mono lin) (hl : NoWarn sc lin) {i : Nat} {f : Text} : ∀ (l : List (Option Nat)) (k : Nat) (st st' : St) (S : Loc → Prop),
    linElems lv lin st l = .ok st' → (∀ q j, (l.filterMap id)[q]? = some j → Refers sc (.field i f (k + q)) j) → (∀ q, ¬ S (.field i f (k + q))) → Done st i →
    Cov sc st S → Own st S → st.warned = false → st'.warned = false ∧ Cov sc st' (More S (fun x => ∃ q, x = .field i f q) st st') := by
  intro l
  induction l with
  | nil =>
    intro k st st' S h _ _ _ hc _ hw
    simp only [linElems, Except.ok.injEq] at h
    subst h
    exact ⟨hw, hc.mono (fun l h => .inl h)⟩
  | cons o l ih =>
   cases o with
   | none =>
    intro k st st' S h hr hS hi hc ho hw
    simp only [linElems] at h
    generalize hst0 : (st.write (lv.fullSep ++ st.cur lv ++ lv.indent)).write ['N', 'U', 'L', 'L'] = st0 at h
    have hd0 : st0.done = st.done := by subst hst0; rfl
    have hw0 : st0.warned = st.warned := by subst hst0; rfl
    have hD : ∀ j, Done st0 j ↔ Done st j := fun j => ⟨(Grow.of_done hd0.symm).done, (Grow.of_done hd0).done⟩
    obtain ⟨e3, e4⟩ := ih k st0 st' S h (by simpa using hr) hS ((hD i).2 hi) (hc.of_done hd0) (ho.of_done hd0) (by rw [hw0]; exact hw)
    refine ⟨e3, e4.mono fun x hx => ?_⟩
    rcases hx with hx | hx | ⟨o, f', p, h1, h2, h3⟩
    · exact .inl hx
    · exact .inr (.inl hx)
    · exact .inr (.inr ⟨o, f', p, h1, h2, fun h => h3 ((hD o).2 h)⟩)
   | some a =>
    intro k st st' S h hr hS hi hc ho hw
    simp only [linElems] at h
    generalize hst0 : st.write (lv.fullSep ++ st.cur lv ++ lv.indent) = st0 at h
    have hd0 : st0.done = st.done := by subst hst0; rfl
    have hw0 : st0.warned = st.warned := by subst hst0; rfl
    have hD : ∀ j, Done st0 j ↔ Done st j := fun j => ⟨(Grow.of_done hd0.symm).done, (Grow.of_done hd0).done⟩
    cases hlin : lin st0 a with
    | error e => rw [hlin] at h; cases h
    | ok st1 =>
      rw [hlin] at h
      simp only at h
      obtain ⟨e1, e2⟩ := hl st0 a st1 S (.field i f k) hlin (by simpa using hr 0 a rfl) (by rintro o f p h; cases h; exact (hD _).2 hi) (by simpa using hS 0) (hc.of_done hd0) (ho.of_done hd0) (by rw [hw0]; exact hw)
      have hup1 : ∀ j, Done st0 j → Done st1 j := (hm _ _ _ hlin).2
      have hi0 : Done st0 i := (hD i).2 hi
      have ho1 : Own st1 (More S (fun x => x = .field i f k) st0 st1) :=
        (ho.of_done hd0).more hup1 (by intro o f' p h; cases h; exact hup1 _ hi0)
      have hS1 : ∀ q, ¬ More S (fun x => x = .field i f k) st0 st1 (.field i f (k + 1 + q)) := by
        intro q hq
        rcases hq with hq | hq | ⟨o, f', p, h1, h2, h3⟩
        · exact hS (q + 1) (by have e : k + (q + 1) = k + 1 + q := by omega
                               rw [e]; exact hq)
        · injection hq with h1 h2 h3; omega
        · injection h1 with h1; subst h1; exact h3 hi0
      obtain ⟨e3, e4⟩ := ih (k + 1) st1 st' _ h (fun q j hq => by
          have := hr (q + 1) j (by simpa using hq)
          have e : k + (q + 1) = k + 1 + q := by omega
          rwa [e] at this) hS1 (hup1 _ hi0) e2 ho1 e1
      · refine ⟨e3, e4.mono fun x hx => ?_⟩
        have hup2 := (mono_elems (lv := lv) hm _ _ _ h).2
        rcases hx with (hx | hx | ⟨o, f', p, h1, h2, h3⟩) | hx | ⟨o, f', p, h1, h2, h3⟩
        · exact .inl hx
        · exact .inr (.inl ⟨k, hx⟩)
        · exact .inr (.inr ⟨o, f', p, h1, hup2 o h2, fun h => h3 ((hD o).2 h)⟩)
        · exact .inr (.inl hx)
        · exact .inr (.inr ⟨o, f', p, h1, h2, fun h => h3 (hup1 o ((hD o).2 h))⟩)

theorem nowarn_field (hm : Mono lin) (hl : NoWarn sc lin) {i : Nat} {d : FieldDecl F} {v : Val F} {st st' : St} {S : Loc → Prop}
    (h : linField lv lin st d v = .ok st') (hr : ∀ q j, v.nodes[q]? = some j → Refers sc (.field i d.name q) j) (hS : ∀ q, ¬ S (.field i d.name q)) (hi : Done st i)
    (hc : Cov sc st S) (ho : Own st S) (hw : st.warned = false) :
    st'.warned = false ∧ Cov sc st' (More S (fun x => ∃ q, x = .field i d.name q) st st') := by
  have plain : ∀ T, st' = st.write T → st'.warned = false ∧ Cov sc st' (More S (fun x => ∃ q, x = .field i d.name q) st st') := by
    intro T hT
    subst hT
    exact ⟨hw, (hc.of_done rfl).mono (fun l h => .inl h)⟩
  have simple : (∀ T, simpleText lv d v = .ok T → linField lv lin st d v = .ok (st.write T)) →
      (∀ e, simpleText lv d v = .error e → linField lv lin st d v = .error e) → st'.warned = false ∧ Cov sc st' (More S (fun x => ∃ q, x = .field i d.name q) st st') := by
    intro h1 h2
    cases hs : simpleText lv d v with
    | error e => rw [h2 e hs] at h; cases h
    | ok T => rw [h1 T hs] at h; cases h; exact plain T rfl
  cases v with
  | ref o =>
    cases o with
    | none => simp only [linField, Except.ok.injEq] at h; exact plain _ h.symm
    | some a =>
      obtain ⟨e1, e2⟩ := hl st a st' S (.field i d.name 0) h (hr 0 a rfl) (by rintro o f p h; cases h; exact hi) (hS 0) hc ho hw
      refine ⟨e1, e2.mono fun x hx => ?_⟩
      rcases hx with hx | hx | hx
      · exact .inl hx
      · exact .inr (.inl ⟨0, hx⟩)
      · exact .inr (.inr hx)
  | refs l =>
    simp only [linField, linMF] at h
    split at h
    · simp only [Except.ok.injEq] at h; exact plain _ h.symm
    · split at h
      · cases h
      · rename_i st1 h1
        simp only [Except.ok.injEq] at h
        have := nowarn_elems (lv := lv) (f := d.name) hm hl l 0 (({ st with level := st.level + 1 } : St).write ['[', ' ']) st1 S h1
          (by simpa [Val.nodes] using hr) (by simpa using hS) ((Grow.of_done rfl).done hi) (hc.of_done rfl) (ho.of_done rfl) hw
        subst h
        exact ⟨this.1, this.2.of_done rfl⟩
  | strs l =>
    cases l with
    | nil =>
      simp only [linField, linMF, if_true, Except.ok.injEq] at h
      exact plain _ h.symm
    | cons s l =>
      simp only [linField, Except.ok.injEq] at h
      subst h
      exact ⟨hw, (hc.of_done rfl).mono (fun l h => .inl h)⟩
  | bool b => exact simple (fun T hT => by simp only [linField, hT]) (fun T hT => by simp only [linField, hT])
  | int b => exact simple (fun T hT => by simp only [linField, hT]) (fun T hT => by simp only [linField, hT])
  | num b => exact simple (fun T hT => by simp only [linField, hT]) (fun T hT => by simp only [linField, hT])
  | str b => exact simple (fun T hT => by simp only [linField, hT]) (fun T hT => by simp only [linField, hT])
  | ints b => exact simple (fun T hT => by simp only [linField, hT]) (fun T hT => by simp only [linField, hT])
  | nums b => exact simple (fun T hT => by simp only [linField, hT]) (fun T hT => by simp only [linField, hT])
  | rows b => exact simple (fun T hT => by simp only [linField, hT]) (fun T hT => by simp only [linField, hT])

theorem nowarn_attrs (hm : Mono lin) (hl : NoWarn sc lin) {i : Nat} {n : Node F} (hri : Reach sc i) (hn : sc.heap i = some n) :
    ∀ (l : List (FieldDecl F)) (st st' : St) (S : Loc → Prop), (∀ d ∈ l, d ∈ n.cls.fields ∧ Visible d) → (l.map FieldDecl.name).Nodup →
    linAttrs lv fl lin n (sc.isOf i) st l = .ok st' → (∀ d ∈ l, ∀ q, ¬ S (.field i d.name q)) → Done st i → Cov sc st S → Own st S → st.warned = false →
    st'.warned = false ∧ Cov sc st' (More S (fun x => ∃ f q, x = .field i f q) st st') := by
  intro l
  induction l with
  | nil =>
    intro st st' S _ _ h _ _ hc _ hw
    simp only [linAttrs, Except.ok.injEq] at h
    subst h
    exact ⟨hw, hc.mono (fun l h => .inl h)⟩
  | cons d l ih =>
    intro st st' S hsub hnd h hS hi hc ho hw
    simp only [List.map_cons, List.nodup_cons] at hnd
    have hsub' : ∀ e ∈ l, e ∈ n.cls.fields ∧ Visible e := fun e he => hsub e (by simp [he])
    obtain ⟨hd, hvis⟩ := hsub d (by simp)
    simp only [linAttrs] at h
    cases hr : d.read n with
    | none => rw [hr] at h; cases h
    | some v =>
      rw [hr] at h
      simp only at h
      cases his : sc.isOf i d.name with
      | some nm =>
        rw [his] at h
        simp only at h
        have hup : ∀ j, Done (st.write (lv.fullSep ++ st.cur lv ++ lv.indent ++ d.name ++ [' ', 'I', 'S', ' '] ++ nm ++ ['\t'])) j ↔ Done st j := fun j => Iff.rfl
        obtain ⟨e1, e2⟩ := ih _ st' S hsub' hnd.2 h (fun e he => hS e (by simp [he])) ((hup i).2 hi) (hc.of_done rfl) (ho.of_done rfl) hw
        exact ⟨e1, e2⟩
      | none =>
       rw [his] at h
       simp only at h
       have hsh : Shown sc i d := ⟨hvis, isOf_none his⟩
       cases hom : omitted fl d.dflt v with
       | none => rw [hom] at h; cases h
       | some b =>
         rw [hom] at h
         cases b with
         | true => exact ih st st' S hsub' hnd.2 h (fun e he => hS e (by simp [he])) hi hc ho hw
         | false =>
           simp only at h
           generalize hst0 : st.write (lv.fullSep ++ st.cur lv ++ lv.indent ++ d.name ++ ['\t']) = st0 at h
           have hd0 : st0.done = st.done := by subst hst0; rfl
           have hw0 : st0.warned = st.warned := by subst hst0; rfl
           have hD : ∀ j, Done st0 j ↔ Done st j := fun j => ⟨(Grow.of_done hd0.symm).done, (Grow.of_done hd0).done⟩
           cases hf : linField lv lin st0 d v with
           | error e => rw [hf] at h; cases h
           | ok st1 =>
             rw [hf] at h
             simp only at h
             have hi0 : Done st0 i := (hD i).2 hi
             obtain ⟨e1, e2⟩ := nowarn_field hm hl (i := i) hf (fun q j hq => .field hri hn hd hsh hr hq) (hS d (by simp)) hi0
               (hc.of_done hd0) (ho.of_done hd0) (by rw [hw0]; exact hw)
             have hup1 := (mono_field hm hf).2
             have ho1 : Own st1 (More S (fun x => ∃ q, x = .field i d.name q) st0 st1) :=
               (ho.of_done hd0).more hup1 (by rintro o f' p ⟨q, h⟩; cases h; exact hup1 _ hi0)
             have hS1 : ∀ e ∈ l, ∀ q, ¬ More S (fun x => ∃ q, x = .field i d.name q) st0 st1 (.field i e.name q) := by
               intro e he q hq
               rcases hq with hq | ⟨q', hq⟩ | ⟨o, f', p, h1, h2, h3⟩
               · exact hS e (by simp [he]) q hq
               · injection hq with h1 h2 h3
                 exact hnd.1 (h2 ▸ List.mem_map_of_mem (f := FieldDecl.name) he)
               · injection h1 with h1; subst h1; exact h3 hi0
             obtain ⟨e3, e4⟩ := ih st1 st' _ hsub' hnd.2 h hS1 (hup1 _ hi0) e2 ho1 e1
             · refine ⟨e3, e4.mono fun x hx => ?_⟩
               have hup2 := (mono_attrs (lv := lv) (fl := fl) hm _ _ _ h).2
               rcases hx with (hx | ⟨q, hx⟩ | ⟨o, f', p, h1, h2, h3⟩) | hx | ⟨o, f', p, h1, h2, h3⟩
               · exact .inl hx
               · exact .inr (.inl ⟨_, q, hx⟩)
               · exact .inr (.inr ⟨o, f', p, h1, hup2 o h2, fun h => h3 ((hD o).2 h)⟩)
               · exact .inr (.inl hx)
               · exact .inr (.inr ⟨o, f', p, h1, h2, fun h => h3 (hup1 o ((hD o).2 h))⟩)

theorem nowarn_default (hm : Mono lin) (hl : NoWarn sc lin) {i : Nat} {d : FieldDecl F} {v : Val F} {st st' : St} {S : Loc → Prop} (hd : d.default = some v)
    (h : linDefault lv lin st d = .ok st') (hr : ∀ q j, v.nodes[q]? = some j → Refers sc (.field i d.name q) j) (hS : ∀ q, ¬ S (.field i d.name q)) (hi : Done st i)
    (hc : Cov sc st S) (ho : Own st S) (hw : st.warned = false) :
    st'.warned = false ∧ Cov sc st' (More S (fun x => ∃ q, x = .field i d.name q) st st') := by
  simp only [FieldDecl.default, Option.bind_eq_some_iff] at hd
  obtain ⟨u, h1, h2⟩ := hd
  simp only [linDefault, h1, h2] at h
  split at h
  · cases h
  · simp only [Except.ok.injEq] at h
    subst h
    exact ⟨hw, (hc.of_done rfl).mono (fun l h => .inl h)⟩
  · rename_i h3
    cases h3
    exact nowarn_field hm hl h hr hS hi hc ho hw

theorem nowarn_decls (hm : Mono lin) (hl : NoWarn sc lin) {i : Nat} {n : Node F} (hri : Reach sc i) (hn : sc.heap i = some n) :
    ∀ (l : List (PField F)) (st st' : St) (S : Loc → Prop), (∀ f ∈ l, f.decl ∈ n.cls.fields ∧ Shown sc i f.decl ∧ ∃ v, f.decl.default = some v ∧ f.decl.read n = some v) → (l.map (fun f => f.decl.name)).Nodup →
    linDecls lv lin st l = .ok st' → (∀ f ∈ l, ∀ q, ¬ S (.field i f.decl.name q)) → Done st i → Cov sc st S → Own st S → st.warned = false →
    st'.warned = false ∧ Cov sc st' (More S (fun x => ∃ f ∈ l, ∃ q, x = .field i f.decl.name q) st st') := by
  intro l
  induction l with
  | nil =>
    intro st st' S _ _ h _ _ hc _ hw
    simp only [linDecls, Except.ok.injEq] at h
    subst h
    exact ⟨hw, hc.mono (fun l h => .inl h)⟩
  | cons d l ih =>
    intro st st' S hsub hnd h hS hi hc ho hw
    simp only [List.map_cons, List.nodup_cons] at hnd
    obtain ⟨hd, hsh, v, hdv, hr⟩ := hsub d (by simp)
    simp only [linDecls] at h
    generalize hst0 : st.write (lv.fullSep ++ st.cur lv ++ fieldHead d) = st0 at h
    have hd0 : st0.done = st.done := by subst hst0; rfl
    have hw0 : st0.warned = st.warned := by subst hst0; rfl
    have hD : ∀ j, Done st0 j ↔ Done st j := fun j => ⟨(Grow.of_done hd0.symm).done, (Grow.of_done hd0).done⟩
    cases hf : linDefault lv lin st0 d.decl with
    | error e => rw [hf] at h; cases h
    | ok st1 =>
      rw [hf] at h
      simp only at h
      have hi0 : Done st0 i := (hD i).2 hi
      obtain ⟨e1, e2⟩ := nowarn_default hm hl (i := i) hdv hf (fun q j hq => .field hri hn hd hsh hr hq) (hS d (by simp)) hi0
        (hc.of_done hd0) (ho.of_done hd0) (by rw [hw0]; exact hw)
      have hup1 := (mono_default hm hf).2
      have ho1 : Own st1 (More S (fun x => ∃ q, x = .field i d.decl.name q) st0 st1) :=
        (ho.of_done hd0).more hup1 (by rintro o f' p ⟨q, h⟩; cases h; exact hup1 _ hi0)
      have hS1 : ∀ e ∈ l, ∀ q, ¬ More S (fun x => ∃ q, x = .field i d.decl.name q) st0 st1 (.field i e.decl.name q) := by
        intro e he q hq
        rcases hq with hq | ⟨q', hq⟩ | ⟨o, f', p, h1, h2, h3⟩
        · exact hS e (by simp [he]) q hq
        · injection hq with h1 h2 h3
          exact hnd.1 (List.mem_map.2 ⟨e, he, h2⟩)
        · injection h1 with h1; subst h1; exact h3 hi0
      obtain ⟨e3, e4⟩ := ih st1 st' _ (fun e he => hsub e (by simp [he])) hnd.2 h hS1 (hup1 _ hi0) e2 ho1 e1
      refine ⟨e3, e4.mono fun x hx => ?_⟩
      have hup2 := (mono_decls (lv := lv) hm _ _ _ h).2
      rcases hx with (hx | ⟨q, hx⟩ | ⟨o, f', p, h1, h2, h3⟩) | ⟨f, hf', q, hx⟩ | ⟨o, f', p, h1, h2, h3⟩
      · exact .inl hx
      · exact .inr (.inl ⟨d, by simp, q, hx⟩)
      · exact .inr (.inr ⟨o, f', p, h1, hup2 o h2, fun h => h3 ((hD o).2 h)⟩)
      · exact .inr (.inl ⟨f, by simp [hf'], q, hx⟩)
      · exact .inr (.inr ⟨o, f', p, h1, h2, fun h => h3 (hup1 o ((hD o).2 h))⟩)

theorem GoodNode.plain {i : Nat} {n : Node F} (h : GoodNode lk fl sc i n) : PlainDecls sc i n := by
  refine ⟨h.distinct, fun d hd hv hdec => ?_⟩
  rcases h.cls with ⟨h1, -⟩ | hs
  · exact absurd hdec.1 (safe_ne_script h1)
  · obtain ⟨v, g1, g2, -⟩ := (hs.decls d hd hv hdec).value
    refine ⟨⟨hv, fun nm hm => ?_⟩, v, g1, g2⟩
    obtain ⟨-, d0, q1, q2, q3, q4⟩ := h.isField _ _ hm
    exact q3 (by rw [q4]; exact hdec)

theorem nowarn_begin (hm : Mono lin) (hl : NoWarn sc lin) {i : Nat} {n : Node F} (hri : Reach sc i) (hn : sc.heap i = some n) (hp : PlainDecls sc i n)
    {st st' : St} {S : Loc → Prop} (h : linBegin lv lin st n.cls = .ok st') (hS : ∀ f q, ¬ S (.field i f q)) (hi : Done st i) (hc : Cov sc st S) (ho : Own st S) (hw : st.warned = false) :
    st'.warned = false ∧ Cov sc st' (More S (fun x => ∃ f q, x = .field i f q ∧ Declared n.cls f) st st') := by
  unfold linBegin at h
  split at h
  · rename_i hpr
    simp only at h
    split at h
    · cases h
    · rename_i st1 h1
      simp only [Except.ok.injEq] at h
      obtain ⟨e1, e2⟩ := nowarn_decls hm hl hri hn (scriptFields n.cls) _ st1 S (fun f hf => by
          obtain ⟨d, h1, h2, h3, rfl⟩ := (scriptFields_mem hpr).1 hf
          exact ⟨h1, hp.decls d h1 h2 h3⟩) (scriptFields_nodup hp.distinct) h1 (fun f _ q => hS _ q) ((Grow.of_done rfl).done hi) (hc.of_done rfl) (ho.of_done rfl) hw
      subst h
      refine ⟨e1, (e2.of_done rfl).mono fun x hx => ?_⟩
      rcases hx with hx | ⟨f, hf, q, rfl⟩ | hx
      · exact .inl hx
      · obtain ⟨d, h1, h2, h3, rfl⟩ := (scriptFields_mem hpr).1 hf
        exact .inr (.inl ⟨_, q, rfl, h3⟩)
      · exact .inr (.inr hx)
  · simp only [Except.ok.injEq] at h
    subst h
    exact ⟨hw, hc.mono fun x hx => .inl hx⟩

theorem nowarn_node (hh : ∀ i n, Reach sc i → sc.heap i = some n → PlainDecls sc i n) (hsn : ∀ j n l l', Refers sc l j → Refers sc l' j → sc.heap j = some n → n.DEF = [] → l = l') : ∀ fuel, NoWarn sc (linNode lv fl sc fuel) := by
  intro fuel
  induction fuel with
  | zero => intro st i st' S l h; simp [linNode] at h
  | succ fuel ih =>
    intro st i st' S l h hr hl hS hc ho hw
    have hri := reach_of_refers hr
    simp only [linNode] at h
    cases hn : sc.heap i with
    | none => rw [hn] at h; cases h
    | some n =>
      rw [hn] at h
      simp only at h
      cases hlk : st.look i with
      | some x =>
        rw [hlk] at h
        simp only at h
        by_cases hD : n.DEF = []
        · exfalso
          obtain ⟨l', h1, h2⟩ := hc i ⟨x, hlk⟩
          have := hsn i n l l' hr h2 hn hD
          subst this
          exact hS h1
        · simp only [ne_eq, hD, not_false_eq_true, if_true, Except.ok.injEq] at h
          subst h
          exact ⟨hw, (hc.of_done rfl).mono (fun l h => .inl h)⟩
      | none =>
        rw [hlk] at h
        simp only at h
        generalize hst0 : (⟨st.out ++ [Chunk.head i n.DEF n.cls.proto], (i, (st.out.length, none)) :: st.done, st.level + 1, st.warned⟩ : St) = st0 at h
        have hd0 : st0.done = (i, (st.out.length, none)) :: st.done := by subst hst0; rfl
        have hw00 : st0.warned = st.warned := by subst hst0; rfl
        have hni : ¬ Done st i := by rintro ⟨x, hx⟩; rw [hlk] at hx; cases hx
        have hi0 : Done st0 i := ⟨_, by rw [look_cons st i i _ st0 hd0, if_pos rfl]⟩
        have hD0 : ∀ j, Done st j → Done st0 j := fun j hj => done_cons hd0 hj
        have hD0' : ∀ j, Done st0 j → j = i ∨ Done st j := by
          intro j ⟨y, hy⟩
          rw [look_cons st i j _ st0 hd0] at hy
          by_cases hj : j = i
          · exact .inl hj
          · rw [if_neg hj] at hy; exact .inr ⟨y, hy⟩
        have b0 : ∀ f q, ¬ (S (.field i f q) ∨ Loc.field i f q = l) := by
          intro f q hq
          rcases hq with hq | hq
          · exact hni (ho _ _ _ hq)
          · exact hni (hl _ _ _ hq.symm)
        have b2 : Cov sc st0 (fun x => S x ∨ x = l) := by
          intro j hj
          rcases hD0' j hj with rfl | hj
          · exact ⟨l, .inr rfl, hr⟩
          · obtain ⟨l', h1, h2⟩ := hc j hj
            exact ⟨l', .inl h1, h2⟩
        have b3 : Own st0 (fun x => S x ∨ x = l) := by
          intro o f p hs
          rcases hs with hs | hs
          · exact hD0 o (ho o f p hs)
          · exact hD0 o (hl o f p hs.symm)
        have hg := hh i n hri hn
        cases hb : linBegin lv (linNode lv fl sc fuel) st0 n.cls with
        | error e => rw [hb] at h; cases h
        | ok stb =>
          rw [hb] at h
          simp only at h
          obtain ⟨k1, k2⟩ := nowarn_begin (mono_node fuel) ih hri hn hg hb b0 hi0 b2 b3 (by rw [hw00]; exact hw)
          have hupb := (mono_begin (mono_node fuel) hb).2
          have k3 : Own stb (More (fun x => S x ∨ x = l) (fun x => ∃ f q, x = .field i f q ∧ Declared n.cls f) st0 stb) :=
            b3.more hupb (by rintro o f' p ⟨f, q, h, -⟩; cases h; exact hupb _ hi0)
          cases ha : linAttrs lv fl (linNode lv fl sc fuel) n (sc.isOf i) stb (attrFields n.cls) with
          | error e => rw [ha] at h; cases h
          | ok st1 =>
            rw [ha] at h
            simp only [Except.ok.injEq] at h
            have b1 : ∀ d ∈ attrFields n.cls, ∀ q, ¬ More (fun x => S x ∨ x = l) (fun x => ∃ f q, x = .field i f q ∧ Declared n.cls f) st0 stb (.field i d.name q) := by
              intro d hd q hq
              rcases hq with hq | ⟨f, q', hq, hdec⟩ | ⟨o, f', p, h1, h2, h3⟩
              · exact b0 _ _ hq
              · injection hq with h1 h2 h3
                exact (attrFields_mem.1 hd).2.2 (h2 ▸ hdec)
              · injection h1 with h1; subst h1; exact h3 hi0
            obtain ⟨e1, e2⟩ := nowarn_attrs (lv := lv) (mono_node fuel) ih hri hn (attrFields n.cls) stb st1 _
              (fun d hd => ⟨(attrFields_mem.1 hd).1, (attrFields_mem.1 hd).2.1⟩) (attrFields_nodup hg.distinct) ha b1 (hupb _ hi0) k2 k3 k1
            have hup1 := (mono_attrs (lv := lv) (fl := fl) (mono_node fuel) _ _ _ ha).2
            have hdone : ∃ x, st'.done = (i, x) :: st1.done := by subst h; exact ⟨_, rfl⟩
            obtain ⟨x, hx⟩ := hdone
            have hwst : st'.warned = st1.warned := by subst h; rfl
            refine ⟨by rw [hwst]; exact e1, fun j hj => ?_⟩
            have hi1 : Done st1 i := hup1 _ (hupb _ hi0)
            have hj1 : Done st1 j := by
              obtain ⟨y, hy⟩ := hj
              rw [look_cons st1 i j _ st' hx] at hy
              by_cases hji : j = i
              · subst hji; exact hi1
              · rw [if_neg hji] at hy; exact ⟨y, hy⟩
            obtain ⟨l', h1, h2⟩ := e2 j hj1
            refine ⟨l', ?_, h2⟩
            rcases h1 with ((h1 | h1) | ⟨f, q, h1, -⟩ | ⟨o, f', p, h1, h3, h4⟩) | ⟨f, q, h1⟩ | ⟨o, f', p, h1, h3, h4⟩
            · exact .inl h1
            · exact .inr (.inl h1)
            · exact .inr (.inr ⟨i, f, q, h1, done_cons hx hi1, hni⟩)
            · exact .inr (.inr ⟨o, f', p, h1, done_cons hx (hup1 _ h3), fun h => h4 (hD0 o h)⟩)
            · exact .inr (.inr ⟨i, f, q, h1, done_cons hx hi1, hni⟩)
            · exact .inr (.inr ⟨o, f', p, h1, done_cons hx h3, fun h => h4 (hupb o (hD0 o h))⟩)

theorem nowarn_children (hm : Mono lin) (hl : NoWarn sc lin) : ∀ (l : List Nat) (k : Nat) (st st' : St) (S : Loc → Prop),
    linChildren lv lin st l = .ok st' → (∀ q j, l[q]? = some j → Refers sc (.child (k + q)) j) → (∀ q, ¬ S (.child (k + q))) →
    Cov sc st S → Own st S → st.warned = false → st'.warned = false := by
  intro l
  induction l with
  | nil =>
    intro k st st' S h _ _ _ _ hw
    simp only [linChildren, Except.ok.injEq] at h
    subst h; exact hw
  | cons a l ih =>
    intro k st st' S h hr hS hc ho hw
    simp only [linChildren] at h
    cases hlin : lin st a with
    | error e => rw [hlin] at h; cases h
    | ok st1 =>
      rw [hlin] at h
      simp only at h
      obtain ⟨e1, e2⟩ := hl st a st1 S (.child k) hlin (by simpa using hr 0 a rfl) (by intro o f p h; cases h) (by simpa using hS 0) hc ho hw
      have hup1 : ∀ j, Done st j → Done st1 j := (hm _ _ _ hlin).2
      have ho1 : Own st1 (More S (fun x => x = .child k) st st1) := ho.more hup1 (by intro o f' p h; cases h)
      refine ih (k + 1) (st1.write lv.fullSep) st' _ h (fun q j hq => by
          have := hr (q + 1) j (by simpa using hq)
          have e : k + (q + 1) = k + 1 + q := by omega
          rwa [e] at this) (fun q hq => ?_) (e2.of_done rfl) (ho1.of_done rfl) e1
      rcases hq with hq | hq | ⟨o, f', p, h1, h2, h3⟩
      · exact hS (q + 1) (by have e : k + (q + 1) = k + 1 + q := by omega
                             rw [e]; exact hq)
      · injection hq with h; omega
      · cases h1

/-- If every node held in two places has a name, no warning is written. -/
theorem body_nowarn (hh : ∀ i n, Reach sc i → sc.heap i = some n → PlainDecls sc i n) (hsn : ∀ j n l l', Refers sc l j → Refers sc l' j → sc.heap j = some n → n.DEF = [] → l = l') {st : St} (h : linBody lv fl sc fuel = .ok st) : st.warned = false := by
  simp only [linBody] at h
  split at h
  · cases h
  · rename_i st1 h1
    simp only [Except.ok.injEq] at h
    rw [← h, (write_routes (lv := lv) sc.defOf sc.routes st1).2.2]
    refine nowarn_children (mono_node fuel) (nowarn_node hh hsn fuel) sc.children 0 _ _ (fun _ => False) h1 (fun q j hq => by simpa using Refers.child hq) (fun _ h => h) ?_ ?_ rfl
    · intro j hj; obtain ⟨x, hx⟩ := hj; simp [St.look] at hx
    · intro o f p h; exact h.elim

end Verif.Lin
