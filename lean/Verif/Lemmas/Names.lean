import Verif.Lemmas.RoundTrip4
import Mathlib.Data.List.Nodup
import Mathlib.Data.List.Perm.Subperm
/-!
Lemmas for C11: the names given to the ends of routes.
-/
namespace Verif.Lin
open Verif.Peg Verif.Grammar Verif.TextOut Verif.Text Verif.SceneText Verif.ListText
variable {F : Type}

theorem natStr_inj {a b : Nat} (h : natStr a = natStr b) : a = b := by
  rw [← natStr_val a, ← natStr_val b, h]

/-- the candidate names -/
def cand (proto : Text) (k : Nat) : Text := proto ++ ['_'] ++ natStr k

theorem cand_inj {proto : Text} {a b : Nat} (h : cand proto a = cand proto b) : a = b := by
  simp only [cand, List.append_assoc] at h
  have := List.append_cancel_left h
  exact natStr_inj (List.append_cancel_left this)

theorem lookup_some_mem {l : List (Text × Nat)} {k : Text} (h : l.lookup k ≠ none) : k ∈ l.map Prod.fst := by
  induction l with
  | nil => exact absurd rfl h
  | cons p l ih =>
    obtain ⟨a, b⟩ := p
    rw [List.lookup_cons] at h
    by_cases hk : k = a
    · simp [hk]
    · have : (k == a) = false := by simpa using hk
      rw [this] at h
      exact List.mem_cons_of_mem _ (ih h)

theorem freeName_none {sc : Scene F} {proto : Text} : ∀ fuel count, freeName sc proto fuel count = none → ∀ k < fuel, sc.getDEF (cand proto (count + k)) ≠ none := by
  intro fuel
  induction fuel with
  | zero => intro count _ k hk; omega
  | succ fuel ih =>
    intro count h k hk
    simp only [freeName] at h
    split at h
    · cases h
    · rename_i hn
      cases k with
      | zero => exact hn
      | succ k =>
        have := ih (count + 1) h k (by omega)
        rwa [show count + (k + 1) = count + 1 + k by omega]

theorem freeName_some {sc : Scene F} {proto nm : Text} : ∀ fuel count, freeName sc proto fuel count = some nm →
    sc.getDEF nm = none ∧ ∃ k, count ≤ k ∧ nm = cand proto k ∧ ∀ j, count ≤ j → j < k → sc.getDEF (cand proto j) ≠ none := by
  intro fuel
  induction fuel with
  | zero => intro count h; cases h
  | succ fuel ih =>
    intro count h
    simp only [freeName] at h
    split at h
    · rename_i hn
      cases h
      exact ⟨hn, count, Nat.le_refl _, rfl, fun j h1 h2 => by omega⟩
    · rename_i hn
      obtain ⟨h1, k, h2, h3, h4⟩ := ih (count + 1) h
      refine ⟨h1, k, by omega, h3, fun j hj1 hj2 => ?_⟩
      by_cases hj : j = count
      · subst hj; exact hn
      · exact h4 j (by omega) hj2

/-- The search for a name ends: the table cannot hold all candidates. -/
theorem freeName_found (sc : Scene F) (proto : Text) : freeName sc proto (sc.defs.length + 1) 0 ≠ none := by
  intro h
  have hall := freeName_none _ _ h
  have hnd : ((List.range (sc.defs.length + 1)).map (cand proto)).Nodup := by
    refine List.Nodup.map ?_ List.nodup_range
    intro a b hab
    exact cand_inj hab
  have hsub : ((List.range (sc.defs.length + 1)).map (cand proto)) ⊆ sc.defs.map Prod.fst := by
    intro x hx
    obtain ⟨k, hk, rfl⟩ := List.mem_map.1 hx
    have := hall k (List.mem_range.1 hk)
    rw [Nat.zero_add] at this
    exact lookup_some_mem this
  have := (List.subperm_of_subset hnd hsub).length_le
  simp at this

/-! ### Renaming -/

theorem Renamed.refl (a : Scene F) : Renamed a a := by
  refine ⟨rfl, rfl, rfl, fun i => ?_⟩
  cases h : a.heap i with
  | none => exact .inl ⟨rfl, rfl⟩
  | some n => exact .inr ⟨n, n, rfl, rfl, rfl, rfl, fun _ => rfl⟩

theorem Renamed.trans {a b c : Scene F} (h1 : Renamed a b) (h2 : Renamed b c) : Renamed a c := by
  refine ⟨h2.children.trans h1.children, h2.routes.trans h1.routes, h2.is.trans h1.is, fun i => ?_⟩
  rcases h1.node i with ⟨e1, e2⟩ | ⟨n, m, e1, e2, e3, e4, e5⟩
  · rcases h2.node i with ⟨f1, f2⟩ | ⟨n', m', f1, -⟩
    · exact .inl ⟨e1, f2⟩
    · rw [e2] at f1; cases f1
  · rcases h2.node i with ⟨f1, f2⟩ | ⟨n', m', f1, f2, f3, f4, f5⟩
    · rw [e2] at f1; cases f1
    · rw [e2] at f1; cases f1
      refine .inr ⟨n, m', e1, f2, f3.trans e3, f4.trans e4, fun hne => ?_⟩
      rw [f5 (by rw [e5 hne]; exact hne), e5 hne]

theorem read_congr {d : FieldDecl F} {n m : Node F} (h : m.dict = n.dict) : d.read m = d.read n := by
  simp only [FieldDecl.read, h]

theorem Renamed.shown {a b : Scene F} (h : Renamed a b) {i : Nat} {d : FieldDecl F} : Shown b i d ↔ Shown a i d := by
  simp only [Shown, isMapped_congr h.is]

theorem Renamed.reach {a b : Scene F} (h : Renamed a b) {i : Nat} (hi : Reach a i) : Reach b i := by
  induction hi with
  | child hc => exact .child (by rw [h.children]; exact hc)
  | @field i j n d v _ hn hd hv hr hj ih =>
    rcases h.node i with ⟨e1, -⟩ | ⟨n', m, e1, e2, e3, e4, -⟩
    · rw [hn] at e1; cases e1
    · rw [hn] at e1; cases e1
      exact .field ih e2 (by rw [e3]; exact hd) (h.shown.2 hv) (by rw [read_congr e4]; exact hr) hj

theorem Renamed.reach_iff {a b : Scene F} (h : Renamed a b) {i : Nat} : Reach b i ↔ Reach a i := by
  refine ⟨fun hi => ?_, h.reach⟩
  induction hi with
  | child hc => exact .child (by rw [← h.children]; exact hc)
  | @field i j n d v _ hn hd hv hr hj ih =>
    rcases h.node i with ⟨-, e1⟩ | ⟨n', m, e1, e2, e3, e4, -⟩
    · rw [hn] at e1; cases e1
    · rw [hn] at e2; cases e2
      exact .field ih e1 (by rw [← e3]; exact hd) (h.shown.1 hv) (by rw [← read_congr e4]; exact hr) hj

theorem Renamed.refers {a b : Scene F} (h : Renamed a b) {l : Loc} {j : Nat} (hl : Refers b l j) : Refers a l j := by
  cases hl with
  | child hc => exact .child (by rw [← h.children]; exact hc)
  | @field i n d v p j h1 hn hd hv hr hj =>
    rcases h.node i with ⟨-, e1⟩ | ⟨n', m, e1, e2, e3, e4, -⟩
    · rw [hn] at e1; cases e1
    · rw [hn] at e2; cases e2
      exact .field (h.reach_iff.1 h1) e1 (by rw [← e3]; exact hd) (h.shown.1 hv) (by rw [← read_congr e4]; exact hr) hj

/-! ### Naming one end of a route -/

theorem legal_cand {proto : Text} (h : LegalName proto) (k : Nat) : LegalName (cand proto k) := by
  obtain ⟨c, s, rfl, h1, h2⟩ := h
  refine ⟨c, s ++ ['_'] ++ natStr k, by simp [cand], h1, fun d hd => ?_⟩
  simp only [List.mem_append, List.mem_singleton] at hd
  rcases hd with (hd | rfl) | hd
  · exact h2 d hd
  · decide
  · have := natStr_digit k d hd
    simp only [isDigit, Bool.and_eq_true, decide_eq_true_eq] at this
    cases hb : isNameRest d with
    | true => rfl
    | false =>
      exfalso
      simp only [isNameRest, isNameBad, Bool.not_eq_false', Bool.or_eq_true, beq_iff_eq, decide_eq_true_eq] at hb
      rcases hb with ((((((((((((rfl | rfl) | rfl) | rfl) | hb) | rfl) | rfl) | rfl) | rfl) | rfl) | rfl) | rfl)) <;>
        first | omega | (revert this; decide)

/-- What naming one node does. -/
theorem nameEnd_cases (sc : Scene F) (i : Nat) : (nameEnd sc i = sc ∧ ∀ n, sc.heap i = some n → n.DEF ≠ []) ∨
    ∃ n k, sc.heap i = some n ∧ n.DEF = [] ∧ sc.getDEF (cand n.cls.proto k) = none ∧ (∀ j < k, sc.getDEF (cand n.cls.proto j) ≠ none) ∧
      nameEnd sc i = sc.regDefName (cand n.cls.proto k) i := by
  simp only [nameEnd]
  cases hn : sc.heap i with
  | none => exact .inl ⟨rfl, by simp⟩
  | some n =>
    simp only
    by_cases hD : n.DEF = []
    · simp only [hD, ne_eq, not_true_eq_false, if_false]
      cases hf : freeName sc n.cls.proto (sc.defs.length + 1) 0 with
      | none => exact absurd hf (freeName_found _ _)
      | some nm =>
        obtain ⟨h1, k, -, rfl, h3⟩ := freeName_some _ _ hf
        exact .inr ⟨n, k, rfl, hD, h1, fun j hj => h3 j (by omega) hj, rfl⟩
    · left
      simp only [ne_eq, hD, not_false_eq_true, if_true, true_and]
      intro m hm; cases hm; exact hD

theorem nameEnd_renamed (sc : Scene F) (i : Nat) : Renamed sc (nameEnd sc i) := by
  rcases nameEnd_cases sc i with ⟨h, -⟩ | ⟨n, k, hn, hD, -, -, h⟩
  · rw [h]; exact Renamed.refl _
  · rw [h]
    refine ⟨rfl, rfl, rfl, fun j => ?_⟩
    by_cases hj : j = i
    · subst hj
      exact .inr ⟨n, { n with DEF := cand n.cls.proto k }, hn, by simp [Scene.regDefName, hn], rfl, rfl, fun h => absurd hD h⟩
    · have : (sc.regDefName (cand n.cls.proto k) i).heap j = sc.heap j := by simp [Scene.regDefName, hj]
      rw [this]
      cases hh : sc.heap j with
      | none => exact .inl ⟨rfl, rfl⟩
      | some m => exact .inr ⟨m, m, rfl, rfl, rfl, rfl, fun _ => rfl⟩

/-- The node has a name afterwards, provided it exists. -/
theorem nameEnd_named (sc : Scene F) (i : Nat) {m : Node F} (h : (nameEnd sc i).heap i = some m) : m.DEF ≠ [] := by
  rcases nameEnd_cases sc i with ⟨h1, h2⟩ | ⟨n, k, hn, hD, -, -, h1⟩
  · rw [h1] at h; exact h2 m h
  · rw [h1] at h
    simp only [Scene.regDefName, if_true, hn, Option.map_some, Option.some.injEq] at h
    subst h
    simp [cand]

/-- Names and the table stay in step. -/
theorem nameEnd_registered (sc : Scene F) (i : Nat) (P : Nat → Prop)
    (h : ∀ j n, P j → sc.heap j = some n → n.DEF ≠ [] → sc.getDEF n.DEF = some j) :
    ∀ j n, P j → (nameEnd sc i).heap j = some n → n.DEF ≠ [] → (nameEnd sc i).getDEF n.DEF = some j := by
  rcases nameEnd_cases sc i with ⟨h1, -⟩ | ⟨n, k, hn, hD, hfree, -, h1⟩
  · rw [h1]; exact h
  · rw [h1]
    intro j m hj hm hne
    by_cases hji : j = i
    · subst hji
      simp only [Scene.regDefName, if_true, hn, Option.map_some, Option.some.injEq] at hm
      subst hm
      exact reg_self _ _ _
    · have hm' : sc.heap j = some m := by simpa [Scene.regDefName, hji] using hm
      have hreg := h j m hj hm' hne
      rw [reg_lookup _ _ _ _ (by rintro he; rw [he, hfree] at hreg; cases hreg) (by simp [Scene.defOf, hn, hD, hne])]
      exact hreg
/-! ### All routes -/

/-- what happened to one node's name -/
def NameStep (a b : Scene F) : Prop := ∀ i n m, a.heap i = some n → b.heap i = some m → m.DEF = n.DEF ∨ (n.DEF = [] ∧ ∃ k, m.DEF = cand n.cls.proto k)

theorem nameEnd_step (sc : Scene F) (i : Nat) : NameStep sc (nameEnd sc i) := by
  intro j n m hn hm
  rcases nameEnd_cases sc i with ⟨h, -⟩ | ⟨n', k, hn', hD, -, -, h⟩
  · rw [h, hn] at hm; cases hm; exact .inl rfl
  · rw [h] at hm
    by_cases hj : j = i
    · subst hj
      rw [hn'] at hn; cases hn
      simp only [Scene.regDefName, if_true, hn', Option.map_some, Option.some.injEq] at hm
      subst hm
      exact .inr ⟨hD, k, rfl⟩
    · simp only [Scene.regDefName, hj, if_false, hn, Option.some.injEq] at hm
      subst hm; exact .inl rfl

theorem NameStep.trans {a b c : Scene F} (hr : Renamed a b) (h1 : NameStep a b) (h2 : NameStep b c) : NameStep a c := by
  intro i n m hn hm
  rcases hr.node i with ⟨e1, -⟩ | ⟨n', x, e1, e2, e3, e4, -⟩
  · rw [hn] at e1; cases e1
  · rw [hn] at e1; cases e1
    rcases h2 i x m e2 hm with h | ⟨h, k, hk⟩
    · rw [h]; exact h1 i n x hn e2
    · rcases h1 i n x hn e2 with h' | ⟨h', k', hk'⟩
      · exact .inr ⟨by rw [← h']; exact h, k, by rw [hk, e3]⟩
      · rw [hk'] at h; simp [cand] at h

/-- everything that naming the ends of the routes in `l` achieves -/
theorem named_all (P : Nat → Prop) : ∀ (l : List Rt) (sc : Scene F),
    let sc' := l.foldl (fun sc r => nameEnd (nameEnd sc r.src) r.dst) sc
    Renamed sc sc' ∧ NameStep sc sc' ∧
    (∀ r ∈ l, ∀ m, (sc'.heap r.src = some m ∨ sc'.heap r.dst = some m) → m.DEF ≠ []) ∧
    ((∀ j n, P j → sc.heap j = some n → n.DEF ≠ [] → sc.getDEF n.DEF = some j) →
      ∀ j n, P j → sc'.heap j = some n → n.DEF ≠ [] → sc'.getDEF n.DEF = some j) := by
  intro l
  induction l with
  | nil =>
    intro sc
    refine ⟨Renamed.refl _, ?_, by simp, fun h => h⟩
    intro i n m hn hm
    simp only [List.foldl_nil] at hm
    rw [hn] at hm; cases hm; exact .inl rfl
  | cons r l ih =>
    intro sc
    simp only [List.foldl_cons]
    have r1 := nameEnd_renamed sc r.src
    have r2 := nameEnd_renamed (nameEnd sc r.src) r.dst
    have s1 := nameEnd_step sc r.src
    have s2 := nameEnd_step (nameEnd sc r.src) r.dst
    obtain ⟨h1, h2, h3, h4⟩ := ih (nameEnd (nameEnd sc r.src) r.dst)
    refine ⟨(r1.trans r2).trans h1, NameStep.trans (r1.trans r2) (NameStep.trans r1 s1 s2) h2, ?_, ?_⟩
    · -- a name once given is kept
      have keep : ∀ (a b : Scene F) i, Renamed a b → (∀ m, a.heap i = some m → m.DEF ≠ []) → ∀ m, b.heap i = some m → m.DEF ≠ [] := by
        intro a b i hab ha m hm
        rcases hab.node i with ⟨-, e1⟩ | ⟨n', x, e1, e2, e3, e4, e5⟩
        · rw [hm] at e1; cases e1
        · rw [hm] at e2; cases e2
          rw [e5 (ha n' e1)]; exact ha n' e1
      intro x hx m hm
      rcases List.mem_cons.1 hx with rfl | hx
      · rcases hm with hm | hm
        · exact keep _ _ _ (r2.trans h1) (fun m hm => nameEnd_named sc _ hm) m hm
        · exact keep _ _ _ h1 (fun m hm => nameEnd_named _ _ hm) m hm
      · exact h3 x hx m hm
    · intro hreg
      exact h4 (nameEnd_registered _ _ P (nameEnd_registered _ _ P hreg))

end Verif.Lin
