import Verif.Model.NodePath
/-
C52 (path algebra), C53 (invalidation), C55 (safeCompare).
-/
namespace Verif.NodePath

/-! ## C52 -/

/-- longest common prefix, by recursion on the two paths -/
def lcp : Path → Path → Path
  | a :: p, b :: q => if a = b then a :: lcp p q else []
  | _, _ => []

theorem commonFrom_eq (p q : Path) (fuel i : Nat) (result : Path)
    (hf : min p.length q.length ≤ i + fuel) :
    commonFrom p q i fuel result = result ++ lcp (p.drop i) (q.drop i) := by
  induction fuel generalizing i result with
  | zero =>
    have : p.drop i = [] ∨ q.drop i = [] := by
      rcases Nat.le_total p.length q.length with h | h
      · exact Or.inl (List.drop_eq_nil_of_le (by omega))
      · exact Or.inr (List.drop_eq_nil_of_le (by omega))
    rcases this with h | h
    · simp [commonFrom, h, lcp]
    · rw [h]; cases p.drop i <;> simp [commonFrom, lcp]
  | succ fuel ih =>
    by_cases hp : i < p.length
    · by_cases hq : i < q.length
      · rw [List.drop_eq_getElem_cons hp, List.drop_eq_getElem_cons hq]
        simp only [commonFrom, List.getElem?_eq_getElem hp, List.getElem?_eq_getElem hq, lcp]
        by_cases h : p[i] = q[i]
        · simp only [h, if_true]
          rw [ih (i + 1) _ (by omega)]
          simp
        · simp [h]
      · have h : q.drop i = [] := List.drop_eq_nil_of_le (by omega)
        have h2 : q[i]? = none := List.getElem?_eq_none (by omega)
        rw [h]
        simp only [commonFrom, h2]
        cases p.drop i <;> cases p[i]? <;> simp [lcp]
    · have h : p.drop i = [] := List.drop_eq_nil_of_le (by omega)
      have h2 : p[i]? = none := List.getElem?_eq_none (by omega)
      rw [h]
      simp [commonFrom, h2, lcp]

theorem lcp_spec (p q : Path) : lcp p q <+: p ∧ lcp p q <+: q ∧ ∀ r, r <+: p → r <+: q → r <+: lcp p q := by
  induction p generalizing q with
  | nil => simp [lcp]
  | cons a p ih =>
    cases q with
    | nil => simp [lcp]
    | cons b q =>
      by_cases h : a = b
      · subst h
        obtain ⟨h1, h2, h3⟩ := ih q
        simp only [lcp, if_true]
        refine ⟨List.prefix_cons_inj a |>.2 h1, List.prefix_cons_inj a |>.2 h2, ?_⟩
        intro r hr1 hr2
        cases r with
        | nil => exact List.nil_prefix
        | cons c r =>
          obtain ⟨rfl, hr1'⟩ := List.cons_prefix_cons.1 hr1
          obtain ⟨-, hr2'⟩ := List.cons_prefix_cons.1 hr2
          exact List.prefix_cons_inj c |>.2 (h3 r hr1' hr2')
      · simp only [lcp, h, if_false]
        refine ⟨List.nil_prefix, List.nil_prefix, ?_⟩
        intro r hr1 hr2
        cases r with
        | nil => exact List.nil_prefix
        | cons c r =>
          obtain ⟨rfl, _⟩ := List.cons_prefix_cons.1 hr1
          obtain ⟨rfl, _⟩ := List.cons_prefix_cons.1 hr2
          exact absurd rfl h

/-- C52: `p.common(q)` is the longest common prefix: a prefix of both, and every common prefix is a prefix
of it. -/
theorem C52_common_is_longest_common_prefix (p q : Path) :
    common p q <+: p ∧ common p q <+: q ∧ ∀ r, r <+: p → r <+: q → r <+: common p q := by
  have : common p q = lcp p q := by
    unfold common; rw [commonFrom_eq p q _ 0 [] (by omega)]; simp
  rw [this]; exact lcp_spec p q

/-- C52: two paths are equal exactly when they have the same nodes at the same places. -/
theorem C52_equality (p q : Path) : pathEq p q = true ↔ p = q := by
  have key : ∀ fuel i, eqFrom p q i fuel = true ↔ ∀ j, i ≤ j → j < i + fuel → p[j]? = q[j]? := by
    intro fuel
    induction fuel with
    | zero => intro i; simp only [eqFrom, true_iff]; intro j h1 h2; omega
    | succ fuel ih =>
      intro i
      by_cases h : p[i]? = q[i]?
      · simp only [eqFrom, h, if_true, ih]
        constructor
        · intro H j h1 h2
          rcases Nat.eq_or_lt_of_le h1 with rfl | h1
          · exact h
          · exact H j h1 (by omega)
        · intro H j h1 h2; exact H j (by omega) (by omega)
      · simp only [eqFrom, h, if_false, Bool.false_eq_true, false_iff]
        intro H; exact h (H i (Nat.le_refl _) (by omega))
  unfold pathEq
  by_cases hl : p.length = q.length
  · simp only [hl, ne_eq, not_true_eq_false, if_false]
    rw [key]
    constructor
    · intro H
      apply List.ext_getElem?
      intro j
      by_cases hj : j < q.length
      · exact H j (by omega) (by omega)
      · rw [List.getElem?_eq_none (by omega), List.getElem?_eq_none (by omega)]
    · rintro rfl j _ _; rfl
  · simp only [hl, ne_eq, not_false_eq_true, if_true, Bool.false_eq_true, false_iff]
    rintro rfl; exact hl rfl

/-- C52: concatenation is associative, keeps both parts, and appending a node is appending the one-node
path; hence the common part of a path with an extension of it is the path itself. -/
theorem C52_concatenation (p q r : Path) (n : Nat) :
    add (add p (.list q)) (.list r) = add p (.list (add q (.list r)))
    ∧ p <+: add p (.list q) ∧ q <:+ add p (.list q)
    ∧ add p (.node n) = add p (.list [n])
    ∧ common p (add p (.list q)) = p := by
  refine ⟨by simp [add], ⟨q, rfl⟩, ⟨p, rfl⟩, rfl, ?_⟩
  obtain ⟨h1, -, h3⟩ := C52_common_is_longest_common_prefix p (add p (.list q))
  exact h1.eq_of_length (by
    have := h3 p (List.prefix_refl p) ⟨q, rfl⟩
    exact Nat.le_antisymm h1.length_le this.length_le)

example : common [1, 2, 3, 4] [1, 2, 5, 4] = [1, 2] := by decide

/-! ## C53 -/

/-- `q` lies below `p` in exactly `k` steps through live derived paths -/
inductive Below (s : Reg) : Nat → Nat → Nat → Prop
  | refl (p) : Below s 0 p p
  | step {k p c q} : c ∈ s.children p → s.alive c = true → Below s k c q → Below s (k + 1) p q

theorem mem_live (s : Reg) (p c : Nat) : c ∈ s.live p ↔ c ∈ s.children p ∧ s.alive c = true := by
  simp [Reg.live]

/-- C53, exactly what happens: after invalidating a path, the broken paths are those broken before, the path
itself, its live derived paths and the live paths derived from those – two levels. -/
theorem C53_invalidate_exact (s : Reg) (p q : Nat) :
    (s.invalidate p).broken q = true ↔ (s.broken q = true ∨ ∃ k, k ≤ 2 ∧ Below s k p q) := by
  have hd : q ∈ s.descendents p ↔ (Below s 1 p q ∨ Below s 2 p q) := by
    simp only [Reg.descendents, List.mem_flatMap, List.mem_cons]
    constructor
    · rintro ⟨c, hc, rfl | hq⟩
      · exact Or.inl (.step ((mem_live s p q).1 hc).1 ((mem_live s p q).1 hc).2 (.refl q))
      · have h1 := (mem_live s p c).1 hc
        have h2 := (mem_live s c q).1 hq
        exact Or.inr (.step h1.1 h1.2 (.step h2.1 h2.2 (.refl q)))
    · rintro (h | h)
      · cases h with
        | step h1 h2 h3 => cases h3; exact ⟨q, (mem_live s p q).2 ⟨h1, h2⟩, Or.inl rfl⟩
      · cases h with
        | step h1 h2 h3 =>
          cases h3 with
          | step h4 h5 h6 =>
            cases h6
            exact ⟨_, (mem_live s p _).2 ⟨h1, h2⟩, Or.inr ((mem_live s _ q).2 ⟨h4, h5⟩)⟩
  have e : (s.invalidate p).broken q = if q = p ∨ q ∈ s.descendents p then true else s.broken q := rfl
  rw [e]
  constructor
  · intro h
    by_cases hc : q = p ∨ q ∈ s.descendents p
    · right
      rcases hc with rfl | hc
      · exact ⟨0, by omega, .refl _⟩
      · rcases hd.1 hc with h | h
        · exact ⟨1, by omega, h⟩
        · exact ⟨2, by omega, h⟩
    · rw [if_neg hc] at h; exact Or.inl h
  · rintro (h | ⟨k, hk, h⟩)
    · split
      · rfl
      · exact h
    · have : q = p ∨ q ∈ s.descendents p := by
        match k, hk, h with
        | 0, _, h => cases h; exact Or.inl rfl
        | 1, _, h => exact Or.inr (hd.2 (Or.inl h))
        | 2, _, h => exact Or.inr (hd.2 (Or.inr h))
      rw [if_pos this]

/-- C53, refuted: a path three derivations below the invalidated one stays unbroken (built with `+` only). -/
theorem C53_refuted_third_level :
    ∃ s0 : Reg, (s0 = ⟨fun x => x == 0, fun _ => [], fun _ => false, 1⟩) ∧
      let s := ((s0.addChild 0).addChild 1).addChild 2
      Below s 3 0 3 ∧ s.alive 3 = true ∧ (s.invalidate 0).broken 2 = true ∧ (s.invalidate 0).broken 3 = false := by
  refine ⟨_, rfl, ?_⟩
  refine ⟨.step (c := 1) ?_ ?_ (.step (c := 2) ?_ ?_ (.step (c := 3) ?_ ?_ (.refl 3))), ?_, ?_, ?_⟩ <;> decide

/-- what a program can do with paths: derive a path (`p + nodes`), drop its last reference to one, iterate
over the derived paths, invalidate one -/
inductive Op
  | add (p : Nat)
  | drop (p : Nat)
  | iterate (p : Nat)
  | invalidate (p : Nat)

def Op.run (s : Reg) : Op → Reg
  | .add p => s.addChild p
  | .drop p => s.die p
  | .iterate p => s.prune p
  | .invalidate p => s.invalidate p

/-- `q` was derived from `p`: while `q` lives `p` lives too and knows it -/
structure Knows (s : Reg) (p q : Nat) : Prop where
  ltp : p < s.next
  ltq : q < s.next
  mem : s.alive q = true → q ∈ s.children p
  alive : s.alive q = true → s.alive p = true

theorem knows_prune {s : Reg} {p q : Nat} (h : Knows s p q) (x : Nat) : Knows (s.prune x) p q := by
  refine ⟨h.ltp, h.ltq, fun ha => ?_, h.alive⟩
  show q ∈ (if p = x then s.live x else s.children p)
  split
  · next e => subst e; exact (mem_live s p q).2 ⟨h.mem ha, ha⟩
  · exact h.mem ha

theorem knows_foldl {p q : Nat} : ∀ (l : List Nat) {s : Reg}, Knows s p q → Knows (l.foldl Reg.prune s) p q
  | [], _, h => h
  | x :: l, _, h => knows_foldl l (knows_prune h x)

theorem knows_run {s : Reg} {p q : Nat} (h : Knows s p q) (o : Op) : Knows (o.run s) p q := by
  cases o with
  | add x =>
    have e1 : q ≠ s.next := Nat.ne_of_lt h.ltq
    have e2 : p ≠ s.next := Nat.ne_of_lt h.ltp
    refine ⟨Nat.lt_succ_of_lt h.ltp, Nat.lt_succ_of_lt h.ltq, fun ha0 => ?_, fun ha => ?_⟩
    · have ha : s.alive q = true := by simpa [Op.run, Reg.addChild, e1] using ha0
      clear ha0
      show q ∈ (if p = x then s.children x ++ [s.next] else if p = s.next then [] else s.children p)
      by_cases e : p = x
      · rw [if_pos e]; exact List.mem_append_left _ (e ▸ h.mem ha)
      · rw [if_neg e, if_neg e2]; exact h.mem ha
    · have ha : s.alive q = true := by simpa [Op.run, Reg.addChild, e1] using ha
      simpa [Op.run, Reg.addChild, e2] using h.alive ha
  | drop x =>
    show Knows (s.die x) p q
    unfold Reg.die
    split
    · exact h
    · next hn =>
      refine ⟨h.ltp, h.ltq, fun ha => ?_, fun ha => ?_⟩
      · have ha : (if q = x then false else s.alive q) = true := ha
        split at ha
        · cases ha
        · exact h.mem ha
      · have ha : (if q = x then false else s.alive q) = true := ha
        show (if p = x then false else s.alive p) = true
        by_cases e1 : q = x
        · rw [if_pos e1] at ha; cases ha
        · rw [if_neg e1] at ha
          by_cases e : p = x
          · exact absurd (List.any_eq_true.2 ⟨q, e ▸ h.mem ha, ha⟩) hn
          · rw [if_neg e]; exact h.alive ha
  | iterate x => exact knows_prune h x
  | invalidate x =>
    have := knows_foldl (x :: s.live x) h
    exact ⟨this.ltp, this.ltq, this.mem, this.alive⟩

theorem knows_history {p q : Nat} : ∀ (l : List Op) {s : Reg}, Knows s p q → Knows (l.foldl Op.run s) p q
  | [], _, h => h
  | o :: l, _, h => knows_history l (knows_run h o)

theorem knows_add (s : Reg) (p : Nat) (hp : p < s.next) (ha : s.alive p = true) : Knows (s.addChild p) p s.next := by
  refine ⟨Nat.lt_succ_of_lt hp, Nat.lt_succ_self _, fun _ => ?_, fun _ => ?_⟩
  · simp [Reg.addChild]
  · simp [Reg.addChild, ha]

/-- C53, over histories: derive a path `q` from a live path `p`, then let the program do anything with any
paths; if `q` still lives then `p` lives, iterating over the paths derived from `p` yields `q`, and
invalidating `p` breaks `q`. -/
theorem C53_derived_is_broken (s : Reg) (p : Nat) (hp : p < s.next) (ha : s.alive p = true) (hist : List Op) :
    let q := s.next
    let s' := hist.foldl Op.run (s.addChild p)
    s'.alive q = true → s'.alive p = true ∧ q ∈ s'.live p ∧ (s'.invalidate p).broken q = true := by
  intro q s' hq
  have k := knows_history hist (knows_add s p hp ha)
  refine ⟨k.alive hq, (mem_live _ _ _).2 ⟨k.mem hq, hq⟩, ?_⟩
  exact (C53_invalidate_exact s' p q).2 (Or.inr ⟨1, by omega, .step (k.mem hq) hq (.refl _)⟩)

/-- C53, over histories, second level: a path derived from a derived path is broken too, whatever happened
between the two derivations and since. -/
theorem C53_second_level_is_broken (s : Reg) (p : Nat) (hp : p < s.next) (ha : s.alive p = true)
    (between since : List Op) :
    let q := s.next
    let s1 := between.foldl Op.run (s.addChild p)
    let r := s1.next
    let s' := since.foldl Op.run (s1.addChild q)
    s1.alive q = true → s'.alive r = true → (s'.invalidate p).broken q = true ∧ (s'.invalidate p).broken r = true := by
  intro q s1 r s' hq hr
  have k1 := knows_history between (knows_add s p hp ha)
  have k2 := knows_history since (knows_add s1 q k1.ltq hq)
  have k3 := knows_history since (knows_run k1 (.add q))
  have hq' := k2.alive hr
  refine ⟨(C53_invalidate_exact s' p q).2 (Or.inr ⟨1, by omega, .step (k3.mem hq') hq' (.refl _)⟩), ?_⟩
  exact (C53_invalidate_exact s' p r).2
    (Or.inr ⟨2, by omega, .step (k3.mem hq') hq' (.step (k2.mem hr) hr (.refl _))⟩)

example :
    let s0 : Reg := ⟨fun x => x == 0, fun _ => [], fun _ => false, 1⟩
    let s' := [Op.add 0, .drop 2, .iterate 0, .drop 0].foldl Op.run (s0.addChild 0)
    s'.alive 1 = true ∧ s'.alive 2 = false ∧ s'.alive 0 = true ∧ (s'.invalidate 0).broken 1 = true := by decide

/-! ## C55 -/

/-- same kind of value with equal contents (numbers of either type are compared by value) -/
def Same : Val → Val → Prop
  | .none, .none => True
  | .int a, .int b => a = b
  | .int a, .float n d => a * d = n
  | .float n d, .int b => n = b * d
  | .float n d, .float m e => n * e = m * d
  | .str s, .str t => s = t
  | .array sh l, .array sh' l' => sh = sh' ∧ l = l'
  | .list l, .list l' => l = l'
  | .tuple l, .tuple l' => l = l'
  | .other c i, .other c' j => c = c' ∧ i = j
  | _, _ => False

def IsArray : Val → Prop
  | .array _ _ => True
  | _ => False

/-- C55: when no numpy array is involved the answer is a Boolean that is true exactly when the two
values are of the same kind with equal contents. Excluded: arrays, for which the claim is false. -/
theorem C55_compare (a b : Val) (ha : ¬ IsArray a) (hb : ¬ IsArray b) :
    ∃ r, safeCompare a b = .bool r ∧ (r = true ↔ Same a b) := by
  cases a <;> cases b <;> simp [IsArray] at ha hb <;>
    simp [safeCompare, Same, numEq]

/-- C55: two arrays of the same shape are reported equal exactly when they agree in *some* place;
an array is never reported equal to a value of another kind standing on the right. -/
theorem C55_arrays (sh : List Nat) (l l' : List Int) (b : Val) (hb : ¬ IsArray b) :
    (safeCompare (.array sh l) (.array sh l') = .bool true ↔ ∃ (i : Nat) (x : Int), l[i]? = some x ∧ l'[i]? = some x)
    ∧ safeCompare (.array sh l) b = .bool false := by
  constructor
  · simp only [safeCompare, if_true, Res.bool.injEq, List.any_eq_true, decide_eq_true_eq]
    constructor
    · rintro ⟨⟨x, y⟩, hm, hxy⟩
      simp only at hxy; subst hxy
      obtain ⟨i, hi⟩ := List.mem_iff_getElem?.1 hm
      rw [List.getElem?_zip_eq_some] at hi
      exact ⟨i, x, hi⟩
    · rintro ⟨i, x, h1, h2⟩
      exact ⟨(x, x), List.mem_iff_getElem?.2 ⟨i, List.getElem?_zip_eq_some.2 ⟨h1, h2⟩⟩, rfl⟩
  · cases b <;> simp [IsArray] at hb <;> rfl

/-- C55, refuted: different arrays are reported equal when one component agrees, equal empty arrays are
reported different, and a number against an array gives no Boolean. -/
theorem C55_refuted_arrays :
    safeCompare (.array [3] [1, 2, 3]) (.array [3] [1, 5, 6]) = .bool true
    ∧ safeCompare (.array [0] []) (.array [0] []) = .bool false
    ∧ safeCompare (.int 1) (.array [1] [1]) = .array := by decide

end Verif.NodePath
