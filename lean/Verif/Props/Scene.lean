import Verif.Model.Scene
/-
C48 (DEF table), C49 (prototype scoping), C54 (root propagation).
-/
namespace Verif.Scene
open Verif.PyDict

variable {N : Type} [DecidableEq N]

/-! ## C48 -/

/-- C48, one registration, from any state whatsoever (DEF names may have been assigned directly, other
scene graphs may have registered the node): the name gives the node; the name the node carried is
dropped if it was registered to this very node; every other name and every other scene graph is
untouched; only this node's DEF changes. -/
theorem C48_step (s : DefSt N) (sg : Nat) (n : N) (o : Nat) :
    (∀ m, (s.reg sg n o).getDEF sg m =
        if m = n then some o
        else if m = s.defOf o ∧ s.getDEF sg m = some o then none else s.getDEF sg m)
    ∧ (∀ g m, g ≠ sg → (s.reg sg n o).getDEF g m = s.getDEF g m)
    ∧ (∀ x, (s.reg sg n o).defOf x = if x = o then n else s.defOf x) := by
  by_cases hc : s.getDEF sg (s.defOf o) = some o
  · have e : s.forget sg o = { s with tables := fun g => if g = sg then erase (s.tables sg) (s.defOf o) else s.tables g } := by
      simp only [DefSt.forget, hc, if_true]
    simp only [DefSt.reg, e]
    refine ⟨?_, ?_, fun x => rfl⟩
    · intro m
      simp only [DefSt.put, DefSt.setDEF, DefSt.getDEF, get?_set, get?_erase, if_true]
      by_cases hm : m = n
      · simp [hm]
      · have hm' : ¬ n = m := fun h => hm h.symm
        simp only [hm, hm', if_false]
        by_cases hd : m = s.defOf o
        · subst hd; simp only [DefSt.getDEF] at hc; simp [hc]
        · have : ¬ s.defOf o = m := fun h => hd h.symm
          simp [hd, this]
    · intro g m hg
      simp [DefSt.put, DefSt.setDEF, DefSt.getDEF, hg]
  · have e : s.forget sg o = s := by simp only [DefSt.forget, hc, if_false]
    simp only [DefSt.reg, e]
    refine ⟨?_, ?_, fun x => rfl⟩
    · intro m
      simp only [DefSt.put, DefSt.setDEF, DefSt.getDEF, get?_set, if_true]
      by_cases hm : m = n
      · simp [hm]
      · have hm' : ¬ n = m := fun h => hm h.symm
        simp only [hm, hm', if_false]
        by_cases hd : m = s.defOf o
        · subst hd; simp only [DefSt.getDEF] at hc; simp [hc]
        · simp [hd]
    · intro g m hg
      simp [DefSt.put, DefSt.setDEF, DefSt.getDEF, hg]

/-- the registrations `h` all made in scene graph `sg` -/
def inScene (sg : Nat) (h : List (N × Nat)) : List (Nat × N × Nat) := h.map (fun e => (sg, e.1, e.2))

theorem regs_snoc (s : DefSt N) (h : List (Nat × N × Nat)) (e : Nat × N × Nat) :
    s.regs (h ++ [e]) = (s.regs h).reg e.1 e.2.1 e.2.2 := by
  simp [DefSt.regs, List.foldl_append]

/-- `(n,o)` is the last registration of name `n` in `h`, and `o` was not registered again after it -/
def LastAndCurrent (h : List (N × Nat)) (n : N) (o : Nat) : Prop :=
  ∃ h1 h2, h = h1 ++ (n, o) :: h2 ∧ ∀ e ∈ h2, e.1 ≠ n ∧ e.2 ≠ o

theorem lastAndCurrent_snoc (h : List (N × Nat)) (m : N) (p : Nat) (n : N) (o : Nat) :
    LastAndCurrent (h ++ [(m, p)]) n o
      ↔ (m = n ∧ p = o) ∨ (m ≠ n ∧ p ≠ o ∧ LastAndCurrent h n o) := by
  constructor
  · rintro ⟨h1, h2, e, hh⟩
    rcases List.eq_nil_or_concat h2 with rfl | ⟨l, x, rfl⟩
    · have := List.append_inj_right' e (by simp)
      simp at this; exact Or.inl this
    · have e' : h ++ [(m, p)] = (h1 ++ (n, o) :: l) ++ [x] := by rw [e]; simp
      have hx := List.append_inj_right' e' (by simp)
      have hl := List.append_inj_left' e' (by simp)
      simp at hx
      have := hh x (by simp)
      rw [← hx] at this
      exact Or.inr ⟨this.1, this.2, h1, l, hl, fun y hy => hh y (by simp [hy])⟩
  · rintro (⟨rfl, rfl⟩ | ⟨h1, h2, a, b, rfl, hh⟩)
    · exact ⟨h, [], rfl, by simp⟩
    · refine ⟨a, b ++ [(m, p)], by simp, ?_⟩
      intro e he
      rcases List.mem_append.1 he with he | he
      · exact hh e he
      · simp at he; subst he; exact ⟨h1, h2⟩

/-- C48: over any history of registrations in a scene graph that started with no DEF names (the nodes
may have carried any DEF text), getDEF gives a node exactly when the last registration under that name
was of that node and the node has not been registered under another name since; and every registered
node carries the name it is registered under. -/
theorem C48_last_registration (s : DefSt N) (sg : Nat) (h0 : s.tables sg = []) (h : List (N × Nat))
    (n : N) (o : Nat) :
    ((s.regs (inScene sg h)).getDEF sg n = some o ↔ LastAndCurrent h n o)
    ∧ ((s.regs (inScene sg h)).getDEF sg n = some o → (s.regs (inScene sg h)).defOf o = n) := by
  have key : ∀ r : List (N × Nat), ∀ n o,
      ((s.regs (inScene sg r.reverse)).getDEF sg n = some o ↔ LastAndCurrent r.reverse n o)
      ∧ ((s.regs (inScene sg r.reverse)).getDEF sg n = some o →
          (s.regs (inScene sg r.reverse)).defOf o = n) := by
    intro r
    induction r with
    | nil =>
      intro n o
      have : (s.regs (inScene sg ([] : List (N × Nat)).reverse)).getDEF sg n = none := by
        simp [inScene, DefSt.regs, DefSt.getDEF, h0, get?]
      rw [this]
      refine ⟨⟨fun h => (by cases h), ?_⟩, fun h => (by cases h)⟩
      rintro ⟨h1, h2, e, _⟩
      simp at e
    | cons e r ih =>
      obtain ⟨m, p⟩ := e
      intro n o
      have hr : inScene sg ((m, p) :: r).reverse = inScene sg r.reverse ++ [(sg, m, p)] := by
        simp [inScene]
      rw [hr, regs_snoc, List.reverse_cons, lastAndCurrent_snoc]
      obtain ⟨hs1, -, hs3⟩ := C48_step (s.regs (inScene sg r.reverse)) sg m p
      have hg := hs1 n
      simp only at hg ⊢
      rw [hg, hs3 o]
      by_cases hn : n = m
      · subst hn
        simp only [if_true, Option.some.injEq, true_and, ne_eq, not_true_eq_false, false_and, or_false]
        exact fun h => by simp [h]
      · have hn' : ¬ m = n := fun h => hn h.symm
        simp only [hn, hn', if_false, false_and, false_or, ne_eq, not_false_eq_true, true_and]
        have i1 := ih n o
        have i2 := ih n p
        by_cases hc : (s.regs (inScene sg r.reverse)).getDEF sg n = some p
        · have hd := i2.2 hc
          have hcond : n = (s.regs (inScene sg r.reverse)).defOf p
              ∧ (s.regs (inScene sg r.reverse)).getDEF sg n = some p := ⟨hd.symm, hc⟩
          rw [if_pos hcond]
          refine ⟨⟨fun h => (by cases h), ?_⟩, fun h => by cases h⟩
          rintro ⟨hp, hl⟩
          have := i1.1.2 hl
          rw [hc] at this; cases this; exact absurd rfl hp
        · have hcond : ¬ (n = (s.regs (inScene sg r.reverse)).defOf p
              ∧ (s.regs (inScene sg r.reverse)).getDEF sg n = some p) := fun h => hc h.2
          rw [if_neg hcond]
          constructor
          · rw [i1.1]
            constructor
            · intro hl
              refine ⟨?_, hl⟩
              rintro rfl
              exact hc (i1.1.2 hl)
            · exact fun h => h.2
          · intro hl
            have hne : ¬ o = p := by rintro rfl; exact hc hl
            rw [if_neg hne]
            exact i1.2 hl
  have := key h.reverse n o
  simpa using this

/-- C48: registering other nodes under other names does not disturb a name. -/
theorem C48_undisturbed (s : DefSt N) (sg : Nat) (n : N) (o : Nat) (h : List (Nat × N × Nat))
    (hg : s.getDEF sg n = some o) (hh : ∀ e ∈ h, e.2.1 ≠ n ∧ e.2.2 ≠ o) :
    (s.regs h).getDEF sg n = some o := by
  induction h generalizing s with
  | nil => exact hg
  | cons e h ih =>
    obtain ⟨g, m, p⟩ := e
    have he := hh (g, m, p) (by simp)
    refine ih (s.reg g m p) ?_ (fun x hx => hh x (by simp [hx]))
    obtain ⟨h1, h2, -⟩ := C48_step s g m p
    by_cases hgs : sg = g
    · subst hgs
      rw [h1 n, if_neg (fun h => he.1 h.symm), hg]
      have : ¬ (n = s.defOf p ∧ some o = some p) := fun h => he.2 (Option.some.inj h.2).symm
      rw [if_neg this]
    · rw [h2 sg n hgs, hg]

/-- C48, limits: a DEF name assigned directly to the node leaves the table stale; and a node registered
under a second name by another scene graph keeps its first entry even when the first scene graph renames
it afterwards, so the table then gives one node under two names. -/
theorem C48_refuted_consistency :
    (∃ (s : DefSt Nat) (o : Nat), s.tables 0 = [] ∧
      ((s.reg 0 1 o).setDEF o 2).getDEF 0 1 = some o ∧ ((s.reg 0 1 o).setDEF o 2).defOf o ≠ 1)
    ∧ (∃ (s : DefSt Nat) (o : Nat), (∀ g, s.tables g = []) ∧
      (((s.reg 0 1 o).reg 1 2 o).reg 0 3 o).getDEF 0 1 = some o
      ∧ (((s.reg 0 1 o).reg 1 2 o).reg 0 3 o).getDEF 0 3 = some o) := by
  refine ⟨⟨⟨fun _ => 0, fun _ => []⟩, 7, rfl, ?_, ?_⟩, ⟨⟨fun _ => 0, fun _ => []⟩, 7, fun _ => rfl, ?_, ?_⟩⟩ <;> decide

/-- Non-vacuity: rename and take-over. -/
example : LastAndCurrent [("a", 1), ("b", 2), ("a", 3), ("c", 1)] "a" 3 :=
  ⟨[("a", 1), ("b", 2)], [("c", 1)], rfl, by simp⟩

/-! ## C49 -/

/-- `a` reaches `b` going from scene to (live) enclosing scene, through scenes that do not define `n`. -/
inductive Enclosing (h : Scenes N) (n : N) : Nat → Nat → Prop
  | refl (a) : Enclosing h n a a
  | up {a r b o} : h.objs[a]? = some o → get? o.protos n = none → o.root = some r → h.alive r = true →
      Enclosing h n r b → Enclosing h n a b

/-- scene `s` itself defines `n` as `p` -/
def Defines (h : Scenes N) (s : Nat) (n : N) (p : Nat) : Prop :=
  ∃ o, h.objs[s]? = some o ∧ get? o.protos n = some p

/-- every root was created before its scene -/
def Ordered (h : Scenes N) : Prop := ∀ (s : Nat) (o : SceneObj N) (r : Nat), h.objs[s]? = some o → o.root = some r → r < s

/-- C49: `getProto` gives `p` exactly when the innermost scene, going outwards from `s`, that defines
the name defines it as `p` (all the scenes in between being alive). -/
theorem C49_innermost_definition (h : Scenes N) (ho : Ordered h) (s : Nat) (n : N) (p : Nat) :
    getProto h s n = some p ↔ ∃ b, Enclosing h n s b ∧ Defines h b n p := by
  induction s using Nat.strongRecOn with
  | _ s ih =>
    rw [getProto]
    cases hs : h.objs[s]? with
    | none =>
      simp only [reduceCtorEq, false_iff]
      rintro ⟨b, he, o, h1, h2⟩
      cases he with
      | refl => rw [hs] at h1; cases h1
      | up h3 => rw [hs] at h3; cases h3
    | some o =>
      simp only
      cases hp : get? o.protos n with
      | some q =>
        simp only [Option.some.injEq]
        constructor
        · rintro rfl; exact ⟨s, .refl s, o, hs, hp⟩
        · rintro ⟨b, he, o', h1, h2⟩
          cases he with
          | refl => rw [hs] at h1; cases h1; rw [hp] at h2; cases h2; rfl
          | up h3 h4 => rw [hs] at h3; cases h3; rw [hp] at h4; cases h4
      | none =>
        simp only
        cases hr : o.root with
        | none =>
          simp only [reduceCtorEq, false_iff]
          rintro ⟨b, he, o', h1, h2⟩
          cases he with
          | refl => rw [hs] at h1; cases h1; rw [hp] at h2; cases h2
          | up h3 h4 h5 => rw [hs] at h3; cases h3; rw [hr] at h5; cases h5
        | some r =>
          simp only
          have hlt := ho s o r hs hr
          cases ha : h.alive r with
          | false =>
            simp only [Bool.false_eq_true, if_false, reduceCtorEq, false_iff]
            rintro ⟨b, he, o', h1, h2⟩
            cases he with
            | refl => rw [hs] at h1; cases h1; rw [hp] at h2; cases h2
            | up h3 h4 h5 h6 => rw [hs] at h3; cases h3; rw [hr] at h5; cases h5; rw [ha] at h6; cases h6
          | true =>
            simp only [if_true, hlt, dite_true]
            rw [ih r hlt]
            constructor
            · rintro ⟨b, he, hd⟩; exact ⟨b, .up hs hp hr ha he, hd⟩
            · rintro ⟨b, he, hd⟩
              cases he with
              | refl =>
                obtain ⟨o', h1, h2⟩ := hd
                rw [hs] at h1; cases h1; rw [hp] at h2; cases h2
              | up h3 h4 h5 h6 h7 =>
                rw [hs] at h3; cases h3; rw [hr] at h5; cases h5
                exact ⟨b, h7, hd⟩

/-- Non-vacuity: three nested scenes. -/
example : getProto (N := String)
    ⟨[⟨[("A", 1), ("B", 2)], none⟩, ⟨[("B", 3)], some 0⟩, ⟨[], some 1⟩], fun _ => true⟩ 2 "B" = some 3 := by
  refine (C49_innermost_definition _ ?_ _ _ _).2
    ⟨1, .up (r := 1) rfl (by decide) rfl rfl (.refl 1), ⟨_, rfl, by decide⟩⟩
  intro s o r h1 h2
  match s, h1 with
  | 0, h1 => simp at h1; subst h1; simp at h2
  | 1, h1 => simp at h1; subst h1; simp at h2; omega
  | 2, h1 => simp at h1; subst h1; simp at h2; omega
  | k + 3, h1 => simp at h1

/-- C49, limit: a copied scene graph only sees its own prototypes: a name defined in an enclosing scene
is no longer found from the copy. -/
theorem C49_copy_sees_own_only (h : Scenes N) (s c : Nat) (h' : Scenes N) (o : SceneObj N)
    (hs : h.objs[s]? = some o) (hc : copyScene h s = some (h', c)) (n : N) :
    getProto h' c n = get? o.protos n := by
  simp only [copyScene, hs, newScene, Option.some.injEq, Prod.mk.injEq] at hc
  obtain ⟨rfl, rfl⟩ := hc
  rw [getProto]
  simp only [List.getElem?_append_right (Nat.le_refl _), Nat.sub_self, List.getElem?_cons_zero]
  cases get? o.protos n <;> rfl

/-! ### scoping of a whole file -/

mutual
/-- Block-structured reading of a file: an environment maps type names to prototypes; a PROTO body is
read in the environment of its declaration, its own declarations are not visible outside, and the
declared name is visible from the end of its body on.  Returns the environment, the next fresh
prototype and the resolution of every node in order. -/
def specItem (env : N → Option Nat) (next : Nat) : Item N → (N → Option Nat) × Nat × List (Option Nat)
  | .node gi => (env, next, [env gi])
  | .proto name body =>
    let r := specItems env (next + 1) body
    ((fun n => if n = name then some next else env n), r.2.1, r.2.2)
def specItems (env : N → Option Nat) (next : Nat) : List (Item N) → (N → Option Nat) × Nat × List (Option Nat)
  | [] => (env, next, [])
  | i :: l =>
    let r := specItem env next i
    let r' := specItems r.1 r.2.1 l
    (r'.1, r'.2.1, r.2.2 ++ r'.2.2)
end

theorem getProto_congr (h h' : Scenes N) (s : Nat) (n : N) (ho : ∀ i, i ≤ s → h'.objs[i]? = h.objs[i]?)
    (ha : h'.alive = h.alive) : getProto h' s n = getProto h s n := by
  induction s using Nat.strongRecOn with
  | _ s ih =>
    rw [getProto, getProto, ho s (Nat.le_refl _), ha]
    cases h.objs[s]? with
    | none => rfl
    | some o =>
      simp only
      cases get? o.protos n with
      | some _ => rfl
      | none =>
        simp only
        cases o.root with
        | none => rfl
        | some r =>
          simp only
          by_cases hr : r < s
          · simp only [hr, dite_true]
            rw [ih r hr (fun i hi => ho i (by omega))]
          · simp [hr]

theorem getProto_addProto (h : Scenes N) (s : Nat) (hs : s < h.objs.length) (n m : N) (p : Nat) :
    getProto (addProto h s n p) s m = if m = n then some p else getProto h s m := by
  have hge : h.objs[s]? = some h.objs[s] := List.getElem?_eq_getElem hs
  have e : addProto h s n p = { h with objs := h.objs.set s { h.objs[s] with protos := set h.objs[s].protos n p } } := by
    simp [addProto, hge]
  rw [e, getProto, getProto, hge]
  simp only [List.getElem?_set_self hs, get?_set]
  by_cases hm : m = n
  · simp [hm]
  · have hm' : ¬ n = m := fun h => hm h.symm
    simp only [hm, hm', if_false]
    cases get? h.objs[s].protos m with
    | some _ => rfl
    | none =>
      simp only
      cases h.objs[s].root with
      | none => rfl
      | some r =>
        simp only
        by_cases hr : r < s
        · simp only [hr, dite_true]
          congr 1
          apply getProto_congr
          · intro i hi
            exact List.getElem?_set_ne (by omega)
          · rfl
        · simp [hr]

/-- what processing a list of items in the scene on top of the stack achieves -/
def Good (s s' : Proc N) (t : Nat) (r : (N → Option Nat) × Nat × List (Option Nat)) : Prop :=
  s'.stack = s.stack ∧ s'.h.alive = s.h.alive ∧ s.h.objs.length ≤ s'.h.objs.length
  ∧ (∀ i, i < s.h.objs.length → i ≠ t → s'.h.objs[i]? = s.h.objs[i]?)
  ∧ (∀ n, getProto s'.h t n = r.1 n) ∧ s'.next = r.2.1 ∧ s'.found = s.found ++ r.2.2

mutual
theorem procItem_good (i : Item N) : ∀ (s : Proc N) (t : Nat) (rest : List Nat) (env : N → Option Nat),
    s.stack = t :: rest → t < s.h.objs.length → (∀ k, s.h.alive k = true) →
    (∀ n, getProto s.h t n = env n) →
    Good s (procItem s i) t (specItem env s.next i) := by
  intro s t rest env hst ht ha henv
  cases i with
  | node gi =>
    simp only [procItem, hst, specItem, Good]
    exact ⟨trivial, trivial, Nat.le_refl _, fun _ _ _ => trivial, henv, trivial, by rw [henv gi]⟩
  | proto name body =>
    -- the scene of the body
    let s1 : Proc N := { s with next := s.next + 1, h := (newScene s.h (some t) []).1, stack := s.h.objs.length :: s.stack }
    have hobj : s1.h.objs = s.h.objs ++ [⟨[], some t⟩] := rfl
    have hlen : s1.h.objs.length = s.h.objs.length + 1 := by simp [hobj]
    have hlow : ∀ i, i < s.h.objs.length → s1.h.objs[i]? = s.h.objs[i]? := by
      intro i hi; rw [hobj, List.getElem?_append_left hi]
    have htop : s1.h.objs[s.h.objs.length]? = some ⟨[], some t⟩ := by
      rw [hobj, List.getElem?_append_right (Nat.le_refl _)]; simp
    have henv1 : ∀ n, getProto s1.h s.h.objs.length n = env n := by
      intro n
      rw [getProto, htop]
      have : s1.h.alive t = true := ha t
      simp only [get?, this, if_true, ht, dite_true]
      rw [getProto_congr s.h s1.h t n (fun i hi => hlow i (by omega)) rfl, henv n]
    obtain ⟨g1, g2, g3, g4, g5, g6, g7⟩ := procItems_good body s1 s.h.objs.length (t :: rest) env
      (by simp [s1, hst]) (by omega) ha henv1
    have epi : procItem s (.proto name body)
        = { procItems s1 body with stack := (procItems s1 body).stack.tail, h := addProto (procItems s1 body).h t name s.next } := by
      simp only [procItem, procScene, hst, List.head?_cons]
      have hs2 : (procItems s1 body).stack.tail = t :: rest := by rw [g1]; simp [s1, hst]
      have : (procItems { h := (newScene s.h (some t) []).1, stack := (newScene s.h (some t) []).2 :: t :: rest, next := s.next + 1, found := s.found } body) = procItems s1 body := by
        simp [s1, hst, newScene]
      rw [this, hs2]
    have hs2 : (procItems s1 body).stack.tail = t :: rest := by rw [g1]; simp [s1, hst]
    have ht2 : t < (procItems s1 body).h.objs.length := by omega
    have hunch : ∀ i, i < s.h.objs.length → (procItems s1 body).h.objs[i]? = s.h.objs[i]? := by
      intro i hi
      rw [g4 i (by omega) (by omega), hlow i hi]
    have hadd : (addProto (procItems s1 body).h t name s.next).objs.length = (procItems s1 body).h.objs.length := by
      simp only [addProto, List.getElem?_eq_getElem ht2, List.length_set]
    have hadd2 : ∀ i, i ≠ t → (addProto (procItems s1 body).h t name s.next).objs[i]? = (procItems s1 body).h.objs[i]? := by
      intro i hi
      simp only [addProto, List.getElem?_eq_getElem ht2]
      exact List.getElem?_set_ne (fun h => hi h.symm)
    rw [epi]
    simp only [specItem, Good]
    refine ⟨by rw [hs2, hst], ?_, ?_, ?_, ?_, g6, g7⟩
    · simp only [addProto, List.getElem?_eq_getElem ht2]; exact g2
    · rw [hadd]; omega
    · intro i hi hne
      rw [hadd2 i hne, hunch i hi]
    · intro n
      rw [getProto_addProto _ _ ht2]
      by_cases hn : n = name
      · simp [hn]
      · simp only [hn, if_false]
        rw [getProto_congr s.h _ t n (fun i hi => hunch i (by omega)) g2, henv n]
theorem procItems_good (l : List (Item N)) : ∀ (s : Proc N) (t : Nat) (rest : List Nat) (env : N → Option Nat),
    s.stack = t :: rest → t < s.h.objs.length → (∀ k, s.h.alive k = true) →
    (∀ n, getProto s.h t n = env n) →
    Good s (procItems s l) t (specItems env s.next l) := by
  intro s t rest env hst ht ha henv
  cases l with
  | nil =>
    simp only [procItems, specItems, Good]
    exact ⟨trivial, trivial, Nat.le_refl _, fun _ _ _ => trivial, henv, trivial, by simp⟩
  | cons i l =>
    obtain ⟨g1, g2, g3, g4, g5, g6, g7⟩ := procItem_good i s t rest env hst ht ha henv
    obtain ⟨k1, k2, k3, k4, k5, k6, k7⟩ := procItems_good l (procItem s i) t rest (specItem env s.next i).1
      (by rw [g1, hst]) (by omega) (by rw [g2]; exact ha) g5
    simp only [procItems, specItems, Good]
    rw [g6] at k5 k6 k7
    refine ⟨by rw [k1, g1], by rw [k2, g2], by omega, ?_, k5, k6, ?_⟩
    · intro j hj hne
      rw [k4 j (by omega) hne, g4 j hj hne]
    · rw [k7, g7, List.append_assoc]
end

/-- C49, whole files: with any nesting of PROTO declarations, every node is built from the prototype
that block-structured (lexical) scoping over the base prototypes prescribes. -/
theorem C49_lexical_scoping (base : Dict N Nat) (next : Nat) (items : List (Item N)) :
    procFile base next items = (specItems (get? base) next items).2.2 := by
  have henv : ∀ n, getProto (N := N) ⟨[⟨base, none⟩], fun _ => true⟩ 0 n = get? base n := by
    intro n
    rw [getProto]
    simp only [List.getElem?_cons_zero]
    cases get? base n <;> rfl
  have := (procItems_good items ⟨⟨[⟨base, none⟩], fun _ => true⟩, [0], next, []⟩ 0 [] (get? base)
    rfl (by simp) (fun _ => rfl) henv).2.2.2.2.2.2
  simpa [procFile] using this

/-- Non-vacuity: an inner PROTO shadows the outer one inside its scene only. -/
example : (specItems (get? [("Box", 0)]) 10
    [.proto "A" [.proto "Box" [.node "Box"], .node "Box"], .node "Box", .node "A", .node "C"]).2.2
    = [some 0, some 11, some 0, some 10, none] := by
  simp [specItems, specItem, get?]

/-! ## C54 -/

/-- nodes held by a field value -/
def FieldVal.nodes : FieldVal → List Nat
  | .sf x => [x]
  | .mf xs => xs
  | _ => []

/-- `x` is reachable from `c` through node fields (in any number of steps, `c` included). -/
inductive Reach (fields : Nat → List FieldVal) : Nat → Nat → Prop
  | refl (c) : Reach fields c c
  | step {c f y x} : f ∈ fields c → y ∈ f.nodes → Reach fields y x → Reach fields c x

/-- the node has a DEF field (every Node does) -/
def HasDef (fields : Nat → List FieldVal) (x : Nat) : Prop := FieldVal.deff ∈ fields x

/-- effect of a propagation: `R` are the nodes given the root, `D` those whose names were registered -/
structure Post (sg : Nat) (s s' : RootSt N) (R D : Nat → Prop) : Prop where
  rootR : ∀ x, R x → s'.root x = some sg
  rootN : ∀ x, ¬ R x → s'.root x = s.root x
  defs : s'.defs.defOf = s.defs.defOf
  regD : ∀ x, D x → ∃ y, D y ∧ s.defs.defOf y = s.defs.defOf x ∧ s'.defs.getDEF sg (s.defs.defOf x) = some y
  regN : ∀ n, (∀ x, D x → s.defs.defOf x ≠ n) → s'.defs.getDEF sg n = s.defs.getDEF sg n
  tabs : ∀ g n, g ≠ sg → s'.defs.getDEF g n = s.defs.getDEF g n

theorem Post.congr {sg : Nat} {s s' : RootSt N} {R D R' D' : Nat → Prop} (h : Post sg s s' R D)
    (hR : ∀ x, R x ↔ R' x) (hD : ∀ x, D x ↔ D' x) : Post sg s s' R' D' := by
  have e1 : R = R' := funext fun x => propext (hR x)
  have e2 : D = D' := funext fun x => propext (hD x)
  rw [← e1, ← e2]; exact h

theorem Post.refl (sg : Nat) (s : RootSt N) : Post sg s s (fun _ => False) (fun _ => False) :=
  ⟨fun _ h => h.elim, fun _ _ => rfl, rfl, fun _ h => h.elim, fun _ _ => rfl, fun _ _ _ => rfl⟩

theorem Post.trans {sg : Nat} {s s1 s2 : RootSt N} {R1 D1 R2 D2 : Nat → Prop}
    (h1 : Post sg s s1 R1 D1) (h2 : Post sg s1 s2 R2 D2) :
    Post sg s s2 (fun x => R1 x ∨ R2 x) (fun x => D1 x ∨ D2 x) := by
  refine ⟨?_, ?_, h2.defs.trans h1.defs, ?_, ?_, ?_⟩
  · intro x hx
    by_cases hr : R2 x
    · exact h2.rootR x hr
    · rw [h2.rootN x hr]
      exact h1.rootR x (hx.resolve_right hr)
  · intro x hx
    rw [h2.rootN x (fun h => hx (Or.inr h)), h1.rootN x (fun h => hx (Or.inl h))]
  · intro x hx
    by_cases hd : ∃ z, D2 z ∧ s.defs.defOf z = s.defs.defOf x
    · obtain ⟨z, hz, e⟩ := hd
      obtain ⟨y, hy, e1, e2⟩ := h2.regD z hz
      rw [h1.defs] at e1 e2
      exact ⟨y, Or.inr hy, e1.trans e, by rw [← e]; exact e2⟩
    · have hx1 : D1 x := by
        rcases hx with h | h
        · exact h
        · exact absurd ⟨x, h, rfl⟩ hd
      obtain ⟨y, hy, e1, e2⟩ := h1.regD x hx1
      refine ⟨y, Or.inl hy, e1, ?_⟩
      rw [h2.regN _ ?_]
      · exact e2
      · intro z hz e
        rw [h1.defs] at e
        exact hd ⟨z, hz, e⟩
  · intro n hn
    rw [h2.regN n ?_, h1.regN n (fun x hx => hn x (Or.inl hx))]
    intro x hx
    rw [h1.defs]
    exact hn x (Or.inr hx)
  · intro g n hg
    rw [h2.tabs g n hg, h1.tabs g n hg]

/-- the post-condition of the call on `c` -/
def PostC (fields : Nat → List FieldVal) (sg : Nat) (s s' : RootSt N) (c : Nat) : Prop :=
  Post sg s s' (Reach fields c) (fun x => Reach fields c x ∧ HasDef fields x)

theorem rootSet_post (fields : Nat → List FieldVal) (sg : Nat) (fuel : Nat) :
    ∀ (s s' : RootSt N) (c : Nat), rootSet fields sg fuel s c = some s' → PostC fields sg s s' c := by
  induction fuel with
  | zero => intro s s' c h; simp [rootSet] at h
  | succ fuel ih =>
    have hch : ∀ (xs : List Nat) (s s' : RootSt N), rootChildren fields sg fuel s xs = some s' →
        Post sg s s' (fun x => ∃ y ∈ xs, Reach fields y x)
          (fun x => (∃ y ∈ xs, Reach fields y x) ∧ HasDef fields x) := by
      intro xs
      induction xs with
      | nil =>
        intro s s' h
        simp [rootChildren] at h; subst h
        exact (Post.refl sg s).congr (by simp) (by simp)
      | cons y ys ihx =>
        intro s s' h
        simp only [rootChildren] at h
        cases h1 : rootSet fields sg fuel s y with
        | none => rw [h1] at h; cases h
        | some s1 =>
          rw [h1] at h
          refine (Post.trans (ih s s1 y h1) (ihx s1 s' h)).congr ?_ ?_
          · intro x; simp
          · intro x; simp only [List.mem_cons, exists_eq_or_imp]
            constructor
            · rintro (⟨a, b⟩ | ⟨a, b⟩)
              · exact ⟨Or.inl a, b⟩
              · exact ⟨Or.inr a, b⟩
            · rintro ⟨a | a, b⟩
              · exact Or.inl ⟨a, b⟩
              · exact Or.inr ⟨a, b⟩
    have hf : ∀ (l : List FieldVal) (c : Nat) (s s' : RootSt N), rootFields fields sg fuel s c l = some s' →
        Post sg s s' (fun x => ∃ f ∈ l, ∃ y ∈ f.nodes, Reach fields y x)
          (fun x => ((∃ f ∈ l, ∃ y ∈ f.nodes, Reach fields y x) ∧ HasDef fields x) ∨ (FieldVal.deff ∈ l ∧ x = c)) := by
      intro l
      induction l with
      | nil =>
        intro c s s' h
        simp [rootFields] at h; subst h
        exact (Post.refl sg s).congr (by simp) (by simp)
      | cons f l ihl =>
        intro c s s' h
        cases f with
        | sf x =>
          simp only [rootFields] at h
          cases h1 : rootSet fields sg fuel s x with
          | none => rw [h1] at h; cases h
          | some s1 =>
            rw [h1] at h
            refine (Post.trans (ih s s1 x h1) (ihl c s1 s' h)).congr ?_ ?_
            · intro z; simp [FieldVal.nodes]
            · intro z; simp only [List.mem_cons, exists_eq_or_imp, FieldVal.nodes, List.not_mem_nil, or_false, exists_eq_left, reduceCtorEq, false_or]
              constructor
              · rintro (⟨a, b⟩ | ⟨a, b⟩ | a)
                · exact Or.inl ⟨Or.inl a, b⟩
                · exact Or.inl ⟨Or.inr a, b⟩
                · exact Or.inr a
              · rintro (⟨a | a, b⟩ | a)
                · exact Or.inl ⟨a, b⟩
                · exact Or.inr (Or.inl ⟨a, b⟩)
                · exact Or.inr (Or.inr a)
        | mf xs =>
          simp only [rootFields] at h
          cases h1 : rootChildren fields sg fuel s xs with
          | none => rw [h1] at h; cases h
          | some s1 =>
            rw [h1] at h
            refine (Post.trans (hch xs s s1 h1) (ihl c s1 s' h)).congr ?_ ?_
            · intro z; simp [FieldVal.nodes]
            · intro z; simp only [List.mem_cons, exists_eq_or_imp, FieldVal.nodes, reduceCtorEq, false_or]
              constructor
              · rintro (⟨a, b⟩ | ⟨a, b⟩ | a)
                · exact Or.inl ⟨Or.inl a, b⟩
                · exact Or.inl ⟨Or.inr a, b⟩
                · exact Or.inr a
              · rintro (⟨a | a, b⟩ | a)
                · exact Or.inl ⟨a, b⟩
                · exact Or.inr (Or.inl ⟨a, b⟩)
                · exact Or.inr (Or.inr a)
        | deff =>
          simp only [rootFields] at h
          have h1 : Post sg s { s with defs := s.defs.reg sg (s.defs.defOf c) c } (fun _ => False) (fun x => x = c) := by
            obtain ⟨k1, k2, k3⟩ := C48_step s.defs sg (s.defs.defOf c) c
            refine ⟨fun _ h => h.elim, fun _ _ => rfl, ?_, ?_, ?_, ?_⟩
            · funext x
              simp only [k3 x]
              by_cases hx : x = c <;> simp [hx]
            · rintro x rfl
              exact ⟨x, rfl, rfl, by simp [k1]⟩
            · intro n hn
              have hne := hn c rfl
              simp only [k1 n]
              rw [if_neg (fun h => hne h.symm), if_neg (fun h => hne h.1.symm)]
            · intro g n hg; exact k2 g n hg
          refine (Post.trans h1 (ihl c _ s' h)).congr ?_ ?_
          · intro z; simp [FieldVal.nodes]
          · intro z; simp only [List.mem_cons, exists_eq_or_imp, FieldVal.nodes, List.not_mem_nil, false_and, exists_false, false_or, true_or, true_and]
            constructor
            · rintro (a | a | a)
              · exact Or.inr a
              · exact Or.inl a
              · exact Or.inr a.2
            · rintro (a | a)
              · exact Or.inr (Or.inl a)
              · exact Or.inl a
        | other =>
          simp only [rootFields] at h
          refine (ihl c s s' h).congr ?_ ?_
          · intro z; simp [FieldVal.nodes]
          · intro z; simp [FieldVal.nodes]
    intro s s' c h
    simp only [rootSet] at h
    have h1 : Post sg s { s with root := fun x => if x = c then some sg else s.root x } (fun x => x = c) (fun _ => False) := by
      refine ⟨?_, ?_, rfl, fun _ h => h.elim, fun _ _ => rfl, fun _ _ _ => rfl⟩
      · rintro x rfl; simp
      · intro x hx; simp [hx]
    refine (Post.trans h1 (hf (fields c) c _ s' h)).congr ?_ ?_
    · intro x
      constructor
      · rintro (rfl | ⟨f, hf, y, hy, hr⟩)
        · exact .refl _
        · exact .step hf hy hr
      · intro hr
        cases hr with
        | refl => exact Or.inl rfl
        | step hf hy hr => exact Or.inr ⟨_, hf, _, hy, hr⟩
    · intro x
      constructor
      · rintro (h | ⟨⟨f, hf, y, hy, hr⟩, hd⟩ | ⟨hd, rfl⟩)
        · exact h.elim
        · exact ⟨.step hf hy hr, hd⟩
        · exact ⟨.refl _, hd⟩
      · rintro ⟨hr, hd⟩
        cases hr with
        | refl => exact Or.inr (Or.inr ⟨hd, rfl⟩)
        | step hf hy hr => exact Or.inr (Or.inl ⟨⟨_, hf, _, hy, hr⟩, hd⟩)

/-- C54: when setting the root scene graph of a node completes, every node reachable from it through its
node fields (at any depth, shared nodes included) has that root, and no other node's root changed; no
node's DEF text changed; for every reachable node its DEF name is registered in the scene graph, for a
reachable node of that name, and for that very node when the name is unique among the reachable ones;
names no reachable node carries keep their registrations. -/
theorem C54_root_propagation (fields : Nat → List FieldVal) (sg : Nat) (fuel : Nat) (s s' : RootSt N)
    (c : Nat) (h : rootSet fields sg fuel s c = some s') :
    (∀ x, Reach fields c x → s'.root x = some sg)
    ∧ (∀ x, ¬ Reach fields c x → s'.root x = s.root x)
    ∧ (∀ x, s'.defs.defOf x = s.defs.defOf x)
    ∧ (∀ x, Reach fields c x → HasDef fields x →
        ∃ y, Reach fields c y ∧ s.defs.defOf y = s.defs.defOf x
          ∧ s'.defs.getDEF sg (s.defs.defOf x) = some y)
    ∧ (∀ x, Reach fields c x → HasDef fields x →
        (∀ y, Reach fields c y → s.defs.defOf y = s.defs.defOf x → y = x) →
        s'.defs.getDEF sg (s.defs.defOf x) = some x)
    ∧ (∀ n, (∀ x, Reach fields c x → s.defs.defOf x ≠ n) → s'.defs.getDEF sg n = s.defs.getDEF sg n) := by
  have p := rootSet_post fields sg fuel s s' c h
  refine ⟨p.rootR, p.rootN, fun x => congrFun p.defs x, ?_, ?_, ?_⟩
  · intro x hr hd
    obtain ⟨y, hy, e1, e2⟩ := p.regD x ⟨hr, hd⟩
    exact ⟨y, hy.1, e1, e2⟩
  · intro x hr hd hu
    obtain ⟨y, hy, e1, e2⟩ := p.regD x ⟨hr, hd⟩
    rw [hu y hy.1 e1] at e2; exact e2
  · intro n hn
    exact p.regN n (fun x hx => hn x hx.1)

theorem rootSet_completes (fields : Nat → List FieldVal) (sg : Nat) (rank : Nat → Nat)
    (hr : ∀ c f y, f ∈ fields c → y ∈ f.nodes → rank y < rank c) :
    ∀ fuel (s : RootSt N) c, rank c < fuel → ∃ s', rootSet fields sg fuel s c = some s' := by
  intro fuel
  induction fuel with
  | zero => intro s c h; omega
  | succ fuel ih =>
    have hch : ∀ (xs : List Nat) (s : RootSt N), (∀ x ∈ xs, rank x < fuel) →
        ∃ s', rootChildren fields sg fuel s xs = some s' := by
      intro xs
      induction xs with
      | nil => intro s _; exact ⟨s, by simp [rootChildren]⟩
      | cons x xs ihx =>
        intro s hx
        obtain ⟨s1, h1⟩ := ih s x (hx x (by simp))
        obtain ⟨s2, h2⟩ := ihx s1 (fun y hy => hx y (by simp [hy]))
        exact ⟨s2, by simp [rootChildren, h1, h2]⟩
    have hf : ∀ (l : List FieldVal) (c : Nat) (s : RootSt N), (∀ f ∈ l, ∀ y ∈ f.nodes, rank y < fuel) →
        ∃ s', rootFields fields sg fuel s c l = some s' := by
      intro l
      induction l with
      | nil => intro c s _; exact ⟨s, by simp [rootFields]⟩
      | cons f l ihl =>
        intro c s hl
        have hl' : ∀ g ∈ l, ∀ y ∈ g.nodes, rank y < fuel := fun g hg => hl g (by simp [hg])
        cases f with
        | sf x =>
          obtain ⟨s1, h1⟩ := ih s x (hl (.sf x) (by simp) x (by simp [FieldVal.nodes]))
          obtain ⟨s2, h2⟩ := ihl c s1 hl'
          exact ⟨s2, by simp [rootFields, h1, h2]⟩
        | mf xs =>
          obtain ⟨s1, h1⟩ := hch xs s (fun y hy => hl (.mf xs) (by simp) y hy)
          obtain ⟨s2, h2⟩ := ihl c s1 hl'
          exact ⟨s2, by simp [rootFields, h1, h2]⟩
        | deff =>
          obtain ⟨s2, h2⟩ := ihl c { s with defs := s.defs.reg sg (s.defs.defOf c) c } hl'
          exact ⟨s2, by simpa [rootFields] using h2⟩
        | other =>
          obtain ⟨s2, h2⟩ := ihl c s hl'
          exact ⟨s2, by simpa [rootFields] using h2⟩
    intro s c hc
    obtain ⟨s', h'⟩ := hf (fields c) c { s with root := fun x => if x = c then some sg else s.root x }
      (fun f hf y hy => by have := hr c f y hf hy; omega)
    exact ⟨s', by simpa [rootSet] using h'⟩

/-- C54: on every acyclic graph the propagation completes (`rank` decreases along node fields). -/
theorem C54_acyclic_completes (fields : Nat → List FieldVal) (sg : Nat) (rank : Nat → Nat)
    (hr : ∀ c f y, f ∈ fields c → y ∈ f.nodes → rank y < rank c) (s : RootSt N) (c : Nat) :
    ∃ fuel s', rootSet fields sg fuel s c = some s' := by
  obtain ⟨s', h'⟩ := rootSet_completes fields sg rank hr (rank c + 1) s c (by omega)
  exact ⟨_, s', h'⟩

/-- C54, limit: on a cyclic graph it never completes, whatever the recursion depth available. -/
theorem C54_refuted_cyclic :
    ∃ fields : Nat → List FieldVal, ∀ (fuel : Nat) (s : RootSt Nat),
      rootSet fields 9 fuel s 0 = none := by
  refine ⟨fun _ => [.deff, .mf [0]], ?_⟩
  intro fuel
  induction fuel with
  | zero => intro s; simp [rootSet]
  | succ fuel ih =>
    intro s
    simp [rootSet, rootFields, rootChildren, ih]

/-- Non-vacuity: a group with two children one of which is shared below the other. -/
def exFields : Nat → List FieldVal
  | 0 => [.deff, .mf [1, 2], .other]
  | 1 => [.deff, .sf 2, .mf []]
  | _ => [.deff]

example : (rootSet exFields 9 5 (⟨fun _ => none, ⟨fun x => if x = 0 then "" else if x = 1 then "a" else "b", fun _ => []⟩⟩ : RootSt String) 0).isSome
    = true := by simp [rootSet, rootFields, rootChildren, exFields]
example : Reach exFields 0 2 :=
  .step (f := .mf [1, 2]) (by simp [exFields]) (by simp [FieldVal.nodes] : 1 ∈ _)
    (.step (f := .sf 2) (by simp [exFields]) (by simp [FieldVal.nodes] : 2 ∈ _) (.refl 2))

end Verif.Scene
