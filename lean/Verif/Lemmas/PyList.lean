import Verif.Model.PyList
namespace Verif.PyList
variable {α : Type}

theorem normIdx_lt {n : Nat} {i : Int} {k : Nat} (h : normIdx n i = some k) : k < n := by
  unfold normIdx at h
  simp only at h
  by_cases hi : i < 0 <;> simp [hi] at h <;> omega

theorem rangeIdx_bounds (n : Nat) : ∀ (fuel : Nat) (a b st : Int),
    (0 < st → 0 ≤ a ∧ b ≤ n) → (st < 0 → a < n ∧ -1 ≤ b) →
    ∀ p ∈ rangeIdx fuel a b st, p < n ∧ (0 < st → a ≤ p) ∧ (st < 0 → (p : Int) ≤ a) := by
  intro fuel
  induction fuel with
  | zero => intro a b st _ _ p hp; simp [rangeIdx] at hp
  | succ f ih =>
    intro a b st h1 h2 p hp
    unfold rangeIdx at hp
    split at hp
    case isFalse => simp at hp
    case isTrue hc =>
      rcases List.mem_cons.1 hp with rfl | hp
      · rcases hc with hc | hc
        · have := h1 hc.1; omega
        · have := h2 hc.1; omega
      · have := ih (a + st) b st (by intro h; have := h1 h; omega) (by intro h; have := h2 h; omega) p hp
        rcases hc with hc | hc <;> omega

theorem rangeIdx_nodup (n : Nat) : ∀ (fuel : Nat) (a b st : Int),
    (0 < st → 0 ≤ a ∧ b ≤ n) → (st < 0 → a < n ∧ -1 ≤ b) → (rangeIdx fuel a b st).Nodup := by
  intro fuel
  induction fuel with
  | zero => intro a b st _ _; simp [rangeIdx]
  | succ f ih =>
    intro a b st h1 h2
    unfold rangeIdx
    split
    case isFalse => simp
    case isTrue hc =>
      have h1' : (0 < st → 0 ≤ a + st ∧ b ≤ n) := by intro h; have := h1 h; omega
      have h2' : (st < 0 → a + st < n ∧ -1 ≤ b) := by intro h; have := h2 h; omega
      refine List.nodup_cons.2 ⟨?_, ih _ _ _ h1' h2'⟩
      intro hm
      have := rangeIdx_bounds n f (a+st) b st h1' h2' _ hm
      rcases hc with hc | hc
      · have := h1 hc.1; omega
      · have := h2 hc.1; omega

theorem adjust_bounds {n lo hi i : Int} (h : lo ≤ hi) : lo ≤ adjust n lo hi i ∧ adjust n lo hi i ≤ hi := by
  unfold adjust; simp only; split <;> split <;> (try split) <;> omega

theorem indices_bounds {s : Slice} {n : Nat} {a b st : Int} (h : s.indices n = some (a, b, st)) :
    st ≠ 0 ∧ (0 < st → 0 ≤ a ∧ a ≤ n ∧ 0 ≤ b ∧ b ≤ n) ∧ (st < 0 → a < n ∧ -1 ≤ b) := by
  unfold Slice.indices at h
  simp only at h
  split at h
  · simp at h
  · split at h
    · simp only [Option.some.injEq, Prod.mk.injEq] at h
      obtain ⟨ha, hb, hs⟩ := h
      refine ⟨by omega, ?_, by omega⟩
      intro _
      rcases hsa : s.start with _ | sa <;> rcases hsb : s.stop with _ | sb <;> simp [hsa, hsb] at ha hb
      · omega
      · have := @adjust_bounds n 0 n sb (by omega); omega
      · have := @adjust_bounds n 0 n sa (by omega); omega
      · have := @adjust_bounds n 0 n sb (by omega)
        have := @adjust_bounds n 0 n sa (by omega); omega
    · simp only [Option.some.injEq, Prod.mk.injEq] at h
      obtain ⟨ha, hb, hs⟩ := h
      refine ⟨by omega, by omega, ?_⟩
      intro _
      rcases hsa : s.start with _ | sa <;> rcases hsb : s.stop with _ | sb <;> simp [hsa, hsb] at ha hb
      · omega
      · have := @adjust_bounds n (-1) (n-1) sb (by omega); omega
      · have := @adjust_bounds n (-1) (n-1) sa (by omega); omega
      · have := @adjust_bounds n (-1) (n-1) sb (by omega)
        have := @adjust_bounds n (-1) (n-1) sa (by omega); omega

theorem positions_props {s : Slice} {n : Nat} {ps : List Nat} (h : s.positions n = some ps) :
    ps.Nodup ∧ ∀ p ∈ ps, p < n := by
  unfold Slice.positions at h
  rcases hi : s.indices n with _ | ⟨a, b, st⟩
  · simp [hi] at h
  · simp [hi] at h
    have hb := indices_bounds hi
    subst h
    exact ⟨rangeIdx_nodup n n a b st (fun h => by have := hb.2.1 h; omega) hb.2.2,
      fun p hp => (rangeIdx_bounds n n a b st (fun h => by have := hb.2.1 h; omega) hb.2.2 p hp).1⟩

/-- With step 1 the positions are the contiguous block. -/
theorem pick_rangeIdx_one (l : List α) : ∀ (fuel : Nat) (a b : Int), 0 ≤ a → b ≤ l.length → b - a ≤ fuel →
    pick l (rangeIdx fuel a b 1) = (l.drop a.toNat).take (b - a).toNat := by
  intro fuel
  induction fuel with
  | zero =>
    intro a b h0 hb hf
    have : (b - a).toNat = 0 := by omega
    simp [rangeIdx, pick, this]
  | succ f ih =>
    intro a b h0 hb hf
    unfold rangeIdx
    by_cases hc : a < b
    · rw [if_pos (by omega)]
      have hlt : a.toNat < l.length := by omega
      have e1 : (b - a).toNat = (b - (a+1)).toNat + 1 := by omega
      have e2 : (a+1).toNat = a.toNat + 1 := by omega
      have ih' := ih (a+1) b (by omega) hb (by omega)
      rw [e1, List.drop_eq_getElem_cons hlt, List.take_succ_cons]
      unfold pick at ih' ⊢
      rw [List.filterMap_cons, ih', e2]
      simp [List.getElem?_eq_getElem hlt]
    · rw [if_neg (by omega)]
      have : (b - a).toNat = 0 := by omega
      simp [this, pick]

variable [DecidableEq α]

theorem count_set (l : List α) (k : Nat) (hk : k < l.length) (v x : α) :
    (l.set k v).count x + (if l[k] = x then 1 else 0) = l.count x + (if v = x then 1 else 0) := by
  induction l generalizing k with
  | nil => simp at hk
  | cons y ys ih =>
    cases k with
    | zero => simp only [List.set_cons_zero, List.count_cons, List.getElem_cons_zero, beq_iff_eq]; omega
    | succ k =>
      have := ih k (by simpa using hk)
      simp only [List.set_cons_succ, List.count_cons, List.getElem_cons_succ, beq_iff_eq]; omega

theorem count_eraseIdx (l : List α) (k : Nat) (hk : k < l.length) (x : α) :
    (l.eraseIdx k).count x + (if l[k] = x then 1 else 0) = l.count x := by
  induction l generalizing k with
  | nil => simp at hk
  | cons y ys ih =>
    cases k with
    | zero => simp [List.count_cons]
    | succ k =>
      have := ih k (by simpa using hk)
      simp only [List.eraseIdx_cons_succ, List.count_cons, List.getElem_cons_succ, beq_iff_eq]; omega

theorem count_putAt : ∀ (ps : List Nat) (l vs : List α), ps.Nodup → (∀ p ∈ ps, p < l.length) →
    ps.length = vs.length → ∀ x,
    (putAt l ps vs).count x + (pick l ps).count x = l.count x + vs.count x := by
  intro ps
  induction ps with
  | nil => intro l vs _ _ hl x; cases vs <;> simp_all [putAt, pick]
  | cons p ps ih =>
    intro l vs hnd hlt hl x
    cases vs with
    | nil => simp at hl
    | cons v vs =>
      have hp : p < l.length := hlt p (by simp)
      have hnd' := List.nodup_cons.1 hnd
      have := ih (l.set p v) vs hnd'.2 (by intro q hq; simpa using hlt q (by simp [hq])) (by simpa using hl) x
      have hpick : pick (l.set p v) ps = pick l ps := by
        unfold pick
        have : ∀ (qs : List Nat), p ∉ qs →
            qs.filterMap (fun q => (l.set p v)[q]?) = qs.filterMap (fun q => l[q]?) := by
          intro qs
          induction qs with
          | nil => simp
          | cons q qs ih2 =>
            intro hq
            simp only [List.mem_cons, not_or] at hq
            rw [List.filterMap_cons, List.filterMap_cons, ih2 hq.2, List.getElem?_set_ne hq.1]
        exact this ps hnd'.1
      have hc := count_set l p hp v x
      simp only [putAt]
      rw [hpick] at this
      have e : pick l (p :: ps) = l[p] :: pick l ps := by
        unfold pick; rw [List.filterMap_cons]; simp [List.getElem?_eq_getElem hp]
      rw [e]
      simp only [List.count_cons, beq_iff_eq]
      omega

theorem count_filter_zipIdx (l : List α) (k : Nat) (q : Nat → Bool) (x : α) :
    (((l.zipIdx k).filter (fun y => !q y.2)).map Prod.fst).count x
      + (((l.zipIdx k).filter (fun y => q y.2)).map Prod.fst).count x = l.count x := by
  induction l generalizing k with
  | nil => simp
  | cons y ys ih =>
    have := ih (k+1)
    simp only [List.zipIdx_cons, List.filter_cons]
    by_cases hq : q k <;> simp [hq, List.count_cons] <;> omega

theorem pick_count_aux (l : List α) (x : α) : ∀ (ps : List Nat), ps.Nodup → (∀ p ∈ ps, p < l.length) →
    (pick l ps).count x = (((l.zipIdx).filter (fun y => ps.contains y.2)).map Prod.fst).count x := by
  intro ps
  induction ps with
  | nil =>
    intro _ _
    have : (l.zipIdx).filter (fun y => ([] : List Nat).contains y.2) = [] := by
      rw [List.filter_eq_nil_iff]; simp
    simp only [this]; simp [pick]
  | cons p ps ih =>
    intro hnd hlt
    have hnd' := List.nodup_cons.1 hnd
    have hp : p < l.length := hlt p (by simp)
    have e : pick l (p :: ps) = l[p] :: pick l ps := by
      unfold pick; rw [List.filterMap_cons]; simp [List.getElem?_eq_getElem hp]
    rw [e, List.count_cons, ih hnd'.2 (fun q hq => hlt q (by simp [hq]))]
    -- split off position p
    have key : ∀ (m : List α) (k : Nat), k ≤ p → (hpm : p - k < m.length) →
        (((m.zipIdx k).filter (fun y => (p :: ps).contains y.2)).map Prod.fst).count x =
        (((m.zipIdx k).filter (fun y => ps.contains y.2)).map Prod.fst).count x
          + (if m[p-k] = x then 1 else 0) := by
      intro m
      induction m with
      | nil => intro k _ h; simp at h
      | cons y ys ihm =>
        intro k hk hpm
        have rest_eq : ∀ k', p < k' → ((ys.zipIdx k').filter (fun y => (p :: ps).contains y.2)) =
            ((ys.zipIdx k').filter (fun y => ps.contains y.2)) := by
          intro k' hk'
          apply List.filter_congr
          intro z hz
          have := List.le_snd_of_mem_zipIdx hz
          have hne : z.2 ≠ p := by omega
          simp [hne]
        simp only [List.zipIdx_cons, List.filter_cons]
        by_cases hkp : k = p
        · subst hkp
          have hn : ps.contains k = false := by simpa using hnd'.1
          rw [rest_eq (k+1) (by omega)]
          simp only [hn]
          simp [List.count_cons]
        · have := ihm (k+1) (by omega) (by simp at hpm; omega)
          have e3 : p - k = (p - (k+1)) + 1 := by omega
          have hget : (y :: ys)[p-k] = ys[p-(k+1)]'(by simp at hpm; omega) := by
            simp only [e3, List.getElem_cons_succ]
          rw [hget]
          have hck : (p :: ps).contains k = ps.contains k := by simp [hkp]
          rw [hck]
          by_cases hpk : ps.contains k = true
          · simp only [hpk, if_true, List.map_cons, List.count_cons]; omega
          · simp only [hpk]; simpa using this
    have := key l 0 (by omega) (by simpa using hp)
    rw [this]; simp

theorem count_dropAt (l : List α) (ps : List Nat) (hnd : ps.Nodup) (hlt : ∀ p ∈ ps, p < l.length) (x : α) :
    (dropAt l ps).count x + (pick l ps).count x = l.count x := by
  rw [pick_count_aux l x ps hnd hlt]
  exact count_filter_zipIdx l 0 (fun k => ps.contains k) x

theorem count_setSlice {l vs l' prev : List α} {s : Slice} (hg : getSlice l s = .ok prev)
    (hs : setSlice l s vs = .ok l') (x : α) :
    l'.count x + prev.count x = l.count x + vs.count x := by
  unfold getSlice at hg
  unfold setSlice at hs
  unfold Slice.positions at hg
  rcases hi : s.indices l.length with _ | ⟨a, b, st⟩
  · simp [hi] at hs
  · simp [hi] at hg hs
    have hb := indices_bounds hi
    split at hs
    · rename_i h1
      subst h1
      have hb1 := hb.2.1 (by omega)
      have hp := pick_rangeIdx_one l l.length a b (by omega) (by omega) (by omega)
      rw [hp] at hg
      injection hs with hs
      subst hg hs
      have e : (l.drop a.toNat) = (l.drop a.toNat).take (b - a).toNat ++ l.drop (max a b).toNat := by
        conv => lhs; rw [← List.take_append_drop (b-a).toNat (l.drop a.toNat)]
        rw [List.drop_drop]
        congr 2; omega
      have e2 : l.count x = (l.take a.toNat).count x + (l.drop a.toNat).count x := by
        conv => lhs; rw [← List.take_append_drop a.toNat l]
        rw [List.count_append]
      have e3 := congrArg (List.count x) e
      simp only [List.count_append] at e3 ⊢
      omega
    · split at hs
      · rename_i hlen
        injection hs with hs
        subst hg hs
        have hpos : s.positions l.length = some (rangeIdx l.length a b st) := by
          simp [Slice.positions, hi]
        have := positions_props hpos
        exact count_putAt _ _ _ this.1 this.2 hlen x
      · simp at hs

theorem count_delSlice {l l' cur : List α} {s : Slice} (hg : getSlice l s = .ok cur)
    (hs : delSlice l s = .ok l') (x : α) : l'.count x + cur.count x = l.count x := by
  unfold getSlice at hg
  unfold delSlice at hs
  rcases hp : s.positions l.length with _ | ps
  · simp [hp] at hs
  · simp [hp] at hg hs
    subst hg hs
    have := positions_props hp
    exact count_dropAt l ps this.1 this.2 x

omit [DecidableEq α] in
theorem mem_of_getItem {l : List α} {i : Int} {v : α} (h : getItem l i = .ok v) :
    ∃ k, ∃ hk : k < l.length, normIdx l.length i = some k ∧ l[k] = v := by
  unfold getItem at h
  split at h
  · simp at h
  · rename_i k hk
    have hlt := normIdx_lt hk
    rw [List.getElem?_eq_getElem hlt] at h
    simp at h
    exact ⟨k, hlt, hk, h⟩

end Verif.PyList
