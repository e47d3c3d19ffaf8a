import Verif.Model.WeakList
import Verif.Lemmas.PyList
/-!
C28, C29 – the weak list (vrml/weaklist.py).
-/
namespace Verif.WeakList
open Verif.PyList

/-! ### Specification: a plain list of objects from which the dead are filtered -/

/-- The specification state: the objects alive and a plain list of objects. -/
structure Spec where
  alive : List Nat
  objs : List Nat
  deriving DecidableEq

/-- A plain list of the objects themselves, which refuses dead arguments. -/
def specOp (s : Spec) : Op → List Nat
  | .append a => if a.target ∈ s.alive then s.objs ++ [a.target] else s.objs
  | .insert i a => if a.target ∈ s.alive then PyList.insert s.objs i a.target else s.objs
  | .extend as => if ∀ a ∈ as, a.target ∈ s.alive then s.objs ++ as.map Arg.target else s.objs
  | .setSlice sl as =>
    if ∀ a ∈ as, a.target ∈ s.alive then
      match PyList.setSlice s.objs sl (as.map Arg.target) with
      | .ok l => l
      | .error _ => s.objs
    else s.objs
  | .pop i => match PyList.pop s.objs i with | .ok (l, _) => l | .error _ => s.objs
  | .delItem i => match PyList.delItem s.objs i with | .ok l => l | .error _ => s.objs
  | .delSlice sl => match PyList.delSlice s.objs sl with | .ok l => l | .error _ => s.objs
  | .clear => []
  | .reverse => s.objs.reverse
  | .setItem _ _ | .getItem _ | .broken => s.objs

/-- Death of `o` filters it out of the list and keeps the order of the rest. -/
def specAct (s : Spec) : Act → Spec
  | .op o => { s with objs := specOp s o }
  | .die o => ⟨s.alive.filter (· != o), s.objs.filter (· != o)⟩
  | .born o => { s with alive := o :: s.alive }

/-- The specification after a history. -/
def specRun (s : Spec) (h : List Act) : Spec := h.foldl specAct s

/-! ### Invariant and refinement -/

/-- Reference identities are unique and below the counter, and every referent is alive. -/
structure Inv (s : St) : Prop where
  nodup : (s.refs.map Ref.rid).Nodup
  fresh : ∀ r ∈ s.refs, r.rid < s.next
  live : ∀ r ∈ s.refs, r.obj ∈ s.alive

/-- What the specification sees of a state. -/
def abs (s : St) : Spec := ⟨s.alive, s.refs.map Ref.obj⟩

theorem wrapAll_ok {s s' : St} {as : List Arg} {rs : List Ref} (h : wrapAll s as = .ok (s', rs)) :
    s'.alive = s.alive ∧ s'.refs = s.refs ∧ s.next ≤ s'.next ∧ (rs.map Ref.rid).Nodup ∧
    (∀ r ∈ rs, s.next ≤ r.rid ∧ r.rid < s'.next ∧ r.obj ∈ s.alive) ∧
    rs.map Ref.obj = as.map Arg.target ∧ ∀ a ∈ as, a.target ∈ s.alive := by
  induction as generalizing s s' rs with
  | nil => simp [wrapAll] at h; obtain ⟨rfl, rfl⟩ := h; simp
  | cons a as ih =>
    simp only [wrapAll, wrap] at h
    by_cases ha : a.target ∈ s.alive
    · simp only [ha, if_true] at h
      rcases hw : wrapAll { s with next := s.next + 1 } as with e | ⟨s2, rs2⟩
      · simp [hw] at h
      · simp [hw] at h
        obtain ⟨rfl, rfl⟩ := h
        obtain ⟨h1, h2, h3, h4, h5, h6, h7⟩ := ih hw
        simp only at h1 h2 h3 h5 h7
        refine ⟨h1, h2, by omega, ?_, ?_, ?_, ?_⟩
        · simp only [List.map_cons, List.nodup_cons, List.mem_map, not_exists, not_and]
          refine ⟨?_, h4⟩
          intro r hr he
          have := h5 r hr; omega
        · intro r hr
          rcases List.mem_cons.1 hr with rfl | hr
          · exact ⟨by simp, by simp; omega, ha⟩
          · have := h5 r hr; exact ⟨by omega, this.2.1, this.2.2⟩
        · simp [h6]
        · intro b hb
          rcases List.mem_cons.1 hb with rfl | hb
          · exact ha
          · exact h7 b hb
    · simp [ha] at h

theorem wrapAll_err {s : St} {as : List Arg} {e : Exn} (h : wrapAll s as = .error e) :
    ¬ ∀ a ∈ as, a.target ∈ s.alive := by
  induction as generalizing s e with
  | nil => simp [wrapAll] at h
  | cons a as ih =>
    simp only [wrapAll, wrap] at h
    by_cases ha : a.target ∈ s.alive
    · simp only [ha, if_true] at h
      rcases hw : wrapAll { s with next := s.next + 1 } as with e2 | ⟨s2, rs2⟩
      · intro hc; exact ih hw (fun b hb => hc b (by simp [hb]))
      · simp [hw] at h
    · intro hc; exact ha (hc a (by simp))

/-! Python list operations commute with mapping. -/

theorem map_pick {α β} (f : α → β) (l : List α) (ps : List Nat) : (pick l ps).map f = pick (l.map f) ps := by
  unfold pick
  induction ps with
  | nil => rfl
  | cons p ps ih =>
    rw [List.filterMap_cons, List.filterMap_cons]
    simp only [List.getElem?_map]
    rcases l[p]? with _ | x <;> simp_all

theorem map_putAt {α β} (f : α → β) : ∀ (ps : List Nat) (l vs : List α),
    (putAt l ps vs).map f = putAt (l.map f) ps (vs.map f) := by
  intro ps
  induction ps with
  | nil => intro l vs; cases vs <;> simp [putAt]
  | cons p ps ih => intro l vs; cases vs <;> simp [putAt, ih, List.map_set]

theorem map_setSlice {α β} (f : α → β) (l vs : List α) (sl : Slice) :
    (PyList.setSlice l sl vs).map (List.map f) = PyList.setSlice (l.map f) sl (vs.map f) := by
  unfold PyList.setSlice
  simp only [List.length_map]
  rcases sl.indices l.length with _ | ⟨a, b, st⟩
  · rfl
  · simp only
    split
    · simp [Except.map, List.map_take, List.map_drop]
    · split
      · simp [Except.map, map_putAt]
      · rfl

theorem map_dropAt {α β} (f : α → β) (l : List α) (ps : List Nat) :
    (dropAt l ps).map f = dropAt (l.map f) ps := by
  unfold dropAt
  have : ∀ (l : List α) (k : Nat), (((l.zipIdx k).filter (fun x => !ps.contains x.2)).map Prod.fst).map f =
      (((l.map f).zipIdx k).filter (fun x => !ps.contains x.2)).map Prod.fst := by
    intro l
    induction l with
    | nil => intro k; rfl
    | cons x xs ih =>
      intro k
      have := ih (k+1)
      simp only [List.zipIdx_cons, List.map_cons, List.filter_cons]
      split <;> simp_all
  exact this l 0

theorem map_delSlice {α β} (f : α → β) (l : List α) (sl : Slice) :
    (PyList.delSlice l sl).map (List.map f) = PyList.delSlice (l.map f) sl := by
  unfold PyList.delSlice
  simp only [List.length_map]
  rcases sl.positions l.length with _ | ps
  · rfl
  · simp [Except.map, map_dropAt]

theorem mem_pick_sub {α} (l : List α) (ps : List Nat) : ∀ x ∈ pick l ps, x ∈ l := by
  intro x hx
  unfold pick at hx
  obtain ⟨p, _, hp⟩ := List.mem_filterMap.1 hx
  exact List.mem_of_getElem? hp

theorem dropAt_sublist {α} (l : List α) (ps : List Nat) : (dropAt l ps).Sublist l := by
  unfold dropAt
  have h := (List.filter_sublist (p := fun x : α × Nat => !ps.contains x.2) (l := l.zipIdx)).map Prod.fst
  simpa using h

theorem mem_putAt {α} : ∀ (ps : List Nat) (l vs : List α), ∀ x ∈ putAt l ps vs, x ∈ l ∨ x ∈ vs := by
  intro ps
  induction ps with
  | nil => intro l vs x hx; cases vs <;> simp [putAt] at hx <;> simp [hx]
  | cons p ps ih =>
    intro l vs x hx
    cases vs with
    | nil => simp [putAt] at hx; simp [hx]
    | cons v vs =>
      simp only [putAt] at hx
      rcases ih _ _ x hx with h | h
      · rcases List.mem_or_eq_of_mem_set h with h | h
        · exact .inl h
        · subst h; simp
      · simp [h]

theorem mem_setSlice {α} {l vs l' : List α} {sl : Slice} (h : PyList.setSlice l sl vs = .ok l') :
    ∀ x ∈ l', x ∈ l ∨ x ∈ vs := by
  unfold PyList.setSlice at h
  rcases hi : sl.indices l.length with _ | ⟨a, b, st⟩
  · simp [hi] at h
  · simp only [hi] at h
    split at h
    · injection h with h; subst h
      intro x hx
      simp only [List.mem_append] at hx
      rcases hx with (hx | hx) | hx
      · exact .inl (List.mem_of_mem_take hx)
      · exact .inr hx
      · exact .inl (List.mem_of_mem_drop hx)
    · split at h
      · injection h with h; subst h
        exact mem_putAt _ _ _
      · simp at h

theorem map_eraseIdx' {α β} (f : α → β) : ∀ (l : List α) (k : Nat), (l.eraseIdx k).map f = (l.map f).eraseIdx k := by
  intro l
  induction l with
  | nil => intro k; simp
  | cons x xs ih => intro k; cases k <;> simp [ih]

theorem unique_rid {r r' : Ref} : ∀ {l : List Ref}, (l.map Ref.rid).Nodup → r ∈ l → r' ∈ l → r'.rid = r.rid → r' = r := by
  intro l
  induction l with
  | nil => intro _ hr; simp at hr
  | cons x xs ih =>
    intro hn hr hr' he
    have hn' := List.nodup_cons.1 (by simpa using hn : (x.rid :: xs.map Ref.rid).Nodup)
    rcases List.mem_cons.1 hr with rfl | hr <;> rcases List.mem_cons.1 hr' with rfl | hr'
    · rfl
    · exact absurd (List.mem_map.2 ⟨r', hr', he⟩) hn'.1
    · exact absurd (List.mem_map.2 ⟨r, ‹r ∈ xs›, he.symm⟩) hn'.1
    · exact ih hn'.2 hr hr' he

/-- Counting form of distinctness, convenient with the counting lemmas. -/
theorem nodup_of_count {l : List Nat} (h : ∀ x, l.count x ≤ 1) : l.Nodup :=
  List.nodup_iff_count.2 h

theorem setSlice_nodup {l vs l' : List Ref} {sl : Slice} (h : PyList.setSlice l sl vs = .ok l')
    (h1 : (l.map Ref.rid).Nodup) (h2 : (vs.map Ref.rid).Nodup)
    (hd : ∀ r ∈ l, ∀ v ∈ vs, r.rid ≠ v.rid) : (l'.map Ref.rid).Nodup := by
  have hm := map_setSlice Ref.rid l vs sl
  rw [h] at hm
  simp only [Except.map] at hm
  have hg : ∃ prev, getSlice (l.map Ref.rid) sl = .ok prev := by
    unfold getSlice Slice.positions
    unfold PyList.setSlice at hm
    rcases hi : sl.indices (l.map Ref.rid).length with _ | ⟨a, b, st⟩
    · simp only [hi] at hm; simp at hm
    · simp
  obtain ⟨prev, hg⟩ := hg
  apply nodup_of_count
  intro x
  have := count_setSlice hg hm.symm x
  have c1 := List.nodup_iff_count.1 h1 x
  have c2 := List.nodup_iff_count.1 h2 x
  by_cases hx : x ∈ l.map Ref.rid
  · have : x ∉ vs.map Ref.rid := by
      intro hv
      obtain ⟨r, hr, rfl⟩ := List.mem_map.1 hx
      obtain ⟨v, hv, hvx⟩ := List.mem_map.1 hv
      exact hd r hr v hv hvx.symm
    have := List.count_eq_zero_of_not_mem this
    omega
  · have := List.count_eq_zero_of_not_mem hx
    omega

theorem step_inv (s : St) (o : Op) (h : Inv s) : Inv (step s o).1 := by
  obtain ⟨hn, hf, hl⟩ := h
  cases o with
  | append a =>
    simp only [step, wrap]
    by_cases ha : a.target ∈ s.alive
    · simp only [ha, if_true]
      refine ⟨?_, ?_, ?_⟩
      · simp only [List.map_append, List.map_cons, List.map_nil]
        rw [List.nodup_append]
        refine ⟨hn, by simp, ?_⟩
        intro a' ha' b hb
        obtain ⟨r, hr, rfl⟩ := List.mem_map.1 ha'
        simp at hb; subst hb
        have := hf r hr; omega
      · intro r hr
        simp only [List.mem_append, List.mem_singleton] at hr
        rcases hr with hr | rfl
        · have := hf r hr; simp only; omega
        · simp
      · intro r hr
        simp only [List.mem_append, List.mem_singleton] at hr
        rcases hr with hr | rfl
        · exact hl r hr
        · exact ha
    · simpa [ha] using ⟨hn, hf, hl⟩
  | insert i a =>
    simp only [step, wrap]
    by_cases ha : a.target ∈ s.alive
    · simp only [ha, if_true]
      have hle : insertIdx s.refs.length i ≤ s.refs.length := by
        unfold insertIdx; simp only; split <;> split <;> (try split) <;> omega
      have hp := List.perm_insertIdx (⟨s.next, a.target⟩ : Ref) s.refs hle
      refine ⟨?_, ?_, ?_⟩
      · show (List.map Ref.rid (s.refs.insertIdx _ _)).Nodup
        rw [(hp.map Ref.rid).nodup_iff]
        simp only [List.map_cons, List.nodup_cons]
        refine ⟨?_, hn⟩
        intro hm
        obtain ⟨r, hr, he⟩ := List.mem_map.1 hm
        have := hf r hr; omega
      · intro r hr
        have := hp.mem_iff.1 (show r ∈ s.refs.insertIdx _ _ from hr)
        rcases List.mem_cons.1 this with rfl | hr
        · simp
        · have := hf r hr; simp only; omega
      · intro r hr
        have := hp.mem_iff.1 (show r ∈ s.refs.insertIdx _ _ from hr)
        rcases List.mem_cons.1 this with rfl | hr
        · exact ha
        · exact hl r hr
    · simpa [ha] using ⟨hn, hf, hl⟩
  | extend as =>
    simp only [step]
    rcases hw : wrapAll s as with e | ⟨s', rs⟩
    · exact ⟨hn, hf, hl⟩
    · obtain ⟨h1, h2, h3, h4, h5, h6, h7⟩ := wrapAll_ok hw
      refine ⟨?_, ?_, ?_⟩
      · simp only [List.map_append, h2]
        rw [List.nodup_append]
        refine ⟨hn, h4, ?_⟩
        intro a ha b hb
        obtain ⟨r, hr, rfl⟩ := List.mem_map.1 ha
        obtain ⟨v, hv, rfl⟩ := List.mem_map.1 hb
        have := hf r hr; have := h5 v hv; omega
      · intro r hr
        simp only [List.mem_append, h2] at hr
        rcases hr with hr | hr
        · have := hf r hr; simp only; omega
        · exact (h5 r hr).2.1
      · intro r hr
        simp only [List.mem_append, h2] at hr
        simp only [h1]
        rcases hr with hr | hr
        · exact hl r hr
        · exact (h5 r hr).2.2
  | setSlice sl as =>
    simp only [step]
    rcases hw : wrapAll s as with e | ⟨s', rs⟩
    · exact ⟨hn, hf, hl⟩
    · obtain ⟨h1, h2, h3, h4, h5, h6, h7⟩ := wrapAll_ok hw
      rcases hs : PyList.setSlice s'.refs sl rs with e | l
      · simp only [hs]
        refine ⟨by simpa [h2] using hn, ?_, ?_⟩
        · intro r hr; simp only [h2] at hr ⊢; have := hf r hr; omega
        · intro r hr; simp only [h2, h1] at hr ⊢; exact hl r hr
      · simp only [hs]
        refine ⟨?_, ?_, ?_⟩
        · refine setSlice_nodup hs (by rw [h2]; exact hn) h4 ?_
          intro r hr v hv
          rw [h2] at hr
          have := hf r hr; have := h5 v hv; omega
        · intro r hr
          rcases mem_setSlice hs r hr with hr | hr
          · rw [h2] at hr; have := hf r hr; simp only; omega
          · exact (h5 r hr).2.1
        · intro r hr
          simp only [h1]
          rcases mem_setSlice hs r hr with hr | hr
          · rw [h2] at hr; exact hl r hr
          · exact (h5 r hr).2.2
  | setItem i a => exact ⟨hn, hf, hl⟩
  | pop i =>
    simp only [step, PyList.pop]
    rcases hk : normIdx s.refs.length i with _ | k
    · exact ⟨hn, hf, hl⟩
    · have hlt := normIdx_lt hk
      simp only [List.getElem?_eq_getElem hlt]
      have hsub := List.eraseIdx_sublist s.refs k
      exact ⟨(hsub.map _).nodup hn, fun r hr => hf r (hsub.mem hr), fun r hr => hl r (hsub.mem hr)⟩
  | getItem i =>
    simp only [step]
    rcases PyList.getItem s.refs i with e | r <;> exact ⟨hn, hf, hl⟩
  | delItem i =>
    simp only [step, PyList.delItem]
    rcases hk : normIdx s.refs.length i with _ | k
    · exact ⟨hn, hf, hl⟩
    · have hsub := List.eraseIdx_sublist s.refs k
      exact ⟨(hsub.map _).nodup hn, fun r hr => hf r (hsub.mem hr), fun r hr => hl r (hsub.mem hr)⟩
  | delSlice sl =>
    simp only [step, PyList.delSlice]
    rcases hk : sl.positions s.refs.length with _ | ps
    · exact ⟨hn, hf, hl⟩
    · have hsub := dropAt_sublist s.refs ps
      exact ⟨(hsub.map _).nodup hn, fun r hr => hf r (hsub.mem hr), fun r hr => hl r (hsub.mem hr)⟩
  | clear => exact ⟨by simp [step], by simp [step], by simp [step]⟩
  | reverse =>
    refine ⟨?_, ?_, ?_⟩
    · simp only [step, List.map_reverse]; exact (List.reverse_perm _).nodup_iff.2 hn
    · intro r hr; exact hf r (by simpa [step] using hr)
    · intro r hr; exact hl r (by simpa [step] using hr)
  | broken => exact ⟨hn, hf, hl⟩

theorem step_abs (s : St) (o : Op) : abs (step s o).1 = { abs s with objs := specOp (abs s) o } := by
  cases o with
  | append a =>
    simp only [step, wrap, specOp, abs]
    by_cases ha : a.target ∈ s.alive <;> simp [ha]
  | insert i a =>
    simp only [step, wrap, specOp, abs]
    by_cases ha : a.target ∈ s.alive
    · simp only [ha, if_true, PyList.insert, List.length_map]
      have : ∀ (l : List Ref) (k : Nat) (r : Ref), (l.insertIdx k r).map Ref.obj = (l.map Ref.obj).insertIdx k r.obj := by
        intro l
        induction l with
        | nil => intro k r; cases k <;> simp [List.insertIdx]
        | cons x xs ih => intro k r; cases k <;> simp [List.insertIdx_succ_cons, ih]
      rw [this]
    · simp [ha]
  | extend as =>
    simp only [step, specOp, abs]
    rcases hw : wrapAll s as with e | ⟨s', rs⟩
    · have := wrapAll_err hw
      simp [this]
    · obtain ⟨h1, h2, h3, h4, h5, h6, h7⟩ := wrapAll_ok hw
      simp only [h1, h2, List.map_append, h6]
      congr 1
      exact (if_pos h7).symm
  | setSlice sl as =>
    simp only [step, specOp, abs]
    rcases hw : wrapAll s as with e | ⟨s', rs⟩
    · have := wrapAll_err hw
      simp [this]
    · obtain ⟨h1, h2, h3, h4, h5, h6, h7⟩ := wrapAll_ok hw
      rw [← h6, ← map_setSlice]
      rcases hs : PyList.setSlice s.refs sl rs with e | l
      · simp only [h2, hs, h1]
        congr 1
        exact (if_pos h7).symm
      · simp only [h2, hs, h1]
        congr 1
        exact (if_pos h7).symm
  | setItem i a => rfl
  | pop i =>
    simp only [step, specOp, abs, PyList.pop, List.length_map]
    rcases hk : normIdx s.refs.length i with _ | k
    · rfl
    · have hlt := normIdx_lt hk
      simp [List.getElem?_eq_getElem hlt, map_eraseIdx']
  | getItem i =>
    simp only [step, specOp]
    rcases PyList.getItem s.refs i with e | r <;> rfl
  | delItem i =>
    simp only [step, specOp, abs, PyList.delItem, List.length_map]
    rcases hk : normIdx s.refs.length i with _ | k
    · rfl
    · simp [map_eraseIdx']
  | delSlice sl =>
    simp only [step, specOp, abs]
    rw [← map_delSlice]
    rcases PyList.delSlice s.refs sl with e | l <;> simp [Except.map]
  | clear => rfl
  | reverse => simp [step, specOp, abs]
  | broken => rfl

/-- Running the callbacks of a set of references removes exactly those references. -/
theorem foldl_remover : ∀ (ds l : List Ref), (l.map Ref.rid).Nodup →
    ds.foldl (fun l r => remover r.rid l) l = l.filter (fun r => !(ds.map Ref.rid).contains r.rid) := by
  intro ds
  induction ds with
  | nil =>
    intro l _
    exact (List.filter_eq_self.2 (by simp)).symm
  | cons d ds ih =>
    intro l hn
    have he : remover d.rid l = l.filter (fun r => !(r.rid == d.rid)) := by
      unfold remover
      clear ih
      induction l with
      | nil => rfl
      | cons x xs ihx =>
        have hn' := List.nodup_cons.1 (by simpa using hn : (x.rid :: xs.map Ref.rid).Nodup)
        rw [List.eraseP_cons, List.filter_cons]
        by_cases hx : x.rid = d.rid
        · simp only [hx, beq_self_eq_true, cond_true, Bool.not_true, Bool.false_eq_true, if_false]
          symm
          rw [List.filter_eq_self]
          intro r hr
          have : r.rid ≠ d.rid := by
            intro e; apply hn'.1; rw [hx, ← e]; exact List.mem_map_of_mem hr
          simp [this]
        · have hb : (x.rid == d.rid) = false := by simp [hx]
          simp only [hb, cond_false, Bool.not_false, if_true]
          rw [ihx hn'.2]
    rw [List.foldl_cons, he, ih]
    · rw [List.filter_filter]
      apply List.filter_congr
      intro r _
      by_cases h : r.rid = d.rid <;> simp [h]
    · exact ((List.filter_sublist).map _).nodup hn

theorem die_refs (s : St) (o : Nat) (h : Inv s) : (die s o).refs = s.refs.filter (fun r => !(r.obj == o)) := by
  unfold die
  simp only
  rw [foldl_remover _ _ h.nodup]
  apply List.filter_congr
  intro r hr
  have key : ((s.refs.filter (fun r => r.obj == o)).map Ref.rid).contains r.rid = (r.obj == o) := by
    rw [Bool.eq_iff_iff]
    simp only [List.contains_eq_mem, decide_eq_true_eq, List.mem_map, List.mem_filter, beq_iff_eq]
    constructor
    · rintro ⟨r', ⟨hr', ho⟩, he⟩
      -- identities are unique
      have : r' = r := unique_rid h.nodup hr hr' he
      subst this; exact ho
    · intro ho; exact ⟨r, ⟨hr, ho⟩, rfl⟩
  rw [key]

theorem act_inv (s : St) (a : Act) (h : Inv s) : Inv (act s a) := by
  cases a with
  | op o => exact step_inv s o h
  | die o =>
    have hr := die_refs s o h
    refine ⟨?_, ?_, ?_⟩
    · show ((die s o).refs.map Ref.rid).Nodup
      rw [hr]; exact ((List.filter_sublist).map _).nodup h.nodup
    · intro r hm
      have hm : r ∈ (die s o).refs := hm
      rw [hr] at hm
      exact h.fresh r (List.mem_filter.1 hm).1
    · intro r hm
      have hm : r ∈ (die s o).refs := hm
      rw [hr] at hm
      have := List.mem_filter.1 hm
      show r.obj ∈ s.alive.filter (· != o)
      exact List.mem_filter.2 ⟨h.live r this.1, by simpa using this.2⟩
  | born o =>
    exact ⟨h.nodup, h.fresh, fun r hr => List.mem_cons_of_mem _ (h.live r hr)⟩

theorem act_abs (s : St) (a : Act) (h : Inv s) : abs (act s a) = specAct (abs s) a := by
  cases a with
  | op o => exact step_abs s o
  | die o =>
    have hr := die_refs s o h
    simp only [act, specAct, abs, hr, List.filter_map]
    congr 1
  | born o => rfl

theorem init_inv : Inv init := ⟨by simp [init], by simp [init], by simp [init]⟩

theorem run_inv (s : St) (h : List Act) (hi : Inv s) : Inv (run s h) := by
  induction h generalizing s with
  | nil => exact hi
  | cons a as ih => exact ih _ (act_inv s a hi)

theorem run_abs (s : St) (h : List Act) (hi : Inv s) : abs (run s h) = specRun (abs s) h := by
  induction h generalizing s with
  | nil => rfl
  | cons a as ih =>
    show abs (run (act s a) as) = specRun (specAct (abs s) a) as
    rw [ih _ (act_inv s a hi), act_abs s a hi]

/-- **C28.** Whatever operations, object creations and collections have happened, the weak list refers,
in order, to exactly the objects a plain list would hold from which each object is filtered out at
the moment it dies. -/
theorem C28_contents (h : List Act) :
    (run init h).refs.map Ref.obj = (specRun ⟨[], []⟩ h).objs := by
  have := run_abs init h init_inv
  exact congrArg Spec.objs this

/-- **C28.** Right after a collection of `o`, at any point of any history, no entry for `o` is left, the other
entries are untouched and in the same order; and no entry ever refers to a dead object. -/
theorem C28_collected (h : List Act) (o : Nat) :
    (run init (h ++ [.die o])).refs.map Ref.obj = ((run init h).refs.map Ref.obj).filter (· ≠ o) ∧
    (∀ r ∈ (run init h).refs, unwrap (run init h) r = some r.obj) := by
  have hi := run_inv init h init_inv
  constructor
  · have e : run init (h ++ [.die o]) = die (run init h) o := by simp [run, act]
    rw [e, die_refs _ o hi, List.filter_map]
    congr 1
    apply List.filter_congr
    intro r _
    by_cases h : r.obj = o <;> simp [h]
  · intro r hr
    simp [unwrap, hi.live r hr]

/-- **C28.** Indexing and popping return the object a plain list of the same contents would return, never None and
never a dead object; popping leaves what the plain list leaves. -/
theorem C28_results (h : List Act) (i : Int) :
    let s := run init h
    (step s (.getItem i)).2 = (match PyList.getItem (s.refs.map Ref.obj) i with
      | .ok o => .val (some o)
      | .error e => .raised (ofErr e)) ∧
    (step s (.pop i)).2 = (match PyList.pop (s.refs.map Ref.obj) i with
      | .ok (_, o) => .val (some o)
      | .error e => .raised (ofErr e)) ∧
    (∀ l o, PyList.pop (s.refs.map Ref.obj) i = .ok (l, o) → o ∈ s.alive ∧ (step s (.pop i)).1.refs.map Ref.obj = l) := by
  intro s
  have hi : Inv s := run_inv init h init_inv
  have hl : ∀ (k : Nat) (r : Ref), s.refs[k]? = some r → unwrap s r = some r.obj := by
    intro k r hr
    simp [unwrap, hi.live r (List.mem_of_getElem? hr)]
  have hal : ∀ (k : Nat) (r : Ref), s.refs[k]? = some r → r.obj ∈ s.alive := by
    intro k r hr
    exact hi.live r (List.mem_of_getElem? hr)
  refine ⟨?_, ?_, ?_⟩
  · simp only [step, PyList.getItem, List.length_map]
    cases normIdx s.refs.length i with
    | none => rfl
    | some k =>
      simp only [List.getElem?_map]
      cases hk : s.refs[k]? with
      | none => rfl
      | some r => simp [hl k r hk]
  · simp only [step, PyList.pop, List.length_map]
    cases normIdx s.refs.length i with
    | none => rfl
    | some k =>
      simp only [List.getElem?_map]
      cases hk : s.refs[k]? with
      | none => rfl
      | some r => simp [hl k r hk]
  · intro l o hp
    simp only [step, PyList.pop, List.length_map] at hp ⊢
    cases hn : normIdx s.refs.length i with
    | none => simp [hn] at hp
    | some k =>
      simp only [hn, List.getElem?_map] at hp ⊢
      cases hk : s.refs[k]? with
      | none => simp [hk] at hp
      | some r =>
        simp only [hk, Option.map_some, Except.ok.injEq, Prod.mk.injEq] at hp
        obtain ⟨rfl, rfl⟩ := hp
        exact ⟨hal k r hk, by simp [List.eraseIdx_eq_take_drop_succ, List.map_take, List.map_drop]⟩

-- non-vacuity: a history with repeated entries, deaths and slices
example : (run init [.born 1, .born 2, .born 3, .op (.extend [.obj 1, .weak 2, .obj 1, .obj 3]), .die 1,
    .op (.append (.obj 1)), .op (.insert 0 (.obj 3)), .born 4, .op (.setSlice { start := some 1, stop := some 2 } [.obj 4]),
    .op .broken]).refs.map Ref.obj = [3, 4, 3] := by decide

/-! ### C29 -/

/-- An iteration during which nothing dies yields every item, in order, each alive, and then stops. -/
theorem C29_quiet_iteration (h : List Act) :
    let s := run init h
    iter s 0 (List.replicate (s.refs.length + 1) .next)
      = (s.refs.map (fun r => (some r.obj, s.alive)), true) := by
  intro s
  have hi : Inv s := run_inv init h init_inv
  have key : ∀ (n i : Nat), i + n = s.refs.length →
      iter s i (List.replicate (n + 1) .next) = ((s.refs.drop i).map (fun r => (some r.obj, s.alive)), true) := by
    intro n
    induction n with
    | zero =>
      intro i hin
      have : s.refs.length ≤ i := by omega
      simp [iter, List.getElem?_eq_none this, List.drop_eq_nil_of_le this]
    | succ n ih =>
      intro i hin
      have hlt : i < s.refs.length := by omega
      have h1 := ih (i+1) (by omega)
      rw [List.replicate_succ, iter, List.getElem?_eq_getElem hlt]
      simp only
      rw [h1, List.drop_eq_getElem_cons hlt]
      have := hi.live _ (List.getElem_mem hlt)
      simp only [unwrap, this, if_true, List.map_cons]
  simpa using key s.refs.length 0 (by omega)

theorem iter_sublist : ∀ (sch : List ItStep) (s : St) (i : Nat), Inv s →
    (∀ y ∈ (iter s i sch).1, ∃ o, y.1 = some o ∧ o ∈ y.2) ∧
    ((iter s i sch).1.map Prod.fst).Sublist (((s.refs.drop i).map (fun r => some r.obj))) := by
  intro sch
  induction sch with
  | nil => intro s i _; simp [iter]
  | cons st sch ih =>
    intro s i hi
    cases st with
    | die o =>
      have := ih (die s o) i (act_inv s (.die o) hi)
      refine ⟨this.1, this.2.trans ?_⟩
      rw [die_refs s o hi]
      exact ((List.filter_sublist).drop i).map _
    | next =>
      unfold iter
      rcases hg : s.refs[i]? with _ | r
      · simp
      · have hlt : i < s.refs.length := by
          rcases Nat.lt_or_ge i s.refs.length with h | h
          · exact h
          · rw [List.getElem?_eq_none h] at hg; simp at hg
        have hr : s.refs[i] = r := by simpa [List.getElem?_eq_getElem hlt] using hg
        have hal := hi.live r (hr ▸ List.getElem_mem hlt)
        have := ih s (i+1) hi
        simp only
        constructor
        · intro y hy
          rcases List.mem_cons.1 hy with rfl | hy
          · exact ⟨r.obj, by simp [unwrap, hal], hal⟩
          · exact this.1 y hy
        · rw [List.drop_eq_getElem_cons hlt, hr]
          simp only [List.map_cons, unwrap, hal, if_true]
          exact this.2.cons_cons _

/-- **C29.** Under every schedule of deaths during the iteration, each value produced is an
object that is alive at that moment, and the values are items of the list in list order, none produced
more often than it occurs.  Excluded: that every item which survives is produced — false, see
`C29_refuted_skip`. -/
theorem C29_yields_live (h : List Act) (sch : List ItStep) :
    (∀ y ∈ (iter (run init h) 0 sch).1, ∃ o, y.1 = some o ∧ o ∈ y.2) ∧
    ((iter (run init h) 0 sch).1.map Prod.fst).Sublist ((run init h).refs.map (fun r => some r.obj)) := by
  simpa using iter_sublist sch (run init h) 0 (run_inv init h init_inv)

/-- The iteration can skip a live item: 1, 2, 3 are listed, 1 is yielded and then dies, and 2, which
stays alive, is never produced. -/
theorem C29_refuted_skip :
    let s := run init [.born 1, .born 2, .born 3, .op (.extend [.obj 1, .obj 2, .obj 3])]
    (iter s 0 [.next, .die 1, .next, .next]) = ([(some 1, [3, 2, 1]), (some 3, [3, 2])], true) := by
  decide

end Verif.WeakList
