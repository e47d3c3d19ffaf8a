import Verif.Spec.WeakDict
/-!
C97: the weak-keyed dictionary.
-/
namespace Verif.WeakDict
open Verif
variable {V : Type}

/-- what the dictionary holds, as a plain dictionary -/
def abs (s : St V) : Plain V := ⟨s.alive, s.data.map (fun e => (e.1.obj, e.2))⟩

/-- every key is alive and held once, and reference identities are not reused -/
structure Inv (s : St V) : Prop where
  live : ∀ e ∈ s.data, e.1.obj ∈ s.alive
  objs : (s.data.map (fun e => e.1.obj)).Nodup
  rids : (s.data.map (fun e => e.1.rid)).Nodup
  next : ∀ e ∈ s.data, e.1.rid < s.next

theorem refEq_live {al : List Nat} {a b : Ref} (ha : a.obj ∈ al) (hb : b.obj ∈ al) : refEq al a b = (a.obj == b.obj) := by simp [refEq, ha, hb]

theorem lookup_abs {al : List Nat} {r : Ref} (hr : r.obj ∈ al) {d : List (Ref × V)} (h : ∀ e ∈ d, e.1.obj ∈ al) :
    lookup al r d = PyDict.get? (d.map (fun e => (e.1.obj, e.2))) r.obj := by
  induction d with
  | nil => rfl
  | cons e d ih =>
    obtain ⟨k, v⟩ := e
    rw [lookup, refEq_live (h _ (.head _)) hr, List.map_cons, PyDict.get?, ih (fun e he => h e (.tail _ he))]
    simp

theorem store_abs {al : List Nat} {r : Ref} (hr : r.obj ∈ al) (v : V) {d : List (Ref × V)} (h : ∀ e ∈ d, e.1.obj ∈ al) :
    (store al r v d).map (fun e => (e.1.obj, e.2)) = PyDict.set (d.map (fun e => (e.1.obj, e.2))) r.obj v := by
  induction d with
  | nil => rfl
  | cons e d ih =>
    obtain ⟨k, w⟩ := e
    rw [store, refEq_live (h _ (.head _)) hr, List.map_cons, PyDict.set, ← ih (fun e he => h e (.tail _ he))]
    by_cases hk : k.obj = r.obj <;> simp [hk]

theorem erase_absent {d : PyDict.Dict Nat V} {k : Nat} (h : k ∉ d.map Prod.fst) : PyDict.erase d k = d := by
  simp only [PyDict.erase, List.filter_eq_self, decide_eq_true_eq]
  exact fun p hp he => h (he ▸ List.mem_map_of_mem hp)

theorem delete_abs {al : List Nat} {r : Ref} (hr : r.obj ∈ al) {d : List (Ref × V)} (h : ∀ e ∈ d, e.1.obj ∈ al) (hn : (d.map (fun e => e.1.obj)).Nodup) :
    (delete al r d).map (fun e => (e.1.obj, e.2)) = PyDict.erase (d.map (fun e => (e.1.obj, e.2))) r.obj := by
  induction d with
  | nil => rfl
  | cons e d ih =>
    obtain ⟨k, w⟩ := e
    rw [List.map_cons, List.nodup_cons] at hn
    rw [delete, refEq_live (h _ (.head _)) hr, List.map_cons]
    by_cases hk : k.obj = r.obj
    · have : PyDict.erase (d.map (fun e => (e.1.obj, e.2))) r.obj = d.map (fun e => (e.1.obj, e.2)) := erase_absent (by
        rw [List.map_map, ← hk]; exact hn.1)
      rw [PyDict.erase] at this ⊢
      rw [List.filter_cons_of_neg (by simp [hk]), this]
      simp [hk]
    · have := ih (fun e he => h e (.tail _ he)) hn.2
      rw [PyDict.erase] at this ⊢
      rw [List.filter_cons_of_pos (by simp [hk]), ← this]
      simp [hk]

theorem delete_sublist (al : List Nat) (r : Ref) (d : List (Ref × V)) : (delete al r d).Sublist d := by
  induction d with
  | nil => exact .slnil
  | cons e d ih =>
    obtain ⟨k, w⟩ := e
    rw [delete]
    split
    · exact List.sublist_cons_self _ _
    · exact ih.cons_cons _

theorem store_mem {al : List Nat} {r : Ref} {v : V} {d : List (Ref × V)} {e : Ref × V} (h : e ∈ store al r v d) : e.1 = r ∨ ∃ w, (e.1, w) ∈ d := by
  induction d with
  | nil => simp only [store, List.mem_singleton] at h; exact .inl (by rw [h])
  | cons f d ih =>
    obtain ⟨k, w⟩ := f
    rw [store] at h
    split at h <;> rcases List.mem_cons.1 h with h | h
    · exact .inr ⟨w, by rw [h]; exact .head _⟩
    · exact .inr ⟨e.2, .tail _ h⟩
    · exact .inr ⟨w, by rw [h]; exact .head _⟩
    · exact (ih h).imp_right (fun ⟨w, hw⟩ => ⟨w, .tail _ hw⟩)

theorem store_rids {al : List Nat} {r : Ref} {v : V} {d : List (Ref × V)} (h : (d.map (fun e => e.1.rid)).Nodup) (hr : ∀ e ∈ d, e.1.rid < r.rid) :
    ((store al r v d).map (fun e => e.1.rid)).Nodup := by
  induction d with
  | nil => simp [store]
  | cons f d ih =>
    obtain ⟨k, w⟩ := f
    rw [List.map_cons, List.nodup_cons] at h
    rw [store]
    split
    · rw [List.map_cons, List.nodup_cons]; exact h
    · rw [List.map_cons, List.nodup_cons]
      refine ⟨fun hm => ?_, ih h.2 (fun e he => hr e (.tail _ he))⟩
      obtain ⟨e, he, hk⟩ := List.mem_map.1 hm
      rcases store_mem he with he | ⟨w', he⟩
      · have := hr _ (List.mem_cons_self (a := (k, w)) (l := d))
        rw [← hk, he] at this
        exact absurd this (Nat.lt_irrefl _)
      · exact h.1 (hk ▸ List.mem_map.2 ⟨_, he, rfl⟩)

theorem keys_abs (d : List (Ref × V)) : PyDict.keys (d.map (fun e => (e.1.obj, e.2))) = d.map (fun e => e.1.obj) := by simp [PyDict.keys, Function.comp_def]

theorem put_abs {s s' : St V} (hi : Inv s) {k : Nat} {v : V} (h : put s k v = some s') : k ∈ s.alive ∧ Inv s' ∧ abs s' = { abs s with dict := PyDict.set (abs s).dict k v } := by
  unfold put at h
  split at h
  · next hk =>
    cases h
    have ha := store_abs (r := ⟨s.next, k⟩) hk v hi.live
    refine ⟨hk, ⟨fun e he => ?_, ?_, store_rids hi.rids hi.next, fun e he => ?_⟩, ?_⟩
    · rcases store_mem he with he | ⟨w, he⟩
      · rw [he]; exact hk
      · exact hi.live (e.1, w) he
    · show ((store s.alive ⟨s.next, k⟩ v s.data).map _).Nodup
      rw [← keys_abs, ha]
      exact PyDict.nodup_set _ _ _ (by rw [keys_abs]; exact hi.objs)
    · rcases store_mem he with he | ⟨w, he⟩
      · rw [he]; exact Nat.lt_succ_self _
      · exact Nat.lt_succ_of_lt (hi.next (e.1, w) he)
    · simp only [abs, ha]
  · cases h

theorem put_none {s : St V} {k : Nat} {v : V} (h : put s k v = none) : k ∉ s.alive := by
  unfold put at h
  split at h
  · cases h
  · assumption

theorem Inv.delete {s : St V} (hi : Inv s) (r : Ref) : Inv { s with data := delete s.alive r s.data } :=
  ⟨fun e he => hi.live e ((delete_sublist _ _ _).mem he), ((delete_sublist _ _ _).map _).nodup hi.objs, ((delete_sublist _ _ _).map _).nodup hi.rids,
    fun e he => hi.next e ((delete_sublist _ _ _).mem he)⟩

theorem Inv.succ {s : St V} (hi : Inv s) : Inv { s with next := s.next + 1 } := ⟨hi.live, hi.objs, hi.rids, fun e he => Nat.lt_succ_of_lt (hi.next e he)⟩

theorem putAll_abs {l : List (Nat × V)} {s : St V} (hi : Inv s) : Inv (putAll s l).1 ∧ (abs (putAll s l).1, (putAll s l).2) = (abs s).update l := by
  induction l generalizing s with
  | nil => exact ⟨hi, rfl⟩
  | cons e l ih =>
    obtain ⟨k, v⟩ := e
    simp only [putAll, Plain.update]
    cases h : put s k v with
    | none => exact ⟨hi, by rw [if_neg (show k ∉ (abs s).alive from put_none h)]⟩
    | some s' =>
      obtain ⟨h1, h2, h3⟩ := put_abs hi h
      rw [if_pos (show k ∈ (abs s).alive from h1), ← h3]
      exact ih h2

theorem step_abs {s : St V} (hi : Inv s) (o : Op V) : Inv (step s o).1 ∧ (abs (step s o).1, (step s o).2) = (abs s).step o := by
  have hl : ∀ k, k ∈ s.alive → lookup s.alive ⟨s.next, k⟩ s.data = PyDict.get? (abs s).dict k := fun k hk => lookup_abs (r := ⟨s.next, k⟩) hk hi.live
  have hd : ∀ k, k ∈ s.alive → abs { s with data := delete s.alive ⟨s.next, k⟩ s.data } = { abs s with dict := PyDict.erase (abs s).dict k } := fun k hk => by
    simp only [abs, delete_abs (r := ⟨s.next, k⟩) hk hi.live hi.objs]
  cases o with
  | setItem k v =>
    simp only [step, Plain.step]
    cases h : put s k v with
    | none => exact ⟨hi, by rw [if_neg (show k ∉ (abs s).alive from put_none h)]⟩
    | some s' =>
      obtain ⟨h1, h2, h3⟩ := put_abs hi h
      exact ⟨h2, by rw [if_pos (show k ∈ (abs s).alive from h1), ← h3]⟩
  | setDefault k v =>
    simp only [step, Plain.step]
    by_cases hk : k ∈ s.alive
    · rw [if_pos hk, if_pos (show k ∈ (abs s).alive from hk), hl k hk]
      cases hg : PyDict.get? (abs s).dict k with
      | some w => exact ⟨hi.succ, rfl⟩
      | none =>
        have hp : put s k v = some { s with next := s.next + 1, data := store s.alive ⟨s.next, k⟩ v s.data } := by rw [put, if_pos hk]
        obtain ⟨h1, h2, h3⟩ := put_abs hi hp
        exact ⟨h2, by rw [← h3]⟩
    · rw [if_neg hk, if_neg (show k ∉ (abs s).alive from hk)]; exact ⟨hi, rfl⟩
  | update l => exact putAll_abs hi
  | getItem k =>
    simp only [step, Plain.step]
    by_cases hk : k ∈ s.alive
    · rw [if_pos hk, if_pos (show k ∈ (abs s).alive from hk), hl k hk]
      cases hg : PyDict.get? (abs s).dict k <;> exact ⟨hi, rfl⟩
    · rw [if_neg hk, if_neg (show k ∉ (abs s).alive from hk)]; exact ⟨hi, rfl⟩
  | get k d =>
    simp only [step, Plain.step]
    by_cases hk : k ∈ s.alive
    · rw [if_pos hk, if_pos (show k ∈ (abs s).alive from hk), hl k hk]; exact ⟨hi, rfl⟩
    · rw [if_neg hk, if_neg (show k ∉ (abs s).alive from hk)]; exact ⟨hi, rfl⟩
  | contains k =>
    simp only [step, Plain.step]
    refine ⟨hi, ?_⟩
    by_cases hk : k ∈ s.alive
    · rw [hl k hk]; simp [hk]
    · have : PyDict.get? (abs s).dict k = none := (PyDict.get?_none _ _).2 (by
        rw [show PyDict.keys (abs s).dict = _ from keys_abs s.data]
        intro h
        obtain ⟨e, he, rfl⟩ := List.mem_map.1 h
        exact hk (hi.live e he))
      rw [this]; simp [hk]
  | delItem k =>
    simp only [step, Plain.step]
    by_cases hk : k ∈ s.alive
    · rw [if_pos hk, if_pos (show k ∈ (abs s).alive from hk), hl k hk]
      cases hg : PyDict.get? (abs s).dict k with
      | some w => exact ⟨hi.delete _, by simp only [hd k hk]; rfl⟩
      | none => exact ⟨hi, rfl⟩
    · rw [if_neg hk, if_neg (show k ∉ (abs s).alive from hk)]; exact ⟨hi, rfl⟩
  | pop k =>
    simp only [step, Plain.step]
    by_cases hk : k ∈ s.alive
    · rw [if_pos hk, if_pos (show k ∈ (abs s).alive from hk), hl k hk]
      cases hg : PyDict.get? (abs s).dict k with
      | some w => exact ⟨hi.delete _, by simp only [hd k hk]⟩
      | none => exact ⟨hi, rfl⟩
    · rw [if_neg hk, if_neg (show k ∉ (abs s).alive from hk)]; exact ⟨hi, rfl⟩
  | popItem =>
    simp only [step, Plain.step]
    cases hr : s.data.reverse with
    | nil =>
      have h0 : s.data = [] := List.reverse_eq_nil_iff.1 hr
      refine ⟨⟨by simp [popLast], by simp [popLast], by simp [popLast], by simp [popLast]⟩, ?_⟩
      simp [popLast, abs, h0]
    | cons e rev =>
      obtain ⟨r, v⟩ := e
      have h0 : s.data = rev.reverse ++ [(r, v)] := by rw [← List.reverse_reverse s.data, hr, List.reverse_cons]
      have hlv : r.obj ∈ s.alive := hi.live (r, v) (by rw [h0]; simp)
      have hsub : rev.reverse.Sublist s.data := by rw [h0]; exact List.sublist_append_left _ _
      rw [popLast, if_pos hlv]
      refine ⟨⟨fun e he => hi.live e (hsub.mem he), (hsub.map _).nodup hi.objs, (hsub.map _).nodup hi.rids, fun e he => hi.next e (hsub.mem he)⟩, ?_⟩
      have hno : r.obj ∉ rev.reverse.map (fun e => e.1.obj) := by
        have hn := hi.objs
        rw [h0, List.map_append, List.nodup_append] at hn
        intro hm
        exact hn.2.2 _ hm _ (by simp) rfl
      have hlast : (abs s).dict.getLast? = some (r.obj, v) := by simp [abs, h0]
      rw [hlast]
      have he : PyDict.erase (abs s).dict r.obj = rev.reverse.map (fun e => (e.1.obj, e.2)) := by
        have hx : PyDict.erase (rev.reverse.map (fun e => (e.1.obj, e.2))) r.obj = rev.reverse.map (fun e => (e.1.obj, e.2)) := erase_absent (by rw [List.map_map]; exact hno)
        rw [PyDict.erase] at hx ⊢
        simp only [abs, h0, List.map_append, List.filter_append, hx]
        simp
      simp only [he]
      rfl
  | length => exact ⟨hi, rfl⟩
  | iterate => exact ⟨hi, rfl⟩

/-- a dead reference equals only itself -/
theorem delete_dead {al : List Nat} {r : Ref} (hr : r.obj ∉ al) (d : List (Ref × V)) : delete al r d = d.eraseP (fun e => e.1.rid == r.rid) := by
  induction d with
  | nil => rfl
  | cons e d ih =>
    obtain ⟨k, w⟩ := e
    rw [delete, List.eraseP_cons, ih]
    simp [refEq, hr]

theorem fold_dead {al : List Nat} {o : Nat} (ho : o ∉ al) (dead : List Ref) (hdead : ∀ r ∈ dead, r.obj = o) (d : List (Ref × V)) (hn : (d.map (fun e => e.1.rid)).Nodup) :
    dead.foldl (fun d r => remover al r d) d = d.filter (fun e => decide (e.1.rid ∉ dead.map Ref.rid)) := by
  induction dead generalizing d with
  | nil => exact (List.filter_eq_self.2 (fun _ _ => by simp)).symm
  | cons r dead ih =>
    have hr : delete al r d = d.filter (fun e => decide (e.1.rid ≠ r.rid)) := by
      rw [delete_dead (by rw [hdead r (.head _)]; exact ho)]
      clear ih hdead
      induction d with
      | nil => rfl
      | cons e d ih =>
        rw [List.map_cons, List.nodup_cons] at hn
        rw [List.eraseP_cons, List.filter_cons]
        by_cases he : e.1.rid = r.rid
        · have : d.filter (fun e => decide (e.1.rid ≠ r.rid)) = d := List.filter_eq_self.2 (fun f hf => by
            simp only [ne_eq, decide_eq_true_eq]
            exact fun h => hn.1 (by rw [he, ← h]; exact List.mem_map_of_mem hf))
          simp only [he, beq_self_eq_true, cond_true, this]
          simp
        · rw [ih hn.2, if_pos (by simpa using he), show (e.1.rid == r.rid) = false by simpa using he]; rfl
    rw [List.foldl_cons, remover, hr, ih (fun r hr => hdead r (.tail _ hr)) _ ((List.filter_sublist.map _).nodup hn), List.filter_filter]
    congr 1
    funext e
    simp only [List.map_cons, List.mem_cons, not_or, ne_eq, Bool.decide_and]
    rw [Bool.and_comm]

theorem inj_of_nodup {α β : Type} {f : α → β} {l : List α} (h : (l.map f).Nodup) {a b : α} (ha : a ∈ l) (hb : b ∈ l) (he : f a = f b) : a = b := by
  induction l with
  | nil => cases ha
  | cons c l ih =>
    rw [List.map_cons, List.nodup_cons] at h
    rcases List.mem_cons.1 ha with rfl | ha' <;> rcases List.mem_cons.1 hb with rfl | hb'
    · rfl
    · exact absurd (he ▸ List.mem_map_of_mem hb') h.1
    · exact absurd (he ▸ List.mem_map_of_mem ha') h.1
    · exact ih h.2 ha' hb'

theorem die_abs {s : St V} (hi : Inv s) (o : Nat) : Inv (die s o) ∧ abs (die s o) = ((abs s).act (.die o)).1 := by
  have hdata : (die s o).data = s.data.filter (fun e => decide (e.1.obj ≠ o)) := by
    unfold die
    dsimp only
    rw [fold_dead (o := o) (by simp) _ (fun r hr => by simpa using (List.mem_filter.1 hr).2) _ hi.rids]
    apply List.filter_congr
    intro e he
    simp only [decide_eq_decide]
    refine not_congr ⟨fun h => ?_, fun h => ?_⟩
    · obtain ⟨r, hr, hk⟩ := List.mem_map.1 h
      obtain ⟨h1, h2⟩ := List.mem_filter.1 hr
      obtain ⟨f, hf, rfl⟩ := List.mem_map.1 h1
      have : f = e := by
        exact inj_of_nodup hi.rids hf he hk
      rw [← this]; simpa using h2
    · exact List.mem_map.2 ⟨e.1, List.mem_filter.2 ⟨List.mem_map_of_mem he, by simpa using h⟩, rfl⟩
  have hsub : (die s o).data.Sublist s.data := by rw [hdata]; exact List.filter_sublist
  refine ⟨⟨fun e he => ?_, (hsub.map _).nodup hi.objs, (hsub.map _).nodup hi.rids, fun e he => hi.next e (hsub.mem he)⟩, ?_⟩
  · have h1 := hi.live e (hsub.mem he)
    rw [hdata] at he
    have h2 := (List.mem_filter.1 he).2
    show e.1.obj ∈ s.alive.filter (· != o)
    simp only [List.mem_filter]
    exact ⟨h1, by simpa using h2⟩
  · simp only [Plain.act, abs, hdata, PyDict.erase, List.filter_map]
    rfl

theorem act_abs {s : St V} (hi : Inv s) (a : Act V) : Inv (act s a).1 ∧ (abs (act s a).1, (act s a).2) = (abs s).act a := by
  cases a with
  | op o => exact step_abs hi o
  | die o =>
    obtain ⟨h1, h2⟩ := die_abs hi o
    exact ⟨h1, by simp only [act, h2]; rfl⟩
  | born o => exact ⟨⟨fun e he => List.mem_cons_of_mem _ (hi.live e he), hi.objs, hi.rids, hi.next⟩, rfl⟩

theorem run_abs {s : St V} (hi : Inv s) (h : List (Act V)) : Inv (run s h).1 ∧ (abs (run s h).1, (run s h).2) = (abs s).run h := by
  induction h generalizing s with
  | nil => exact ⟨hi, rfl⟩
  | cons a h ih =>
    obtain ⟨h1, h2⟩ := act_abs hi a
    obtain ⟨h3, h4⟩ := ih h1
    refine ⟨h3, ?_⟩
    have e1 : abs (act s a).1 = ((abs s).act a).1 := congrArg Prod.fst h2
    have e2 : (act s a).2 = ((abs s).act a).2 := congrArg Prod.snd h2
    rw [e1] at h4
    simp only [run, Plain.run, ← e2, ← h4]

theorem init_inv : Inv (init : St V) := ⟨by simp [init], by simp [init], by simp [init], by simp [init]⟩

/-- **C97** In every history of operations, deaths and births of objects (new objects may get the identity of dead ones), every operation returns or raises what it
does on a plain dictionary from which the entries of objects are deleted when they die, and what is stored is what that dictionary holds, in its order. -/
theorem C97_as_plain (h : List (Act V)) : (run init h).2 = (Plain.run ⟨[], []⟩ h).2 ∧ (run init h).1.alive = (Plain.run ⟨[], []⟩ h).1.alive ∧
    (run init h).1.data.map (fun e => (e.1.obj, e.2)) = (Plain.run ⟨[], []⟩ h).1.dict := by
  have := (run_abs (init_inv (V := V)) h).2
  have e : abs (init : St V) = ⟨[], []⟩ := rfl
  rw [e] at this
  exact ⟨congrArg Prod.snd this, congrArg (fun p => p.1.alive) this, congrArg (fun p => p.1.dict) this⟩

theorem run_append (s : St V) (h k : List (Act V)) : run s (h ++ k) = ((run (run s h).1 k).1, (run s h).2 ++ (run (run s h).1 k).2) := by
  induction h generalizing s with
  | nil => rfl
  | cons a h ih => simp only [List.cons_append, run, ih]

/-- **C97** After an object has died, a new object that gets its identity has no entry: at any point of any history. -/
theorem C97_no_leak (h : List (Act V)) (o : Nat) (dflt : V) :
    (run init (h ++ [.die o, .born o, .op (.contains o), .op (.get o dflt)])).2 = (run init h).2 ++ [.none, .none, .bool false, .val dflt] := by
  have hi := (run_abs (init_inv (V := V)) h).1
  rw [run_append]
  refine congrArg ((run init h).2 ++ ·) ?_
  have h1 := die_abs hi o
  have h2 := act_abs h1.1 (.born o)
  have hget : PyDict.get? (abs (born (die (run init h).1 o) o)).dict o = none := by
    show PyDict.get? (abs (die (run init h).1 o)).dict o = none
    rw [h1.2]
    simp only [Plain.act, PyDict.get?_erase, if_pos]
  have h3 := (step_abs h2.1 (.contains o)).2
  have h4 := (step_abs h2.1 (.get o dflt)).2
  have e3 := congrArg Prod.snd h3
  have e4 := congrArg Prod.snd h4
  simp only [act] at e3 e4
  show [Res.none, .none, (step (born (die (run init h).1 o) o) (.contains o)).2, (step (born (die (run init h).1 o) o) (.get o dflt)).2] = _
  simp only [List.cons.injEq, and_true, true_and]
  refine ⟨?_, ?_⟩
  · rw [e3]; simp only [Plain.step, hget]; rfl
  · rw [e4]
    simp only [Plain.step, hget]
    rw [if_pos (show o ∈ (abs (born (die (run init h).1 o) o)).alive by simp [abs, born])]
    rfl

/-- **C97** Asking a living node for its IS map gives the same mapping every time, until the node dies: at any point of any history, and whatever mapping is offered. -/
theorem C97_ismaps (h : List (Act V)) (node : Nat) (hn : node ∈ (run init h).1.alive) (k : List (Act V)) (hk : ∀ a ∈ k, a ≠ .die node ∧ ∀ o, a = .op o → ∃ n v, o = .setDefault n v) (mk mk' : V) :
    ∃ v, (ismaps (run init h).1 node mk).2 = .val v ∧ (ismaps (run (ismaps (run init h).1 node mk).1 k).1 node mk').2 = .val v := by
  have hi := (run_abs (init_inv (V := V)) h).1
  generalize (run init h).1 = s at hi hn
  have keep : ∀ (k : List (Act V)) (s : St V), Inv s → node ∈ s.alive → ∀ v, PyDict.get? (abs s).dict node = some v → (∀ a ∈ k, a ≠ .die node ∧ ∀ o, a = .op o → ∃ n v, o = .setDefault n v) →
      (step (run s k).1 (.setDefault node mk')).2 = .val v := by
    intro k
    induction k with
    | nil =>
      intro s hi hn v hv _
      have := congrArg Prod.snd (step_abs hi (.setDefault node mk')).2
      simp only [Plain.step] at this
      rw [if_pos (show node ∈ (abs s).alive from hn), hv] at this
      exact this
    | cons a k ih =>
      intro s hi hn v hv hk
      obtain ⟨h1, h2⟩ := act_abs hi a
      obtain ⟨k1, k2⟩ := hk a (.head _)
      have e1 : abs (act s a).1 = ((abs s).act a).1 := congrArg Prod.fst h2
      have hal : (act s a).1.alive = (abs (act s a).1).alive := rfl
      refine ih _ h1 ?_ v ?_ (fun b hb => hk b (.tail _ hb))
      · rw [hal, e1]
        cases a with
        | op o =>
          obtain ⟨n, w, rfl⟩ := k2 o rfl
          simp only [Plain.act, Plain.step]
          split
          · split <;> exact hn
          · exact hn
        | die o =>
          have : node ≠ o := fun e => k1 (by rw [e])
          simp only [Plain.act, List.mem_filter]
          exact ⟨hn, by simpa using this⟩
        | born o => exact .tail _ hn
      · rw [e1]
        cases a with
        | op o =>
          obtain ⟨n, w, rfl⟩ := k2 o rfl
          simp only [Plain.act, Plain.step]
          split
          · split
            · exact hv
            · next hnone =>
              have hne : n ≠ node := fun e => by rw [e, hv] at hnone; cases hnone
              rw [PyDict.get?_set, if_neg hne]; exact hv
          · exact hv
        | die o =>
          have : o ≠ node := fun e => k1 (by rw [e])
          simp only [Plain.act, PyDict.get?_erase, if_neg this]; exact hv
        | born o => exact hv
  have hs := step_abs hi (.setDefault node mk)
  have e1 : abs (step s (.setDefault node mk)).1 = ((abs s).step (.setDefault node mk)).1 := congrArg Prod.fst hs.2
  have e2 := congrArg Prod.snd hs.2
  have hal : (step s (.setDefault node mk)).1.alive = s.alive := by
    show (abs (step s (.setDefault node mk)).1).alive = _
    rw [e1]
    simp only [Plain.step]
    split
    · split <;> rfl
    · rfl
  cases hg : PyDict.get? (abs s).dict node with
  | some v =>
    refine ⟨v, ?_, keep k _ hs.1 (by rw [hal]; exact hn) v ?_ hk⟩
    · show (step s (.setDefault node mk)).2 = _
      have e2 : (step s (.setDefault node mk)).2 = ((abs s).step (.setDefault node mk)).2 := e2
      rw [e2]
      simp only [Plain.step]
      rw [if_pos (show node ∈ (abs s).alive from hn), hg]
    · rw [e1]
      simp only [Plain.step]
      rw [if_pos (show node ∈ (abs s).alive from hn), hg]
      exact hg
  | none =>
    refine ⟨mk, ?_, keep k _ hs.1 (by rw [hal]; exact hn) mk ?_ hk⟩
    · show (step s (.setDefault node mk)).2 = _
      have e2 : (step s (.setDefault node mk)).2 = ((abs s).step (.setDefault node mk)).2 := e2
      rw [e2]
      simp only [Plain.step]
      rw [if_pos (show node ∈ (abs s).alive from hn), hg]
    · rw [e1]
      simp only [Plain.step]
      rw [if_pos (show node ∈ (abs s).alive from hn), hg]
      simp [PyDict.get?_set]

/-- **C97** The length, the truth value and iteration are broken: they raise, whatever the dictionary holds, and change nothing. -/
theorem C97_refuted_iteration (s : St V) : step s .length = (s, .raised .attributeError) ∧ step s .iterate = (s, .raised .attributeError) := ⟨rfl, rfl⟩

/-- Two objects, one of which dies; its identity is used again. -/
example : (run (init : St String) [.born 1, .born 2, .op (.setItem 1 "a"), .op (.setItem 2 "b"), .op (.setItem 1 "c"), .op (.get 1 ""), .die 1, .op (.contains 1), .born 1, .op (.contains 1),
    .op (.setDefault 1 "d"), .op (.popItem), .op (.pop 2), .op (.delItem 2)]).2 =
    [.none, .none, .none, .none, .none, .val "c", .none, .bool false, .none, .bool false, .val "d", .pair 1 "d", .val "b", .raised .keyError] := by decide

/-- the hypotheses of `C97_ismaps` -/
example : 1 ∈ (run (init : St String) [.born 1, .born 2]).1.alive ∧ ∀ a ∈ ([.op (.setDefault 2 "x"), .die 2, .born 3, .op (.setDefault 1 "y")] : List (Act String)),
    a ≠ .die 1 ∧ ∀ o, a = .op o → ∃ n v, o = .setDefault n v := by
  refine ⟨by decide, fun a ha => ?_⟩
  simp only [List.mem_cons, List.not_mem_nil, or_false] at ha
  rcases ha with rfl | rfl | rfl | rfl <;> refine ⟨by simp, fun o h => ?_⟩ <;> cases h <;> exact ⟨_, _, rfl⟩

end Verif.WeakDict
