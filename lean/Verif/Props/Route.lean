import Verif.Model.Route
/-!
C43, C44, C45 – event cascades (vrml/route.py).
-/
namespace Verif.Route
variable {V : Type}

/-! ### Specification -/

/-- `q` can be reached from `p` by zero or more routes. -/
inductive Reach (N : Net V) : Nat → Nat → Prop where
  | refl (p : Nat) : Reach N p p
  | step {p q r : Nat} : (p, q) ∈ N.routes → Reach N q r → Reach N p r

/-- The value a field hands on: what its coercion makes of it, or the value itself if it was rejected. -/
def Net.pass (N : Net V) (q : Nat) (v : V) : V := (N.coerce q v).getD v

/-- `Carried N p v q x`: the value `v` arriving at port `p` is `x` when it is handed on by port `q`, along some
path of routes. -/
inductive Carried (N : Net V) : Nat → V → Nat → V → Prop where
  | here (p : Nat) (v : V) : N.isEvent p = false → Carried N p v p (N.pass p v)
  | event (p : Nat) (v : V) : N.isEvent p = true → Carried N p v p v
  | step {p q r : Nat} {v x : V} : N.isEvent p = false → (p, q) ∈ N.routes → Carried N q (N.pass p v) r x → Carried N p v r x

/-- Event ports are only used as ends of routes: no event port that receives routes has routes of its own. -/
def EventsAreEnds (N : Net V) : Prop := ∀ r ∈ N.routes, N.isEvent r.2 = true → N.out r.2 = []

theorem mem_out {N : Net V} {p q : Nat} : q ∈ N.out p ↔ (p, q) ∈ N.routes := by
  simp only [Net.out, List.mem_map, List.mem_filter, beq_iff_eq]
  constructor
  · rintro ⟨⟨a, b⟩, ⟨h1, rfl⟩, rfl⟩; exact h1
  · intro h; exact ⟨(p, q), ⟨h, rfl⟩, rfl⟩

/-! ### What one forwarding does -/

/-- Effect of forwarding `v` to each of the ports `ds`. -/
structure Post (N : Net V) (v : V) (ds : List Nat) (vis : List Nat) (s : St V) (vis' : List Nat) (s' : St V) : Prop where
  ex : ∃ L : List (Delivery V),
    s'.log = s.log ++ L ∧
    (∀ q, q ∈ vis' ↔ q ∈ vis ∨ q ∈ L.map Delivery.port) ∧
    (L.map Delivery.port).Nodup ∧ (∀ d ∈ L, d.port ∉ vis) ∧
    (∀ d ∈ ds, d ∈ vis') ∧
    (∀ d ∈ L, ∀ q, (d.port, q) ∈ N.routes → q ∈ vis') ∧
    (∀ d ∈ L, ∃ a ∈ ds, Reach N a d.port ∧ Carried N a v d.port d.value) ∧
    (∀ q, q ∉ L.map Delivery.port → s'.store q = s.store q) ∧
    (∀ d ∈ L, d.stored = true → s'.store d.port = some d.value) ∧
    (∀ d ∈ L, d.stored = false → s'.store d.port = s.store d.port) ∧
    (∀ d ∈ L, d.stored = false → N.isEvent d.port = false ∧ N.coerce d.port d.value = none)

theorem Post.nil (N : Net V) (v : V) (vis : List Nat) (s : St V) : Post N v [] vis s vis s :=
  ⟨⟨[], by simp⟩⟩

theorem Post.cons {N : Net V} {v : V} {d : Nat} {ds vis vis1 vis2 : List Nat} {s s1 s2 : St V}
    (h1 : Post N v [d] vis s vis1 s1) (h2 : Post N v ds vis1 s1 vis2 s2) : Post N v (d :: ds) vis s vis2 s2 := by
  obtain ⟨L1, a1, a2, a3, a4, a5, a6, a7, a8, a9, a10, a11⟩ := h1.ex
  obtain ⟨L2, b1, b2, b3, b4, b5, b6, b7, b8, b9, b10, b11⟩ := h2.ex
  have disj : ∀ x ∈ L1.map Delivery.port, x ∉ L2.map Delivery.port := by
    intro x hx hx2
    obtain ⟨e, he, rfl⟩ := List.mem_map.1 hx2
    exact b4 e he ((a2 _).2 (.inr hx))
  refine ⟨⟨L1 ++ L2, ?_, ?_, ?_, ?_, ?_, ?_, ?_, ?_, ?_, ?_, ?_⟩⟩
  · rw [b1, a1, List.append_assoc]
  · intro q; rw [b2, a2]; simp only [List.map_append, List.mem_append, or_assoc]
  · rw [List.map_append, List.nodup_append]
    exact ⟨a3, b3, fun x hx y hy e => disj x hx (e ▸ hy)⟩
  · intro e he
    rcases List.mem_append.1 he with he | he
    · exact a4 e he
    · intro hv; exact b4 e he ((a2 _).2 (.inl hv))
  · intro e he
    rcases List.mem_cons.1 he with rfl | he
    · exact (b2 _).2 (.inl (a5 _ (by simp)))
    · exact b5 e he
  · intro e he q hq
    rcases List.mem_append.1 he with he | he
    · exact (b2 _).2 (.inl (a6 e he q hq))
    · exact b6 e he q hq
  · intro e he
    rcases List.mem_append.1 he with he | he
    · obtain ⟨a, ha, h⟩ := a7 e he
      simp at ha; subst ha
      exact ⟨a, by simp, h⟩
    · obtain ⟨a, ha, h⟩ := b7 e he
      exact ⟨a, by simp [ha], h⟩
  · intro q hq
    simp only [List.map_append, List.mem_append, not_or] at hq
    rw [b8 q hq.2, a8 q hq.1]
  · intro e he hs
    rcases List.mem_append.1 he with he | he
    · rw [b8 _ (disj _ (List.mem_map_of_mem he))]; exact a9 e he hs
    · exact b9 e he hs
  · intro e he hs
    rcases List.mem_append.1 he with he | he
    · rw [b8 _ (disj _ (List.mem_map_of_mem he))]; exact a10 e he hs
    · rw [b10 e he hs]
      apply a8
      intro hm
      exact disj _ hm (List.mem_map_of_mem he)
  · intro e he hs
    rcases List.mem_append.1 he with he | he
    · exact a11 e he hs
    · exact b11 e he hs

/-- The fold over the receivers of one `send`. -/
theorem fold_post {N : Net V} {fuel : Nat} {v : V} {ds : List Nat} {P : Nat → Prop} (hP : ∀ d ∈ ds, P d)
    (ih : ∀ vis s d v r, P d → forward N fuel vis s d v = some r → Post N v [d] vis s r.1 r.2) :
    ∀ (p r : List Nat × St V),
    ds.foldlM (fun (p : List Nat × St V) d => forward N fuel p.1 p.2 d v) p = some r → Post N v ds p.1 p.2 r.1 r.2 := by
  induction ds with
  | nil =>
    intro p r h
    simp only [List.foldlM_nil] at h
    injection h with h; subst h
    exact Post.nil N v p.1 p.2
  | cons d ds ihd =>
    intro p r h
    rw [List.foldlM_cons] at h
    rcases hf : forward N fuel p.1 p.2 d v with _ | r1
    · simp [hf] at h
    · simp only [hf] at h
      exact Post.cons (ih _ _ _ _ _ (hP d (by simp)) hf) (ihd (fun d hd => hP d (by simp [hd])) r1 r h)

theorem post_skip (N : Net V) (v : V) (vis : List Nat) (s : St V) (dst : Nat) (h : dst ∈ vis) :
    Post N v [dst] vis s vis s := by
  refine ⟨⟨[], by simp, by simp, by simp, by simp, by simpa using h, by simp, by simp, by simp, by simp, by simp, by simp⟩⟩

/-- A fresh port: its own delivery, followed by what its receivers do with the value it hands on. -/
theorem post_visit {N : Net V} {v x : V} {dst : Nat} {vis vis' : List Nat} {s s1 s' : St V} {b : Bool}
    (hnew : dst ∉ vis) (hev : N.isEvent dst = false)
    (hx : x = N.pass dst v)
    (hlog : s1.log = s.log ++ [⟨dst, x, b⟩]) (hst : ∀ q, q ≠ dst → s1.store q = s.store q)
    (hb : b = true → s1.store dst = some x) (hb' : b = false → s1.store dst = s.store dst)
    (hb2 : b = false → N.coerce dst x = none)
    (h : Post N x (N.out dst) (dst :: vis) s1 vis' s') : Post N v [dst] vis s vis' s' := by
  obtain ⟨L, a1, a2, a3, a4, a5, a6, a7, a8, a9, a10, a11⟩ := h.ex
  have hnL : dst ∉ L.map Delivery.port := by
    intro hm
    obtain ⟨e, he, heq⟩ := List.mem_map.1 hm
    exact a4 e he (by simp [heq])
  refine ⟨⟨⟨dst, x, b⟩ :: L, ?_, ?_, ?_, ?_, ?_, ?_, ?_, ?_, ?_, ?_, ?_⟩⟩
  · rw [a1, hlog, List.append_assoc]; rfl
  · intro q; rw [a2]; simp only [List.mem_cons, List.map_cons]; 
    constructor
    · rintro ((rfl | h) | h)
      · exact .inr (.inl rfl)
      · exact .inl h
      · exact .inr (.inr h)
    · rintro (h | rfl | h)
      · exact .inl (.inr h)
      · exact .inl (.inl rfl)
      · exact .inr h
  · simp only [List.map_cons, List.nodup_cons]; exact ⟨hnL, a3⟩
  · intro e he
    rcases List.mem_cons.1 he with rfl | he
    · exact hnew
    · intro hv; exact a4 e he (by simp [hv])
  · intro e he
    simp at he; subst he
    exact (a2 _).2 (.inl (by simp))
  · intro e he q hq
    rcases List.mem_cons.1 he with rfl | he
    · exact a5 q (mem_out.2 hq)
    · exact a6 e he q hq
  · intro e he
    rcases List.mem_cons.1 he with rfl | he
    · exact ⟨dst, by simp, .refl _, hx ▸ .here dst v hev⟩
    · obtain ⟨a, ha, hr, hc⟩ := a7 e he
      exact ⟨dst, by simp, .step (mem_out.1 ha) hr, .step hev (mem_out.1 ha) (hx ▸ hc)⟩
  · intro q hq
    simp only [List.map_cons, List.mem_cons, not_or] at hq
    rw [a8 q hq.2, hst q hq.1]
  · intro e he hs
    rcases List.mem_cons.1 he with rfl | he
    · rw [a8 _ hnL]; exact hb hs
    · exact a9 e he hs
  · intro e he hs
    rcases List.mem_cons.1 he with rfl | he
    · rw [a8 _ hnL]; exact hb' hs
    · rw [a10 e he hs, hst]
      rintro rfl
      exact hnL (List.mem_map_of_mem (by assumption))
  · intro e he hs
    rcases List.mem_cons.1 he with rfl | he
    · exact ⟨hev, hb2 hs⟩
    · exact a11 e he hs

theorem forward_post {N : Net V} (hN : EventsAreEnds N) : ∀ (fuel : Nat) (vis : List Nat) (s : St V) (dst : Nat) (v : V)
    (r : List Nat × St V), (∃ p, (p, dst) ∈ N.routes) → forward N fuel vis s dst v = some r →
    Post N v [dst] vis s r.1 r.2 := by
  intro fuel
  induction fuel with
  | zero => intro vis s dst v r _ h; simp [forward] at h
  | succ fuel ih =>
    intro vis s dst v r hd h
    unfold forward at h
    by_cases hv : dst ∈ vis
    · simp only [hv, if_true] at h
      injection h with h; subst h
      exact post_skip N v vis s dst hv
    · simp only [hv, if_false] at h
      by_cases he : N.isEvent dst = true
      · obtain ⟨p, hp⟩ := hd
        have hout := hN (p, dst) hp he
        simp only at hout
        simp only [he, if_true, hout, List.foldlM_nil] at h
        injection h with h; subst h
        refine ⟨⟨[⟨dst, v, true⟩], rfl, ?_, by simp, ?_, by simp, ?_, ?_, ?_, ?_, by simp, by simp⟩⟩
        · intro q; simp [or_comm]
        · simpa using hv
        · intro d hd q hq
          simp at hd; subst hd
          have := mem_out.2 hq
          simp [hout] at this
        · intro d hd
          simp at hd; subst hd
          exact ⟨dst, by simp, .refl _, .event dst v he⟩
        · intro q hq
          simp at hq
          simp [St.accept, hq]
        · intro d hd _
          simp at hd; subst hd
          simp [St.accept]
      · have he' : N.isEvent dst = false := by simpa using he
        simp only [he', Bool.false_eq_true, if_false] at h
        have hP : ∀ d ∈ N.out dst, ∃ p, (p, d) ∈ N.routes := fun d hd => ⟨dst, mem_out.1 hd⟩
        rcases hc : N.coerce dst v with _ | w
        · simp only [hc] at h
          have := fold_post hP ih (dst :: vis, s.reject dst v) r h
          exact post_visit (x := v) (b := false) hv he' (by simp [Net.pass, hc]) rfl (by simp [St.reject]) (by simp)
            (by simp [St.reject]) (by simp [hc]) this
        · simp only [hc] at h
          have := fold_post hP ih (dst :: vis, s.accept dst w) r h
          exact post_visit (x := w) (b := true) hv he' (by simp [Net.pass, hc]) rfl
            (by intro q hq; simp [St.accept, hq]) (by simp [St.accept]) (by simp) (by simp) this

/-! ### Termination -/

/-- How many destinations are still unvisited. -/
def unvisited (N : Net V) (vis : List Nat) : Nat :=
  ((N.routes.map Prod.snd).filter (fun q => decide (q ∉ vis))).length

theorem unvisited_mono {N : Net V} {vis vis' : List Nat} (h : ∀ q ∈ vis, q ∈ vis') : unvisited N vis' ≤ unvisited N vis := by
  unfold unvisited
  apply List.Sublist.length_le
  generalize N.routes.map Prod.snd = l
  induction l with
  | nil => simp
  | cons x xs ih =>
    simp only [List.filter_cons]
    by_cases hx : x ∈ vis
    · have hx' := h x hx; simpa [hx, hx'] using ih
    · by_cases hx' : x ∈ vis'
      · simp only [hx, hx', not_true_eq_false, decide_false, Bool.false_eq_true, if_false, not_false_eq_true, decide_true, if_true]
        exact ih.cons _
      · simpa [hx, hx'] using ih

theorem unvisited_lt {N : Net V} {vis : List Nat} {d : Nat} (hd : d ∉ vis) (hr : ∃ p, (p, d) ∈ N.routes) :
    unvisited N (d :: vis) < unvisited N vis := by
  obtain ⟨p, hp⟩ := hr
  unfold unvisited
  have hm : d ∈ N.routes.map Prod.snd := List.mem_map.2 ⟨(p, d), hp, rfl⟩
  generalize N.routes.map Prod.snd = l at hm
  have mono : ∀ l : List Nat, (l.filter (fun q => decide (q ∉ d :: vis))).length ≤ (l.filter (fun q => decide (q ∉ vis))).length := by
    intro l
    induction l with
    | nil => simp
    | cons x xs ih =>
      simp only [List.filter_cons]
      by_cases hx : x ∈ vis
      · simpa [hx] using ih
      · by_cases hxd : x = d
        · simp [hx, hxd] at ih ⊢; have := hd; simp_all; omega
        · simpa [hx, hxd] using ih
  induction l with
  | nil => simp at hm
  | cons x xs ih =>
    simp only [List.filter_cons]
    by_cases hxd : x = d
    · subst hxd
      have := mono xs
      simp [hd] at this ⊢; omega
    · have hm' : d ∈ xs := by rcases List.mem_cons.1 hm with rfl | h; exact absurd rfl hxd; exact h
      have := ih hm'
      by_cases hx : x ∈ vis
      · simpa [hx] using this
      · simpa [hx, hxd] using this

theorem fold_some {N : Net V} {fuel : Nat} {v : V} {ds : List Nat} (hN : EventsAreEnds N)
    (hP : ∀ d ∈ ds, ∃ p, (p, d) ∈ N.routes)
    (ih : ∀ vis s d v, (∃ p, (p, d) ∈ N.routes) → unvisited N vis < fuel → ∃ r, forward N fuel vis s d v = some r) :
    ∀ (p : List Nat × St V), unvisited N p.1 < fuel →
    ∃ r, ds.foldlM (fun (p : List Nat × St V) d => forward N fuel p.1 p.2 d v) p = some r := by
  induction ds with
  | nil => intro p _; exact ⟨p, rfl⟩
  | cons d ds ihd =>
    intro p hp
    obtain ⟨r, hr⟩ := ih p.1 p.2 d v (hP d (by simp)) hp
    have hpost := forward_post hN fuel _ _ _ _ _ (hP d (by simp)) hr
    obtain ⟨L, _, a2, _⟩ := hpost.ex
    have hm := unvisited_mono (N := N) (vis := p.1) (vis' := r.1) (fun q hq => (a2 q).2 (.inl hq))
    obtain ⟨r2, hr2⟩ := ihd (fun d hd => hP d (by simp [hd])) r (by omega)
    refine ⟨r2, ?_⟩
    rw [List.foldlM_cons]
    simp [hr, hr2]

theorem forward_some {N : Net V} (hN : EventsAreEnds N) : ∀ (fuel : Nat) (vis : List Nat) (s : St V) (dst : Nat) (v : V),
    (∃ p, (p, dst) ∈ N.routes) → unvisited N vis < fuel → ∃ r, forward N fuel vis s dst v = some r := by
  intro fuel
  induction fuel with
  | zero => intro vis s dst v _ h; omega
  | succ fuel ih =>
    intro vis s dst v hd hlt
    unfold forward
    by_cases hv : dst ∈ vis
    · simp [hv]
    · simp only [hv, if_false]
      by_cases he : N.isEvent dst = true
      · obtain ⟨p, hp⟩ := hd
        have hout := hN (p, dst) hp he
        simp only at hout
        simp [he, hout]
      · have he' : N.isEvent dst = false := by simpa using he
        simp only [he', Bool.false_eq_true, if_false]
        have hP : ∀ d ∈ N.out dst, ∃ p, (p, d) ∈ N.routes := fun d hd => ⟨dst, mem_out.1 hd⟩
        have hl := unvisited_lt hv hd
        rcases N.coerce dst v with _ | w
        · exact fold_some hN hP ih (dst :: vis, s.reject dst v) (by simp only; omega)
        · exact fold_some hN hP ih (dst :: vis, s.accept dst w) (by simp only; omega)

/-- More depth never changes an answer (any network, also with event ports). -/
theorem forward_mono (N : Net V) : ∀ (fuel : Nat) (vis : List Nat) (s : St V) (dst : Nat) (v : V) (r : List Nat × St V),
    forward N fuel vis s dst v = some r → forward N (fuel + 1) vis s dst v = some r := by
  intro fuel
  induction fuel with
  | zero => intro vis s dst v r h; simp [forward] at h
  | succ fuel ih =>
    intro vis s dst v r h
    have foldm : ∀ (w : V) (ds : List Nat) (p r : List Nat × St V),
        ds.foldlM (fun (p : List Nat × St V) d => forward N fuel p.1 p.2 d w) p = some r →
        ds.foldlM (fun (p : List Nat × St V) d => forward N (fuel + 1) p.1 p.2 d w) p = some r := by
      intro w ds
      induction ds with
      | nil => intro p r h; exact h
      | cons d ds ihd =>
        intro p r h
        rw [List.foldlM_cons] at h ⊢
        rcases hf : forward N fuel p.1 p.2 d w with _ | r1
        · simp [hf] at h
        · rw [ih _ _ _ _ _ hf]
          simp only [hf] at h
          exact ihd r1 r h
    have foldm2 : ∀ (w : V) (ds : List Nat) (s r : St V),
        ds.foldlM (fun s d => (forward N fuel [] s d w).map Prod.snd) s = some r →
        ds.foldlM (fun s d => (forward N (fuel + 1) [] s d w).map Prod.snd) s = some r := by
      intro w ds
      induction ds with
      | nil => intro p r h; exact h
      | cons d ds ihd =>
        intro p r h
        rw [List.foldlM_cons] at h ⊢
        rcases hf : forward N fuel [] p d w with _ | r1
        · simp [hf] at h
        · rw [ih _ _ _ _ _ hf]
          simp only [hf] at h
          exact ihd r1.2 r h
    rw [forward] at h ⊢
    split
    · rename_i hv; simpa [hv] using h
    · rename_i hv
      simp only [hv, if_false] at h
      split
      · rename_i he
        simp only [he, if_true] at h
        rcases h2 : (N.out dst).foldlM (fun s d => (forward N fuel [] s d v).map Prod.snd) (s.accept dst v) with _ | s2
        · simp [h2] at h
        · simp only [foldm2 _ _ _ _ h2]
          simp only [h2] at h
          exact foldm _ _ _ _ h
      · rename_i he
        simp only [he] at h
        split
        · rename_i w hc
          simp only [hc] at h
          exact foldm _ _ _ _ (by simpa using h)
        · rename_i hc
          simp only [hc] at h
          exact foldm _ _ _ _ (by simpa using h)

/-! ### The whole cascade of one set -/

/-- The value a port holds after the deliveries `L`: the last one stored there, else what it held before. -/
def lastStored (L : List (Delivery V)) (old : Option V) (q : Nat) : Option V :=
  match (L.filter (fun d => d.port == q && d.stored)).getLast? with
  | some d => some d.value
  | none => old

/-- Effect of the independent events started by the routes of the set port. -/
theorem setFold_post {N : Net V} (hN : EventsAreEnds N) {fuel : Nat} {w : V} :
    ∀ (ds : List Nat) (s r : St V), (∀ d ∈ ds, ∃ p, (p, d) ∈ N.routes) →
    ds.foldlM (fun s d => (forward N fuel [] s d w).map Prod.snd) s = some r →
    ∃ L : List (Delivery V), r.log = s.log ++ L ∧
      (∀ q, L.countP (fun d => d.port = q) ≤ ds.length) ∧
      (∀ q, (∃ d ∈ L, d.port = q) ↔ ∃ a ∈ ds, Reach N a q) ∧
      (∀ d ∈ L, ∃ a ∈ ds, Carried N a w d.port d.value) ∧
      (∀ q, (∀ d ∈ L, d.port ≠ q) → r.store q = s.store q) ∧
      (∀ q, r.store q = lastStored L (s.store q) q) ∧
      (∀ d ∈ L, d.stored = false → N.isEvent d.port = false ∧ N.coerce d.port d.value = none) := by
  intro ds
  induction ds with
  | nil =>
    intro s r _ h
    simp only [List.foldlM_nil] at h
    injection h with h; subst h
    exact ⟨[], by simp [lastStored]⟩
  | cons d ds ih =>
    intro s r hd h
    rw [List.foldlM_cons] at h
    rcases hf : forward N fuel [] s d w with _ | ⟨vis1, s1⟩
    · simp [hf] at h
    · simp only [hf] at h
      obtain ⟨L2, b1, b2, b3, b4, b5, b6, b7⟩ := ih s1 r (fun a ha => hd a (by simp [ha])) h
      have hpost := forward_post hN fuel _ _ _ _ _ (hd d (by simp)) hf
      obtain ⟨L1, a1, a2, a3, a4, a5, a6, a7, a8, a9, a10, a11⟩ := hpost.ex
      simp only at a1 a2 a5 a6 a8 a9 a10
      -- the visited set is closed, hence contains everything reachable
      have hclosed : ∀ p q, Reach N p q → p ∈ vis1 → q ∈ vis1 := by
        intro p q hpq
        induction hpq with
        | refl => exact id
        | step hr _ ihr =>
          intro hp
          apply ihr
          rcases (a2 _).1 hp with h0 | h0
          · simp at h0
          · obtain ⟨e, he, rfl⟩ := List.mem_map.1 h0
            exact a6 e he _ hr
      have hvis : ∀ q, q ∈ vis1 ↔ ∃ e ∈ L1, e.port = q := by
        intro q; rw [a2]; simp
      refine ⟨L1 ++ L2, ?_, ?_, ?_, ?_, ?_, ?_, ?_⟩
      · rw [b1, a1, List.append_assoc]
      · intro q
        rw [List.countP_append, List.length_cons]
        have h1 : L1.countP (fun d => d.port = q) ≤ 1 := by
          have := List.nodup_iff_count.1 a3 q
          rw [List.count, List.countP_map] at this
          refine Nat.le_trans (Nat.le_of_eq ?_) this
          apply List.countP_congr
          intro e _; simp
        have := b2 q
        omega
      · intro q
        constructor
        · rintro ⟨e, he, rfl⟩
          rcases List.mem_append.1 he with he | he
          · obtain ⟨a, ha, hr, _⟩ := a7 e he
            simp at ha; subst ha
            exact ⟨a, by simp, hr⟩
          · obtain ⟨a, ha, hr⟩ := (b3 _).1 ⟨e, he, rfl⟩
            exact ⟨a, by simp [ha], hr⟩
        · rintro ⟨a, ha, hr⟩
          rcases List.mem_cons.1 ha with rfl | ha
          · obtain ⟨e, he, heq⟩ := (hvis q).1 (hclosed _ _ hr (a5 _ (by simp)))
            exact ⟨e, by simp [he], heq⟩
          · obtain ⟨e, he, heq⟩ := (b3 q).2 ⟨a, ha, hr⟩
            exact ⟨e, by simp [he], heq⟩
      · intro e he
        rcases List.mem_append.1 he with he | he
        · obtain ⟨a, ha, _, hc⟩ := a7 e he
          simp at ha; subst ha
          exact ⟨a, by simp, hc⟩
        · obtain ⟨a, ha, hc⟩ := b4 e he
          exact ⟨a, by simp [ha], hc⟩
      · intro q hq
        rw [b5 q (fun e he => hq e (by simp [he])), a8 q]
        intro hm
        obtain ⟨e, he, heq⟩ := List.mem_map.1 hm
        exact hq e (by simp [he]) heq
      · intro q
        rw [b6 q]
        unfold lastStored
        rw [List.filter_append, List.getLast?_append]
        rcases h2 : (L2.filter (fun d => d.port == q && d.stored)).getLast? with _ | e2
        · rw [h2, Option.none_or]
          rcases h1 : (L1.filter (fun d => d.port == q && d.stored)).getLast? with _ | e1
          · rw [h1]; simp only
            have hnil := List.getLast?_eq_none_iff.1 h1
            by_cases hq : q ∈ L1.map Delivery.port
            · obtain ⟨e, he, rfl⟩ := List.mem_map.1 hq
              apply a10 e he
              rcases hs : e.stored with _ | _
              · rfl
              · have : e ∈ L1.filter (fun d => d.port == e.port && d.stored) := by simp [he, hs]
                rw [hnil] at this; simp at this
            · exact a8 q hq
          · rw [h1]; simp only
            have hm := List.mem_of_getLast? h1
            simp only [List.mem_filter, Bool.and_eq_true, beq_iff_eq] at hm
            obtain ⟨hm1, rfl, hm3⟩ := hm
            exact a9 e1 hm1 hm3
        · rw [h2]; rfl
      · intro e he hs
        rcases List.mem_append.1 he with he | he
        · exact a11 e he hs
        · exact b7 e he hs

theorem setFold_some {N : Net V} (hN : EventsAreEnds N) {fuel : Nat} {w : V} (hf : N.routes.length < fuel) :
    ∀ (ds : List Nat) (s : St V), (∀ d ∈ ds, ∃ p, (p, d) ∈ N.routes) →
    ∃ r, ds.foldlM (fun s d => (forward N fuel [] s d w).map Prod.snd) s = some r := by
  intro ds
  induction ds with
  | nil => intro s _; exact ⟨s, rfl⟩
  | cons d ds ih =>
    intro s hd
    have hu : unvisited N [] < fuel := by
      unfold unvisited
      have := List.length_filter_le (fun q => decide (q ∉ ([] : List Nat))) (N.routes.map Prod.snd)
      simp only [List.length_map] at this
      omega
    obtain ⟨r1, h1⟩ := forward_some hN fuel [] s d w (hd d (by simp)) hu
    obtain ⟨r, h2⟩ := ih r1.2 (fun a ha => hd a (by simp [ha]))
    refine ⟨r, ?_⟩
    rw [List.foldlM_cons]
    simp [h1, h2]

/-- The value the set port holds: its coerced value, or the raw value for an event port; `none` = rejected. -/
def Net.accepted (N : Net V) (p : Nat) (v : V) : Option V := if N.isEvent p then some v else N.coerce p v

/-- **C43.** In every network of routes between fields, cyclic or not, in which event ports are only
ends of routes, setting any port terminates (a recursion depth of one more than the number of routes
always suffices and the outcome does not depend on it), and no port receives more deliveries than there are
routes leaving the set port – exactly at most one per cascade if that port has a single route.
Excluded: at most one delivery when the set port has several routes — false, see
`C43_refuted_diamond`; networks with event ports in the middle — see C45. -/
theorem C43_terminates (N : Net V) (hN : EventsAreEnds N) (s : St V) (p : Nat) (v : V) :
    ∃ r, (∀ fuel, N.routes.length < fuel → setPort N fuel s p v = some r) ∧
      ∃ L, r.log = s.log ++ L ∧ ∀ q, L.countP (fun d => d.port = q) ≤ (N.out p).length := by
  have hP : ∀ d ∈ N.out p, ∃ p, (p, d) ∈ N.routes := fun d hd => ⟨p, mem_out.1 hd⟩
  unfold setPort
  rcases hc : (if N.isEvent p = true then some v else N.coerce p v) with _ | w
  · exact ⟨s, by simp, [], by simp⟩
  · simp only
    obtain ⟨r, hr⟩ := setFold_some hN (fuel := N.routes.length + 1) (w := w) (by omega) (N.out p)
      ({ s with store := fun q => if q = p then some w else s.store q }) hP
    refine ⟨r, ?_, ?_⟩
    · intro fuel hf
      have : ∀ k, (N.out p).foldlM (fun s d => (forward N (N.routes.length + 1 + k) [] s d w).map Prod.snd)
          ({ s with store := fun q => if q = p then some w else s.store q } : St V) = some r := by
        intro k
        induction k with
        | zero => exact hr
        | succ k ih =>
          revert ih
          generalize ({ s with store := fun q => if q = p then some w else s.store q } : St V) = s0
          clear hr
          have : ∀ (ds : List Nat) (s0 : St V),
              ds.foldlM (fun s d => (forward N (N.routes.length + 1 + k) [] s d w).map Prod.snd) s0 = some r →
              ds.foldlM (fun s d => (forward N (N.routes.length + 1 + (k+1)) [] s d w).map Prod.snd) s0 = some r := by
            intro ds
            induction ds with
            | nil => intro s0 h; exact h
            | cons d ds ihd =>
              intro s0 h
              rw [List.foldlM_cons] at h ⊢
              rcases hf : forward N (N.routes.length + 1 + k) [] s0 d w with _ | r1
              · simp [hf] at h
              · have := forward_mono N _ _ _ _ _ _ hf
                rw [show N.routes.length + 1 + (k+1) = N.routes.length + 1 + k + 1 by omega, this]
                simp only [hf] at h
                exact ihd r1.2 h
          exact this _ _
      have h2 := this (fuel - (N.routes.length + 1))
      rw [show N.routes.length + 1 + (fuel - (N.routes.length + 1)) = fuel by omega] at h2
      exact h2
    · obtain ⟨L, h1, h2, _⟩ := setFold_post hN (N.out p) _ r hP hr
      exact ⟨L, h1, h2⟩

/-- Two paths from the set port deliver twice to their meeting point: each route of the set port starts its own
event (route.py:80-82), so `visited` does not stop the second. -/
theorem C43_refuted_diamond :
    let N : Net Nat := ⟨[(0, 1), (0, 2), (1, 3), (2, 3)], fun _ => false, fun _ v => some v, 0⟩
    ((setPort N 10 ⟨fun _ => none, []⟩ 0 7).map (fun r => r.log.countP (fun d => d.port = 3))) = some 2 := by
  decide

-- non-vacuity: a network with a two-cycle, a self loop and an event end
example : EventsAreEnds (⟨[(0, 1), (1, 2), (2, 1), (2, 2), (1, 4)], fun q => q == 4, fun _ v => some (v % 5), 0⟩ : Net Nat) ∧
    (setPort (⟨[(0, 1), (1, 2), (2, 1), (2, 2), (1, 4)], fun q => q == 4, fun _ v => some (v % 5), 0⟩ : Net Nat) 6
      ⟨fun _ => none, []⟩ 0 13).map (fun r => r.log) = some [⟨1, 3, true⟩, ⟨2, 3, true⟩, ⟨4, 3, true⟩] := by
  constructor
  · intro r hr; simp at hr; rcases hr with rfl | rfl | rfl | rfl | rfl <;> simp [Net.out]
  · decide

/-- **C44.** In such a network, a set that is accepted is delivered to exactly the ports reachable from the set
port by one or more routes; every value delivered was carried there along a path of routes, each field on
the way handing on what its coercion made of it; each port ends with the last value stored there (only a
value the port's own coercion rejects is not stored); and no port that is not reachable changes. -/
theorem C44_reaches_exactly (N : Net V) (hN : EventsAreEnds N) (s r : St V) (p : Nat) (v w : V) (fuel : Nat)
    (hw : N.accepted p v = some w) (h : setPort N fuel s p v = some r) :
    ∃ L, r.log = s.log ++ L ∧
      (∀ q, (∃ d ∈ L, d.port = q) ↔ ∃ a, (p, a) ∈ N.routes ∧ Reach N a q) ∧
      (∀ d ∈ L, ∃ a, (p, a) ∈ N.routes ∧ Carried N a w d.port d.value) ∧
      (∀ q, r.store q = lastStored L (if q = p then some w else s.store q) q) ∧
      (∀ d ∈ L, d.stored = false → N.coerce d.port d.value = none) ∧
      (∀ q, (¬ ∃ a, (p, a) ∈ N.routes ∧ Reach N a q) → r.store q = if q = p then some w else s.store q) := by
  have hP : ∀ d ∈ N.out p, ∃ p, (p, d) ∈ N.routes := fun d hd => ⟨p, mem_out.1 hd⟩
  unfold setPort at h
  have hc : (if N.isEvent p = true then some v else N.coerce p v) = some w := hw
  simp only [hc] at h
  obtain ⟨L, h1, _, h3, h4, h5, h6, h7⟩ := setFold_post hN (N.out p) _ r hP h
  refine ⟨L, h1, ?_, ?_, h6, fun d hd hs => (h7 d hd hs).2, ?_⟩
  · intro q; rw [h3]
    constructor <;> rintro ⟨a, ha, hr⟩
    · exact ⟨a, mem_out.1 ha, hr⟩
    · exact ⟨a, mem_out.2 ha, hr⟩
  · intro d hd
    obtain ⟨a, ha, hc⟩ := h4 d hd
    exact ⟨a, mem_out.1 ha, hc⟩
  · intro q hq
    apply h5 q
    intro d hd heq
    obtain ⟨a, ha, hr⟩ := (h3 q).1 ⟨d, hd, heq⟩
    exact hq ⟨a, mem_out.1 ha, hr⟩

/-- Ports along the way accept the value unchanged. -/
theorem carried_const {N : Net V} {a q : Nat} {w x : V} (h : Carried N a w q x)
    (hc : ∀ b, Reach N a b → N.isEvent b = false → N.coerce b w = some w) : x = w := by
  have : ∀ a w' q x, Carried N a w' q x → (∀ b, Reach N a b → N.isEvent b = false → N.coerce b w = some w) → w' = w → x = w := by
    intro a w' q x h
    induction h with
    | here p v he => rintro hc rfl; simp [Net.pass, hc p (.refl _) he]
    | event p v he => exact fun _ => id
    | step he hr _ ih => rintro hc rfl; exact ih (fun b hb => hc b (.step hr hb)) (by simp [Net.pass, hc _ (.refl _) he])
  exact this _ _ _ _ h hc rfl

/-- **C44 (same-type networks).** If the value `w` that the set port makes of `v` is acceptable unchanged wherever routes lead, then after the
cascade every port reachable from the set port holds that value, and every other port is as before. -/
theorem C44_same_type (N : Net V) (hN : EventsAreEnds N) (s r : St V) (p : Nat) (v w : V) (fuel : Nat) (hacc : N.accepted p v = some w)
    (hc : ∀ a b, (p, a) ∈ N.routes → Reach N a b → N.isEvent b = false → N.coerce b w = some w) (h : setPort N fuel s p v = some r) (q : Nat) :
    ((∃ a, (p, a) ∈ N.routes ∧ Reach N a q) → r.store q = some w) ∧
    ((¬ ∃ a, (p, a) ∈ N.routes ∧ Reach N a q) → r.store q = if q = p then some w else s.store q) := by
  have hP : ∀ d ∈ N.out p, ∃ p, (p, d) ∈ N.routes := fun d hd => ⟨p, mem_out.1 hd⟩
  obtain ⟨_, _, _, _, _, _, h5⟩ := C44_reaches_exactly N hN s r p v w fuel hacc h
  refine ⟨?_, h5 q⟩
  rintro ⟨a, ha, hr⟩
  unfold setPort at h
  have hc' : (if N.isEvent p = true then some v else N.coerce p v) = some w := hacc
  simp only [hc'] at h
  obtain ⟨L, h1, _, h3, h4, _, h6, h7⟩ := setFold_post hN (N.out p) _ r hP h
  have hval : ∀ d ∈ L, d.value = w := fun d hd => by
    obtain ⟨b, hb, hcar⟩ := h4 d hd
    exact carried_const hcar (fun x => hc b x (mem_out.1 hb))
  have hst : ∀ d ∈ L, d.stored = true := fun d hd => by
    rcases hs : d.stored with _ | _
    · obtain ⟨k1, k2⟩ := h7 d hd hs
      obtain ⟨b, hb, hrb⟩ := (h3 d.port).1 ⟨d, hd, rfl⟩
      rw [hval d hd, hc b _ (mem_out.1 hb) hrb k1] at k2; cases k2
    · rfl
  rw [h6 q, lastStored]
  obtain ⟨d, hd, hq⟩ := (h3 q).2 ⟨a, mem_out.2 ha, hr⟩
  rcases hl : (L.filter (fun d => d.port == q && d.stored)).getLast? with _ | e
  · have hnil := List.getLast?_eq_none_iff.1 hl
    have : d ∈ L.filter (fun d => d.port == q && d.stored) := by simp [hd, hq, hst d hd]
    rw [hnil] at this; simp at this
  · have hm := List.mem_of_getLast? hl
    simp only [List.mem_filter] at hm
    rw [hl]; simp [hval e hm.1]

-- non-vacuity: a cyclic network satisfies the hypotheses for the value 3 and reaches 1, 2 and 4 but not 5 (which refuses every value)
example :
    let N : Net Nat := ⟨[(0, 1), (1, 2), (2, 1), (2, 2), (1, 4), (5, 1)], fun q => q == 4, fun q v => if q = 5 then none else some (v % 5), 0⟩
    N.accepted 0 8 = some 3 ∧ (∀ a b, (0, a) ∈ N.routes → Reach N a b → N.isEvent b = false → N.coerce b 3 = some 3) ∧
    (setPort N 7 ⟨fun _ => none, []⟩ 0 8).map (fun r => (List.range 6).map r.store) =
      some [some 3, some 3, some 3, none, some 3, none] := by
  intro N
  refine ⟨by decide, fun a b ha hr _ => ?_, by decide⟩
  have hne : ∀ x y, Reach N x y → x ≠ 5 → y ≠ 5 := by
    intro x y h
    induction h with
    | refl => exact id
    | @step p q r hr _ ih =>
      have : ∀ z ∈ N.routes, z.2 ≠ 5 := by decide
      exact fun _ => ih (this _ hr)
  have ha' : a ≠ 5 := by
    have : ∀ z ∈ N.routes, z.2 ≠ 5 := by decide
    exact this _ ha
  show (if b = 5 then none else some (3 % 5)) = some 3
  rw [if_neg (hne a b hr ha')]

/-! ### C45: event ports -/

/-- **C45 refuted (termination).** A cycle through an event port never stops: `Event.__set__` sends its
notification without the event object, so every passage starts with an empty visited table.  For the
two routes field 0 → event 1 → field 0, no recursion depth is enough. -/
theorem C45_refuted_cycle (fuel : Nat) (s : St Nat) (v : Nat) :
    let N : Net Nat := ⟨[(0, 1), (1, 0)], fun q => q == 1, fun _ v => some v, 0⟩
    setPort N fuel s 0 v = none ∧ setPort N fuel s 1 v = none := by
  intro N
  have hout1 : N.out 1 = [0] := by decide
  have hout0 : N.out 0 = [1] := by decide
  have hev1 : N.isEvent 1 = true := rfl
  have hev0 : N.isEvent 0 = false := rfl
  have hco : ∀ v, N.coerce 0 v = some v := fun _ => rfl
  have key : ∀ fuel, (∀ (s : St Nat) (v : Nat) (vis : List Nat), 1 ∉ vis → forward N fuel vis s 1 v = none) ∧
      (∀ (s : St Nat) (v : Nat) (vis : List Nat), 0 ∉ vis → 1 ∉ vis → forward N fuel vis s 0 v = none) := by
    intro fuel
    induction fuel with
    | zero => simp [forward]
    | succ fuel ih =>
      constructor
      · intro s v vis h1
        unfold forward
        simp only [h1, if_false, hev1, if_true, hout1, List.foldlM_cons, ih.2 (s.accept 1 v) v [] (by simp) (by simp)]
        rfl
      · intro s v vis h0 h1
        unfold forward
        simp only [h0, if_false, hev0, hco, hout0, List.foldlM_cons, Bool.false_eq_true,
          ih.1 (s.accept 0 v) v (0 :: vis) (by simp [h1])]
        rfl
  constructor
  · unfold setPort
    simp only [hev0, hco, hout0, List.foldlM_cons, Bool.false_eq_true, if_false, (key fuel).1 _ v [] (by simp)]
    rfl
  · unfold setPort
    simp only [hev1, hout1, List.foldlM_cons, if_true, (key fuel).2 _ v [] (by simp) (by simp)]
    rfl

/-- **C45 refuted (the value).** Field 0 → event 1 → field 2: the field beyond the event port receives the value
and then, from the second notification, None; it ends up holding what its coercion makes of None. -/
theorem C45_refuted_value (w : V) (N : Net V) (hr : N.routes = [(0, 1), (1, 2)]) (he : ∀ q, N.isEvent q = (q == 1))
    (fuel : Nat) (v x : V) (hv : N.coerce 0 v = some w) (hw : N.coerce 2 w = some x) (s : St V) :
    (setPort N (fuel + 2) s 0 v).map (fun r => (r.log, r.store 2)) =
      some (s.log ++ [⟨1, w, true⟩, ⟨2, x, true⟩] ++
          [match N.coerce 2 N.noneVal with | some n => ⟨2, n, true⟩ | none => ⟨2, N.noneVal, false⟩],
        match N.coerce 2 N.noneVal with | some n => some n | none => some x) := by
  have h0 : N.out 0 = [1] := by simp [Net.out, hr]
  have h1 : N.out 1 = [2] := by simp [Net.out, hr]
  have h2 : N.out 2 = [] := by simp [Net.out, hr]
  rcases hn : N.coerce 2 N.noneVal with _ | n <;>
  simp [setPort, forward, he, hv, hw, hn, h0, h1, h2, St.accept, St.reject]

/-- **C45.** Event ports that only end routes behave as fields do: the value arrives unchanged, at most
once per route leaving the set port, and the cascade terminates.  Excluded: event ports inside a chain or a
cycle, for which the property is false (`C45_refuted_cycle`, `C45_refuted_value`). -/
theorem C45_event_ends (N : Net V) (hN : EventsAreEnds N) (s : St V) (p : Nat) (v w : V)
    (hw : N.accepted p v = some w) (hc : ∀ a b, (p, a) ∈ N.routes → Reach N a b → N.isEvent b = false → N.coerce b w = some w) (e : Nat)
    (he : N.isEvent e = true) (hre : ∃ a, (p, a) ∈ N.routes ∧ Reach N a e) :
    ∃ r, (∀ fuel, N.routes.length < fuel → setPort N fuel s p v = some r) ∧
      r.store e = some w ∧
      ∃ L, r.log = s.log ++ L ∧ (∀ d ∈ L, d.value = w) ∧
        1 ≤ L.countP (fun d => d.port = e) ∧ L.countP (fun d => d.port = e) ≤ (N.out p).length := by
  obtain ⟨r, h1, L, h2, h3⟩ := C43_terminates N hN s p v
  have hr := h1 (N.routes.length + 1) (by omega)
  obtain ⟨L', k1, k2, k3, k4, k5, _⟩ := C44_reaches_exactly N hN s r p v w _ hw hr
  have hLL : L = L' := List.append_cancel_left (h2 ▸ k1)
  subst hLL
  have hval : ∀ d ∈ L, d.value = w := fun d hd => by
    obtain ⟨b, hb, hcar⟩ := k3 d hd
    exact carried_const hcar (fun x => hc b x hb)
  obtain ⟨d, hd, hde⟩ := (k2 e).2 hre
  refine ⟨r, h1, ?_, L, h2, hval, ?_, h3 e⟩
  · -- only a value a field's coercion rejects is not stored; every delivery to `e` is stored
    rw [k4 e, lastStored]
    rcases hl : (L.filter (fun d => d.port == e && d.stored)).getLast? with _ | x
    · have hnil := List.getLast?_eq_none_iff.1 hl
      have hs : d.stored = true := by
        rcases hs : d.stored with _ | _
        · have hP : ∀ d ∈ N.out p, ∃ p, (p, d) ∈ N.routes := fun d hd => ⟨p, mem_out.1 hd⟩
          have hset := hr
          unfold setPort at hset
          have hc' : (if N.isEvent p = true then some v else N.coerce p v) = some w := hw
          simp only [hc'] at hset
          obtain ⟨L2, j1, _, _, _, _, _, j7⟩ := setFold_post hN (N.out p) _ r hP hset
          have hLL : L = L2 := List.append_cancel_left (h2 ▸ j1)
          subst hLL
          have := (j7 d hd hs).1
          rw [hde, he] at this; cases this
        · rfl
      have : d ∈ L.filter (fun d => d.port == e && d.stored) := by simp [hd, hde, hs]
      rw [hnil] at this; simp at this
    · have hm := List.mem_of_getLast? hl
      simp only [List.mem_filter] at hm
      rw [hl]; simp [hval x hm.1]
  · exact List.countP_pos_iff.2 ⟨d, hd, by simp [hde]⟩

-- non-vacuity of the partial theorem: the field 0 with routes to a field 1 and an event 2, and 1 → 2
example : EventsAreEnds (⟨[(0, 1), (0, 2), (1, 2)], fun q => q == 2, fun _ v => some v, 0⟩ : Net Nat) ∧
    Reach (⟨[(0, 1), (0, 2), (1, 2)], fun q => q == 2, fun _ v => some v, 0⟩ : Net Nat) 1 2 := by
  constructor
  · intro r hr; simp at hr; rcases hr with rfl | rfl | rfl <;> simp [Net.out]
  · exact .step (by simp) (.refl _)

end Verif.Route
