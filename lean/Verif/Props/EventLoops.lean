import Verif.Props.Route
/-!
C86 – event ports in the middle of routes: which cascades stop, and what they reach (vrml/route.py, vrml/field.py).
-/
namespace Verif.Route
variable {V : Type}

/-! ### Specification -/

/-- `q` can be reached from `p` by one or more routes. -/
def Beyond (N : Net V) (p q : Nat) : Prop := ∃ a, (p, a) ∈ N.routes ∧ Reach N a q

/-- An event port on a cycle of routes. -/
def EventLoop (N : Net V) (e : Nat) : Prop := N.isEvent e = true ∧ Beyond N e e

/-- `Sent N p v q x`: `v` arrives at port `p`, and along some path of routes port `q` hands on (or, if it is an event port, receives) `x`.
Fields hand on what their coercion makes of a value (or the value itself if it is rejected); event ports hand on the value, and
then None. -/
inductive Sent (N : Net V) : Nat → V → Nat → V → Prop where
  | field (p : Nat) (v : V) : N.isEvent p = false → Sent N p v p (N.pass p v)
  | event (p : Nat) (v : V) : N.isEvent p = true → Sent N p v p v
  | through {p q r : Nat} {v x : V} : N.isEvent p = false → (p, q) ∈ N.routes → Sent N q (N.pass p v) r x → Sent N p v r x
  | on {p q r : Nat} {v x : V} : N.isEvent p = true → (p, q) ∈ N.routes → Sent N q v r x → Sent N p v r x
  | lost {p q r : Nat} {v x : V} : N.isEvent p = true → (p, q) ∈ N.routes → Sent N q N.noneVal r x → Sent N p v r x

/-! ### What one forwarding does -/

theorem Reach.trans {N : Net V} {a b c : Nat} (h : Reach N a b) (h2 : Reach N b c) : Reach N a c := by
  induction h with
  | refl => exact h2
  | step hr _ ih => exact .step hr (ih h2)

theorem Sent.reach {N : Net V} {p q : Nat} {v x : V} (h : Sent N p v q x) : Reach N p q := by
  induction h with
  | field p v _ => exact .refl p
  | event p v _ => exact .refl p
  | through _ hr _ ih => exact .step hr ih
  | on _ hr _ ih => exact .step hr ih
  | lost _ hr _ ih => exact .step hr ih

/-- Effect of forwarding `v` to each of the ports `ds`, in any network. -/
structure Went (N : Net V) (v : V) (ds : List Nat) (vis : List Nat) (s : St V) (vis' : List Nat) (s' : St V) : Prop where
  keep : ∀ q ∈ vis, q ∈ vis'
  here : ∀ d ∈ ds, d ∈ vis'
  closed : ∀ q ∈ vis', q ∉ vis → ∀ x, (q, x) ∈ N.routes → x ∈ vis'
  good : ∀ q ∈ vis', q ∉ vis → ¬ EventLoop N q
  ex : ∃ L : List (Delivery V), s'.log = s.log ++ L ∧ (∀ q ∈ vis', q ∉ vis → ∃ d ∈ L, d.port = q) ∧
    (∀ d ∈ L, ∃ a ∈ ds, Sent N a v d.port d.value)

theorem Went.nil (N : Net V) (v : V) (vis : List Nat) (s : St V) : Went N v [] vis s vis s :=
  ⟨fun _ h => h, by simp, fun _ h h' => absurd h h', fun _ h h' => absurd h h', [], by simp, fun _ h h' => absurd h h', by simp⟩

theorem Went.cons {N : Net V} {v : V} {d : Nat} {ds vis vis1 vis2 : List Nat} {s s1 s2 : St V}
    (h1 : Went N v [d] vis s vis1 s1) (h2 : Went N v ds vis1 s1 vis2 s2) : Went N v (d :: ds) vis s vis2 s2 := by
  obtain ⟨L1, a1, a2, a3⟩ := h1.ex
  obtain ⟨L2, b1, b2, b3⟩ := h2.ex
  refine ⟨fun q h => h2.keep _ (h1.keep _ h), ?_, ?_, ?_, L1 ++ L2, ?_, ?_, ?_⟩
  · intro e he
    rcases List.mem_cons.1 he with rfl | he
    · exact h2.keep _ (h1.here _ (by simp))
    · exact h2.here _ he
  · intro q hq hn x hx
    by_cases h : q ∈ vis1
    · exact h2.keep _ (h1.closed q h hn x hx)
    · exact h2.closed q hq h x hx
  · intro q hq hn
    by_cases h : q ∈ vis1
    · exact h1.good q h hn
    · exact h2.good q hq h
  · rw [b1, a1, List.append_assoc]
  · intro q hq hn
    by_cases h : q ∈ vis1
    · obtain ⟨e, he, h⟩ := a2 q h hn
      exact ⟨e, by simp [he], h⟩
    · obtain ⟨e, he, h⟩ := b2 q hq h
      exact ⟨e, by simp [he], h⟩
  · intro e he
    rcases List.mem_append.1 he with he | he
    · obtain ⟨a, ha, h⟩ := a3 e he
      exact ⟨a, by simp at ha; simp [ha], h⟩
    · obtain ⟨a, ha, h⟩ := b3 e he
      exact ⟨a, by simp [ha], h⟩

theorem went_fold {N : Net V} {fuel : Nat} {v : V}
    (ih : ∀ vis s d v r, forward N fuel vis s d v = some r → Went N v [d] vis s r.1 r.2) :
    ∀ (ds : List Nat) (p r : List Nat × St V),
    ds.foldlM (fun (p : List Nat × St V) d => forward N fuel p.1 p.2 d v) p = some r → Went N v ds p.1 p.2 r.1 r.2 := by
  intro ds
  induction ds with
  | nil =>
    intro p r h
    simp only [List.foldlM_nil] at h
    injection h with h; subst h
    exact Went.nil N v p.1 p.2
  | cons d ds ihd =>
    intro p r h
    rw [List.foldlM_cons] at h
    rcases hf : forward N fuel p.1 p.2 d v with _ | r1
    · simp [hf] at h
    · simp only [hf] at h
      exact Went.cons (ih _ _ _ _ _ hf) (ihd r1 r h)

/-- What a list of new events does. -/
structure Fresh (N : Net V) (v : V) (ds : List Nat) (s s' : St V) : Prop where
  good : ∀ d ∈ ds, ∀ q, Reach N d q → ¬ EventLoop N q
  ex : ∃ L : List (Delivery V), s'.log = s.log ++ L ∧ (∀ d ∈ ds, ∀ q, Reach N d q → ∃ e ∈ L, e.port = q) ∧
    (∀ d ∈ L, ∃ a ∈ ds, Sent N a v d.port d.value)

theorem Went.reach {N : Net V} {v : V} {d : Nat} {s s' : St V} {vis : List Nat} (h : Went N v [d] [] s vis s') {q : Nat}
    (hq : Reach N d q) : q ∈ vis := by
  have hd : d ∈ vis := h.here d (by simp)
  induction hq with
  | refl => exact hd
  | step hr _ ih =>
    rename_i a b c _
    have hb := h.closed a hd (by simp) b hr
    have key : ∀ {x y : Nat}, Reach N x y → x ∈ vis → y ∈ vis := by
      intro x y hxy
      induction hxy with
      | refl => exact id
      | step hr _ ih => exact fun hx => ih (h.closed _ hx (by simp) _ hr)
    exact key (by assumption) hb

theorem fresh_fold {N : Net V} {fuel : Nat} {v : V}
    (ih : ∀ vis s d v r, forward N fuel vis s d v = some r → Went N v [d] vis s r.1 r.2) :
    ∀ (ds : List Nat) (s r : St V),
    ds.foldlM (fun s d => (forward N fuel [] s d v).map Prod.snd) s = some r → Fresh N v ds s r := by
  intro ds
  induction ds with
  | nil =>
    intro s r h
    simp only [List.foldlM_nil] at h
    injection h with h; subst h
    exact ⟨by simp, [], by simp⟩
  | cons d ds ihd =>
    intro s r h
    rw [List.foldlM_cons] at h
    rcases hf : forward N fuel [] s d v with _ | r1
    · simp [hf] at h
    · simp only [hf] at h
      have h1 := ih _ _ _ _ _ hf
      have h2 := ihd r1.2 r h
      obtain ⟨L1, a1, a2, a3⟩ := h1.ex
      obtain ⟨L2, b1, b2, b3⟩ := h2.ex
      refine ⟨?_, L1 ++ L2, by rw [b1, a1, List.append_assoc], ?_, ?_⟩
      · intro e he q hq
        rcases List.mem_cons.1 he with rfl | he
        · exact h1.good q (h1.reach hq) (by simp)
        · exact h2.good e he q hq
      · intro e he q hq
        rcases List.mem_cons.1 he with rfl | he
        · obtain ⟨x, hx, h⟩ := a2 q (h1.reach hq) (by simp)
          exact ⟨x, by simp [hx], h⟩
        · obtain ⟨x, hx, h⟩ := b2 e he q hq
          exact ⟨x, by simp [hx], h⟩
      · intro e he
        rcases List.mem_append.1 he with he | he
        · obtain ⟨a, ha, h⟩ := a3 e he
          exact ⟨a, by simp at ha; simp [ha], h⟩
        · obtain ⟨a, ha, h⟩ := b3 e he
          exact ⟨a, by simp [ha], h⟩

/-- A port that is marked, with what its routes do. -/
theorem went_visit {N : Net V} {v x : V} {dst : Nat} {vis vis' : List Nat} {s s1 s' : St V} {b : Bool} (L0 : List (Delivery V))
    (hlog : s1.log = s.log ++ [⟨dst, if N.isEvent dst then v else N.pass dst v, b⟩] ++ L0)
    (hL0 : ∀ d ∈ L0, Sent N dst v d.port d.value) (hgood : ¬ EventLoop N dst)
    (hx : ∀ a ∈ N.out dst, ∀ q y, Sent N a x q y → Sent N dst v q y)
    (h : Went N x (N.out dst) (dst :: vis) s1 vis' s') : Went N v [dst] vis s vis' s' := by
  obtain ⟨L, a1, a2, a3⟩ := h.ex
  refine ⟨fun q hq => h.keep q (by simp [hq]), fun d hd => h.keep d (by simp at hd; simp [hd]), ?_, ?_,
    [⟨dst, if N.isEvent dst then v else N.pass dst v, b⟩] ++ L0 ++ L, ?_, ?_, ?_⟩
  · intro q hq hn y hy
    by_cases e : q = dst
    · subst e; exact h.here y (mem_out.2 hy)
    · exact h.closed q hq (by simp [e, hn]) y hy
  · intro q hq hn
    by_cases e : q = dst
    · subst e; exact hgood
    · exact h.good q hq (by simp [e, hn])
  · rw [a1, hlog]; simp
  · intro q hq hn
    by_cases e : q = dst
    · exact ⟨⟨dst, if N.isEvent dst then v else N.pass dst v, b⟩, by simp, e.symm⟩
    · obtain ⟨d, hd, h⟩ := a2 q hq (by simp [e, hn])
      exact ⟨d, by simp [hd], h⟩
  · intro d hd
    refine ⟨dst, by simp, ?_⟩
    rcases List.mem_append.1 hd with hd | hd
    · rcases List.mem_append.1 hd with hd | hd
      · simp at hd; subst hd
        by_cases he : N.isEvent dst = true
        · simpa [he] using Sent.event dst v he
        · have he' : N.isEvent dst = false := by simpa using he
          simpa [he'] using Sent.field dst v he'
      · exact hL0 d hd
    · obtain ⟨a, ha, h⟩ := a3 d hd
      exact hx a ha _ _ h

theorem forward_went (N : Net V) : ∀ (fuel : Nat) (vis : List Nat) (s : St V) (dst : Nat) (v : V) (r : List Nat × St V),
    forward N fuel vis s dst v = some r → Went N v [dst] vis s r.1 r.2 := by
  intro fuel
  induction fuel with
  | zero => intro vis s dst v r h; simp [forward] at h
  | succ fuel ih =>
    intro vis s dst v r h
    unfold forward at h
    by_cases hv : dst ∈ vis
    · simp only [hv, if_true] at h
      injection h with h; subst h
      exact ⟨fun _ h => h, by simpa using hv, fun _ h h' => absurd h h', fun _ h h' => absurd h h', [], by simp,
        fun _ h h' => absurd h h', by simp⟩
    · simp only [hv, if_false] at h
      by_cases he : N.isEvent dst = true
      · simp only [he, if_true] at h
        rcases h2 : (N.out dst).foldlM (fun s d => (forward N fuel [] s d v).map Prod.snd) (s.accept dst v) with _ | s2
        · simp [h2] at h
        · simp only [h2] at h
          have hf := fresh_fold ih _ _ _ h2
          have hw := went_fold ih _ _ _ h
          obtain ⟨L0, a1, _, a3⟩ := hf.ex
          refine went_visit (x := N.noneVal) (b := true) L0 (by simp [a1, St.accept, he]) ?_ ?_ ?_ hw
          · intro d hd
            obtain ⟨a, ha, h⟩ := a3 d hd
            exact .on he (mem_out.1 ha) h
          · intro hl
            obtain ⟨_, a, ha, hr⟩ := hl
            exact hf.good a (mem_out.2 ha) dst hr ⟨he, a, ha, hr⟩
          · intro a ha q y h
            exact .lost he (mem_out.1 ha) h
      · have he' : N.isEvent dst = false := by simpa using he
        simp only [he', Bool.false_eq_true, if_false] at h
        rcases hc : N.coerce dst v with _ | w
        · simp only [hc] at h
          refine went_visit (x := v) (b := false) [] (by simp [St.reject, Net.pass, hc, he']) (by simp) (fun h => by simp [EventLoop, he'] at h) ?_
            (went_fold ih _ _ _ h)
          intro a ha q y h
          exact .through he' (mem_out.1 ha) (by simpa [Net.pass, hc] using h)
        · simp only [hc] at h
          refine went_visit (x := w) (b := true) [] (by simp [St.accept, Net.pass, hc, he']) (by simp) (fun h => by simp [EventLoop, he'] at h) ?_
            (went_fold ih _ _ _ h)
          intro a ha q y h
          exact .through he' (mem_out.1 ha) (by simpa [Net.pass, hc] using h)

/-! ### Depth -/

theorem forward_le (N : Net V) {fuel fuel' : Nat} (hle : fuel ≤ fuel') {vis : List Nat} {s : St V} {dst : Nat} {v : V} {r : List Nat × St V}
    (h : forward N fuel vis s dst v = some r) : forward N fuel' vis s dst v = some r := by
  induction hle with
  | refl => exact h
  | step _ ih => exact forward_mono N _ _ _ _ _ _ ih

theorem fold_le (N : Net V) {fuel fuel' : Nat} (hle : fuel ≤ fuel') {v : V} : ∀ {ds : List Nat} {p r : List Nat × St V},
    ds.foldlM (fun (p : List Nat × St V) d => forward N fuel p.1 p.2 d v) p = some r →
    ds.foldlM (fun (p : List Nat × St V) d => forward N fuel' p.1 p.2 d v) p = some r := by
  intro ds
  induction ds with
  | nil => intro p r h; exact h
  | cons d ds ihd =>
    intro p r h
    rw [List.foldlM_cons] at h ⊢
    rcases hf : forward N fuel p.1 p.2 d v with _ | r1
    · simp [hf] at h
    · rw [forward_le N hle hf]
      simp only [hf] at h
      exact ihd h

theorem freshFold_le (N : Net V) {fuel fuel' : Nat} (hle : fuel ≤ fuel') {v : V} : ∀ {ds : List Nat} {s r : St V},
    ds.foldlM (fun s d => (forward N fuel [] s d v).map Prod.snd) s = some r →
    ds.foldlM (fun s d => (forward N fuel' [] s d v).map Prod.snd) s = some r := by
  intro ds
  induction ds with
  | nil => intro p r h; exact h
  | cons d ds ihd =>
    intro p r h
    rw [List.foldlM_cons] at h ⊢
    rcases hf : forward N fuel [] p d v with _ | r1
    · simp [hf] at h
    · rw [forward_le N hle hf]
      simp only [hf] at h
      exact ihd h

/-! ### Termination -/

open Classical in
/-- How many ports at the end of routes are event ports that can be reached from `d`. -/
noncomputable def eventsBelow (N : Net V) (d : Nat) : Nat :=
  (N.routes.map Prod.snd).countP (fun q => decide (N.isEvent q = true ∧ Reach N d q))

theorem countP_lt_of {l : List Nat} {P Q : Nat → Bool} (h : ∀ q, P q = true → Q q = true) {x : Nat} (hx : x ∈ l) (hq : Q x = true)
    (hp : P x = false) : l.countP P < l.countP Q := by
  induction l with
  | nil => simp at hx
  | cons y ys ih =>
    have hle : ys.countP P ≤ ys.countP Q := List.countP_mono_left (fun z _ => h z)
    simp only [List.countP_cons]
    rcases List.mem_cons.1 hx with rfl | hx
    · simp [hq, hp]; omega
    · have := ih hx
      by_cases hy : P y = true
      · simp [hy, h y hy]; omega
      · simp [hy]; split <;> omega

theorem eventsBelow_mono {N : Net V} {d a : Nat} (h : (d, a) ∈ N.routes) : eventsBelow N a ≤ eventsBelow N d := by
  unfold eventsBelow
  refine List.countP_mono_left (fun z _ hz => ?_)
  simp only [decide_eq_true_eq] at hz ⊢
  exact ⟨hz.1, .step h hz.2⟩

theorem eventsBelow_lt {N : Net V} {d a : Nat} (hd : ∃ p, (p, d) ∈ N.routes) (he : N.isEvent d = true) (hn : ¬ EventLoop N d)
    (h : (d, a) ∈ N.routes) : eventsBelow N a < eventsBelow N d := by
  obtain ⟨p, hp⟩ := hd
  unfold eventsBelow
  refine countP_lt_of (x := d) ?_ (List.mem_map.2 ⟨(p, d), hp, rfl⟩) ?_ ?_
  · intro z hz
    simp only [decide_eq_true_eq] at hz ⊢
    exact ⟨hz.1, .step h hz.2⟩
  · simp only [decide_eq_true_eq]; exact ⟨he, .refl d⟩
  · simp only [decide_eq_false_iff_not]
    intro hc
    exact hn ⟨he, a, h, hc.2⟩

theorem eventsBelow_le (N : Net V) (d : Nat) : eventsBelow N d ≤ N.routes.length := by
  unfold eventsBelow
  refine Nat.le_trans List.countP_le_length ?_
  rw [List.length_map]
  exact Nat.le_refl _

theorem unvisited_le (N : Net V) (vis : List Nat) : unvisited N vis ≤ N.routes.length := by
  have := List.length_filter_le (fun q => decide (q ∉ vis)) (N.routes.map Prod.snd)
  rw [List.length_map] at this
  exact this

/-- Forwarding to a port from which no event port on a cycle can be reached stops, with this depth. -/
theorem forward_stops (N : Net V) : ∀ (n : Nat) (m : Nat) (vis : List Nat) (s : St V) (d : Nat) (v : V),
    (∃ p, (p, d) ∈ N.routes) → (∀ q, Reach N d q → ¬ EventLoop N q) → eventsBelow N d ≤ n → unvisited N vis ≤ m →
    ∃ r, forward N (n * (N.routes.length + 1) + m + 1) vis s d v = some r := by
  intro n
  induction n using Nat.strongRecOn with
  | ind n ihn =>
    intro m
    induction m with
    | zero =>
      intro vis s d v hd _ _ hm
      have hv : d ∈ vis := by
        by_cases hv : d ∈ vis
        · exact hv
        · have := unvisited_lt hv hd; omega
      exact ⟨(vis, s), by simp [forward, hv]⟩
    | succ m ihm =>
      intro vis s d v hd hg hn hm
      by_cases hv : d ∈ vis
      · exact ⟨(vis, s), by simp [forward, hv]⟩
      have hlt := unvisited_lt hv hd
      generalize hf : n * (N.routes.length + 1) + (m + 1) = fuel
      -- on along the routes, in the same event
      have same : ∀ (x : V) (ds : List Nat), (∀ a ∈ ds, (d, a) ∈ N.routes) → ∀ p : List Nat × St V, unvisited N p.1 ≤ m →
          ∃ r, ds.foldlM (fun (p : List Nat × St V) a => forward N fuel p.1 p.2 a x) p = some r := by
        intro x ds
        induction ds with
        | nil => intro _ p _; exact ⟨p, rfl⟩
        | cons a ds ihd =>
          intro hds p hp
          have ha := hds a (by simp)
          obtain ⟨r1, h1⟩ := ihm p.1 p.2 a x ⟨d, ha⟩ (fun q hq => hg q (.step ha hq)) (by have := eventsBelow_mono ha; omega) hp
          have hk := (forward_went N _ _ _ _ _ _ h1).keep
          have := unvisited_mono (N := N) hk
          obtain ⟨r2, h2⟩ := ihd (fun b hb => hds b (by simp [hb])) r1 (by omega)
          refine ⟨r2, ?_⟩
          rw [List.foldlM_cons, forward_le N (by omega) h1]
          exact h2
      by_cases he : N.isEvent d = true
      · have fresh : ∀ (ds : List Nat), (∀ a ∈ ds, (d, a) ∈ N.routes) → ∀ s : St V,
            ∃ r, ds.foldlM (fun s a => (forward N fuel [] s a v).map Prod.snd) s = some r := by
          intro ds
          induction ds with
          | nil => intro _ s; exact ⟨s, rfl⟩
          | cons a ds ihd =>
            intro hds s
            have ha := hds a (by simp)
            have hlt := eventsBelow_lt hd he (hg d (.refl d)) ha
            obtain ⟨k, rfl⟩ : ∃ k, n = k + 1 := ⟨n - 1, by omega⟩
            obtain ⟨r1, h1⟩ := ihn k (by omega) N.routes.length [] s a v ⟨d, ha⟩ (fun q hq => hg q (.step ha hq))
              (by omega) (unvisited_le N [])
            obtain ⟨r2, h2⟩ := ihd (fun b hb => hds b (by simp [hb])) r1.2
            refine ⟨r2, ?_⟩
            rw [List.foldlM_cons, forward_le N (by rw [Nat.succ_mul] at hf; omega) h1]
            exact h2
        obtain ⟨s1, h1⟩ := fresh (N.out d) (fun a ha => mem_out.1 ha) (s.accept d v)
        obtain ⟨r2, h2⟩ := same N.noneVal (N.out d) (fun a ha => mem_out.1 ha) (d :: vis, s1) (by simp only; omega)
        refine ⟨r2, ?_⟩
        unfold forward
        simp only [hv, if_false, he, if_true, h1]
        exact h2
      · have he' : N.isEvent d = false := by simpa using he
        rcases hc : N.coerce d v with _ | w
        · obtain ⟨r, h⟩ := same v (N.out d) (fun a ha => mem_out.1 ha) (d :: vis, s.reject d v) (by simp only; omega)
          exact ⟨r, by unfold forward; simpa only [hv, if_false, he', Bool.false_eq_true, hc] using h⟩
        · obtain ⟨r, h⟩ := same w (N.out d) (fun a ha => mem_out.1 ha) (d :: vis, s.accept d w) (by simp only; omega)
          exact ⟨r, by unfold forward; simpa only [hv, if_false, he', Bool.false_eq_true, hc] using h⟩

/-! ### C86 -/

/-- **C86 (which cascades stop).** In every network of routes, with event ports anywhere, setting a port to an accepted value stops
exactly if no event port on a cycle of routes can be reached from it: otherwise no recursion depth suffices (RecursionError).  If it
stops, a depth of the square of one more than the number of routes suffices, and the outcome does not depend on the depth. -/
theorem C86_stops_iff (N : Net V) (s : St V) (p : Nat) (v w : V) (hw : N.accepted p v = some w) :
    ((∃ fuel r, setPort N fuel s p v = some r) ↔ ¬ ∃ e, Beyond N p e ∧ EventLoop N e) ∧
    (∀ fuel r, setPort N fuel s p v = some r → ∀ fuel', fuel ≤ fuel' ∨ (N.routes.length + 1) ^ 2 ≤ fuel' → setPort N fuel' s p v = some r) := by
  simp only [Net.accepted] at hw
  unfold setPort
  simp only [hw]
  have stops : (¬ ∃ e, Beyond N p e ∧ EventLoop N e) →
      ∃ r, (N.out p).foldlM (fun s a => (forward N ((N.routes.length + 1) ^ 2) [] s a w).map Prod.snd)
        ({ s with store := fun q => if q = p then some w else s.store q } : St V) = some r := by
    intro hg
    have key : ∀ (ds : List Nat), (∀ a ∈ ds, (p, a) ∈ N.routes) → ∀ s : St V,
        ∃ r, ds.foldlM (fun s a => (forward N ((N.routes.length + 1) ^ 2) [] s a w).map Prod.snd) s = some r := by
      intro ds
      induction ds with
      | nil => intro _ s; exact ⟨s, rfl⟩
      | cons a ds ihd =>
        intro hds s
        have ha := hds a (by simp)
        obtain ⟨r1, h1⟩ := forward_stops N N.routes.length N.routes.length [] s a w ⟨p, ha⟩
          (fun q hq hl => hg ⟨q, ⟨a, ha, hq⟩, hl⟩) (eventsBelow_le N a) (unvisited_le N [])
        obtain ⟨r2, h2⟩ := ihd (fun b hb => hds b (by simp [hb])) r1.2
        refine ⟨r2, ?_⟩
        rw [List.foldlM_cons, forward_le N (by rw [Nat.pow_two, Nat.succ_mul]; omega) h1]
        exact h2
    exact key _ (fun a ha => mem_out.1 ha) _
  have loops : (∃ fuel r, (N.out p).foldlM (fun s a => (forward N fuel [] s a w).map Prod.snd)
        ({ s with store := fun q => if q = p then some w else s.store q } : St V) = some r) → ¬ ∃ e, Beyond N p e ∧ EventLoop N e := by
    rintro ⟨fuel, r, h⟩ ⟨e, ⟨a, ha, hr⟩, hl⟩
    exact (fresh_fold (forward_went N fuel) _ _ _ h).good a (mem_out.2 ha) e hr hl
  refine ⟨⟨loops, fun hg => ⟨_, stops hg⟩⟩, fun fuel r h fuel' hle => ?_⟩
  rcases hle with hle | hle
  · exact freshFold_le N hle h
  · obtain ⟨r', h'⟩ := stops (loops ⟨fuel, r, h⟩)
    have e1 := freshFold_le N (Nat.le_max_left fuel ((N.routes.length + 1) ^ 2)) h
    have e2 := freshFold_le N (Nat.le_max_right fuel ((N.routes.length + 1) ^ 2)) h'
    rw [e1] at e2
    cases e2
    exact freshFold_le N hle h'

/-- **C86 (what they reach).** A cascade that stops has delivered to exactly the ports reachable by one or more routes from the port
that was set, and every value delivered is the value set, or None from an event port on the way, as changed by the
coercions along a path of routes. -/
theorem C86_reaches_exactly (N : Net V) (s r : St V) (p : Nat) (v w : V) (fuel : Nat) (hw : N.accepted p v = some w)
    (h : setPort N fuel s p v = some r) :
    ∃ L, r.log = s.log ++ L ∧ (∀ q, (∃ d ∈ L, d.port = q) ↔ Beyond N p q) ∧
      ∀ d ∈ L, ∃ a, (p, a) ∈ N.routes ∧ Sent N a w d.port d.value := by
  simp only [Net.accepted] at hw
  unfold setPort at h
  simp only [hw] at h
  obtain ⟨L, a1, a2, a3⟩ := (fresh_fold (forward_went N fuel) _ _ _ h).ex
  refine ⟨L, a1, fun q => ⟨?_, ?_⟩, ?_⟩
  · rintro ⟨d, hd, rfl⟩
    obtain ⟨a, ha, hs⟩ := a3 d hd
    exact ⟨a, mem_out.1 ha, hs.reach⟩
  · rintro ⟨a, ha, hr⟩
    exact a2 a (mem_out.2 ha) q hr
  · intro d hd
    obtain ⟨a, ha, hs⟩ := a3 d hd
    exact ⟨a, mem_out.1 ha, hs⟩

/-- **C86 (IS mappings of events).** An IS mapping makes routes in both directions (route.py:150-166).  So if an event of a prototype's
interface is mapped to anything, giving the instance that event never stops, and neither does setting anything
with routes towards it – for example the field that it is mapped to. -/
theorem C86_mapped_events (N : Net V) (s : St V) (e f : Nat) (he : N.isEvent e = true) (hef : (e, f) ∈ N.routes) (hfe : (f, e) ∈ N.routes)
    (v : V) (fuel : Nat) :
    setPort N fuel s e v = none ∧
    ∀ p w, Beyond N p f → N.accepted p v = some w → setPort N fuel s p v = none := by
  have hl : EventLoop N e := ⟨he, f, hef, .step hfe (.refl e)⟩
  constructor
  · rcases h : setPort N fuel s e v with _ | r
    · rfl
    · exact absurd ⟨e, ⟨f, hef, .step hfe (.refl e)⟩, hl⟩ ((C86_stops_iff N s e v v (by simp [Net.accepted, he])).1.1 ⟨fuel, r, h⟩)
  · rintro p w ⟨a, ha, hr⟩ hw
    rcases h : setPort N fuel s p v with _ | r
    · rfl
    · exact absurd ⟨e, ⟨a, ha, hr.trans (.step hfe (.refl e))⟩, hl⟩ ((C86_stops_iff N s p v w hw).1.1 ⟨fuel, r, h⟩)

-- non-vacuity: routes 0 → 1 (an event port) → 2 ⇄ 3, and 3 → 4 (an event port): stops, although an event port is in the middle
example :
    let N : Net Nat := ⟨[(0, 1), (1, 2), (2, 3), (3, 2), (3, 4)], fun q => q == 1 || q == 4, fun _ v => some v, 99⟩
    (setPort N 9 ⟨fun _ => none, []⟩ 0 7).map (fun r => r.log.map (fun d => (d.port, d.value))) =
      some [(1, 7), (2, 7), (3, 7), (4, 7), (2, 99), (3, 99), (4, 99)] := by decide

-- the pattern `field c`, `eventIn set_c` both mapped to field 2 of the body: c = 0, set_c = 1
example (fuel : Nat) (s : St Nat) : setPort (⟨[(0, 2), (2, 0), (1, 2), (2, 1)], fun q => q == 1, fun _ v => some v, 99⟩ : Net Nat) fuel s 0 7 = none :=
  (C86_mapped_events _ s 1 2 rfl (by decide) (by decide) 7 fuel).2 0 7 ⟨2, by decide, .refl 2⟩ rfl

end Verif.Route
