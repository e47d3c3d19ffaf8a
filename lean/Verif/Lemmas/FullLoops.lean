import Verif.Lemmas.Linked
/-!
Forwarding visits all places that connections lead to, and never comes back from an event on a cycle.
-/
namespace Verif.Full
open Verif.Peg Verif.Grammar Verif.TextOut Verif.SceneText Verif.Reader Verif.Scopes
open Verif.Lin hiding disp dispList dispDecls dispAttrs disp_node disp_attr
variable {F : Type}

/-- same connections, same classes of nodes -/
structure Like (w0 w : World F) : Prop where
  wires : w.wires = w0.wires
  cls : ∀ i, (w.heap i).map (fun n => n.cls) = (w0.heap i).map (fun n => n.cls)

theorem Like.refl (w : World F) : Like w w := ⟨rfl, fun _ => rfl⟩

theorem Quiet.like {w0 w w' : World F} (h : Quiet w w') (hw : w'.wires = w.wires) (h0 : Like w0 w) : Like w0 w' := by
  refine ⟨hw.trans h0.wires, fun i => ?_⟩
  rw [← h0.cls i]
  have := congrArg (Option.map Prod.fst) (h.node i)
  simpa [Option.map_map, Function.comp_def] using this

theorem forward_wires (fuel : Nat) (vis : List Place) (w : World F) (i : Nat) (f : Text) (v : Option (Val F)) (r : List Place × World F)
    (h : forward fuel vis w i f v = some r) : r.2.wires = w.wires :=
  forward_keeps (P := fun w' => w'.wires = w.wires) (Q := fun _ => True) (E := fun _ _ => True) trivial (fun _ _ _ _ => trivial)
    (fun _ _ _ _ _ _ hw _ _ _ _ => ⟨hw, trivial⟩) fuel vis w i f v r rfl trivial trivial h

theorem Like.port {w0 w : World F} (h : Like w0 w) {i f p} : (w.heap i).bind (fun n => n.cls.getField f) = some p ↔ PortAt w0 i f p := by
  have := h.cls i
  unfold PortAt
  cases h1 : w.heap i with
  | none =>
    rw [h1] at this
    cases h2 : w0.heap i with
    | none => simp
    | some n => rw [h2] at this; cases this
  | some n =>
    rw [h1] at this
    cases h2 : w0.heap i with
    | none => rw [h2] at this; cases this
    | some n' =>
      rw [h2] at this
      simp only [Option.map_some, Option.some.injEq] at this
      simp [this]

theorem Like.out {w0 w : World F} (h : Like w0 w) (i : Nat) (f : Text) : w.out i f = w0.out i f := by
  simp only [World.out, h.wires]

theorem PortAt.inj {w : World F} {i f p q} (h : PortAt w i f p) (h' : PortAt w i f q) : p = q := by
  obtain ⟨n, h1, h2⟩ := h
  obtain ⟨m, h3, h4⟩ := h'
  rw [h1] at h3; cases h3
  rw [h2] at h4; cases h4; rfl

theorem getField_no_event {c : Class F} {nm : Text} {d : FieldDecl F} (h : c.getField nm = some (.inl d)) : ∀ e ∈ c.events, e.name ≠ d.name := by
  obtain ⟨nm', h⟩ := resolveName_known _ _ _ _ (Nat.lt_succ_self _) h
  rw [Class.port] at h
  split at h
  · cases h
  · next hn =>
    obtain ⟨d', h1, h2⟩ := Option.map_eq_some_iff.1 h
    cases h2
    have := List.find?_some h1
    rw [List.find?_eq_none] at hn
    intro e he hc
    refine hn e he ?_
    rw [hc]; exact this

theorem getField_inr {c : Class F} {nm : Text} {e : EventDecl} (h : c.getField nm = some (.inr e)) : e ∈ c.events := by
  obtain ⟨nm', h⟩ := resolveName_known _ _ _ _ (Nat.lt_succ_self _) h
  rw [Class.port] at h
  split at h
  · next hf => cases h; exact List.mem_of_find?_eq_some hf
  · obtain ⟨d', h1, h2⟩ := Option.map_eq_some_iff.1 h
    cases h2

/-- what forwarding does to the places visited -/
structure Closed (w : World F) (vis vis' : List Place) : Prop where
  sub : ∀ q ∈ vis, q ∈ vis'
  closed : ∀ q ∈ vis', q ∉ vis → ∀ r, Onward w q r → r ∈ vis'
  good : ∀ q ∈ vis', q ∉ vis → ¬ LoopAt w q
  whole : ∀ q ∈ vis', q ∉ vis → ¬ DeadEnd w q

theorem Closed.refl (w : World F) (vis : List Place) : Closed w vis vis := ⟨fun _ h => h, fun _ h h' => absurd h h', fun _ h h' => absurd h h', fun _ h h' => absurd h h'⟩

theorem Closed.trans {w : World F} {a b c : List Place} (h : Closed w a b) (h' : Closed w b c) : Closed w a c := by
  refine ⟨fun q hq => h'.sub q (h.sub q hq), fun q hq hn r hr => ?_, fun q hq hn => ?_, fun q hq hn => ?_⟩
  · by_cases hb : q ∈ b
    · exact h'.sub r (h.closed q hb hn r hr)
    · exact h'.closed q hq hb r hr
  · by_cases hb : q ∈ b
    · exact h.good q hb hn
    · exact h'.good q hq hb
  · by_cases hb : q ∈ b
    · exact h.whole q hb hn
    · exact h'.whole q hq hb

theorem Closed.onwards {w : World F} {vis : List Place} (h : Closed w [] vis) {p q : Place} (hq : Onwards w p q) : p ∈ vis → q ∈ vis := by
  induction hq with
  | here => exact id
  | step hr _ ih => exact fun hp => ih (h.closed _ hp (by simp) _ hr)

/-- what is claimed of forwarding -/
def Visits (w0 : World F) (fuel : Nat) : Prop :=
  ∀ (vis : List Place) (w : World F) (i : Nat) (f : Text) (v : Option (Val F)) (r : List Place × World F), Like w0 w → forward fuel vis w i f v = some r →
    Like w0 r.2 ∧ (∃ p, PortAt w0 i f p ∧ (i, portName p) ∈ r.1) ∧ Closed w0 vis r.1

theorem visits_fold {w0 : World F} {fuel : Nat} (ih : Visits w0 fuel) (v : Option (Val F)) : ∀ (l : List Wire) (a r : List Place × World F), Like w0 a.2 →
    l.foldlM (fun (p : List Place × World F) x => forward fuel p.1 p.2 x.dst x.dstField v) a = some r →
    Like w0 r.2 ∧ (∀ x ∈ l, ∃ p, PortAt w0 x.dst x.dstField p ∧ (x.dst, portName p) ∈ r.1) ∧ Closed w0 a.1 r.1
  | [], a, r, ha, h => by cases h; exact ⟨ha, by simp, .refl _ _⟩
  | x :: l, a, r, ha, h => by
    rw [List.foldlM_cons] at h
    cases h1 : forward fuel a.1 a.2 x.dst x.dstField v with
    | none => rw [h1] at h; cases h
    | some b =>
      rw [h1] at h
      obtain ⟨l1, ⟨p, p1, p2⟩, c1⟩ := ih _ _ _ _ _ _ ha h1
      obtain ⟨l2, m2, c2⟩ := visits_fold ih v l b r l1 h
      refine ⟨l2, fun y hy => ?_, c1.trans c2⟩
      rcases List.mem_cons.1 hy with rfl | hy
      · exact ⟨p, p1, c2.sub _ p2⟩
      · exact m2 y hy

theorem visits_fresh {w0 : World F} {fuel : Nat} (ih : Visits w0 fuel) (v : Option (Val F)) : ∀ (l : List Wire) (a r : World F), Like w0 a →
    l.foldlM (fun w x => (forward fuel [] w x.dst x.dstField v).map Prod.snd) a = some r →
    Like w0 r ∧ (∀ x ∈ l, ∃ p, PortAt w0 x.dst x.dstField p ∧ ∀ q, Onwards w0 (x.dst, portName p) q → ¬ LoopAt w0 q ∧ ¬ DeadEnd w0 q)
  | [], a, r, ha, h => by cases h; exact ⟨ha, by simp⟩
  | x :: l, a, r, ha, h => by
    rw [List.foldlM_cons] at h
    cases h1 : forward fuel [] a x.dst x.dstField v with
    | none => rw [h1] at h; cases h
    | some b =>
      rw [h1] at h
      obtain ⟨l1, ⟨p, p1, p2⟩, c1⟩ := ih _ _ _ _ _ _ ha h1
      obtain ⟨l2, m2⟩ := visits_fresh ih v l b.2 r l1 h
      refine ⟨l2, fun y hy => ?_⟩
      rcases List.mem_cons.1 hy with rfl | hy
      · exact ⟨p, p1, fun q hq => ⟨c1.good q (c1.onwards hq p2) (by simp), c1.whole q (c1.onwards hq p2) (by simp)⟩⟩
      · exact m2 y hy

/-- marking a place whose connections have been followed -/
theorem closed_visit {w0 : World F} {i : Nat} {g : Text} {vis vis' : List Place} (hgood : ¬ LoopAt w0 (i, g))
    (hx : ∀ x ∈ w0.out i g, ∃ p, PortAt w0 x.dst x.dstField p ∧ (x.dst, portName p) ∈ vis') (h : Closed w0 ((i, g) :: vis) vis') : Closed w0 vis vis' := by
  refine ⟨fun q hq => h.sub q (by simp [hq]), fun q hq hn r hr => ?_, fun q hq hn => ?_, fun q hq hn => ?_⟩
  · by_cases e : q = (i, g)
    · obtain ⟨h1, h2⟩ := hr
      rename_i x p
      obtain ⟨p', h3, h4⟩ := hx x (mem_out.2 ⟨h1, e⟩)
      rw [h2.inj h3]; exact h4
    · exact h.closed q hq (by simp [e, hn]) r hr
  · by_cases e : q = (i, g)
    · rw [e]; exact hgood
    · exact h.good q hq (by simp [e, hn])
  · by_cases e : q = (i, g)
    · rintro ⟨x, h1, h2, h3⟩
      obtain ⟨p', h4, -⟩ := hx x (mem_out.2 ⟨h1, h2.trans e⟩)
      exact h3 _ h4
    · exact h.whole q hq (by simp [e, hn])

theorem forward_visits (w0 : World F) : ∀ fuel, Visits w0 fuel
  | 0 => fun _ _ _ _ _ _ _ h => by cases h
  | fuel + 1 => by
    intro vis w i f v r hl h
    have ih := forward_visits w0 fuel
    have hlike : Like w0 r.2 := (forward_quiet _ _ _ _ _ _ _ h).like (forward_wires _ _ _ _ _ _ _ h) hl
    refine ⟨hlike, ?_⟩
    simp only [forward] at h
    split at h
    · cases h
    · next d hd =>
      have hp := hl.port.1 hd
      split at h
      · next hv => cases h; exact ⟨⟨_, hp, hv⟩, .refl _ _⟩
      · split at h
        · cases h
        · next u hu =>
          obtain ⟨-, m, c⟩ := visits_fold ih _ _ ((i, d.name) :: vis, _) r (by
            cases u with
            | none => exact hl
            | some u => exact (setField_quiet w i d.name u).like rfl hl) h
          refine ⟨⟨_, hp, c.sub _ (by simp [portName])⟩, closed_visit ?_ (fun x hx => m x (by rw [hl.out]; exact hx)) c⟩
          rintro ⟨⟨n, e, h1, h3, h4⟩, -⟩
          obtain ⟨n', h5, h6⟩ := hp
          rw [h1] at h5; cases h5
          exact getField_no_event h6 e h3 h4
    · next e hd =>
      have hp := hl.port.1 hd
      split at h
      · next hv => cases h; exact ⟨⟨_, hp, hv⟩, .refl _ _⟩
      · split at h
        · cases h
        · next w' hw' =>
          obtain ⟨hl', m0⟩ := visits_fresh ih v _ _ _ hl hw'
          obtain ⟨-, m, c⟩ := visits_fold ih _ _ ((i, e.name) :: vis, _) r hl' h
          refine ⟨⟨_, hp, c.sub _ (by simp [portName])⟩, closed_visit ?_ (fun x hx => m x (by rw [hl.out]; exact hx)) c⟩
          rintro ⟨he, q, hq, hqs⟩
          generalize hz : (i, e.name) = z at hq
          obtain ⟨h1, h2⟩ := hq
          rename_i x p
          obtain ⟨p', h3, h4⟩ := m0 x (by rw [hl.out]; exact mem_out.2 ⟨h1, hz.symm⟩)
          rw [h3.inj h2] at h4
          exact (h4 _ hqs).1 ⟨he, _, by rw [hz]; exact .wire h1 h2, hqs⟩

/-! ### Depth -/

/-- the places at the ends of connections -/
def World.ends (w : World F) : List Place := w.wires.filterMap (fun x => ((w.heap x.dst).bind (fun n => n.cls.getField x.dstField)).map (fun p => (x.dst, portName p)))

theorem mem_ends {w : World F} {x : Wire} (hx : x ∈ w.wires) {p} (hp : PortAt w x.dst x.dstField p) : (x.dst, portName p) ∈ w.ends := by
  obtain ⟨n, h1, h2⟩ := hp
  exact List.mem_filterMap.2 ⟨x, hx, by simp [h1, h2]⟩

theorem ends_length (w : World F) : w.ends.length ≤ w.wires.length := List.length_filterMap_le _ _

theorem countP_lt_of {α : Type} {l : List α} {P Q : α → Bool} (h : ∀ q, P q = true → Q q = true) {x : α} (hx : x ∈ l) (hq : Q x = true)
    (hp : P x = false) : l.countP P < l.countP Q := by
  induction l with
  | nil => simp at hx
  | cons y ys ih =>
    have hle : ys.countP P ≤ ys.countP Q := List.countP_mono_left (fun z _ => h z)
    simp only [List.countP_cons]
    rcases List.mem_cons.1 hx with rfl | hx
    · simp [hq, hp]; omega
    · have := ih hx
      by_cases hy : P y = true
      · simp [hy, h y hy]; omega
      · simp [hy]; split <;> omega

/-- how many ends of connections have not been visited -/
def World.unvisited (w : World F) (vis : List Place) : Nat := w.ends.countP (fun q => decide (q ∉ vis))

open Classical in
/-- how many ends of connections are events that can be reached from `p` -/
noncomputable def World.eventsBelow (w : World F) (p : Place) : Nat := w.ends.countP (fun q => decide (EventAt w q ∧ Onwards w p q))

theorem unvisited_mono {w : World F} {vis vis' : List Place} (h : ∀ q ∈ vis, q ∈ vis') : w.unvisited vis' ≤ w.unvisited vis :=
  List.countP_mono_left (fun q _ hq => by simp only [decide_eq_true_eq] at hq ⊢; exact fun hc => hq (h q hc))

theorem unvisited_lt {w : World F} {vis : List Place} {p : Place} (hp : p ∉ vis) (he : p ∈ w.ends) : w.unvisited (p :: vis) < w.unvisited vis :=
  countP_lt_of (fun q hq => by simp only [decide_eq_true_eq, List.mem_cons, not_or] at hq ⊢; exact hq.2) he (by simpa using hp) (by simp)

theorem eventsBelow_mono {w : World F} {p q : Place} (h : Onward w p q) : w.eventsBelow q ≤ w.eventsBelow p :=
  List.countP_mono_left (fun z _ hz => by simp only [decide_eq_true_eq] at hz ⊢; exact ⟨hz.1, .step h hz.2⟩)

theorem eventsBelow_lt {w : World F} {p q : Place} (he : p ∈ w.ends) (hv : EventAt w p) (hl : ¬ LoopAt w p) (h : Onward w p q) : w.eventsBelow q < w.eventsBelow p := by
  refine countP_lt_of (x := p) ?_ he ?_ ?_
  · intro z hz
    simp only [decide_eq_true_eq] at hz ⊢
    exact ⟨hz.1, .step h hz.2⟩
  · simp only [decide_eq_true_eq]; exact ⟨hv, .here p⟩
  · simp only [decide_eq_false_iff_not]
    exact fun hc => hl ⟨hv, q, h, hc.2⟩

theorem unvisited_le (w : World F) (vis : List Place) : w.unvisited vis ≤ w.wires.length := List.countP_le_length.trans (ends_length w)
theorem eventsBelow_le (w : World F) (p : Place) : w.eventsBelow p ≤ w.wires.length := List.countP_le_length.trans (ends_length w)

theorem forward_cross (fuel : Nat) (vis : List Place) (w : World F) (i : Nat) (f : Text) (v : Option (Val F)) (r : List Place × World F)
    (h : forward fuel vis w i f v = some r) : r.2.cross = w.cross :=
  forward_keeps (P := fun w' => w'.cross = w.cross) (Q := fun _ => True) (E := fun _ _ => True) trivial (fun _ _ _ _ => trivial)
    (fun _ _ _ _ _ _ hw _ _ _ _ => ⟨hw, trivial⟩) fuel vis w i f v r rfl trivial trivial h

theorem take_cross {w w0 : World F} (h : w.cross = w0.cross) (d : FieldDecl F) (v) : w.take d v = w0.take d v := by simp only [World.take, h]

/-- Forwarding ends where no event on a cycle and no dead end can be reached, with this depth. -/
theorem forward_ends {w0 : World F} (ht : ∀ d v, w0.take d v ≠ none) : ∀ (n m fuel : Nat) (vis : List Place) (w : World F) (i : Nat) (f : Text) (v : Option (Val F)) (p),
    Like w0 w → w.cross = w0.cross → PortAt w0 i f p → (i, portName p) ∈ w0.ends → (∀ q, Onwards w0 (i, portName p) q → ¬ LoopAt w0 q ∧ ¬ DeadEnd w0 q) →
    w0.eventsBelow (i, portName p) ≤ n → w0.unvisited vis ≤ m → n * (w0.wires.length + 1) + m + 1 ≤ fuel →
    ∃ r, forward fuel vis w i f v = some r := by
  intro n
  induction n using Nat.strongRecOn with
  | ind n ihn =>
    intro m
    induction m with
    | zero =>
      intro fuel vis w i f v p hl _ hp he _ _ hm hfuel
      obtain ⟨fuel, rfl⟩ : ∃ k, fuel = k + 1 := ⟨fuel - 1, by omega⟩
      have hv : (i, portName p) ∈ vis := by
        by_cases hv : (i, portName p) ∈ vis
        · exact hv
        · have := unvisited_lt hv he; omega
      refine ⟨(vis, w), ?_⟩
      simp only [forward, hl.port.2 hp]
      cases p with
      | inl d => exact if_pos hv
      | inr e => exact if_pos hv
    | succ m ihm =>
      intro fuel vis w i f v p hl hcr hp he hg hn hm hfuel
      obtain ⟨fuel, rfl⟩ : ∃ k, fuel = k + 1 := ⟨fuel - 1, by omega⟩
      simp only [forward, hl.port.2 hp]
      by_cases hv : (i, portName p) ∈ vis
      · refine ⟨(vis, w), ?_⟩
        cases p with
        | inl d => exact if_pos hv
        | inr e => exact if_pos hv
      have hlt := unvisited_lt hv he
      have hport : ∀ x ∈ w.out i (portName p), ∃ q, PortAt w0 x.dst x.dstField q ∧ (x.dst, portName q) ∈ w0.ends ∧ Onward w0 (i, portName p) (x.dst, portName q) := by
        intro x hx
        rw [hl.out] at hx
        obtain ⟨h1, h2⟩ := mem_out.1 hx
        by_cases h : ∃ q, PortAt w0 x.dst x.dstField q
        · obtain ⟨q, hq⟩ := h
          exact ⟨q, hq, mem_ends h1 hq, by rw [← h2]; exact .wire h1 hq⟩
        · exact absurd ⟨x, h1, h2, fun q hq => h ⟨q, hq⟩⟩ (hg _ (.here _)).2
      -- on along the connections, in the same event
      have same : ∀ (u : Option (Val F)) (l : List Wire), (∀ x ∈ l, x ∈ w.out i (portName p)) → ∀ a : List Place × World F, Like w0 a.2 → a.2.cross = w0.cross → w0.unvisited a.1 ≤ m →
          ∃ r, l.foldlM (fun (a : List Place × World F) x => forward fuel a.1 a.2 x.dst x.dstField u) a = some r := by
        intro u l
        induction l with
        | nil => intro _ a _ _ _; exact ⟨a, rfl⟩
        | cons x l ihl =>
          intro hs a ha hac hau
          obtain ⟨q, q1, q2, q3⟩ := hport x (hs x (by simp))
          obtain ⟨b, hb⟩ := ihm fuel a.1 a.2 x.dst x.dstField u q ha hac q1 q2 (fun z hz => hg z (.step q3 hz)) (by have := eventsBelow_mono q3; omega) hau (by omega)
          have hk := (forward_visits w0 fuel _ _ _ _ _ _ ha hb)
          have := unvisited_mono (w := w0) hk.2.2.sub
          obtain ⟨r, hr⟩ := ihl (fun y hy => hs y (by simp [hy])) b hk.1 ((forward_cross _ _ _ _ _ _ _ hb).trans hac) (by omega)
          exact ⟨r, by rw [List.foldlM_cons, hb]; exact hr⟩
      cases p with
      | inl d =>
        simp only
        rw [if_neg (show (i, d.name) ∉ vis from hv)]
        cases hu : w.take d v with
        | none => rw [take_cross hcr] at hu; exact absurd hu (ht d v)
        | some u =>
          simp only
          refine same _ _ (fun _ h => h) _ ?_ ?_ (by simp only [portName] at hlt ⊢; omega)
          · cases u with
            | none => exact hl
            | some u => exact (setField_quiet w i d.name u).like rfl hl
          · cases u with
            | none => exact hcr
            | some u => exact hcr
      | inr e =>
        simp only
        rw [if_neg (show (i, e.name) ∉ vis from hv)]
        have hev : EventAt w0 (i, portName (.inr e : FieldDecl F ⊕ EventDecl)) := by
          obtain ⟨k, h1, h2⟩ := hp
          exact ⟨k, e, h1, getField_inr h2, rfl⟩
        have fresh : ∀ (l : List Wire), (∀ x ∈ l, x ∈ w.out i e.name) → ∀ a : World F, Like w0 a → a.cross = w0.cross →
            ∃ r, l.foldlM (fun a x => (forward fuel [] a x.dst x.dstField v).map Prod.snd) a = some r ∧ Like w0 r ∧ r.cross = w0.cross := by
          intro l
          induction l with
          | nil => intro _ a h1 h2; exact ⟨a, rfl, h1, h2⟩
          | cons x l ihl =>
            intro hs a ha hac
            obtain ⟨q, q1, q2, q3⟩ := hport x (hs x (by simp))
            have hlt2 := eventsBelow_lt he hev (hg _ (.here _)).1 q3
            obtain ⟨k, rfl⟩ : ∃ k, n = k + 1 := ⟨n - 1, by omega⟩
            obtain ⟨b, hb⟩ := ihn k (by omega) w0.wires.length fuel [] a x.dst x.dstField v q ha hac q1 q2 (fun z hz => hg z (.step q3 hz)) (by omega) (unvisited_le w0 [])
              (by rw [Nat.succ_mul] at hfuel; omega)
            have hk := (forward_visits w0 fuel _ _ _ _ _ _ ha hb)
            obtain ⟨r, hr, h3⟩ := ihl (fun y hy => hs y (by simp [hy])) b.2 hk.1 ((forward_cross _ _ _ _ _ _ _ hb).trans hac)
            exact ⟨r, by rw [List.foldlM_cons, hb]; exact hr, h3⟩
        obtain ⟨w1, h1, h2, h3⟩ := fresh (w.out i e.name) (fun _ h => h) w hl hcr
        rw [h1]
        exact same none _ (fun _ h => h) _ h2 h3 (by simp only [portName] at hlt ⊢; omega)

end Verif.Full
