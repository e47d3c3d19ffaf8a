import Verif.Lemmas.FullLoops
import Verif.Props.Animate
import Verif.Spec.Watch
import Verif.Props.TransformCache
/-!
Assigning with and without signals; the cache keeps up with the scene.
-/
namespace Verif.Full
open Verif.Peg Verif.Grammar Verif.TextOut Verif.SceneText Verif.Reader Verif.Scopes
open Verif.Lin hiding disp dispList dispDecls dispAttrs disp_node disp_attr
variable {F : Type}

/-! ### Without the signals it is the same -/

theorem foldlM_map {α β γ : Type} {f : β → α → Option β} {g : γ → α → Option γ} {m : β → γ} (h : ∀ b x, (f b x).map m = g (m b) x) :
    ∀ (l : List α) (b : β), (l.foldlM f b).map m = l.foldlM g (m b)
  | [], _ => rfl
  | x :: l, b => by
    simp only [List.foldlM_cons]
    rw [← h b x]
    cases f b x with
    | none => rfl
    | some c => exact foldlM_map h l c

theorem forwardS_erase : ∀ (fuel : Nat) (log : List (Note F)) (vis : List Place) (w : World F) (i : Nat) (f : Text) (v : Option (Val F)),
    (forwardS fuel log vis w i f v).map Prod.snd = forward fuel vis w i f v
  | 0, _, _, _, _, _, _ => rfl
  | fuel + 1, log, vis, w, i, f, v => by
    have ih := forwardS_erase fuel
    simp only [forwardS, forward]
    cases (w.heap i).bind (fun n => n.cls.getField f) with
    | none => rfl
    | some p =>
      cases p with
      | inl d =>
        simp only
        split
        · rfl
        · cases w.take d v with
          | none => rfl
          | some u =>
            simp only
            rw [foldlM_map (m := Prod.snd) (g := fun (p : List Place × World F) (x : Wire) => forward fuel p.1 p.2 x.dst x.dstField (u.or v)) (fun b x => ih _ _ _ _ _ _)]
            cases u <;> rfl
      | inr e =>
        simp only
        split
        · rfl
        · have h1 := foldlM_map (m := Prod.snd) (f := fun (p : List (Note F) × World F) (x : Wire) => (forwardS fuel p.1 [] p.2 x.dst x.dstField v).map (fun q => (q.1, q.2.2)))
            (g := fun (w : World F) (x : Wire) => (forward fuel [] w x.dst x.dstField v).map Prod.snd) (fun b x => by
              rw [← ih b.1 [] b.2 x.dst x.dstField v]; simp only [Option.map_map]; rfl) (w.out i e.name) (log, w)
          rw [← h1]
          cases List.foldlM (fun (p : List (Note F) × World F) (x : Wire) => (forwardS fuel p.1 [] p.2 x.dst x.dstField v).map (fun q => (q.1, q.2.2))) (log, w) (w.out i e.name) with
          | none => rfl
          | some q =>
            simp only [Option.map_some]
            rw [foldlM_map (m := Prod.snd) (g := fun (p : List Place × World F) (x : Wire) => forward fuel p.1 p.2 x.dst x.dstField none) (fun b x => ih _ _ _ _ _ _)]

theorem spreadS_erase (log : List (Note F)) (w : World F) (i : Nat) (f : Text) (v : Val F) : (w.spreadS log i f v).map Prod.snd = w.spread i f v := by
  simp only [World.spreadS, World.spread]
  exact foldlM_map (m := Prod.snd) (fun b x => by rw [← forwardS_erase w.depth b.1 [] b.2 x.dst x.dstField (some v)]; simp only [Option.map_map]; rfl) (w.out i f) (log, w)

theorem assignS_erase (w : World F) (i : Nat) (f : Text) (v : Val F) : (w.assignS i f v).map Prod.snd = w.assign i f v := by
  simp only [World.assignS, World.assign]
  cases (w.heap i).bind (fun n => n.cls.port f) with
  | none => rfl
  | some p =>
    cases p with
    | inl d =>
      simp only
      cases w.take d (some v) with
      | none => rfl
      | some u =>
        cases u with
        | none => rfl
        | some u => exact spreadS_erase _ _ _ _ _
    | inr e => exact spreadS_erase _ _ _ _ _

/-! ### The signals tell of all changes -/

/-- what the signals say is stored -/
def replay (w : World F) (log : List (Note F)) : World F := log.foldl (fun w n => match n.stored with
  | some u => w.setField n.node n.field u
  | none => w) w

theorem replay_append (w : World F) (a b : List (Note F)) : replay w (a ++ b) = replay (replay w a) b := by simp [replay]

theorem replay_like {w0 : World F} : ∀ (log : List (Note F)) {w : World F}, Like w0 w → Like w0 (replay w log)
  | [], _, h => h
  | n :: log, w, h => by
    refine replay_like log (w := match n.stored with | some u => w.setField n.node n.field u | none => w) ?_
    split
    · exact (setField_quiet w _ _ _).like rfl h
    · exact h

theorem onwards_trans {w : World F} {p q r : Place} (h : Onwards w p q) (h' : Onwards w q r) : Onwards w p r := by
  induction h with
  | here => exact h'
  | step a _ ih => exact .step a (ih h')

/-- from one log and world to the next -/
def Adds (w0 : World F) (q : Place) (a b : List (Note F) × World F) : Prop :=
  ∃ new, b.1 = a.1 ++ new ∧ b.2 = replay a.2 new ∧ ∀ n ∈ new, Onwards w0 q n.place ∧ DeclaredAt w0 n.place

theorem Adds.refl (w0 : World F) (q : Place) (a : List (Note F) × World F) : Adds w0 q a a := ⟨[], by simp, rfl, by simp⟩

theorem Adds.trans {w0 : World F} {q : Place} {a b c : List (Note F) × World F} (h : Adds w0 q a b) (h' : Adds w0 q b c) : Adds w0 q a c := by
  obtain ⟨n1, e1, e2, e3⟩ := h
  obtain ⟨n2, f1, f2, f3⟩ := h'
  refine ⟨n1 ++ n2, by rw [f1, e1, List.append_assoc], by rw [f2, e2, replay_append], fun n hn => ?_⟩
  rcases List.mem_append.1 hn with h | h
  · exact e3 n h
  · exact f3 n h

theorem Adds.back {w0 : World F} {q q' : Place} {a b : List (Note F) × World F} (h : Adds w0 q' a b) (hq : Onwards w0 q q') : Adds w0 q a b := by
  obtain ⟨n1, e1, e2, e3⟩ := h
  exact ⟨n1, e1, e2, fun n hn => ⟨onwards_trans hq (e3 n hn).1, (e3 n hn).2⟩⟩

theorem Adds.like {w0 : World F} {q : Place} {a b : List (Note F) × World F} (h : Adds w0 q a b) (hl : Like w0 a.2) : Like w0 b.2 := by
  obtain ⟨n1, e1, e2, e3⟩ := h
  rw [e2]; exact replay_like _ hl

theorem declared_of {w : World F} {i : Nat} {f : Text} {d : FieldDecl F} (h : PortAt w i f (.inl d)) : DeclaredAt w (i, d.name) := by
  obtain ⟨n, h1, h2⟩ := h
  exact ⟨n, d, h1, getField_mem h2, rfl⟩

theorem forwardS_adds (w0 : World F) : ∀ (fuel : Nat) (log : List (Note F)) (vis : List Place) (w : World F) (i : Nat) (f : Text) (v : Option (Val F)) (r),
    Like w0 w → forwardS fuel log vis w i f v = some r → ∃ p, PortAt w0 i f p ∧ Adds w0 (i, portName p) (log, w) (r.1, r.2.2)
  | 0, _, _, _, _, _, _, _, _, h => by cases h
  | fuel + 1, log, vis, w, i, f, v, r, hl, h => by
    have ih := forwardS_adds w0 fuel
    simp only [forwardS] at h
    -- what the connections of a place add
    have wire : ∀ (g : Text) (q : Place), q = (i, g) → ∀ x ∈ w.out i g, ∀ (a : List (Note F)) (vs : List Place) (w1 : World F) (y : Option (Val F)) r', Like w0 w1 →
        forwardS fuel a vs w1 x.dst x.dstField y = some r' → Adds w0 q (a, w1) (r'.1, r'.2.2) := by
      rintro g q rfl x hx a vs w1 y r' h1 h2
      obtain ⟨p, h3, h4⟩ := ih _ _ _ _ _ _ _ h1 h2
      rw [hl.out] at hx
      obtain ⟨k1, k2⟩ := mem_out.1 hx
      refine h4.back (.step ?_ (.here _))
      have := Onward.wire k1 h3
      rwa [k2] at this
    split at h
    · cases h
    · next d hd =>
      have hp := hl.port.1 hd
      refine ⟨_, hp, ?_⟩
      split at h
      · cases h; exact .refl ..
      · split at h
        · cases h
        · next u hu =>
          refine foldlM_inv (P := fun (p : List (Note F) × List Place × World F) => Adds w0 (i, d.name) (log, w) (p.1, p.2.2))
            (fun x hx a b ha hb => ha.trans (wire d.name _ rfl x hx _ _ _ _ _ (ha.like hl) hb)) ?_ h
          exact ⟨[⟨i, d.name, u⟩], rfl, by cases u <;> rfl, fun n hn => by
              rw [List.mem_singleton.1 hn]; exact ⟨.here _, declared_of hp⟩⟩
    · next e hd =>
      have hp := hl.port.1 hd
      refine ⟨_, hp, ?_⟩
      split at h
      · cases h; exact .refl ..
      · split at h
        · cases h
        · next l' w' hw' =>
          have h0 : Adds w0 (i, e.name) (log, w) (l', w') :=
            foldlM_inv (P := fun (p : List (Note F) × World F) => Adds w0 (i, e.name) (log, w) p) (fun x hx a b ha hb => by
              obtain ⟨q, hq, rfl⟩ := Option.map_eq_some_iff.1 hb
              exact ha.trans (wire e.name _ rfl x hx _ _ _ _ _ (ha.like hl) hq)) (.refl ..) hw'
          exact foldlM_inv (P := fun (p : List (Note F) × List Place × World F) => Adds w0 (i, e.name) (log, w) (p.1, p.2.2))
            (fun x hx a b ha hb => ha.trans (wire e.name _ rfl x hx _ _ _ _ _ (ha.like hl) hb)) h0 h

theorem spreadS_adds {w0 : World F} {log : List (Note F)} {w : World F} {i : Nat} {f : Text} {v : Val F} {r} (hl : Like w0 w) (h : w.spreadS log i f v = some r) :
    Adds w0 (i, f) (log, w) r := by
  refine foldlM_inv (P := fun (p : List (Note F) × World F) => Adds w0 (i, f) (log, w) p) (fun x hx a b ha hb => ?_) (.refl ..) h
  obtain ⟨q, hq, rfl⟩ := Option.map_eq_some_iff.1 hb
  obtain ⟨p, h3, h4⟩ := forwardS_adds w0 _ _ _ _ _ _ _ _ (ha.like hl) hq
  rw [hl.out] at hx
  obtain ⟨k1, k2⟩ := mem_out.1 hx
  refine ha.trans (h4.back (.step ?_ (.here _)))
  have := Onward.wire k1 h3
  rwa [k2] at this

theorem assignS_adds {w : World F} {i : Nat} {f : Text} {v : Val F} {r} (h : w.assignS i f v = some r) : Adds w (i, f) ([], w) r := by
  simp only [World.assignS] at h
  split at h
  · cases h
  · next d hd =>
    split at h
    · next u hu =>
      obtain ⟨n, hn, hp⟩ := Option.bind_eq_some_iff.1 hd
      obtain ⟨e, hm, -⟩ := port_is_field hp
      subst e
      have h0 : Adds w (i, d.name) ([], w) ([⟨i, d.name, some u⟩], w.setField i d.name u) :=
        ⟨[⟨i, d.name, some u⟩], rfl, rfl, fun m hm' => by rw [List.mem_singleton.1 hm']; exact ⟨.here _, n, d, hn, hm, rfl⟩⟩
      exact h0.trans (spreadS_adds (h0.like (.refl w)) h)
    · cases h
  · next e hd =>
    obtain ⟨n, hn, hp⟩ := Option.bind_eq_some_iff.1 hd
    have := spreadS_adds (.refl w) h
    rw [(port_is_event hp).1] at this
    exact this

/-! ### The cache keeps up -/

open Verif.TCache Verif.Cache

variable {M : Type}

theorem step_len (c : St Key (Dat M)) (o : Op Key (Dat M)) : c.objs.length ≤ (step c o).objs.length := by
  by_cases h : ∃ a t, o = .alloc a t
  · obtain ⟨a, t, rfl⟩ := h
    simp only [step]; split <;> simp
  · exact Nat.le_of_eq (objs_length_step (fun a t e => h ⟨a, t, e⟩)).symm

/-- an event leaves the older objects what they are -/
structure Older (S S' : Sys V M) : Prop where
  len : S.cache.objs.length ≤ S'.cache.objs.length
  alive : ∀ i, i < S.cache.objs.length → S'.cache.alive i = true → S.cache.alive i = true
  isT : ∀ i, i < S.cache.objs.length → S'.isT i = S.isT i

theorem Older.refl (S : Sys V M) : Older S S := ⟨Nat.le_refl _, fun _ _ h => h, fun _ _ => rfl⟩

/-- neither a new value nor a read default -/
def SilentEv : Ev V M → Bool
  | .change _ _ _ => false
  | .readDefault _ _ => false
  | _ => true

theorem older_step {P : Params V M} {S : Sys V M} (hS : SInv P S) (e : Ev V M) : Older S (sysStep P S e) := by
  have q : ∀ (S' : Sys V M) (o : Op Key (Dat M)), S'.cache = step S.cache o → (∀ i, i < S.cache.objs.length → S'.isT i = S.isT i) → Older S S' := fun S' o h ht =>
    ⟨by rw [h]; exact step_len _ _, fun i hi ha => alive_step hi (by rw [h] at ha; exact ha), ht⟩
  have q' : ∀ (S' : Sys V M), S'.cache.objs = S.cache.objs → S'.isT = S.isT → Older S S' := fun S' h ht =>
    ⟨by rw [h], fun i hi ha => by unfold St.alive at ha ⊢; rw [h] at ha; exact ha, fun i _ => by rw [ht]⟩
  cases e with
  | newNode a t =>
    simp only [sysStep]; split
    · exact .refl S
    · exact q _ (.alloc a true) rfl (fun i hi => if_neg (Nat.ne_of_lt hi))
  | newPath a l =>
    simp only [sysStep]; split
    · exact .refl S
    · split
      · exact q _ (.alloc a (!l.isEmpty)) rfl (fun i hi => if_neg (Nat.ne_of_lt hi))
      · exact .refl S
  | change n f v =>
    simp only [sysStep]; split
    · exact q _ (.fire n f) rfl (fun _ _ => rfl)
    · exact .refl S
  | readDefault n f => exact ⟨Nat.le_refl _, fun _ _ h => h, fun _ _ => rfl⟩
  | askLocal n fl =>
    simp only [sysStep]; split
    · next h => exact q' _ (queryLocal_spec hS.loc h fl).1.objs rfl
    · exact .refl S
  | askPath p i fl =>
    simp only [sysStep]; split
    · next h => exact q' _ (queryPath_spec hS.loc hS.path h i fl).2.2.1 rfl
    · exact .refl S
  | other o =>
    simp only [sysStep]; split
    · exact q _ o rfl (fun _ _ => rfl)
    · exact .refl S

theorem silent_vals (P : Params V M) (S : Sys V M) {e : Ev V M} (h : SilentEv e = true) {i : Nat} (hi : i < S.cache.objs.length) : (sysStep P S e).vals i = S.vals i := by
  cases e with
  | newNode a t => simp only [sysStep]; split; · rfl
                   · exact if_neg (Nat.ne_of_lt hi)
  | newPath a l => simp only [sysStep]; split; · rfl
                   · split
                     · exact if_neg (Nat.ne_of_lt hi)
                     · rfl
  | change n f v => cases h
  | readDefault n f => cases h
  | askLocal n fl => simp only [sysStep]; split <;> rfl
  | askPath p i fl => simp only [sysStep]; split <;> rfl
  | other o => simp only [sysStep]; split <;> rfl

/-- the cache's view of the first `N` objects is that of the scene -/
structure KeepsUp (P : Params (Val F) M) (isT : Nat → Bool) (N : Nat) (w : World F) (S : Sys (Val F) M) : Prop where
  inv : SInv P S
  len : N ≤ S.cache.objs.length
  isT : ∀ i, i < N → S.isT i = isT i
  vals : ∀ i, i < N → S.cache.alive i = true → ∀ k, k < 5 → S.vals i k = w.matrixField i k ∨ (w.matrixField i k = none ∧ S.vals i k = some (P.dflt k))

theorem KeepsUp.silent {P : Params (Val F) M} (hD : DefaultsNeutral P) {isT N} {w : World F} {S : Sys (Val F) M} (h : KeepsUp P isT N w S) {e : Ev (Val F) M} (he : SilentEv e = true) :
    KeepsUp P isT N w (sysStep P S e) := by
  have o := older_step h.inv e
  refine ⟨sinv_step hD h.inv e, Nat.le_trans h.len o.len, fun i hi => (o.isT i (Nat.lt_of_lt_of_le hi h.len)).trans (h.isT i hi), fun i hi ha k hk => ?_⟩
  rw [silent_vals P S he (Nat.lt_of_lt_of_le hi h.len)]
  exact h.vals i hi (o.alive i (Nat.lt_of_lt_of_le hi h.len) ha) k hk

theorem KeepsUp.read {P : Params (Val F) M} (hD : DefaultsNeutral P) {isT N} {w : World F} {S : Sys (Val F) M} (h : KeepsUp P isT N w S) (n f : Nat) :
    KeepsUp P isT N w (sysStep P S (.readDefault n f)) := by
  refine ⟨sinv_step hD h.inv _, h.len, h.isT, fun i hi ha k hk => ?_⟩
  have h0 := h.vals i hi ha k hk
  simp only [sysStep]
  split
  · next hc =>
    obtain ⟨rfl, rfl, hc⟩ := hc
    rw [hc] at h0
    rcases h0 with h0 | ⟨_, h0⟩
    · exact .inr ⟨h0.symm, rfl⟩
    · cases h0
  · exact h0

theorem fieldNo_k {g : Text} {k : Nat} (hk : k < 5) (h : fieldNo g = k) : ∀ (w : World F) (i : Nat), w.matrixField i k = w.at i g := by
  intro w i
  unfold fieldNo at h
  split at h
  · next e => subst h; subst e; rfl
  · split at h
    · next e => subst h; subst e; rfl
    · split at h
      · next e => subst h; subst e; rfl
      · split at h
        · next e => subst h; subst e; rfl
        · split at h
          · next e => subst h; subst e; rfl
          · omega

theorem matrixField_set_ne {w : World F} {n i : Nat} {g : Text} {u : Val F} {k : Nat} (h : ¬ (i = n ∧ k = fieldNo g)) : (w.setField n g u).matrixField i k = w.matrixField i k := by
  have at_ne : ∀ g', ¬ (i = n ∧ g' = g) → (w.setField n g u).at i g' = w.at i g' := fun g' hne => by
    simp only [World.at, World.setField]
    by_cases hi : i = n
    · subst hi
      simp only [if_true]
      cases w.heap i with
      | none => rfl
      | some m =>
        simp only [Option.map_some, Option.bind_some, Node.set]
        exact if_neg (fun e => hne ⟨rfl, e⟩)
    · rw [if_neg hi]
  have no : ∀ g', ¬ (i = n ∧ fieldNo g' = fieldNo g) → (w.setField n g u).at i g' = w.at i g' := fun g' hne => at_ne g' (fun ⟨a, b⟩ => hne ⟨a, b ▸ rfl⟩)
  match k with
  | 0 => exact no (chars "translation") (fun ⟨a, b⟩ => h ⟨a, by rw [← b]; rfl⟩)
  | 1 => exact no (chars "center") (fun ⟨a, b⟩ => h ⟨a, by rw [← b]; rfl⟩)
  | 2 => exact no (chars "scale") (fun ⟨a, b⟩ => h ⟨a, by rw [← b]; rfl⟩)
  | 3 => exact no (chars "scaleOrientation") (fun ⟨a, b⟩ => h ⟨a, by rw [← b]; rfl⟩)
  | 4 => exact no (chars "rotation") (fun ⟨a, b⟩ => h ⟨a, by rw [← b]; rfl⟩)
  | _ + 5 => rfl

theorem KeepsUp.note {P : Params (Val F) M} (hD : DefaultsNeutral P) {isT N} {w : World F} {S : Sys (Val F) M} (h : KeepsUp P isT N w S) (n : Note F) (hn : (w.heap n.node).isSome) :
    KeepsUp P isT N (replay w [n]) (sysStep P S (heard n)) := by
  obtain ⟨j, g, u⟩ := n
  cases u with
  | none => exact h.silent hD rfl
  | some u =>
    have o := older_step h.inv (heard (M := M) ⟨j, g, some u⟩)
    refine ⟨sinv_step hD h.inv _, Nat.le_trans h.len o.len, fun i hi => (o.isT i (Nat.lt_of_lt_of_le hi h.len)).trans (h.isT i hi), fun i hi ha k hk => ?_⟩
    have ha0 := o.alive i (Nat.lt_of_lt_of_le hi h.len) ha
    have h0 := h.vals i hi ha0 k hk
    change (sysStep P S (.change j (fieldNo g) (some u))).vals i k = (w.setField j g u).matrixField i k ∨ ((w.setField j g u).matrixField i k = none ∧ (sysStep P S (.change j (fieldNo g) (some u))).vals i k = _)
    by_cases hc : i = j ∧ k = fieldNo g
    · obtain ⟨rfl, rfl⟩ := hc
      left
      simp only [sysStep, ha0, if_true]
      rw [if_pos (by simp), fieldNo_k hk rfl]
      obtain ⟨m, hm⟩ := Option.isSome_iff_exists.1 hn
      simp only [World.at, World.setField, if_true]
      change w.heap i = some m at hm
      rw [hm]; simp [Node.set]
    · rw [matrixField_set_ne hc]
      have : (sysStep P S (.change j (fieldNo g) (some u))).vals i k = S.vals i k := by
        simp only [sysStep]; split
        · exact if_neg hc
        · rfl
      rw [this]; exact h0

theorem KeepsUp.notes {P : Params (Val F) M} (hD : DefaultsNeutral P) {isT N} : ∀ (l : List (Note F)) {w : World F} {S : Sys (Val F) M}, KeepsUp P isT N w S →
    (∀ n ∈ l, (w.heap n.node).isSome) → KeepsUp P isT N (replay w l) ((l.map heard).foldl (sysStep P) S)
  | [], _, _, h, _ => h
  | n :: l, w, S, h, hn => by
    refine KeepsUp.notes hD l (w := replay w [n]) (h.note hD n (hn n (by simp))) (fun m hm => ?_)
    have h0 := hn m (by simp [hm])
    have := (replay_like [n] (.refl w)).cls m.node
    obtain ⟨x, hx⟩ := Option.isSome_iff_exists.1 h0
    rw [hx] at this
    cases hy : (replay w [n]).heap m.node with
    | none => rw [hy] at this; cases this
    | some y => rfl

/-! loading -/

theorem load_nodes (P : Params (Val F) M) (isT : Nat → Bool) : ∀ N : Nat,
    let S := ((List.range N).map (fun i => Ev.newNode (V := Val F) (M := M) i (isT i))).foldl (sysStep P) Sys.init
    S.cache.objs = (List.range N).map (fun i => ⟨i, true, true⟩) ∧ (∀ i, i < N → S.isT i = isT i)
  | 0 => ⟨rfl, fun _ h => absurd h (Nat.not_lt_zero _)⟩
  | N + 1 => by
    obtain ⟨h1, h2⟩ := load_nodes P isT N
    simp only [List.range_succ, List.map_append, List.map_cons, List.map_nil, List.foldl_append, List.foldl_cons, List.foldl_nil]
    generalize ((List.range N).map (fun i => Ev.newNode (V := Val F) (M := M) i (isT i))).foldl (sysStep P) Sys.init = S at h1 h2 ⊢
    have hf : S.cache.objs.any (fun o => o.alive && o.addr == N) = false := by
      rw [h1]; simp only [List.any_map, List.any_eq_false, List.mem_range]
      intro x hx; simp; exact Nat.ne_of_lt hx
    have hl : S.cache.objs.length = N := by rw [h1]; simp
    simp only [sysStep, hf, Bool.false_eq_true, if_false]
    refine ⟨?_, fun i hi => ?_⟩
    · simp only [step, hf, Bool.false_eq_true, if_false]; rw [h1]
    · rw [hl]
      by_cases e : i = N
      · rw [if_pos e, e]
      · rw [if_neg e]; exact h2 i (by omega)

theorem load_vals (P : Params (Val F) M) (hD : DefaultsNeutral P) (w : World F) {i k : Nat} : ∀ (l : List (Nat × Text)) {S : Sys (Val F) M}, SInv P S → i < S.cache.objs.length →
    let S' := (l.map (fun x => Ev.change (M := M) x.1 (fieldNo x.2) (w.at x.1 x.2))).foldl (sysStep P) S
    k < 5 → ((∃ x ∈ l, x.1 = i ∧ fieldNo x.2 = k) ∨ S.vals i k = w.matrixField i k) →
      SInv P S' ∧ S.cache.objs.length ≤ S'.cache.objs.length ∧ (∀ j, j < S.cache.objs.length → S'.isT j = S.isT j) ∧ (S'.cache.alive i = true → S.cache.alive i = true ∧ S'.vals i k = w.matrixField i k)
  | [], S, hS, hi, hk, h => ⟨hS, Nat.le_refl _, fun _ _ => rfl, fun ha => ⟨ha, h.resolve_left (by simp)⟩⟩
  | x :: l, S, hS, hi, hk, h => by
    have o := older_step hS (Ev.change (M := M) x.1 (fieldNo x.2) (w.at x.1 x.2))
    simp only [List.map_cons, List.foldl_cons]
    by_cases ha : S.cache.alive i = true
    · have h' : (∃ y ∈ l, y.1 = i ∧ fieldNo y.2 = k) ∨ (sysStep P S (Ev.change (M := M) x.1 (fieldNo x.2) (w.at x.1 x.2))).vals i k = w.matrixField i k := by
        by_cases hc : x.1 = i ∧ fieldNo x.2 = k
        · right
          simp only [sysStep, hc.1, ha, if_true]
          rw [if_pos ⟨trivial, hc.2.symm⟩, fieldNo_k hk hc.2]
        · rcases h with ⟨y, hy, hy'⟩ | h
          · rcases List.mem_cons.1 hy with rfl | hy
            · exact absurd hy' hc
            · exact .inl ⟨y, hy, hy'⟩
          · right
            rw [← h]
            simp only [sysStep]; split
            · exact if_neg (fun e => hc ⟨e.1.symm, e.2.symm⟩)
            · rfl
      obtain ⟨k1, k2, k3, k4⟩ := load_vals P hD w l (sinv_step hD hS _) (Nat.lt_of_lt_of_le hi o.len) hk h'
      exact ⟨k1, Nat.le_trans o.len k2, fun j hj => (k3 j (Nat.lt_of_lt_of_le hj o.len)).trans (o.isT j hj), fun hb => ⟨ha, (k4 hb).2⟩⟩
    · have dead : ∀ (l : List (Ev (Val F) M)) (S : Sys (Val F) M), SInv P S → i < S.cache.objs.length → (l.foldl (sysStep P) S).cache.alive i = true → S.cache.alive i = true := by
        intro l
        induction l with
        | nil => intro S _ _ h; exact h
        | cons e l ih => intro S hS hi h; exact (older_step hS e).alive i hi (ih _ (sinv_step hD hS e) (Nat.lt_of_lt_of_le hi (older_step hS e).len) h)
      have rest : ∀ (l : List (Ev (Val F) M)) (S : Sys (Val F) M), SInv P S → SInv P (l.foldl (sysStep P) S) ∧ Older S (l.foldl (sysStep P) S) := by
        intro l
        induction l with
        | nil => intro S h; exact ⟨h, .refl S⟩
        | cons e l ih =>
          intro S h
          obtain ⟨k1, k2⟩ := ih _ (sinv_step hD h e)
          have o := older_step h e
          exact ⟨k1, Nat.le_trans o.len k2.len, fun j hj ha => o.alive j hj (k2.alive j (Nat.lt_of_lt_of_le hj o.len) ha), fun j hj => (k2.isT j (Nat.lt_of_lt_of_le hj o.len)).trans (o.isT j hj)⟩
      obtain ⟨k1, k2⟩ := rest (Ev.change (M := M) x.1 (fieldNo x.2) (w.at x.1 x.2) :: l.map (fun x => Ev.change (M := M) x.1 (fieldNo x.2) (w.at x.1 x.2))) S hS
      exact ⟨k1, k2.len, k2.isT, fun hb => absurd (k2.alive i hi hb) ha⟩

theorem load_keepsUp {P : Params (Val F) M} (hD : DefaultsNeutral P) (isT : Nat → Bool) (w : World F) : KeepsUp P isT w.next w (sysRun P (Live.load isT w).evs) := by
  obtain ⟨h1, h2⟩ := load_nodes P isT w.next
  have hs := sinv_run hD ((List.range w.next).map (fun i => Ev.newNode (V := Val F) (M := M) i (isT i)))
  have hl : (sysRun P ((List.range w.next).map (fun i => Ev.newNode (V := Val F) (M := M) i (isT i)))).cache.objs.length = w.next := by
    rw [sysRun, h1]; simp
  let names := [chars "translation", chars "center", chars "scale", chars "scaleOrientation", chars "rotation"]
  let ps : List (Nat × Text) := (List.range w.next).flatMap (fun i => names.map (fun g => (i, g)))
  have he : sysRun P (Live.load isT w).evs = (ps.map (fun x => Ev.change (M := M) x.1 (fieldNo x.2) (w.at x.1 x.2))).foldl (sysStep P)
      (sysRun P ((List.range w.next).map (fun i => Ev.newNode (V := Val F) (M := M) i (isT i)))) := by
    simp only [sysRun, Live.load, List.foldl_append, ps, names, List.map_flatMap, List.map_map]
    rfl
  have hp : ∀ i, i < w.next → ∀ k, k < 5 → ∃ x ∈ ps, x.1 = i ∧ fieldNo x.2 = k := by
    intro i hi k hk
    have : ∃ g ∈ names, fieldNo g = k := by
      match k with
      | 0 => exact ⟨chars "translation", by simp [names], by decide⟩
      | 1 => exact ⟨chars "center", by simp [names], by decide⟩
      | 2 => exact ⟨chars "scale", by simp [names], by decide⟩
      | 3 => exact ⟨chars "scaleOrientation", by simp [names], by decide⟩
      | 4 => exact ⟨chars "rotation", by simp [names], by decide⟩
    obtain ⟨g, hg, hk'⟩ := this
    exact ⟨(i, g), List.mem_flatMap.2 ⟨i, List.mem_range.2 hi, List.mem_map.2 ⟨g, hg, rfl⟩⟩, rfl, hk'⟩
  rw [he]
  by_cases h0 : w.next = 0
  · refine ⟨?_, by rw [h0]; exact Nat.zero_le _, fun i hi => by omega, fun i hi => by omega⟩
    rw [← he]; exact sinv_run hD _
  · have all := fun i (hi : i < w.next) k (hk : k < 5) => load_vals P hD w (i := i) (k := k) ps hs (by rw [hl]; exact hi) hk (.inl (hp i hi k hk))
    obtain ⟨k1, k2, k3, -⟩ := all 0 (by omega) 0 (by omega)
    exact ⟨k1, by rw [hl] at k2; exact k2, fun i hi => (k3 i (by rw [hl]; exact hi)).trans (h2 i hi), fun i hi ha k hk => .inl ((all i hi k hk).2.2.2 ha).2⟩

theorem act_keepsUp {P : Params (Val F) M} (hD : DefaultsNeutral P) {isT N} {s s' : Live F M} {a : Act F M} (h : s.act a = some s') (hk : KeepsUp P isT N s.world (sysRun P s.evs)) :
    KeepsUp P isT N s'.world (sysRun P s'.evs) := by
  have one : ∀ e : Ev (Val F) M, sysRun P (s.evs ++ [e]) = sysStep P (sysRun P s.evs) e := fun e => by simp [sysRun, List.foldl_append]
  cases a with
  | assign i f v =>
    obtain ⟨r, hr, rfl⟩ := Option.map_eq_some_iff.1 h
    obtain ⟨new, e1, e2, e3⟩ := assignS_adds hr
    simp only [List.nil_append] at e1
    simp only [sysRun, List.foldl_append]
    rw [e2, e1]
    refine KeepsUp.notes hD new hk (fun n hn => ?_)
    obtain ⟨-, m, d, hm, -⟩ := e3 n hn
    exact Option.isSome_iff_exists.2 ⟨m, hm⟩
  | ask i fl => cases h; rw [one]; exact hk.silent hD rfl
  | path l => cases h; rw [one]; exact hk.silent hD rfl
  | askPath p i fl => cases h; rw [one]; exact hk.silent hD rfl
  | read i f => cases h; rw [one]; exact hk.read hD _ _
  | other o => cases h; rw [one]; exact hk.silent hD rfl

theorem run_keepsUp {P : Params (Val F) M} (hD : DefaultsNeutral P) {isT N} {acts : List (Act F M)} {s s' : Live F M} (h : s.run acts = some s') (hk : KeepsUp P isT N s.world (sysRun P s.evs)) :
    KeepsUp P isT N s'.world (sysRun P s'.evs) :=
  foldlM_inv (P := fun s => KeepsUp P isT N s.world (sysRun P s.evs)) (fun _ _ _ _ ha hb => act_keepsUp hD hb ha) hk h

/-- stored defaults do not matter -/
theorem KeepsUp.matrices {P : Params (Val F) M} (hD : DefaultsNeutral P) {isT N} {w : World F} {S : Sys (Val F) M} (h : KeepsUp P isT N w S) {i : Nat} (hi : i < N) (ha : S.cache.alive i = true) (fl : Flags) :
    nodeNow P S i fl = w.matrices P fl i := by
  have hu : ∀ k, takesPart fl k = Uses fl k := fun k => by unfold takesPart Uses; rfl
  -- replace one field after the other
  have key : ∀ n, n ≤ 5 → nodeNow P S i fl = P.loc (fun k => if Uses fl k then (if k < n then w.matrixField i k else S.vals i k) else none) := by
    intro n
    induction n with
    | zero => intro _; simp only [nodeNow, hu, Nat.not_lt_zero, if_false]
    | succ n ih =>
      intro hn
      rw [ih (by omega)]
      rcases h.vals i hi ha n (by omega) with e | ⟨e1, e2⟩
      · congr 1
        funext k
        by_cases hk : k = n
        · subst hk; simp [e]
        · have : k < n + 1 ↔ k < n := by omega
          simp only [this]
      · by_cases hun : Uses fl n = true
        · rw [← hD (fun k => if Uses fl k then (if k < n + 1 then w.matrixField i k else S.vals i k) else none) n (by simp [e1])]
          congr 1
          funext k
          by_cases hk : k = n
          · subst hk; simp [e2, hun]
          · have : k < n + 1 ↔ k < n := by omega
            simp only [this, if_neg hk]
        · congr 1
          funext k
          by_cases hk : k = n
          · subst hk; simp [hun]
          · have : k < n + 1 ↔ k < n := by omega
            simp only [this]
  rw [key 5 (Nat.le_refl _), World.matrices]
  congr 1
  funext k
  by_cases hk : k < 5
  · simp [hk]
  · have : Uses fl k = false := by
      match k, hk with
      | _ + 5, _ => rfl
    simp [this]

end Verif.Full
