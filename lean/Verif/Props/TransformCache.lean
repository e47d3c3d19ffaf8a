import Verif.Model.TransformCache
import Verif.Props.Cache
/-!
C34, C35 – the cached matrices of transforms and node paths are never stale
(basenodes.Transform.localMatrices, vrml97/nodepath._NodePath.transformMatrix).
-/
namespace Verif.TCache
open Verif.Cache
variable {V M : Type}

abbrev CSt (M : Type) := St Key (Dat M)

/-! ### Specification -/

/-- Does field `f` take part under the flags?  Translation (0) when translating, center (1) when scaling or rotating,
scale (2) and scaleOrientation (3) when scaling, rotation (4) when rotating; nothing else ever. -/
def takesPart (fl : Flags) (f : Nat) : Bool :=
  match f with
  | 0 => fl.translate
  | 1 => fl.scale || fl.rotate
  | 2 => fl.scale
  | 3 => fl.scale
  | 4 => fl.rotate
  | _ => false

/-- The matrices of a transform, recomputed from the values its fields have now; fields that do not take part count
as absent. -/
def nodeNow (P : Params V M) (S : Sys V M) (n : Oid) (fl : Flags) : M × M :=
  P.loc (fun f => if takesPart fl f then S.vals n f else none)

/-- The matrix of a path, recomputed from the current fields of its transforms: from the forward matrices in path
order, or from the inverse matrices in reverse path order. -/
def pathNow (P : Params V M) (S : Sys V M) (p : Oid) (inverse : Bool) (fl : Flags) : M :=
  let transforms := (S.items p).filter S.isT
  if inverse then P.compress (transforms.reverse.map (fun n => (nodeNow P S n fl).2))
  else P.compress (transforms.map (fun n => (nodeNow P S n fl).1))

theorem localNow_eq (P : Params V M) (S : Sys V M) (n : Oid) (fl : Flags) : S.localNow P n fl = nodeNow P S n fl := by
  unfold Sys.localNow nodeNow
  congr 1
  funext f
  have : (f ∈ localFields fl) ↔ takesPart fl f = true := by
    obtain ⟨t, sc, r⟩ := fl
    match f with
    | 0 => cases t <;> cases sc <;> cases r <;> decide
    | 1 => cases t <;> cases sc <;> cases r <;> decide
    | 2 => cases t <;> cases sc <;> cases r <;> decide
    | 3 => cases t <;> cases sc <;> cases r <;> decide
    | 4 => cases t <;> cases sc <;> cases r <;> decide
    | k + 5 => cases t <;> cases sc <;> cases r <;> simp [localFields, takesPart]
  simp [mask, this]

theorem pathNow_eq (P : Params V M) (S : Sys V M) (p : Oid) (inverse : Bool) (fl : Flags) :
    pathNow P S p inverse fl =
      P.compress ((S.children p inverse).map (fun n => if inverse then (S.localNow P n fl).2 else (S.localNow P n fl).1)) := by
  cases inverse <;> simp [pathNow, Sys.children, localNow_eq, List.filter_reverse]

/-- The same in terms of the model's own helpers, for the proofs below. -/
def pathNow0 (P : Params V M) (S : Sys V M) (p : Oid) (inverse : Bool) (fl : Flags) : M :=
  P.compress ((S.children p inverse).map (fun n => if inverse then (S.localNow P n fl).2 else (S.localNow P n fl).1))

/-- An unset field and an explicit default give the same matrices (proved for the real computation in
Verif/Props/Matrix.lean). -/
def DefaultsNeutral (P : Params V M) : Prop :=
  ∀ (v : Nat → Option V) (f : Nat), v f = none → P.loc (fun g => if g = f then some (P.dflt f) else v g) = P.loc v

/-! ### Frame relation on the cache -/

structure Fr (Q : Oid → Key → Prop) (c c' : CSt M) : Prop where
  objs : c'.objs = c.objs
  conns : ∀ x ∈ c.conns, x ∈ c'.conns
  inv : Inv c → Inv c'
  same : Inv c → ∀ x k, c.alive x = true → Q x k → c'.getHolder x k = c.getHolder x k ∧ c'.getData x k = c.getData x k

theorem Fr.refl (Q : Oid → Key → Prop) (c : CSt M) : Fr Q c c :=
  ⟨rfl, fun _ h => h, id, fun _ _ _ _ _ => ⟨rfl, rfl⟩⟩

theorem Fr.alive {Q : Oid → Key → Prop} {c c' : CSt M} (a : Fr Q c c') (x : Oid) : c'.alive x = c.alive x := by
  unfold St.alive; rw [a.objs]

theorem Fr.trans {Q : Oid → Key → Prop} {c c1 c2 : CSt M} (a : Fr Q c c1) (b : Fr Q c1 c2) : Fr Q c c2 := by
  refine ⟨b.objs.trans a.objs, fun x h => b.conns x (a.conns x h), b.inv ∘ a.inv, ?_⟩
  intro hI x k hx hq
  obtain ⟨h1, h2⟩ := a.same hI x k hx hq
  obtain ⟨h3, h4⟩ := b.same (a.inv hI) x k (by rw [a.alive]; exact hx) hq
  exact ⟨h3.trans h1, h4.trans h2⟩

theorem Fr.mono {Q Q' : Oid → Key → Prop} {c c' : CSt M} (a : Fr Q c c') (h : ∀ x k, Q' x k → Q x k) : Fr Q' c c' :=
  ⟨a.objs, a.conns, a.inv, fun hI x k hx hq => a.same hI x k hx (h x k hq)⟩

theorem fr_depend (c : CSt M) (h : Hid) (n : Oid) (f : Nat) : Fr (fun _ _ => True) c (step c (.depend h n f)) := by
  refine ⟨?_, fun x hx => conns_step c _ x hx, fun hI => inv_step hI _, ?_⟩
  · simp only [step]; split; split <;> rfl; rfl
  · intro hI x k hx _
    exact (frame_step hI (.depend h n f) x k hx (by simp [Touches])).2

theorem fr_dependObj (c : CSt M) (h : Hid) (r : Ref) : Fr (fun _ _ => True) c (step c (.dependObj h r)) := by
  refine ⟨?_, fun x hx => conns_step c _ x hx, fun hI => inv_step hI _, ?_⟩
  · simp only [step]; split <;> rfl
  · intro hI x k hx _
    exact (frame_step hI (.dependObj h r) x k hx (by simp [Touches])).2

theorem fr_newHolder (c : CSt M) (n : Oid) (k0 : Key) (d : Option (Dat M)) :
    Fr (fun x k => ¬ (x = n ∧ k = k0)) c (step c (.newHolder n k0 d)) := by
  refine ⟨?_, fun x hx => conns_step c _ x hx, fun hI => inv_step hI _, ?_⟩
  · simp only [step, newHolder]; split; split <;> rfl; rfl
  · intro hI x k hx hq
    exact (frame_step hI (.newHolder n k0 d) x k hx (by rintro ⟨rfl, rfl⟩; exact hq ⟨rfl, rfl⟩)).2

theorem fr_setData {c : CSt M} (hI : Inv c) {n : Oid} {k0 : Key} {h : Hid} (hn : c.alive n = true)
    (hh : c.getHolder n k0 = some h) (d : Option (Dat M)) :
    Fr (fun x k => ¬ (x = n ∧ k = k0)) c (step c (.setData h d)) := by
  refine ⟨?_, fun x hx => conns_step c _ x hx, fun hI => inv_step hI _, ?_⟩
  · simp only [step]; split <;> rfl
  · intro _ x k hx hq
    refine (frame_step hI (.setData h d) x k hx ?_).2
    intro ht
    obtain ⟨y, e, e1, e2⟩ := hI.getHolder_own hx ht
    obtain ⟨y', e', e1', e2'⟩ := hI.getHolder_own hn hh
    rw [e] at e'; injection e' with e'; subst e'
    exact hq ⟨e1.symm.trans e1', e2.symm.trans e2'⟩

theorem getData_setData {c : CSt M} (hI : Inv c) {n : Oid} {k0 : Key} {h : Hid} (hn : c.alive n = true)
    (hh : c.getHolder n k0 = some h) (d : Option (Dat M)) :
    (step c (.setData h d)).getHolder n k0 = some h ∧ (step c (.setData h d)).getData n k0 = d := by
  obtain ⟨y, e, _⟩ := hI.getHolder_own hn hh
  have hstep : step c (.setData h d) = c.setHolder h { y with data := d } := by simp only [step, e]
  rw [hstep]
  have h1 : (c.setHolder h { y with data := d }).getHolder n k0 = some h := hh
  refine ⟨h1, ?_⟩
  simp only [St.getData, h1, holder?_setHolder, true_and, holder?_lt e, if_true]

theorem getData_eq_holderData {c : CSt M} {n : Oid} {k : Key} {h : Hid} (hh : c.getHolder n k = some h) :
    c.getData n k = holderData c h := by
  unfold St.getData holderData; rw [hh]; simp only; rcases c.holder? h <;> rfl

theorem fr_dependAll (h : Hid) (n : Oid) : ∀ (fs : List Nat) (c : CSt M), Fr (fun _ _ => True) c (dependAll c h n fs) := by
  intro fs
  induction fs with
  | nil => intro c; exact Fr.refl _ c
  | cons f fs ih => intro c; exact (fr_depend c h n f).trans (ih _)

theorem holder?_depend (c : CSt M) (h h' : Hid) (n : Oid) (f : Nat) : (step c (.depend h n f)).holder? h' = c.holder? h' := by
  simp only [step]; split; split <;> rfl; rfl

theorem dependAll_conns {h : Hid} {n : Oid} : ∀ (fs : List Nat) (c : CSt M), c.holder? h ≠ none → c.alive n = true →
    ∀ f ∈ fs, ((n, f), h) ∈ (dependAll c h n fs).conns := by
  intro fs
  induction fs with
  | nil => intro c _ _ f hf; simp at hf
  | cons g fs ih =>
    intro c hh hn f hf
    have hh' : (step c (.depend h n g)).holder? h ≠ none := by rw [holder?_depend]; exact hh
    have hn' : (step c (.depend h n g)).alive n = true := by rw [(fr_depend c h n g).alive]; exact hn
    rcases List.mem_cons.1 hf with rfl | hf
    · apply (fr_dependAll h n fs _).conns
      rcases e : c.holder? h with _ | y
      · exact absurd e hh
      · simp [step, e, hn]
    · exact ih _ hh' hn' f hf

/-! ### The per-node matrices -/

/-- The holder for a node's local matrices watches every field that enters them, and its data is current. -/
structure LocInv (P : Params V M) (S : Sys V M) (c : CSt M) : Prop where
  inv : Inv c
  conn : ∀ n fl h, c.alive n = true → c.getHolder n (.loc fl) = some h → ∀ f ∈ localFields fl, ((n, f), h) ∈ c.conns
  data : ∀ n fl d, c.alive n = true → c.getData n (.loc fl) = some d → d = .pair (S.localNow P n fl)

/-- The same for the matrices of a path, for the flag combinations that watch enough. -/
structure PathInv (P : Params V M) (S : Sys V M) (c : CSt M) : Prop where
  live : ∀ p, c.alive p = true → ∀ n ∈ S.items p, c.alive n = true
  conn : ∀ p i fl h, c.alive p = true → c.getHolder p (.path i fl) = some h →
    ∀ n ∈ S.items p, S.isT n = true → ∀ f ∈ pathFields fl, ((n, f), h) ∈ c.conns
  data : ∀ p i fl d, (fl.scale = true → fl.rotate = true) → c.alive p = true → c.getData p (.path i fl) = some d →
    d = .mat (pathNow0 P S p i fl)

theorem LocInv.fr {P : Params V M} {S : Sys V M} {c c' : CSt M} (h : LocInv P S c)
    (a : Fr (fun _ k => ∃ fl, k = .loc fl) c c') : LocInv P S c' := by
  refine ⟨a.inv h.inv, ?_, ?_⟩
  · intro n fl hd hn hg f hf
    rw [a.alive] at hn
    rw [(a.same h.inv n (.loc fl) hn ⟨fl, rfl⟩).1] at hg
    exact a.conns _ (h.conn n fl hd hn hg f hf)
  · intro n fl d hn hg
    rw [a.alive] at hn
    rw [(a.same h.inv n (.loc fl) hn ⟨fl, rfl⟩).2] at hg
    exact h.data n fl d hn hg

theorem PathInv.fr {P : Params V M} {S : Sys V M} {c c' : CSt M} (h : PathInv P S c) (hI : Inv c)
    (a : Fr (fun _ k => ∃ i fl, k = .path i fl) c c') : PathInv P S c' := by
  refine ⟨?_, ?_, ?_⟩
  · intro p hp n hn; rw [a.alive] at hp ⊢; exact h.live p hp n hn
  · intro p i fl hd hp hg n hn ht f hf
    rw [a.alive] at hp
    rw [(a.same hI p (.path i fl) hp ⟨i, fl, rfl⟩).1] at hg
    exact a.conns _ (h.conn p i fl hd hp hg n hn ht f hf)
  · intro p i fl d hfl hp hg
    rw [a.alive] at hp
    rw [(a.same hI p (.path i fl) hp ⟨i, fl, rfl⟩).2] at hg
    exact h.data p i fl d hfl hp hg

theorem queryLocal_spec {P : Params V M} {S : Sys V M} {c : CSt M} (h : LocInv P S c) {n : Oid} (hn : c.alive n = true)
    (fl : Flags) :
    Fr (fun x k => ¬ (x = n ∧ k = .loc fl)) c (queryLocal P S c n fl).2 ∧
    (queryLocal P S c n fl).2.getHolder n (.loc fl) = some (queryLocal P S c n fl).1 ∧
    (queryLocal P S c n fl).2.getData n (.loc fl) = some (.pair (S.localNow P n fl)) ∧
    LocInv P S (queryLocal P S c n fl).2 := by
  have key : ∀ (c1 : CSt M) (hd : Hid), Fr (fun x k => ¬ (x = n ∧ k = .loc fl)) c c1 → c1.getHolder n (.loc fl) = some hd →
      (∀ f ∈ localFields fl, ((n, f), hd) ∈ c1.conns) →
      let c2 := step c1 (.setData hd (some (.pair (S.localNow P n fl))))
      Fr (fun x k => ¬ (x = n ∧ k = .loc fl)) c c2 ∧ c2.getHolder n (.loc fl) = some hd ∧
      c2.getData n (.loc fl) = some (.pair (S.localNow P n fl)) ∧ LocInv P S c2 := by
    intro c1 hd a hg hcon c2
    have hI1 := a.inv h.inv
    have hn1 : c1.alive n = true := by rw [a.alive]; exact hn
    have b := fr_setData hI1 hn1 hg (some (.pair (S.localNow P n fl)))
    obtain ⟨k1, k2⟩ := getData_setData hI1 hn1 hg (some (.pair (S.localNow P n fl)))
    have ab := a.trans b
    refine ⟨ab, k1, k2, b.inv hI1, ?_, ?_⟩
    · intro n' fl' h' hn' hg' f hf
      rw [ab.alive] at hn'
      by_cases heq : n' = n ∧ Key.loc fl' = .loc fl
      · obtain ⟨rfl, e⟩ := heq
        injection e with e; subst e
        rw [k1] at hg'; injection hg' with hg'; subst hg'
        exact b.conns _ (hcon f hf)
      · rw [(ab.same h.inv n' (.loc fl') hn' heq).1] at hg'
        exact ab.conns _ (h.conn n' fl' h' hn' hg' f hf)
    · intro n' fl' d hn' hg'
      rw [ab.alive] at hn'
      by_cases heq : n' = n ∧ Key.loc fl' = .loc fl
      · obtain ⟨rfl, e⟩ := heq
        injection e with e; subst e
        rw [k2] at hg'; injection hg' with hg'; exact hg'.symm
      · rw [(ab.same h.inv n' (.loc fl') hn' heq).2] at hg'
        exact h.data n' fl' d hn' hg'
  unfold queryLocal
  rcases hg : c.getHolder n (.loc fl) with _ | hd
  · simp only
    have a1 := fr_newHolder c n (.loc fl) none
    have a2 := fr_dependAll c.holders.length n (localFields fl) (step c (.newHolder n (.loc fl) none))
    obtain ⟨k1, k2, k3⟩ := newHolder_get c n (.loc fl) none hn
    have hI1 := a1.inv h.inv
    have hn1 : (step c (.newHolder n (.loc fl) none)).alive n = true := k1
    obtain ⟨y, e, _⟩ := hI1.getHolder_own hn1 k2
    apply key _ _ (a1.trans (a2.mono (fun _ _ _ => trivial)))
    · rw [(a2.same hI1 n (.loc fl) hn1 trivial).1]; exact k2
    · exact dependAll_conns _ _ (by rw [e]; simp) hn1
  · simp only
    rcases hdd : holderData c hd with _ | d
    · exact key c hd (Fr.refl _ c) hg (h.conn n fl hd hn hg)
    · refine ⟨Fr.refl _ c, hg, ?_, h⟩
      have : c.getData n (.loc fl) = some d := by rw [getData_eq_holderData hg, hdd]
      rw [this, h.data n fl d hn this]

theorem collect_spec {P : Params V M} {S : Sys V M} (p : Oid) (ph : Hid) (dc i : Bool) (fl : Flags) :
    ∀ (ns : List Oid) (c : CSt M), LocInv P S c → (∀ n ∈ ns, c.alive n = true) → c.alive p = true →
    c.getHolder p (.path i fl) = some ph →
    Fr (fun _ k => ∀ fl, k ≠ .loc fl) c (collect P S ph dc i fl ns c).2 ∧ LocInv P S (collect P S ph dc i fl ns c).2 ∧
    (collect P S ph dc i fl ns c).1 = ns.map (fun n => some (if i then (S.localNow P n fl).2 else (S.localNow P n fl).1)) ∧
    (dc = true → ∀ n ∈ ns, ∀ f ∈ pathFields fl, ((n, f), ph) ∈ (collect P S ph dc i fl ns c).2.conns) := by
  intro ns
  induction ns with
  | nil => intro c h _ _ _; exact ⟨Fr.refl _ c, h, rfl, by simp⟩
  | cons n ns ih =>
    intro c h hns hp hg
    have hn := hns n (by simp)
    obtain ⟨a1, q1, q2, q3⟩ := queryLocal_spec h hn fl
    generalize hq : queryLocal P S c n fl = r at a1 q1 q2 q3
    obtain ⟨ch, c1⟩ := r
    simp only at a1 q1 q2 q3
    have a1' : Fr (fun _ k => ∀ fl, k ≠ .loc fl) c c1 := a1.mono (by rintro x k hk ⟨_, rfl⟩; exact hk fl rfl)
    have hn1 : c1.alive n = true := by rw [a1.alive]; exact hn
    have hp1 : c1.alive p = true := by rw [a1.alive]; exact hp
    have hg1 : c1.getHolder p (.path i fl) = some ph := by
      rw [(a1'.same h.inv p (.path i fl) hp (by intro fl' e; cases e)).1]; exact hg
    -- connecting
    have hcon : ∃ c2, c2 = (if dc then dependAll (step c1 (.dependObj ph (.holder ch))) ph n (pathFields fl) else c1) ∧
        Fr (fun _ _ => True) c1 c2 ∧ (dc = true → ∀ f ∈ pathFields fl, ((n, f), ph) ∈ c2.conns) := by
      refine ⟨_, rfl, ?_, ?_⟩
      · split
        · exact (fr_dependObj c1 ph _).trans (fr_dependAll ph n _ _)
        · exact Fr.refl _ c1
      · intro hdc f hf
        simp only [hdc, if_true]
        have b := fr_dependObj c1 ph (.holder ch)
        have hp2 : (step c1 (.dependObj ph (.holder ch))).alive p = true := by rw [b.alive]; exact hp1
        have hg2 : (step c1 (.dependObj ph (.holder ch))).getHolder p (.path i fl) = some ph := by
          rw [(b.same q3.inv p (.path i fl) hp1 trivial).1]; exact hg1
        obtain ⟨y, e, _⟩ := (b.inv q3.inv).getHolder_own hp2 hg2
        exact dependAll_conns _ _ (by rw [e]; simp) (by rw [b.alive]; exact hn1) f hf
    obtain ⟨c2, hc2, a2, con⟩ := hcon
    have h2 : LocInv P S c2 := q3.fr (a2.mono (fun _ _ _ => trivial))
    obtain ⟨s1, s2⟩ := a2.same q3.inv n (.loc fl) hn1 trivial
    have hm : holderData c2 ch = some (.pair (S.localNow P n fl)) := by
      rw [← getData_eq_holderData (s1.trans q1), s2, q2]
    have hp2 : c2.alive p = true := by rw [a2.alive]; exact hp1
    have hg2 : c2.getHolder p (.path i fl) = some ph := by
      rw [(a2.same q3.inv p (.path i fl) hp1 trivial).1]; exact hg1
    have hns2 : ∀ m ∈ ns, c2.alive m = true := fun m hm => by
      rw [a2.alive, a1.alive]; exact hns m (by simp [hm])
    obtain ⟨i1, i2, i3, i4⟩ := ih c2 h2 hns2 hp2 hg2
    simp only [collect, hq, ← hc2, hm]
    refine ⟨(a1'.trans (a2.mono (fun _ _ _ => trivial))).trans i1, i2, ?_, ?_⟩
    · rw [i3]; rfl
    · intro hdc m hmem f hf
      rcases List.mem_cons.1 hmem with rfl | hmem
      · exact i1.conns _ (con hdc f hf)
      · exact i4 hdc m hmem f hf

theorem mapM_id_some (l : List M) : (l.map some).mapM id = some l := by
  induction l with
  | nil => rfl
  | cons a l ih => simp [List.mapM_cons, ih]

theorem children_mem {S : Sys V M} {p : Oid} {i : Bool} {n : Oid} : n ∈ S.children p i ↔ n ∈ S.items p ∧ S.isT n = true := by
  unfold Sys.children; split <;> simp

theorem queryPath_spec {P : Params V M} {S : Sys V M} (h : LocInv P S S.cache) (hP : PathInv P S S.cache) {p : Oid}
    (hp : S.cache.alive p = true) (i : Bool) (fl : Flags) :
    LocInv P S (queryPath P S p i fl) ∧ PathInv P S (queryPath P S p i fl) ∧
    (queryPath P S p i fl).objs = S.cache.objs ∧
    ((fl.scale = true → fl.rotate = true) → (queryPath P S p i fl).getData p (.path i fl) = some (.mat (pathNow0 P S p i fl))) := by
  have key : ∀ (c : CSt M) (hd : Hid) (dc : Bool), Fr (fun x k => ¬ (x = p ∧ k = .path i fl)) S.cache c →
      c.getHolder p (.path i fl) = some hd →
      (dc = false → ∀ n ∈ S.items p, S.isT n = true → ∀ f ∈ pathFields fl, ((n, f), hd) ∈ c.conns) →
      ∃ c2, finishPath P S p i fl hd dc c = c2 ∧
      LocInv P S c2 ∧ PathInv P S c2 ∧ c2.objs = S.cache.objs ∧ c2.getData p (.path i fl) = some (.mat (pathNow0 P S p i fl)) := by
    intro c hd dc a hg hcon
    have hc : LocInv P S c := h.fr (a.mono (by rintro x k ⟨fl', rfl⟩ ⟨_, e⟩; cases e))
    have hpc : c.alive p = true := by rw [a.alive]; exact hp
    have hns : ∀ n ∈ S.children p i, c.alive n = true := fun n hn => by
      rw [a.alive]; exact hP.live p hp n (children_mem.1 hn).1
    obtain ⟨b, i2, i3, i4⟩ := collect_spec (P := P) (S := S) p hd dc i fl (S.children p i) c hc hns hpc hg
    unfold finishPath
    generalize hcol : collect P S hd dc i fl (S.children p i) c = r at b i2 i3 i4
    obtain ⟨ms, c1⟩ := r
    simp only at b i2 i3 i4
    have hmap : ms.mapM id = some ((S.children p i).map (fun n => if i then (S.localNow P n fl).2 else (S.localNow P n fl).1)) := by
      rw [i3, ← mapM_id_some]; congr 1; rw [List.map_map]; rfl
    simp only [hmap]
    refine ⟨step c1 (.setData hd (some (.mat (pathNow0 P S p i fl)))), rfl, ?_⟩
    have hp1 : c1.alive p = true := by rw [b.alive]; exact hpc
    have hg1 : c1.getHolder p (.path i fl) = some hd := by
      rw [(b.same hc.inv p (.path i fl) hpc (by intro fl' e; cases e)).1]; exact hg
    have e := fr_setData i2.inv hp1 hg1 (some (.mat (pathNow0 P S p i fl)))
    obtain ⟨k1, k2⟩ := getData_setData i2.inv hp1 hg1 (some (.mat (pathNow0 P S p i fl)))
    have hconn1 : ∀ n ∈ S.items p, S.isT n = true → ∀ f ∈ pathFields fl, ((n, f), hd) ∈ c1.conns := by
      intro n hn ht f hf
      cases dc with
      | true => exact i4 rfl n (children_mem.2 ⟨hn, ht⟩) f hf
      | false => exact b.conns _ (hcon rfl n hn ht f hf)
    have ab : Fr (fun x k => (∀ fl, k ≠ .loc fl) ∧ ¬ (x = p ∧ k = .path i fl)) S.cache
        (step c1 (.setData hd (some (.mat (pathNow0 P S p i fl))))) :=
      ((a.mono (fun _ _ hq => hq.2)).trans (b.mono (fun _ _ hq => hq.1))).trans (e.mono (fun _ _ hq => hq.2))
    refine ⟨i2.fr (e.mono (by rintro x k ⟨fl', rfl⟩ ⟨_, e⟩; cases e)), ⟨?_, ?_, ?_⟩, ab.objs, k2⟩
    · intro q hq n hn; rw [ab.alive] at hq ⊢; exact hP.live q hq n hn
    · intro q j fl' h' hq hgq n hn ht f hf
      rw [ab.alive] at hq
      by_cases heq : q = p ∧ Key.path j fl' = .path i fl
      · obtain ⟨rfl, e'⟩ := heq
        injection e' with e1 e2; subst e1; subst e2
        rw [k1] at hgq; injection hgq with hgq; subst hgq
        exact e.conns _ (hconn1 n hn ht f hf)
      · rw [(ab.same h.inv q (.path j fl') hq ⟨(by intro fl e; cases e), heq⟩).1] at hgq
        exact ab.conns _ (hP.conn q j fl' h' hq hgq n hn ht f hf)
    · intro q j fl' d hfl hq hgq
      rw [ab.alive] at hq
      by_cases heq : q = p ∧ Key.path j fl' = .path i fl
      · obtain ⟨rfl, e'⟩ := heq
        injection e' with e1 e2; subst e1; subst e2
        rw [k2] at hgq; injection hgq with hgq; exact hgq.symm
      · rw [(ab.same h.inv q (.path j fl') hq ⟨(by intro fl e; cases e), heq⟩).2] at hgq
        exact hP.data q j fl' d hfl hq hgq
  unfold queryPath
  rcases hg : S.cache.getHolder p (.path i fl) with _ | hd
  · simp only
    obtain ⟨k1, k2, k3⟩ := newHolder_get S.cache p (.path i fl) none hp
    obtain ⟨c2, he, r1, r2, r3, r4⟩ := key (step S.cache (.newHolder p (.path i fl) none)) S.cache.holders.length true
      (fr_newHolder S.cache p (.path i fl) none) k2 (by simp)
    rw [he]
    exact ⟨r1, r2, r3, fun _ => r4⟩
  · simp only
    rcases hdd : holderData S.cache hd with _ | d
    · simp only
      obtain ⟨c2, he, r1, r2, r3, r4⟩ := key S.cache hd false (Fr.refl _ _) hg
        (fun _ n hn ht f hf => hP.conn p i fl hd hp hg n hn ht f hf)
      rw [he]
      exact ⟨r1, r2, r3, fun _ => r4⟩
    · simp only
      refine ⟨h, hP, by trivial, fun hfl => ?_⟩
      have : S.cache.getData p (.path i fl) = some d := by rw [getData_eq_holderData hg, hdd]
      rw [this, hP.data p i fl d hfl hp this]

/-! ### The invariant of the whole system -/

structure SInv (P : Params V M) (S : Sys V M) : Prop where
  loc : LocInv P S S.cache
  path : PathInv P S S.cache

theorem objs_length_step {c : CSt M} {o : Op Key (Dat M)} (h : ∀ a t, o ≠ .alloc a t) : (step c o).objs.length = c.objs.length := by
  cases o with
  | alloc a t => exact absurd rfl (h a t)
  | setTruthy o b => simp only [step]; split <;> simp
  | newHolder n k d => rw [(fr_newHolder c n k d).objs]
  | setData h' d => simp only [step]; split <;> rfl
  | depend h' n f => rw [(fr_depend c h' n f).objs]
  | dependObj h' r => rw [(fr_dependObj c h' r).objs]
  | fire n f =>
    simp only [step]; split
    · rw [(shrink_fold clear shrink_clear _ c).objs]
    · rfl
  | call h' => simp only [step]; rw [(shrink_call c h').objs]
  | die o =>
    simp only [step]; split
    · rfl
    · split
      · rw [(shrink_fold call shrink_call _ _).objs]; split <;> simp [clean]
      · rfl
  | release h' =>
    simp only [step]; split
    · rfl
    · split
      · rfl
      · rw [(shrink_fold call shrink_call _ _).objs]

theorem alive_lt {c : CSt M} {n : Oid} (h : c.alive n = true) : n < c.objs.length := by
  obtain ⟨x, hx, _⟩ := alive_iff.1 h
  exact (List.getElem?_eq_some_iff.1 hx).1

theorem alive_back {c : CSt M} {o : Op Key (Dat M)} (h : ∀ a t, o ≠ .alloc a t) {n : Oid} (hn : (step c o).alive n = true) :
    c.alive n = true := by
  apply alive_step _ hn
  have := alive_lt hn
  rw [objs_length_step h] at this
  exact this

/-- A step that neither allocates nor writes a matrix entry. -/
theorem sinv_quiet {P : Params V M} {S : Sys V M} (h : SInv P S) {o : Op Key (Dat M)} (ho : ∀ a t, o ≠ .alloc a t)
    (hnew : ∀ n k d, o = .newHolder n k d → ∃ m, k = .other m)
    (hset : ∀ hd d, o = .setData hd d → ∀ y, S.cache.holder? hd = some y → ∃ m, y.key = .other m)
    (hlive : ∀ p, (step S.cache o).alive p = true → ∀ n ∈ S.items p, (step S.cache o).alive n = true) :
    SInv P { S with cache := step S.cache o } := by
  have hI := h.loc.inv
  have w : ∀ n k, (∀ m, k ≠ .other m) → (step S.cache o).alive n = true →
      (∀ hd, (step S.cache o).getHolder n k = some hd → S.cache.getHolder n k = some hd) ∧
      (∀ d, (step S.cache o).getData n k = some d → S.cache.getData n k = some d) := by
    intro n k hk hn
    have hn0 := alive_back ho hn
    apply weaken_step hI o n k hn0 hn
    · rintro d rfl
      obtain ⟨m, e⟩ := hnew _ _ _ rfl
      exact hk m e
    · rintro hd d rfl hg
      obtain ⟨y, e, e1, e2⟩ := hI.getHolder_own hn0 hg
      obtain ⟨m, e3⟩ := hset _ _ rfl y e
      exact hk m (e2.symm.trans e3)
  refine ⟨⟨inv_step hI o, ?_, ?_⟩, ⟨hlive, ?_, ?_⟩⟩
  · intro n fl hd hn hg f hf
    exact conns_step _ _ _ (h.loc.conn n fl hd (alive_back ho hn) ((w n (.loc fl) (by intro m e; cases e) hn).1 hd hg) f hf)
  · intro n fl d hn hg
    exact h.loc.data n fl d (alive_back ho hn) ((w n (.loc fl) (by intro m e; cases e) hn).2 d hg)
  · intro p i fl hd hp hg n hn ht f hf
    exact conns_step _ _ _ (h.path.conn p i fl hd (alive_back ho hp) ((w p (.path i fl) (by intro m e; cases e) hp).1 hd hg) n hn ht f hf)
  · intro p i fl d hfl hp hg
    exact h.path.data p i fl d hfl (alive_back ho hp) ((w p (.path i fl) (by intro m e; cases e) hp).2 d hg)

/-- The state after allocating an object. -/
def allocSys (S : Sys V M) (a : Addr) (t tt : Bool) (l : List Oid) : Sys V M where
  cache := step S.cache (.alloc a t)
  vals := fun o => if o = S.cache.objs.length then (fun _ => none) else S.vals o
  items := fun o => if o = S.cache.objs.length then l else S.items o
  isT := fun o => if o = S.cache.objs.length then tt else S.isT o

/-- A new object: nothing is cached for it. -/
theorem sinv_alloc {P : Params V M} {S : Sys V M} (h : SInv P S) (a : Addr) (t tt : Bool) (l : List Oid)
    (hfree : ¬ S.cache.objs.any (fun o => o.alive && o.addr == a) = true) (hl : ∀ n ∈ l, S.cache.alive n = true) :
    SInv P (allocSys S a t tt l) := by
  have hI := h.loc.inv
  have hstep : step S.cache (.alloc a t) = { S.cache with objs := S.cache.objs ++ [⟨a, true, t⟩] } := by
    simp only [step, hfree]; rfl
  have hfr : ∀ k, (step S.cache (.alloc a t)).getHolder S.cache.objs.length k = none := by
    intro k
    rw [hstep]
    simp only [St.getHolder, List.getElem?_concat_length]
    rcases hm : S.cache.cache a with _ | m
    · rfl
    · obtain ⟨o, x, h1, h2, h3, _⟩ := hI.own a m hm
      exfalso; apply hfree
      rw [List.any_eq_true]
      exact ⟨x, List.mem_of_getElem? h1, by simp [h2, h3]⟩
  have hal : ∀ n, n ≠ S.cache.objs.length → (step S.cache (.alloc a t)).alive n = S.cache.alive n := by
    intro n hn
    rw [hstep]
    simp only [St.alive]
    by_cases hlt : n < S.cache.objs.length
    · rw [List.getElem?_append_left hlt]
    · have h1 : S.cache.objs[n]? = none := List.getElem?_eq_none (Nat.le_of_not_lt hlt)
      have h2 : (S.cache.objs ++ [(⟨a, true, t⟩ : Obj)])[n]? = none := by
        apply List.getElem?_eq_none
        simp only [List.length_append, List.length_singleton]
        exact Nat.lt_of_le_of_ne (Nat.le_of_not_lt hlt) (fun e => hn e.symm)
      rw [h1, h2]
  have hne : ∀ n, S.cache.alive n = true → n ≠ S.cache.objs.length := fun n hn => Nat.ne_of_lt (alive_lt hn)
  have fr : ∀ n k, S.cache.alive n = true → (step S.cache (.alloc a t)).getHolder n k = S.cache.getHolder n k ∧
      (step S.cache (.alloc a t)).getData n k = S.cache.getData n k := fun n k hn =>
    (frame_step hI (.alloc a t) n k hn (by simp [Touches])).2
  have now : ∀ n fl, n ≠ S.cache.objs.length → (allocSys S a t tt l).localNow P n fl = S.localNow P n fl := by
    intro n fl hn; simp only [Sys.localNow, allocSys, hn, if_false]
  have items_live : ∀ p, S.cache.alive p = true → ∀ n ∈ S.items p, n ≠ S.cache.objs.length := fun p hp n hn =>
    hne n (h.path.live p hp n hn)
  have hcache : (allocSys S a t tt l).cache = step S.cache (.alloc a t) := rfl
  refine ⟨⟨?_, ?_, ?_⟩, ⟨?_, ?_, ?_⟩⟩ <;> rw [hcache]
  · exact inv_step hI _
  · intro n fl hd hn hg f hf
    by_cases e : n = S.cache.objs.length
    · subst e; rw [hfr] at hg; cases hg
    · rw [hal n e] at hn
      rw [(fr n _ hn).1] at hg
      exact conns_step _ _ _ (h.loc.conn n fl hd hn hg f hf)
  · intro n fl d hn hg
    by_cases e : n = S.cache.objs.length
    · subst e; simp [St.getData, hfr] at hg
    · rw [hal n e] at hn
      rw [(fr n _ hn).2] at hg
      rw [now n fl e]
      exact h.loc.data n fl d hn hg
  · intro p hp n hn
    by_cases e : p = S.cache.objs.length
    · simp only [allocSys, e, if_true] at hn
      have := hl n hn
      rw [hal n (hne n this)]; exact this
    · simp only [allocSys, e, if_false] at hn
      rw [hal p e] at hp
      have := h.path.live p hp n hn
      rw [hal n (hne n this)]; exact this
  · intro p i fl hd hp hg n hn ht f hf
    by_cases e : p = S.cache.objs.length
    · subst e; rw [hfr] at hg; cases hg
    · simp only [allocSys, e, if_false] at hn
      rw [hal p e] at hp
      rw [(fr p _ hp).1] at hg
      simp only [allocSys, items_live p hp n hn, if_false] at ht
      exact conns_step _ _ _ (h.path.conn p i fl hd hp hg n hn ht f hf)
  · intro p i fl d hfl hp hg
    by_cases e : p = S.cache.objs.length
    · subst e; simp [St.getData, hfr] at hg
    · rw [hal p e] at hp
      rw [(fr p _ hp).2] at hg
      rw [h.path.data p i fl d hfl hp hg]
      have hch : (allocSys S a t tt l).children p i = S.children p i := by
        simp only [Sys.children, allocSys, e, if_false]
        split
        · apply List.filter_congr
          intro n hn
          rw [if_neg (items_live p hp n (by simpa using hn))]
        · apply List.filter_congr
          intro n hn
          rw [if_neg (items_live p hp n hn)]
      simp only [pathNow0, hch]
      congr 2
      apply List.map_congr_left
      intro n hn
      rw [now n fl (items_live p hp n (children_mem.1 hn).1)]

theorem fire_none {c : CSt M} (hI : Inv c) {n x : Oid} {f : Nat} {k : Key} {h : Hid} (hn : c.alive n = true) (hx : c.alive x = true)
    (hg : c.getHolder x k = some h) (hc : ((n, f), h) ∈ c.conns) : (step c (.fire n f)).getData x k = none := by
  simp only [step, hn, if_true]
  apply fold_clear_none _ c hI hx _ hg
  exact List.mem_map.2 ⟨((n, f), h), List.mem_filter.2 ⟨hc, by simp⟩, rfl⟩

theorem alive_fire {c : CSt M} {n x : Oid} {f : Nat} : (step c (.fire n f)).alive x = c.alive x := by
  simp only [step]; split
  · exact (shrink_fold clear shrink_clear _ c).alive x
  · rfl

theorem fields_sub {fl : Flags} (h : fl.scale = true → fl.rotate = true) {f : Nat} (hf : f ∈ localFields fl) : f ∈ pathFields fl := by
  obtain ⟨t, s, r⟩ := fl
  cases t <;> cases s <;> cases r <;> simp_all [localFields, pathFields] <;> omega

theorem getHolder_of_data {c : CSt M} {n : Oid} {k : Key} {d : Dat M} (h : c.getData n k = some d) :
    ∃ hd, c.getHolder n k = some hd := by
  unfold St.getData at h
  rcases e : c.getHolder n k with _ | hd
  · simp [e] at h
  · exact ⟨hd, rfl⟩

theorem sinv_step {P : Params V M} (hdef : DefaultsNeutral P) {S : Sys V M} (h : SInv P S) (e : Ev V M) : SInv P (sysStep P S e) := by
  have hI := h.loc.inv
  cases e with
  | newNode a t =>
    simp only [sysStep]
    split
    · exact h
    · rename_i hfree; exact sinv_alloc h a true t [] hfree (by simp)
  | newPath a l =>
    simp only [sysStep]
    split
    · exact h
    · rename_i hfree
      split
      · rename_i hl
        exact sinv_alloc h a _ false l hfree (by simpa using hl)
      · exact h
  | change n f v =>
    simp only [sysStep]
    split
    · rename_i hn
      have q := sinv_quiet h (o := .fire n f) (by intro a t e; cases e) (by intro a b c e; cases e) (by intro a b e; cases e)
        (by intro p hp m hm; rw [alive_fire] at hp ⊢; exact h.path.live p hp m hm)
      have now : ∀ m fl, ¬ (m = n ∧ f ∈ localFields fl) →
          Sys.localNow P { S with cache := step S.cache (.fire n f), vals := fun o g => if o = n ∧ g = f then v else S.vals o g } m fl
            = S.localNow P m fl := by
        intro m fl hm
        simp only [Sys.localNow]
        congr 1
        funext g
        simp only [mask]
        split
        · rename_i hg
          rw [if_neg]
          rintro ⟨rfl, rfl⟩; exact hm ⟨rfl, hg⟩
        · rfl
      refine ⟨⟨q.loc.inv, q.loc.conn, ?_⟩, ⟨q.path.live, q.path.conn, ?_⟩⟩
      · intro m fl d hm hg
        have hd := q.loc.data m fl d hm hg
        by_cases hc : m = n ∧ f ∈ localFields fl
        · obtain ⟨rfl, hf⟩ := hc
          exfalso
          rw [alive_fire] at hm
          have hg0 := (weaken_step hI (.fire m f) m (.loc fl) hm (by rw [alive_fire]; exact hm) (by intro d e; cases e) (by intro a b e; cases e)).2 d hg
          obtain ⟨hd', hg'⟩ := getHolder_of_data hg0
          have := fire_none hI hm hm hg' (h.loc.conn m fl hd' hm hg' f hf)
          rw [hg] at this; cases this
        · rw [now m fl hc]; exact hd
      · intro p i fl d hfl hp hg
        have hd := q.path.data p i fl d hfl hp hg
        rw [hd]
        have hch : ∀ m ∈ S.children p i, ¬ (m = n ∧ f ∈ localFields fl) := by
          rintro m hm ⟨rfl, hf⟩
          obtain ⟨hm1, hm2⟩ := children_mem.1 hm
          rw [alive_fire] at hp
          have hg0 := (weaken_step hI (.fire m f) p (.path i fl) hp (by rw [alive_fire]; exact hp) (by intro d e; cases e) (by intro a b e; cases e)).2 d hg
          obtain ⟨hd', hg'⟩ := getHolder_of_data hg0
          have := fire_none hI hn hp hg' (h.path.conn p i fl hd' hp hg' m hm1 hm2 f (fields_sub hfl hf))
          rw [hg] at this; cases this
        simp only [pathNow0]
        congr 2
        apply List.map_congr_left
        intro m hm
        rw [now m fl (hch m hm)]; rfl
    · exact h
  | readDefault n f =>
    simp only [sysStep]
    have now : ∀ m fl, Sys.localNow P { S with vals := fun o g => if o = n ∧ g = f ∧ S.vals n f = none then some (P.dflt f) else S.vals o g } m fl
        = S.localNow P m fl := by
      intro m fl
      simp only [Sys.localNow]
      by_cases hc : m = n ∧ f ∈ localFields fl ∧ S.vals n f = none
      · obtain ⟨rfl, hf, hv⟩ := hc
        rw [← hdef (mask (localFields fl) (S.vals m)) f (by simp [mask, hf, hv])]
        congr 1
        funext g
        simp only [mask, true_and, hv, and_true]
        by_cases hgf : g = f
        · subst hgf; simp [hf]
        · simp [hgf]
      · congr 1
        funext g
        simp only [mask]
        split
        · rename_i hg
          rw [if_neg]
          rintro ⟨rfl, rfl, hv⟩; exact hc ⟨rfl, hg, hv⟩
        · rfl
    refine ⟨⟨h.loc.inv, h.loc.conn, ?_⟩, ⟨h.path.live, h.path.conn, ?_⟩⟩
    · intro m fl d hm hg; rw [now]; exact h.loc.data m fl d hm hg
    · intro p i fl d hfl hp hg
      rw [h.path.data p i fl d hfl hp hg]
      simp only [pathNow0, now]; rfl
  | askLocal n fl =>
    simp only [sysStep]
    split
    · rename_i hn
      obtain ⟨a, _, _, q⟩ := queryLocal_spec h.loc hn fl
      exact ⟨⟨q.inv, q.conn, q.data⟩,
        let r := h.path.fr hI (a.mono (by rintro x k ⟨i, fl', rfl⟩ ⟨_, e⟩; cases e)); ⟨r.live, r.conn, r.data⟩⟩
    · exact h
  | askPath p i fl =>
    simp only [sysStep]
    split
    · rename_i hp
      obtain ⟨q, r, _, _⟩ := queryPath_spec h.loc h.path hp i fl
      exact ⟨⟨q.inv, q.conn, q.data⟩, ⟨r.live, r.conn, r.data⟩⟩
    · exact h
  | other o =>
    simp only [sysStep]
    split
    · rename_i hal
      apply sinv_quiet h
      · rintro a t rfl; exact hal
      · rintro n k d rfl; exact hal
      · rintro hd d rfl; exact hal
      · intro p hp n hn
        have hno : ∀ a t, o ≠ .alloc a t := by rintro a t rfl; exact hal
        have hp0 := alive_back hno hp
        have hn0 := h.path.live p hp0 n hn
        by_cases hd : ∃ x, o = .die x
        · obtain ⟨x, rfl⟩ := hd
          rcases ho : S.cache.objs[x]? with _ | z
          · simpa only [step, ho] using hn0
          · by_cases hza : z.alive = true
            · rw [step_die ho hza] at hp ⊢
              rw [(shrink_fold call shrink_call _ _).alive] at hp ⊢
              have hobjs : (dieCore S.cache x z).objs = S.cache.objs.set x { z with alive := false } := by
                unfold dieCore; dsimp only; split <;> rfl
              obtain ⟨y, hy, hya⟩ := alive_iff.1 hp
              rw [hobjs] at hy
              have hpx := (objs_set_alive ho p y hy hya).1
              have hnx : n ≠ x := fun e => hal p hp0 hpx (e ▸ hn)
              obtain ⟨w, hw, hwa⟩ := alive_iff.1 hn0
              exact alive_iff.2 ⟨w, by rw [hobjs, List.getElem?_set, if_neg (fun e => hnx e.symm)]; exact hw, hwa⟩
            · simpa [step, ho, hza] using hn0
        · by_cases ht : ∃ x b, o = .setTruthy x b
          · obtain ⟨x, b, rfl⟩ := ht
            simp only [step]
            rcases ho : S.cache.objs[x]? with _ | z
            · exact hn0
            · simp only
              obtain ⟨w, hw, hwa⟩ := alive_iff.1 hn0
              apply alive_iff.2
              rw [List.getElem?_set]
              split
              · subst_vars
                rw [ho] at hw; injection hw with hw; subst hw
                exact ⟨_, if_pos (alive_lt hn0), hwa⟩
              · exact ⟨w, hw, hwa⟩
          · -- all other operations keep the objects
            have hob : (step S.cache o).objs = S.cache.objs := by
              cases o with
              | alloc a t => exact hal.elim
              | setTruthy x b => exact absurd ⟨x, b, rfl⟩ ht
              | newHolder n k d => exact (fr_newHolder _ n k d).objs
              | setData h' d => simp only [step]; split <;> rfl
              | depend h' n f => exact (fr_depend _ h' n f).objs
              | dependObj h' r => exact (fr_dependObj _ h' r).objs
              | fire n f =>
                simp only [step]; split
                · rw [(shrink_fold clear shrink_clear _ _).objs]
                · rfl
              | call h' => simp only [step]; rw [(shrink_call _ h').objs]
              | die x => exact absurd ⟨x, rfl⟩ hd
              | release h' =>
                simp only [step]; split
                · rfl
                · split
                  · rfl
                  · rw [(shrink_fold call shrink_call _ _).objs]
            unfold St.alive at hn0 ⊢
            rw [hob]; exact hn0
    · exact h

theorem sinv_run {P : Params V M} (hdef : DefaultsNeutral P) (evs : List (Ev V M)) : SInv P (sysRun P evs) := by
  suffices ∀ S : Sys V M, SInv P S → SInv P (evs.foldl (sysStep P) S) by
    apply this
    refine ⟨⟨Inv.init, ?_, ?_⟩, ⟨?_, ?_, ?_⟩⟩ <;> simp [Sys.init, St.init, St.alive]
  induction evs with
  | nil => intro S h; exact h
  | cons e evs ih => intro S h; exact ih _ (sinv_step hdef h e)

/-! ### The properties -/

/-- **C34.** After any history of node and path creations, field changes, default reads, matrix queries, deaths and
other uses of the cache, asking a living transform for its local matrices returns the pair computed from the fields
it has now, for every combination of flags. -/
theorem C34_local_matrices_current (P : Params V M) (hdef : DefaultsNeutral P) (evs : List (Ev V M)) (n : Oid) (fl : Flags)
    (hn : (sysRun P evs).cache.alive n = true) :
    (sysRun P (evs ++ [.askLocal n fl])).cache.getData n (.loc fl) = some (.pair (nodeNow P (sysRun P evs) n fl)) := by
  rw [← localNow_eq]
  have h := sinv_run hdef evs
  have : sysRun P (evs ++ [.askLocal n fl]) = sysStep P (sysRun P evs) (.askLocal n fl) := by
    simp [sysRun, List.foldl_append]
  rw [this]
  simp only [sysStep, hn, if_true]
  exact (queryLocal_spec h.loc hn fl).2.2.1

/-- **C35.** After any such history, asking a living node path for its matrix (or inverse matrix) returns
the matrix computed from the fields its transforms have now, unless scaling is asked for without rotation.
Excluded: `scale=True, rotate=False` – false, see `C35_refuted_center`. -/
theorem C35_path_matrix_current (P : Params V M) (hdef : DefaultsNeutral P) (evs : List (Ev V M)) (p : Oid)
    (inverse : Bool) (fl : Flags) (hfl : fl.scale = true → fl.rotate = true)
    (hp : (sysRun P evs).cache.alive p = true) :
    (sysRun P (evs ++ [.askPath p inverse fl])).cache.getData p (.path inverse fl)
      = some (.mat (pathNow P (sysRun P evs) p inverse fl)) := by
  have h := sinv_run hdef evs
  have : sysRun P (evs ++ [.askPath p inverse fl]) = sysStep P (sysRun P evs) (.askPath p inverse fl) := by
    simp [sysRun, List.foldl_append]
  rw [this]
  simp only [sysStep, hp, if_true]
  rw [pathNow_eq]
  exact (queryPath_spec h.loc h.path hp inverse fl).2.2.2 hfl

/-- **C35 refuted.** With `scale=True, rotate=False` the center enters the matrix but the path does not watch it:
a transform with a scale, queried, then given another center, still reports the old matrix. -/
theorem C35_refuted_center :
    let P : Params Nat (List (Option Nat)) :=
      ⟨fun v => ([v 0, v 1, v 2, v 3, v 4], [v 4, v 3, v 2, v 1, v 0]), fun l => l.flatten, fun _ => 0⟩
    let fl : Flags := ⟨true, true, false⟩
    let evs : List (Ev Nat (List (Option Nat))) :=
      [.newNode 10 true, .newPath 20 [0], .change 0 2 (some 7), .askPath 1 false fl, .change 0 1 (some 5)]
    (sysRun P (evs ++ [.askPath 1 false fl])).cache.getData 1 (.path false fl)
      = some (.mat [none, none, some 7, none, none]) ∧
    pathNow P (sysRun P evs) 1 false fl = [none, some 5, some 7, none, none] := by
  decide

-- non-vacuity: with rotation included the same history gives the current matrix; node 0 and path 1 are alive
example :
    let P : Params Nat (List (Option Nat)) :=
      ⟨fun v => ([v 0, v 1, v 2, v 3, v 4], [v 4, v 3, v 2, v 1, v 0]), fun l => l.flatten, fun _ => 0⟩
    let fl : Flags := ⟨true, true, true⟩
    let evs : List (Ev Nat (List (Option Nat))) :=
      [.newNode 10 true, .newNode 11 false, .newNode 12 true, .newPath 20 [0, 1, 2], .change 0 2 (some 7), .askPath 3 false fl,
       .askLocal 2 fl, .change 0 1 (some 5), .change 2 0 (some 1), .change 2 0 none]
    (sysRun P evs).cache.alive 3 = true ∧
    (sysRun P (evs ++ [.askPath 3 false fl])).cache.getData 3 (.path false fl)
      = some (.mat [none, some 5, some 7, none, none, none, none, none, none, none]) := by
  decide

-- a computation for which defaults are neutral: unset and default are identified
example : DefaultsNeutral (⟨fun v => ((v 0).getD 0 + (v 1).getD 0, 0), fun l => l.sum, fun _ => 0⟩ : Params Nat Nat) := by
  intro v f hv
  by_cases h0 : 0 = f <;> by_cases h1 : 1 = f <;> simp_all <;> (try subst_vars) <;> simp_all

end Verif.TCache
