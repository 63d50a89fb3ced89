import Verif.SimStep
import Verif.Props4
import Mathlib.Data.List.Perm.Subperm

/-!
# C46, C47: what later operations can tell

The properties of this file compare two caches by everything a program can do with them afterwards: all
later histories of operations, and the answers they give.
-/

open Std

namespace Daab

variable {σ : Sig} {Y : Sys σ} {s t : St σ}

/-! ## Vocabulary -/

/-- No later history of operations gives different answers on the caches `s` and `t` (as long as the
program goes on), whatever the hash orders. -/
def Indistinguishable (Y : Sys σ) (s t : St σ) : Prop :=
  ∀ hist hist' : History σ, SameOps hist hist' →
    ((∀ r ∈ (play Y hist s).2, r.goesOn) → (play Y hist' t).2 = (play Y hist s).2) ∧
    ((∀ r ∈ (play Y hist t).2, r.goesOn) → (play Y hist' s).2 = (play Y hist t).2)

/-- The same answer, or a smaller number. -/
def NotMore (r r' : Res (Ans σ)) : Prop :=
  r' = r ∨ ∃ m m', r = .val (.nat m) ∧ r' = .val (.nat m') ∧ m' ≤ m

/-! ## Whole histories -/

theorem size_le {α : Type} {m m' : AMap α} (h : ∀ a, a ∈ m' → a ∈ m) : m'.size ≤ m.size := by
  rw [← ExtTreeMap.length_keys, ← ExtTreeMap.length_keys]
  refine (List.Nodup.subperm ?_ ?_).length_le
  · have := ExtTreeMap.distinct_keys (t := m')
    exact this.imp (by intro a b h he; subst he; exact h (by simp))
  · intro a ha
    rw [ExtTreeMap.mem_keys] at *
    exact h a ha

theorem Sim.numKnown_le {G : Id → Prop} (h : Sim G s t) : Daab.numKnown t.c ≤ Daab.numKnown s.c := by
  unfold Daab.numKnown
  apply size_le
  intro a ha
  by_cases hg : G a
  · exact h.gknown a hg
  · exact (h.mem hg).1 ha

theorem Sim.step_any {G : Id → Prop} (h : Sim G s t) (hs : Inv Y s) (ht : Inv Y t) (n : Nat)
    (ord ord' : HashOrder) (op : Op σ) (hgo : (Daab.step Y n ord s op).2.goesOn) :
    NotMore (Daab.step Y n ord s op).2 (Daab.step Y n ord' t op).2 ∧
    (Daab.step Y n ord' t op).2.goesOn ∧
    ∃ G', Sim G' (Daab.step Y n ord s op).1 (Daab.step Y n ord' t op).1 := by
  by_cases hop : op = .numKnown
  · subst hop
    exact ⟨Or.inr ⟨_, _, rfl, rfl, h.numKnown_le⟩, trivial, G, h⟩
  · obtain ⟨h1, G', _, h2⟩ := h.step hs ht n ord ord' op hgo (fun he => absurd he hop)
    exact ⟨Or.inl h1, by rw [h1]; exact hgo, G', h2⟩

theorem play_sim {hist hist' : History σ} (hops : SameOps hist hist') {s t : St σ}
    (hs : Reachable Y s) (ht : Reachable Y t) {G : Id → Prop} (h : Sim G s t)
    (hg : ∀ r ∈ (play Y hist s).2, r.goesOn) :
    List.Forall₂ NotMore (play Y hist s).2 (play Y hist' t).2 := by
  unfold SameOps at hops
  induction hops generalizing s t G with
  | nil => exact List.Forall₂.nil
  | @cons x y hist hist' hxy _ ih =>
    obtain ⟨n, ord, op⟩ := x
    obtain ⟨n', ord', op'⟩ := y
    obtain ⟨rfl, rfl⟩ := hxy
    simp only [play] at hg ⊢
    have hg1 : (step Y n ord s op).2.goesOn := hg _ (by simp)
    obtain ⟨h1, h2, G', h3⟩ := h.step_any hs.inv ht.inv n ord ord' op hg1
    exact List.Forall₂.cons h1 (ih (.step n ord op hs hg1) (.step n ord' op ht h2) h3
      (fun r hr => hg r (List.mem_cons_of_mem _ hr)))

theorem play_sim_eq {hist hist' : History σ} (hops : SameOps hist hist') {s t : St σ}
    (hs : Reachable Y s) (ht : Reachable Y t) {G : Id → Prop} (hG : ∀ a, ¬ G a) (h : Sim G s t)
    (hg : ∀ r ∈ (play Y hist s).2, r.goesOn) : (play Y hist' t).2 = (play Y hist s).2 := by
  unfold SameOps at hops
  induction hops generalizing s t G with
  | nil => rfl
  | @cons x y hist hist' hxy _ ih =>
    obtain ⟨n, ord, op⟩ := x
    obtain ⟨n', ord', op'⟩ := y
    obtain ⟨rfl, rfl⟩ := hxy
    simp only [play] at hg ⊢
    have hg1 : (step Y n ord s op).2.goesOn := hg _ (by simp)
    obtain ⟨h1, G', hG', h3⟩ := h.step hs.inv ht.inv n ord ord' op hg1 (fun _ => hG)
    rw [h1, ih (.step n ord op hs hg1) (.step n ord' op ht (by rw [h1]; exact hg1)) (hG' hG) h3
      (fun r hr => hg r (List.mem_cons_of_mem _ hr))]

/-! ## C46 -/

theorem gc_sim (hi : Inv Y s) (ord : HashOrder) :
    (∃ G : Id → Prop, Sim G s { s with c := (garbageCollection Y ord s).1 }) := by
  rcases gc_spec hi ord with ⟨e, _⟩ | ⟨n1, c, e, w, -⟩
  · rw [e]
    refine ⟨fun _ => False, ?_⟩
    constructor <;> simp
  · rw [e]
    refine ⟨Garbage s, ?_⟩
    constructor
    · rfl
    · rfl
    · rfl
    · rintro a ⟨b, h1, h2, h3⟩
      cases hh : s.heap[a]? with
      | none => rfl
      | some b' =>
        have := hi.heapKnown a b b' h1 hh
        subst this
        exact absurd hh h2
    · rintro a ⟨b, h1, _⟩
      exact (mem_getElem _ _).2 ⟨b, h1⟩
    · exact fun a ha => w.known_none a ha
    · exact fun a ha => w.known_keep a ha
    · exact fun a ha => w.art_keep a ha
    · exact fun a ha => w.dyn_keep a ha
    · intro u d hu
      simp only [w.dep, hu, not_false_eq_true, and_true]
    · rintro u d hu ⟨_, _, _, h3⟩
      exact absurd hu (h3 u)
    · intro a ha
      simp only [w.leafs]
      have hG : ¬ Garbage s a := by
        rintro ⟨b, h1, _⟩
        exact ha ((mem_getElem _ _).2 ⟨b, h1⟩)
      have d1 : ∀ u, ¬ Dep s.c u a := fun u hu => ha (hi.depD _ _ hu)
      simp [hG, d1]
    · intro a ha
      simp only [w.leafs]
      simp [ha]

theorem step_gc_goesOn (h : Reachable Y s) (n : Nat) (ord : HashOrder) :
    (step Y n ord s .gc).2.goesOn := by
  have : step Y n ord s .gc = ({ s with c := (garbageCollection Y ord s).1 },
    (garbageCollection Y ord s).2.res .unit) := rfl
  rw [this]
  rcases gc_spec h.inv ord with ⟨e, _⟩ | ⟨_, c, e, _⟩
  · rw [e]; intro h; cases h
  · rw [e]; trivial

/-- **C46** A garbage collection can not be noticed.  Whatever a program does afterwards, every
operation answers what it would have answered without the collection, except that
`number_of_known_builders` may count fewer builders. -/
theorem C46_gc_unnoticed (h : Reachable Y s) (n : Nat) (ord : HashOrder) {hist hist' : History σ}
    (hops : SameOps hist hist') (hg : ∀ r ∈ (play Y hist s).2, r.goesOn) :
    List.Forall₂ NotMore (play Y hist s).2 (play Y hist' (step Y n ord s .gc).1).2 := by
  obtain ⟨G, hG⟩ := gc_sim h.inv ord
  exact play_sim hops h (.step n ord .gc h (step_gc_goesOn h n ord)) hG hg

/-- The hypotheses are met after builder 2 was dropped, see the example below for the answers. -/
example : let s := (step Demo.Y 9 Demo.ord Demo.s1 (.free 12)).1
    let hist : History Demo.sig := ([.numKnown, .get .bin (Demo.P 1), .invalidate (Demo.P 0),
      .get .bin (Demo.P 1), .gc, .numKnown] : List (Op Demo.sig)).map fun o => (9, Demo.ord, o)
    List.Forall₂ NotMore (play Demo.Y hist s).2 (play Demo.Y hist (step Demo.Y 9 Demo.ord s .gc).1).2 :=
  C46_gc_unnoticed (.step 9 Demo.ord (.free 12) Demo.reach1 (by decide)) 9 Demo.ord
    (List.forall₂_same.2 fun _ _ => ⟨rfl, rfl⟩) (by decide)

/-- **C46** In particular, without `number_of_known_builders` all the answers are the same. -/
theorem C46_gc_same_answers (h : Reachable Y s) (n : Nat) (ord : HashOrder) {hist hist' : History σ}
    (hops : SameOps hist hist') (hg : ∀ r ∈ (play Y hist s).2, r.goesOn)
    (hn : ∀ x ∈ hist, x.2.2 ≠ .numKnown) :
    (play Y hist' (step Y n ord s .gc).1).2 = (play Y hist s).2 := by
  obtain ⟨G, hG⟩ := gc_sim h.inv ord
  have ht := Reachable.step n ord .gc h (step_gc_goesOn h n ord)
  have hG' : Sim G s (step Y n ord s .gc).1 := hG
  clear hG
  generalize (step Y n ord s .gc).1 = t at *
  unfold SameOps at hops
  induction hops generalizing s t G with
  | nil => rfl
  | @cons x y hist hist' hxy _ ih =>
    obtain ⟨n, ord, op⟩ := x
    obtain ⟨n', ord', op'⟩ := y
    obtain ⟨rfl, rfl⟩ := hxy
    simp only [play] at hg ⊢
    have hg1 : (step Y n ord s op).2.goesOn := hg _ (by simp)
    obtain ⟨h1, G', _, h3⟩ := hG'.step h.inv ht.inv n ord ord' op hg1
      (fun he => absurd he (hn (n, ord, op) (by simp)))
    rw [h1, ih (.step n ord op h hg1) (fun r hr => hg r (List.mem_cons_of_mem _ hr))
      (fun x hx => hn x (List.mem_cons_of_mem _ hx)) G' _
      (.step n ord' op ht (by rw [h1]; exact hg1)) h3]

/-- The hypotheses are met, and there is something to collect: builder 2 is not referenced any more,
but known; afterwards the program invalidates and rebuilds, allocates a builder at another address and
counts. -/
example : let s := (step Demo.Y 9 Demo.ord Demo.s1 (.free 12)).1
    let hist : History Demo.sig := ([.numKnown, .get .bin (Demo.P 1), .invalidate (Demo.P 0),
      .get .bin (Demo.P 1), .gc, .numKnown] : List (Op Demo.sig)).map fun o => (9, Demo.ord, o)
    (∀ r ∈ (play Demo.Y hist s).2, r.goesOn) ∧
    (play Demo.Y hist s).2 = [.val (.nat 3), .val (.art (.ok 105)), .val .unit,
      .val (.art (.ok 105)), .val .unit, .val (.nat 2)] ∧
    (play Demo.Y hist (step Demo.Y 9 Demo.ord s .gc).1).2 = [.val (.nat 2), .val (.art (.ok 105)),
      .val .unit, .val (.art (.ok 105)), .val .unit, .val (.nat 2)] := by
  refine ⟨by decide, rfl, rfl⟩

/-! ## C47 -/

/-- `s'` is `s` after invalidating the builders in `X` and everything that uses them, and forgetting
those in `K`. -/
structure Forgot (X K : Id → Prop) (s s' : St σ) : Prop where
  w : s'.w = s.w
  heap : s'.heap = s.heap
  born : s'.born = s.born
  art_none : ∀ x a : Id, X a → Hit (Dep s.c) a x → s'.c.artifacts[x]? = none
  art_keep : ∀ x : Id, (∀ a, X a → ¬ Hit (Dep s.c) a x) → s'.c.artifacts[x]? = s.c.artifacts[x]?
  dep : ∀ u d, Dep s'.c u d ↔ Dep s.c u d ∧ ∀ a, X a → ¬ Hit (Dep s.c) a u
  known_none : ∀ x : Id, K x → s'.c.known[x]? = none
  known_keep : ∀ x : Id, ¬ K x → s'.c.known[x]? = s.c.known[x]?
  dyn_none : ∀ x : Id, K x → s'.c.dynStates[x]? = none
  dyn_keep : ∀ x : Id, ¬ K x → s'.c.dynStates[x]? = s.c.dynStates[x]?
  stray : ∀ x, x ∉ s'.c.known → (x ∈ s'.c.leafs ↔ X x ∨ (x ∈ s.c.leafs ∧ x ∉ s.c.known))

theorem Forgot.refl (s : St σ) : Forgot (fun _ => False) (fun _ => False) s s := by
  constructor <;> simp
  intro x hx _; exact hx

theorem Forgot.trans {X K X' K' : Id → Prop} {s s1 s2 : St σ} (hKX : ∀ a, K' a → X' a)
    (h : Forgot X K s s1) (h' : Forgot X' K' s1 s2) :
    Forgot (fun a => X a ∨ X' a) (fun a => K a ∨ K' a) s s2 := by
  -- hits through what is left
  have hit1 : ∀ {a x}, Hit (Dep s1.c) a x → Hit (Dep s.c) a x := fun hh =>
    Relation.ReflTransGen.mono (fun u d hu => ((h.dep u d).1 hu).1) _ _ hh
  have hit2 : ∀ {a x}, Hit (Dep s.c) a x → (∀ b, X b → ¬ Hit (Dep s.c) b x) → Hit (Dep s1.c) a x := by
    intro a x hh
    induction hh using Relation.ReflTransGen.head_induction_on with
    | refl => intro _; exact Relation.ReflTransGen.refl
    | head h1 _ ih =>
      intro hn
      refine Relation.ReflTransGen.head ((h.dep _ _).2 ⟨h1, hn⟩) (ih ?_)
      intro b hb hb'
      exact hn b hb (Relation.ReflTransGen.head h1 hb')
  constructor
  · rw [h'.w, h.w]
  · rw [h'.heap, h.heap]
  · rw [h'.born, h.born]
  · intro x a ha hx
    by_cases hX : ∃ b, X b ∧ Hit (Dep s.c) b x
    · obtain ⟨b, hb, hb'⟩ := hX
      by_cases hX' : ∃ b, X' b ∧ Hit (Dep s1.c) b x
      · obtain ⟨b', hb1, hb2⟩ := hX'
        exact h'.art_none x b' hb1 hb2
      · rw [h'.art_keep x (fun c hc hc' => hX' ⟨c, hc, hc'⟩)]
        exact h.art_none x b hb hb'
    · have hn : ∀ b, X b → ¬ Hit (Dep s.c) b x := fun b hb hb' => hX ⟨b, hb, hb'⟩
      rcases ha with ha | ha
      · exact absurd hx (hn a ha)
      · exact h'.art_none x a ha (hit2 hx hn)
  · intro x hx
    rw [h'.art_keep x (fun a ha hh => hx a (Or.inr ha) (hit1 hh)),
      h.art_keep x (fun a ha => hx a (Or.inl ha))]
  · intro u d
    rw [h'.dep, h.dep]
    constructor
    · rintro ⟨⟨h1, h2⟩, h3⟩
      refine ⟨h1, ?_⟩
      rintro a (ha | ha) hh
      · exact h2 a ha hh
      · exact h3 a ha (hit2 hh h2)
    · rintro ⟨h1, h2⟩
      exact ⟨⟨h1, fun a ha => h2 a (Or.inl ha)⟩, fun a ha hh => h2 a (Or.inr ha) (hit1 hh)⟩
  · intro x hx
    by_cases hk : K' x
    · exact h'.known_none x hk
    · rw [h'.known_keep x hk]; exact h.known_none x (hx.resolve_right hk)
  · intro x hx
    rw [h'.known_keep x (fun hk => hx (Or.inr hk)), h.known_keep x (fun hk => hx (Or.inl hk))]
  · intro x hx
    by_cases hk : K' x
    · exact h'.dyn_none x hk
    · rw [h'.dyn_keep x hk]; exact h.dyn_none x (hx.resolve_right hk)
  · intro x hx
    rw [h'.dyn_keep x (fun hk => hx (Or.inr hk)), h.dyn_keep x (fun hk => hx (Or.inl hk))]
  · intro x hx
    rw [h'.stray x hx]
    by_cases hk : x ∈ s1.c.known
    · have hK : K' x := by
        by_cases hK : K' x
        · exact hK
        · refine absurd ?_ hx
          rw [mem_getElem] at hk ⊢
          rw [h'.known_keep x hK]; exact hk
      simp [hKX x hK]
    · rw [h.stray x hk]
      simp only [hk, not_false_eq_true, and_true]
      constructor
      · rintro (h1 | h1 | h1)
        · exact Or.inl (Or.inr h1)
        · exact Or.inl (Or.inl h1)
        · exact Or.inr h1
      · rintro ((h1 | h1) | h1)
        · exact Or.inr (Or.inl h1)
        · exact Or.inl h1
        · exact Or.inr (Or.inr h1)

theorem Forgot.sim {X K : Id → Prop} {s s1 s2 : St σ} (h1 : Forgot X K s s1) (h2 : Forgot X K s s2) :
    Sim (fun _ => False) s1 s2 := by
  constructor
  · rw [h1.w, h2.w]
  · rw [h1.heap, h2.heap]
  · rw [h1.born, h2.born]
  · simp
  · simp
  · simp
  · intro a _
    by_cases hk : K a
    · rw [h1.known_none a hk, h2.known_none a hk]
    · rw [h1.known_keep a hk, h2.known_keep a hk]
  · intro x _
    by_cases hX : ∃ b, X b ∧ Hit (Dep s.c) b x
    · obtain ⟨b, hb, hb'⟩ := hX
      rw [h1.art_none x b hb hb', h2.art_none x b hb hb']
    · have hn : ∀ b, X b → ¬ Hit (Dep s.c) b x := fun b hb hb' => hX ⟨b, hb, hb'⟩
      rw [h1.art_keep x hn, h2.art_keep x hn]
  · intro a _
    by_cases hk : K a
    · rw [h1.dyn_none a hk, h2.dyn_none a hk]
    · rw [h1.dyn_keep a hk, h2.dyn_keep a hk]
  · intro u d _
    rw [h1.dep, h2.dep]
  · simp
  · intro a ha
    have ha2 : a ∉ s2.c.known := by
      rw [mem_getElem] at ha ⊢
      by_cases hk : K a
      · rw [h2.known_none a hk]; simp
      · rw [h2.known_keep a hk, ← h1.known_keep a hk]; exact ha
    rw [h1.stray a ha, h2.stray a ha2]
  · simp

theorem Forgot.congr {X K X' K' : Id → Prop} {s s1 : St σ} (h : Forgot X K s s1)
    (hX : ∀ a, X a ↔ X' a) (hK : ∀ a, K a ↔ K' a) : Forgot X' K' s s1 := by
  have e1 : X = X' := funext fun a => propext (hX a)
  have e2 : K = K' := funext fun a => propext (hK a)
  subst e1 e2
  exact h

theorem forgot_invalidate (hi : Inv Y s) (ord : HashOrder) (p : Promise σ) :
    Forgot (· = p.id) (fun _ => False) s { s with c := (invalidate Y ord p s.c).1 } := by
  obtain ⟨c, e, d⟩ := invalidate_spec hi ord p
  have ds := d.addStray hi
  rw [e]
  constructor
  · rfl
  · rfl
  · rfl
  · rintro x a rfl hx; exact d.art_none x hx
  · intro x hx; exact d.art_keep x (hx _ rfl)
  · intro u e
    exact (d.dep' (hit_closed _ _) u e).trans (by simp)
  · simp
  · intro x _; simp only [Cache.emit, d.known]
  · simp
  · intro x _; simp only [Cache.emit, d.dynStates]
  · intro x hx
    simp only [Cache.emit, d.known] at hx ⊢
    rw [ds.2 x hx]
    simp [hx]

theorem forgot_purge (hi : Inv Y s) (ord : HashOrder) (p : Promise σ) :
    Forgot (· = p.id) (· = p.id) s { s with c := (purge Y ord p s.c).1 } := by
  obtain ⟨c, cF, e, d, rfl⟩ := purge_spec hi ord p
  have ds := d.addStray hi
  rw [e]
  constructor
  · rfl
  · rfl
  · rfl
  · rintro x a rfl hx; exact d.art_none x hx
  · intro x hx; exact d.art_keep x (hx _ rfl)
  · intro u e
    exact (d.dep' (hit_closed _ _) u e).trans (by simp)
  · rintro x rfl; simp
  · intro x hx; simp only; grind
  · rintro x rfl; simp
  · intro x hx; simp only; grind
  · intro x hx
    simp only at hx ⊢
    by_cases hxp : x = p.id
    · subst hxp
      rw [d.leafs]
      have : Hit (Dep s.c) p.id p.id := Relation.ReflTransGen.refl
      simp [this]
    · have hk : x ∉ s.c.known := by grind
      rw [ds.2 x hk]
      simp [hk]

theorem Sim.indist {G : Id → Prop} (hG : ∀ a, ¬ G a) (hs : Reachable Y s) (ht : Reachable Y t)
    (h : Sim G s t) (h' : Sim G t s) : Indistinguishable Y s t := fun _ _ hops =>
  ⟨fun hg => play_sim_eq hops hs ht hG h hg, fun hg => play_sim_eq hops ht hs hG h' hg⟩

/-- The operation is an `invalidate` or a `purge` of a builder alive in `s`. -/
def Op.forgets (s : St σ) (op : Op σ) : Prop :=
  ∃ p, s.live p = true ∧ (op = .invalidate p ∨ op = .purge p)

/-- The history invalidates or purges the builder with the id `a`. -/
def Drops (h : History σ) (a : Id) : Prop :=
  ∃ x ∈ h, ∃ p, (x.2.2 = .invalidate p ∨ x.2.2 = .purge p) ∧ p.id = a

/-- The history purges the builder with the id `a`. -/
def Purges (h : History σ) (a : Id) : Prop := ∃ x ∈ h, ∃ p, x.2.2 = .purge p ∧ p.id = a

theorem play_forgot (hist : History σ) {s : St σ} (hs : Reachable Y s)
    (hf : ∀ x ∈ hist, x.2.2.forgets s) :
    Reachable Y (play Y hist s).1 ∧ Forgot (Drops hist) (Purges hist) s (play Y hist s).1 ∧
    ∀ r ∈ (play Y hist s).2, r = .val .unit := by
  induction hist generalizing s with
  | nil =>
    refine ⟨hs, (Forgot.refl s).congr ?_ ?_, by simp [play]⟩
    · intro a; simp [Drops]
    · intro a; simp [Purges]
  | cons x hist ih =>
    obtain ⟨n, ord, op⟩ := x
    obtain ⟨p, hl, hop⟩ := hf (n, ord, op) (by simp)
    simp only at hop
    have key : ∃ K : Id → Prop, (∀ a, K a ↔ op = .purge p ∧ a = p.id) ∧
        Forgot (· = p.id) K s (step Y n ord s op).1 ∧ (step Y n ord s op).2 = .val .unit := by
      rcases hop with rfl | rfl
      · refine ⟨fun _ => False, by simp, ?_, ?_⟩
        · have := forgot_invalidate hs.inv ord p
          simp only [step, Op.promise?, hl, if_true, exec]
          exact this
        · obtain ⟨c, e, _⟩ := invalidate_spec hs.inv ord p
          simp [step, Op.promise?, hl, exec, e, LoopEnd.res]
      · refine ⟨(· = p.id), by simp, ?_, ?_⟩
        · have := forgot_purge hs.inv ord p
          simp only [step, Op.promise?, hl, if_true, exec]
          exact this
        · obtain ⟨c, cF, e, _, _⟩ := purge_spec hs.inv ord p
          simp [step, Op.promise?, hl, exec, e, LoopEnd.res]
    obtain ⟨K, hK, h1, h3⟩ := key
    simp only [play]
    obtain ⟨hr, h2, hres⟩ := ih (.step n ord op hs (by rw [h3]; trivial)) (by
      intro x hx
      obtain ⟨q, hq, hq'⟩ := hf x (List.mem_cons_of_mem _ hx)
      refine ⟨q, ?_, hq'⟩
      rw [live_iff, h1.heap]
      exact live_iff.1 hq)
    have hPD : ∀ a, Purges hist a → Drops hist a := by
      rintro a ⟨x, hx, p, h1, h2⟩
      exact ⟨x, hx, p, Or.inr h1, h2⟩
    refine ⟨hr, (h1.trans hPD h2).congr ?_ ?_, ?_⟩
    · intro a
      constructor
      · rintro (rfl | ⟨x, hx, q, h3, h4⟩)
        · exact ⟨(n, ord, op), by simp, p, hop, rfl⟩
        · exact ⟨x, List.mem_cons_of_mem _ hx, q, h3, h4⟩
      · rintro ⟨x, hx, q, h3, h4⟩
        rcases List.mem_cons.1 hx with rfl | hx
        · left
          rcases hop with rfl | rfl <;> simp at h3 <;> rw [h3, h4]
        · exact Or.inr ⟨x, hx, q, h3, h4⟩
    · intro a
      rw [hK a]
      constructor
      · rintro (⟨h, rfl⟩ | ⟨x, hx, q, h3, h4⟩)
        · exact ⟨(n, ord, op), by simp, p, h, rfl⟩
        · exact ⟨x, List.mem_cons_of_mem _ hx, q, h3, h4⟩
      · rintro ⟨x, hx, q, h3, h4⟩
        rcases List.mem_cons.1 hx with rfl | hx
        · left
          rcases hop with rfl | rfl
          · simp at h3
          · simp at h3; exact ⟨rfl, by rw [h3, h4]⟩
        · exact Or.inr ⟨x, hx, q, h3, h4⟩
    · intro r hr
      rcases List.mem_cons.1 hr with rfl | hr
      · exact h3
      · exact hres r hr

/-- **C47** Take two sequences of `invalidate` and `purge` calls.  If they invalidate or purge the same
builders, and purge the same builders, then no later operations can tell which of the two was
performed: order and repetitions do not matter, and `purge` includes `invalidate`. -/
theorem C47_only_the_sets_matter (h : Reachable Y s) {l l' : History σ}
    (hf : ∀ x ∈ l, x.2.2.forgets s) (hf' : ∀ x ∈ l', x.2.2.forgets s)
    (hD : ∀ a, Drops l a ↔ Drops l' a) (hP : ∀ a, Purges l a ↔ Purges l' a) :
    Indistinguishable Y (play Y l s).1 (play Y l' s).1 := by
  obtain ⟨r1, f1, _⟩ := play_forgot l h hf
  obtain ⟨r2, f2, _⟩ := play_forgot l' h hf'
  have f2' := f2.congr (fun a => (hD a).symm) (fun a => (hP a).symm)
  exact Sim.indist (fun _ h => h) r1 r2 (f1.sim f2') (f2'.sim f1)

/-- The hypotheses are met by two different sequences on the demo system, which drop the artifacts of 0,
1 and 2 and forget 1. -/
example : let l : History Demo.sig := ([.invalidate (Demo.P 0), .purge (Demo.P 1)] :
      List (Op Demo.sig)).map fun o => (9, Demo.ord, o)
    let l' : History Demo.sig := ([.purge (Demo.P 1), .invalidate (Demo.P 1), .invalidate (Demo.P 0),
      .purge (Demo.P 1)] : List (Op Demo.sig)).map fun o => (3, Demo.ord', o)
    Indistinguishable Demo.Y (play Demo.Y l Demo.s1).1 (play Demo.Y l' Demo.s1).1 ∧
    Uncached (play Demo.Y l Demo.s1).1 12 ∧ ¬ Uncached Demo.s1 12 := by
  refine ⟨C47_only_the_sets_matter Demo.reach1 ?_ ?_ ?_ ?_, ?_, ?_⟩
  · intro x hx
    simp only [List.map_cons, List.map_nil, List.mem_cons, List.not_mem_nil, or_false] at hx
    rcases hx with rfl | rfl
    · exact ⟨Demo.P 0, by decide, Or.inl rfl⟩
    · exact ⟨Demo.P 1, by decide, Or.inr rfl⟩
  · intro x hx
    simp only [List.map_cons, List.map_nil, List.mem_cons, List.not_mem_nil, or_false] at hx
    rcases hx with rfl | rfl | rfl | rfl
    · exact ⟨Demo.P 1, by decide, Or.inr rfl⟩
    · exact ⟨Demo.P 1, by decide, Or.inl rfl⟩
    · exact ⟨Demo.P 0, by decide, Or.inl rfl⟩
    · exact ⟨Demo.P 1, by decide, Or.inr rfl⟩
  · intro a
    simp [Drops]
    grind
  · intro a
    simp [Purges]
  · unfold Uncached; decide
  · unfold Uncached; decide

/-- **C47** In particular: the order of two invalidations does not matter. -/
theorem C47_invalidations_commute (h : Reachable Y s) {p q : Promise σ} (hp : s.live p = true)
    (hq : s.live q = true) (n : Nat) (ord : HashOrder) :
    Indistinguishable Y (step Y n ord (step Y n ord s (.invalidate p)).1 (.invalidate q)).1
      (step Y n ord (step Y n ord s (.invalidate q)).1 (.invalidate p)).1 :=
  C47_only_the_sets_matter h (l := [(n, ord, .invalidate p), (n, ord, .invalidate q)])
    (l' := [(n, ord, .invalidate q), (n, ord, .invalidate p)])
    (by simp [Op.forgets, hp, hq]) (by simp [Op.forgets, hp, hq])
    (by intro a; simp [Drops, or_comm]) (by intro a; simp [Purges])

/-- Builder 1 uses builder 0: invalidating the two in either order. -/
example : Indistinguishable Demo.Y
    (step Demo.Y 9 Demo.ord (step Demo.Y 9 Demo.ord Demo.s1 (.invalidate (Demo.P 0))).1 (.invalidate (Demo.P 1))).1
    (step Demo.Y 9 Demo.ord (step Demo.Y 9 Demo.ord Demo.s1 (.invalidate (Demo.P 1))).1 (.invalidate (Demo.P 0))).1 :=
  C47_invalidations_commute Demo.reach1 (by decide) (by decide) 9 Demo.ord

/-- **C47** And: an invalidation is idempotent. -/
theorem C47_invalidation_idempotent (h : Reachable Y s) {p : Promise σ} (hp : s.live p = true) (n : Nat)
    (ord : HashOrder) :
    Indistinguishable Y (step Y n ord (step Y n ord s (.invalidate p)).1 (.invalidate p)).1
      (step Y n ord s (.invalidate p)).1 :=
  C47_only_the_sets_matter h (l := [(n, ord, .invalidate p), (n, ord, .invalidate p)])
    (l' := [(n, ord, .invalidate p)])
    (by simp [Op.forgets, hp]) (by simp [Op.forgets, hp])
    (by intro a; simp [Drops]) (by intro a; simp [Purges])

example : Indistinguishable Demo.Y
    (step Demo.Y 9 Demo.ord (step Demo.Y 9 Demo.ord Demo.s1 (.invalidate (Demo.P 0))).1 (.invalidate (Demo.P 0))).1
    (step Demo.Y 9 Demo.ord Demo.s1 (.invalidate (Demo.P 0))).1 :=
  C47_invalidation_idempotent Demo.reach1 (by decide) 9 Demo.ord

end Daab
