import Verif.Preserve
import Verif.Props2

/-! # C16 for any doctor: how a builder can be known without having a dynamic state -/

open Std

namespace Daab

variable {σ : Sig} {Y : Sys σ} {s : St σ}

/-- Every known builder has a dynamic state, or its initialisation panicked, or it was used by another. -/
def KnownWhy (s : St σ) : Prop := ∀ a, a ∈ s.c.known →
  a ∈ s.c.dynStates ∨ (∃ p : Promise σ, p.id = a ∧ Event.initDyn p none ∈ s.c.log) ∨
    ∃ u q : Promise σ, q.id = a ∧ Event.resolve u q ∈ s.c.log

theorem KnownWhy.shrink {s' : St σ} (h : KnownWhy s) (hk : ∀ a, a ∈ s'.c.known → a ∈ s.c.known)
    (h1 : ∀ a, a ∈ s'.c.known → a ∈ s.c.dynStates → a ∈ s'.c.dynStates)
    (h2 : s.c.log <:+ s'.c.log) : KnownWhy s' := by
  intro a ha
  rcases h a (hk a ha) with h | ⟨p, h3, h4⟩ | ⟨u, q, h3, h4⟩
  · exact .inl (h1 a ha h)
  · exact .inr (.inl ⟨p, h3, h2.mem h4⟩)
  · exact .inr (.inr ⟨u, q, h3, h2.mem h4⟩)

theorem KnownWhy.same {s' : St σ} (h : KnownWhy s) (hk : s'.c.known = s.c.known)
    (h1 : ∀ a, a ∈ s.c.dynStates → a ∈ s'.c.dynStates) (h2 : s.c.log <:+ s'.c.log) : KnownWhy s' :=
  h.shrink (fun _ h => hk ▸ h) (fun a _ => h1 a) h2

theorem knownWhy_init (p : Promise σ) (s : St σ) (h : KnownWhy s) (he : (ensureDyn Y p s).2.ended) :
    KnownWhy (ensureDyn Y p s).1 := by
  have h1 : ∀ a, a ∈ (s.onCache (makeKnown p)).c.known → a ≠ p.id → a ∈ s.c.known := by
    intro a ha hne
    rw [mem_getElem] at ha ⊢
    simp only [St.onCache, makeKnown_getElem, if_neg hne] at ha
    exact ha
  have hd0 : (s.onCache (makeKnown p)).c.dynStates = s.c.dynStates := by simp [St.onCache]
  have hl0 : (s.onCache (makeKnown p)).c.log = s.c.log := by simp [St.onCache]
  unfold ensureDyn at he ⊢
  generalize s.onCache (makeKnown p) = s1 at h1 hd0 hl0 he ⊢
  simp only at he ⊢
  cases hd : s1.c.dynStates[p.id]? with
  | some d =>
    simp only
    intro a ha
    by_cases hp : a = p.id
    · subst hp; exact .inl ((mem_getElem _ _).2 ⟨d, hd⟩)
    · have := h a (h1 a ha hp)
      rw [← hd0, ← hl0] at this
      exact this
  | none =>
    simp only [hd] at he ⊢
    rcases hin : Y.init p.b s1.w with ⟨w, _ | d⟩
    · simp only
      intro a ha
      by_cases hp : a = p.id
      · exact .inr (.inl ⟨p, hp.symm, by simp [Cache.emit]⟩)
      · have := h a (h1 a ha hp)
        rw [← hd0, ← hl0] at this
        rcases this with h | ⟨p, h3, h4⟩ | ⟨u, q, h3, h4⟩
        · exact .inl h
        · exact .inr (.inl ⟨p, h3, List.mem_cons_of_mem _ h4⟩)
        · exact .inr (.inr ⟨u, q, h3, List.mem_cons_of_mem _ h4⟩)
    · simp only [hin] at he ⊢
      split at he
      · next ht =>
        rw [if_pos ht]
        intro a ha
        by_cases hp : a = p.id
        · subst hp; exact .inl (by simp [Cache.emit])
        · have := h a (h1 a ha hp)
          rw [← hd0, ← hl0] at this
          rcases this with h | ⟨p, h3, h4⟩ | ⟨u, q, h3, h4⟩
          · exact .inl (by simp only [Cache.emit]; grind)
          · exact .inr (.inl ⟨p, h3, List.mem_cons_of_mem _ h4⟩)
          · exact .inr (.inr ⟨u, q, h3, List.mem_cons_of_mem _ h4⟩)
      · exact absurd rfl he.1

theorem knownWhy_own (p : Promise σ) (L : Promise σ → Prop) : ∀ s s', Running Y p s → OwnStep Y L p s s' →
    KnownWhy s → KnownWhy s' := by
  intro s s' hr ho h
  cases ho with
  | track q _ hl =>
    intro a ha
    by_cases hq : a = q.id
    · exact .inr (.inr ⟨p, q, hq.symm, by simp [tracked, St.onCache, addEdge, Cache.emit]⟩)
    · have hk : a ∈ s.c.known := by
        rw [mem_getElem] at ha ⊢
        simp only [tracked, St.onCache, addEdge, Cache.emit, makeKnown_getElem, if_neg hq] at ha
        exact ha
      have m := hr.tracked hl
      rcases h a hk with h | ⟨p, h3, h4⟩ | ⟨u, q, h3, h4⟩
      · exact .inl (m.dyn_mono a h)
      · exact .inr (.inl ⟨p, h3, m.log_mono.mem h4⟩)
      · exact .inr (.inr ⟨u, q, h3, m.log_mono.mem h4⟩)
  | wrote d _ => exact h.same rfl (by simp only [wrote, Cache.emit]; grind) (List.suffix_cons _ _)
  | world w => exact h
  | alloc q ha =>
    have hc := allocB_c ha
    exact h.same (by rw [hc]) (by rw [hc]; exact fun _ h => h) (by rw [hc]; exact List.suffix_refl _)
  | free a => exact h

theorem knownWhy_ops : OpsPreserve Y (KnownWhy (σ := σ)) fun _ => True := by
  constructor
  · intro n hp p s hi hj hl ha he
    exact build_preserves (p := p) (Prog.only_true _) hp (fun s _ _ h he => knownWhy_init p s h he)
      (fun _ _ h => h.same rfl (fun _ h => h) (List.suffix_cons _ _)) (knownWhy_own p _)
      (fun _ _ _ _ _ _ h => h.same rfl (fun _ h => h) (List.suffix_cons _ _)) hi hj hl ha he
  · intro p s hi hl h he
    exact knownWhy_init p s h he
  · intro s s' hi hr h
    cases hr with
    | inval p c' hd =>
      exact h.same hd.known (by simp [Cache.emit, hd.dynStates])
        (by simp only [Cache.emit, hd.log]; exact List.suffix_cons _ _)
    | purge p c' hd =>
      refine h.shrink ?_ ?_ ?_
      · simp only; grind
      · simp only; grind
      · exact (List.suffix_cons _ _).trans (List.suffix_cons _ _)
    | gc c' l hl hlog hsw =>
      have hng : ∀ a, a ∈ c'.known → ¬ Garbage s a := by
        intro a ha hga
        obtain ⟨b, hb⟩ := (mem_getElem _ _).1 ha
        rw [hsw.known_none a hga] at hb
        cases hb
      refine h.shrink ?_ ?_ ?_
      · intro a ha
        simp only [mem_getElem] at ha ⊢
        rw [← hsw.known_keep a (hng a ((mem_getElem _ _).2 ha))]
        exact ha
      · intro a ha hd
        simp only [mem_getElem] at hd ⊢
        rw [hsw.dyn_keep a (hng a ha)]
        exact hd
      · simp only [hlog]
        exact List.suffix_append _ _
    | mutDeps a c' _ h1 h2 h3 h4 h5 _ =>
      exact h.same h1 (by simp [h2]) (by simp only [h5]; exact List.suffix_cons _ _)
    | write p v f _ _ hv => exact h.same rfl (fun _ h => h) (List.suffix_cons _ _)
    | clearArtifacts => exact h.same rfl (fun _ h => h) (List.suffix_cons _ _)
    | clearAll =>
      intro a ha
      simp [St.onCache, clearAll, Cache.emit] at ha
    | alloc q ha =>
      have hc := allocB_c ha
      exact h.same (by rw [hc]) (by rw [hc]; exact fun _ h => h) (by rw [hc]; exact List.suffix_refl _)
    | free a => exact h
    | world f _ => exact h
  · intro p f s d _ _ _ _ _ _ h
    exact h.same rfl (by simp only [wrote, Cache.emit]; grind) (List.suffix_cons _ _)

theorem knownWhy_hooks (D : Hooks σ) : HooksPreserve Y (KnownWhy (σ := σ)) D := by
  refine ⟨?_, fun _ _ h => h⟩
  intro n hp p s hi hj hl ha he
  exact buildH_preserves (p := p) (Prog.only_true _) hp (fun _ _ h => h) (fun s _ _ h he => knownWhy_init p s h he)
    (fun _ _ h => h.same rfl (fun _ h => h) (List.suffix_cons _ _)) (knownWhy_own p _)
    (fun _ _ _ _ _ _ _ h => h.same rfl (fun _ h => h) (List.suffix_cons _ _)) hi hj hl ha he

/-- **C16** With any doctor whatsoever, panicking or not: `is_builder_known(p) = true` only if there is a dynamic
state, or `init_dyn_state` of a builder at this address panicked, or a builder at this address was recorded to be used
by another one (and the doctor panicked when it was told so, see `C16_known_means_state`). -/
theorem C16_known_means_state_or_use (h : Reachable Y s) {p : Promise σ} {n : Nat} {ord : HashOrder}
    (hk : (step Y n ord s (.isKnown p)).2 = .val (.bool true)) :
    (∃ d, HasState s p.id d) ∨
      (∃ q : Promise σ, q.id = p.id ∧ Event.initDyn q none ∈ s.c.log) ∨
      ∃ u q : Promise σ, q.id = p.id ∧ Event.resolve u q ∈ s.c.log := by
  have hm : p.id ∈ s.c.known := by
    simp only [step, Op.promise?, exec, isKnown] at hk
    split at hk
    · simpa using hk
    · cases hk
  rcases h.preserved knownWhy_ops knownWhy_hooks (fun w a ha => by simp [St.new] at ha) p.id hm with h | h | h
  · exact .inl ((mem_getElem _ _).1 h)
  · exact .inr (.inl h)
  · exact .inr (.inr h)

namespace Demo

/-- A doctor that panics whenever it is told about a use. -/
def shy : Hooks Demo.sig
  | w, .report (.resolve _ _) => (w, true)
  | w, _ => (w, false)

/-- A system in which the doctor panicked when builder 2 used builder 1. -/
def afterShy : St Demo.sig :=
  (stepH Demo.Y shy 9 Demo.ord (runOps Demo.Y 9 Demo.ord Demo.allocs (St.new (0 : Nat))) (.get .bin (P 2))).1

set_option smartUnfolding false in
/-- The third alternative is needed: then a builder is known that neither has a dynamic state nor was initialised. -/
example : Reachable Demo.Y afterShy ∧ ∃ p, (step Demo.Y 9 Demo.ord afterShy (.isKnown p)).2 = .val (.bool true) ∧
    ¬ p.id ∈ afterShy.c.dynStates ∧ Event.resolve (P 2) p ∈ afterShy.c.log := by
  refine ⟨.hooked shy 9 Demo.ord (.get .bin (P 2)) (Reachable.runOps _ (Reachable.new (Y := Demo.Y) (0 : Nat)) (by decide)) ?_,
    P 1, rfl, by decide, ?_⟩
  · have : (stepH Demo.Y shy 9 Demo.ord (runOps Demo.Y 9 Demo.ord Demo.allocs (St.new (0 : Nat))) (.get .bin (P 2))).2 =
        .panic .user := rfl
    rw [this]
    exact (by decide : Panic.user ≠ Panic.noCounterpart)
  · have : afterShy.c.log = [.resolve (P 2) (P 1), .call (P 2), .initDyn (P 2) (some (2 : Nat))] := rfl
    rw [this]
    exact List.mem_cons_self

end Demo

end Daab
