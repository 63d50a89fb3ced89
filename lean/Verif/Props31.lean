import Verif.Props24
import Mathlib.Data.Set.Card

/-!
# Properties: reading and building only adds what it built; how the number of known builders changes

`C04_artifacts_kept` says that reading and building removes nothing.  Here: what it adds is exactly what was built,
initialised, written by a builder to its own dynamic state, and resolved in the meantime, also if it ends with an error or a
panic, and whatever panics were caught before.
-/

open Std

namespace Daab

variable {σ : Sig} {Y : Sys σ} {s s' : St σ}

/-- What is held after atomic steps and was not before, comes with its event; and what is built, is held. -/
theorem micros_origin (hm : Micros Y s s') : ∃ new, s'.c.log = new ++ s.c.log ∧
    (∀ (a : Id) v, s'.c.artifacts[a]? = some v → s.c.artifacts[a]? = some v ∨ ∃ q : Promise σ, q.id = a ∧ .built q v ∈ new) ∧
    (∀ (q : Promise σ) v, .built q v ∈ new → q.id ∈ s'.c.artifacts) ∧
    (∀ (a : Id) d, s'.c.dynStates[a]? = some d → s.c.dynStates[a]? = some d ∨
      ∃ q : Promise σ, q.id = a ∧ (.initDyn q (some d) ∈ new ∨ .setDyn q d ∈ new)) ∧
    (∀ u d, Dep s'.c u d → Dep s.c u d ∨ ∃ U D : Promise σ, U.id = u ∧ D.id = d ∧ .resolve U D ∈ new) ∧
    ∀ a, a ∈ s.c.artifacts → a ∈ s'.c.artifacts := by
  induction hm with
  | refl => exact ⟨[], rfl, fun _ _ h => .inl h, by simp, fun _ _ h => .inl h, fun _ _ h => .inl h, fun _ h => h⟩
  | @tail s1 s2 _ hm ih =>
    obtain ⟨new, h1, h2, h3, h4, h5, h6⟩ := ih
    have go : ∀ es, s2.c.log = es ++ s1.c.log →
        (∀ (a : Id) v, s2.c.artifacts[a]? = some v → s1.c.artifacts[a]? = some v ∨ ∃ q : Promise σ, q.id = a ∧ .built q v ∈ es) →
        (∀ (q : Promise σ) v, .built q v ∈ es → q.id ∈ s2.c.artifacts) →
        (∀ (a : Id) d, s2.c.dynStates[a]? = some d → s1.c.dynStates[a]? = some d ∨
          ∃ q : Promise σ, q.id = a ∧ (.initDyn q (some d) ∈ es ∨ .setDyn q d ∈ es)) →
        (∀ u d, Dep s2.c u d → Dep s1.c u d ∨ ∃ U D : Promise σ, U.id = u ∧ D.id = d ∧ .resolve U D ∈ es) →
        (∀ a, a ∈ s1.c.artifacts → a ∈ s2.c.artifacts) →
        ∃ new, s2.c.log = new ++ s.c.log ∧
          (∀ (a : Id) v, s2.c.artifacts[a]? = some v → s.c.artifacts[a]? = some v ∨ ∃ q : Promise σ, q.id = a ∧ .built q v ∈ new) ∧
          (∀ (q : Promise σ) v, .built q v ∈ new → q.id ∈ s2.c.artifacts) ∧
          (∀ (a : Id) d, s2.c.dynStates[a]? = some d → s.c.dynStates[a]? = some d ∨
            ∃ q : Promise σ, q.id = a ∧ (.initDyn q (some d) ∈ new ∨ .setDyn q d ∈ new)) ∧
          (∀ u d, Dep s2.c u d → Dep s.c u d ∨ ∃ U D : Promise σ, U.id = u ∧ D.id = d ∧ .resolve U D ∈ new) ∧
          ∀ a, a ∈ s.c.artifacts → a ∈ s2.c.artifacts := by
      intro es e g2 g3 g4 g5 g6
      refine ⟨es ++ new, by rw [e, h1, List.append_assoc], ?_, ?_, ?_, ?_, fun a h => g6 a (h6 a h)⟩
      · intro a v hv
        rcases g2 a v hv with h | ⟨q, hq, h⟩
        · rcases h2 a v h with h | ⟨q, hq, h⟩
          · exact .inl h
          · exact .inr ⟨q, hq, List.mem_append_right _ h⟩
        · exact .inr ⟨q, hq, List.mem_append_left _ h⟩
      · intro q v hq
        rcases List.mem_append.1 hq with h | h
        · exact g3 q v h
        · exact g6 _ (h3 q v h)
      · intro a d hd
        rcases g4 a d hd with h | ⟨q, hq, h⟩
        · rcases h4 a d h with h | ⟨q, hq, h⟩
          · exact .inl h
          · exact .inr ⟨q, hq, h.imp (List.mem_append_right _) (List.mem_append_right _)⟩
        · exact .inr ⟨q, hq, h.imp (List.mem_append_left _) (List.mem_append_left _)⟩
      · intro u d hd
        rcases g5 u d hd with h | ⟨U, D, hu, hd, h⟩
        · rcases h5 u d h with h | ⟨U, D, hu, hd, h⟩
          · exact .inl h
          · exact .inr ⟨U, D, hu, hd, List.mem_append_right _ h⟩
        · exact .inr ⟨U, D, hu, hd, List.mem_append_left _ h⟩
    have same : ∀ es, s2.c.log = es ++ s1.c.log → (∀ (q : Promise σ) v, .built q v ∉ es) → s2.c.artifacts = s1.c.artifacts →
        s2.c.dependents = s1.c.dependents →
        (∀ (a : Id) d, s2.c.dynStates[a]? = some d → s1.c.dynStates[a]? = some d ∨
          ∃ q : Promise σ, q.id = a ∧ (.initDyn q (some d) ∈ es ∨ .setDyn q d ∈ es)) →
        _ := fun es e hn ha hd g4 =>
      go es e (fun a v h => .inl (ha ▸ h)) (fun q v h => absurd h (hn q v)) g4 (fun u d h => .inl (by simpa only [Dep, hd] using h))
        (fun a h => ha ▸ h)
    cases hm with
    | known p hl =>
      exact same [] (makeKnown_log _ _) (by simp) (by simp [St.onCache]) (makeKnown_dependents _ _)
        fun a d h => .inl (by simpa [St.onCache] using h)
    | track u q hu hq =>
      refine go [.resolve u q] rfl (fun a v h => .inl h) (by simp) (fun a v h => .inl h) ?_ fun _ h => h
      intro x y h
      rcases (addEdge_dep u q s1.c x y).1 h with h | ⟨rfl, rfl⟩
      · exact .inl h
      · exact .inr ⟨u, q, rfl, rfl, by simp⟩
    | init p w d =>
      refine same [.initDyn p (some d)] rfl (by simp) rfl rfl ?_
      intro a d' h
      simp only [Cache.emit, ExtTreeMap.getElem?_insert] at h
      split at h
      · next e => cases h; exact .inr ⟨p, by simpa using e, by simp⟩
      · exact .inl h
    | initPanic p w => exact same [.initDyn p none] rfl (by simp) rfl rfl fun a d h => .inl h
    | setDyn p d =>
      refine same [.setDyn p d] rfl (by simp) rfl rfl ?_
      intro a d' h
      simp only [Cache.emit, ExtTreeMap.getElem?_insert] at h
      split at h
      · next e => cases h; exact .inr ⟨p, by simpa using e, by simp⟩
      · exact .inl h
    | world w => exact same [] rfl (by simp) rfl rfl fun a d h => .inl h
    | alloc q ha => 
      have := allocB_c ha
      exact same [] (by rw [this]; rfl) (by simp) (by rw [this]) (by rw [this]) fun a d h => .inl (by rw [this] at h; exact h)
    | free a => exact same [] rfl (by simp) rfl rfl fun a d h => .inl h
    | call p => exact same [.call p] rfl (by simp) rfl rfl fun a d h => .inl h
    | built p v =>
      refine go [.built p v] rfl ?_ ?_ (fun a d h => .inl h) (fun u d h => .inl h) ?_
      · intro a v' h
        simp only [St.onCache, Cache.emit, ExtTreeMap.getElem?_insert] at h
        split at h
        · next e => cases h; exact .inr ⟨p, by simpa using e, by simp⟩
        · exact .inl h
      · intro q v' h
        simp only [List.mem_singleton] at h
        cases h
        simp [St.onCache]
      · intro a h
        simp [St.onCache, h]

/-- **C04** What reading and building changes, in any state, with any doctor, and however it ends (value, error, panic, even stack
overflow): an artifact that was not cached before was built in the meantime, and what was built in the meantime is cached;
a dynamic state that is not as before was initialised or written in the meantime, as it is now; a use that was not recorded
before is one that happened in the meantime. -/
theorem C04_only_adds (h : Anyhow Y s) {op : Op σ} (hop : op.readsOrBuilds) {r : Res (Ans σ)} (hw : Went Y s op s' r) :
    (∀ a v, Cached s' a v → Cached s a v ∨ ∃ q : Promise σ, q.id = a ∧ Since s s' (.built q v)) ∧
    (∀ (q : Promise σ) v, Since s s' (.built q v) → ∃ w, Cached s' q.id w) ∧
    (∀ a d, HasState s' a d → HasState s a d ∨
      ∃ q : Promise σ, q.id = a ∧ (Since s s' (.initDyn q (some d)) ∨ Since s s' (.setDyn q d))) ∧
    ∀ u d, UsesNow s' u d → UsesNow s u d ∨ ResolvedSince s s' u d := by
  obtain ⟨new, e, h2, h3, h4, h5, _⟩ := micros_origin (h.safe.reads hop hw).micros
  refine ⟨?_, ?_, ?_, ?_⟩
  · intro a v hv
    exact (h2 a v hv).imp id fun ⟨q, hq, hm⟩ => ⟨q, hq, new, e, hm⟩
  · rintro q v ⟨new', e', hm⟩
    rw [e] at e'
    rw [← List.append_cancel_right e'] at hm
    exact (mem_getElem _ _).1 (h3 q v hm)
  · intro a d hd
    exact (h4 a d hd).imp id fun ⟨q, hq, hm⟩ => ⟨q, hq, hm.imp (⟨new, e, ·⟩) (⟨new, e, ·⟩)⟩
  · intro u d hd
    exact (h5 u d ((usesNow_iff ..).1 hd)).imp (usesNow_iff ..).2 fun ⟨U, D, hu, hd, hm⟩ => ⟨U, D, hu, hd, new, e, hm⟩

/-- Builder 5 panics when it is got for the first time; when it is got again, it is built. -/
example : ∃ q : Promise Demo.sig, q.id = 15 ∧ Since (step Demo.Y 9 Demo.ord Demo.s1 (.get .bin (Demo.P 5))).1
    (step Demo.Y 9 Demo.ord (step Demo.Y 9 Demo.ord Demo.s1 (.get .bin (Demo.P 5))).1 (.get .bin (Demo.P 5))).1 (.built q (5 : Nat)) :=
  ((C04_only_adds ((C65_reachable Demo.reach1).step 9 Demo.ord (.get .bin (Demo.P 5)) (by
    rw [show (step Demo.Y 9 Demo.ord Demo.s1 (.get .bin (Demo.P 5))).2 = .panic .user from rfl]; exact ⟨by simp, by simp⟩))
    (op := .get .bin (Demo.P 5)) trivial (.plain 9 Demo.ord)).1 15 (5 : Nat) (by unfold Cached; decide +kernel)).resolve_left
    (by unfold Cached; decide +kernel)

/-! ## C17 -/

/-- The builder ids a cache knows. -/
def knownIds (s : St σ) : Set Id := {a | Known s a}

theorem knownIds_finite (s : St σ) : (knownIds s).Finite := by
  refine (List.finite_toSet s.c.known.keys).subset ?_
  intro a ha
  have : a ∈ s.c.known := ha
  simpa using this

theorem knownIds_ncard (s : St σ) : (knownIds s).ncard = s.c.known.size := by
  have h1 : knownIds s = ((s.c.known.keys.toFinset : Finset Id) : Set Id) := by
    ext a; simp [knownIds, Known]
  rw [h1, Set.ncard_coe_finset, List.toFinset_card_of_nodup ExtTreeMap.nodup_keys, ExtTreeMap.length_keys]

theorem knownIds_same (h : s'.c.known = s.c.known) : knownIds s' = knownIds s := by
  ext a; simp only [knownIds, Known, h]

theorem knownIds_micros (h : Micros Y s s') : knownIds s ⊆ knownIds s' := by
  intro a ha
  obtain ⟨b, hb⟩ := (mem_getElem _ _).1 ha
  exact (mem_getElem _ _).2 ⟨b, h.known_mono _ _ hb⟩

theorem ensureDyn_knownIds (p : Promise σ) (s : St σ) : knownIds (ensureDyn Y p s).1 = insert p.id (knownIds s) := by
  have hk : knownIds (s.onCache (makeKnown p)) = insert p.id (knownIds s) := by
    ext a
    simp only [knownIds, Known, Set.mem_insert_iff, Set.mem_ofPred_eq, St.onCache]
    unfold makeKnown
    split
    · next h => 
      have h : p.id ∈ s.c.known := (mem_getElem _ _).2 ⟨_, h⟩
      exact ⟨.inr, fun h' => h'.elim (fun e => e ▸ h) id⟩
    · rw [ExtTreeMap.mem_insert, _root_.compare_eq_iff_eq, eq_comm]
  unfold ensureDyn
  simp only
  repeat' split
  all_goals exact hk

theorem dynStateMut_knownIds (hi : Inv Y s) (ord : HashOrder) (p : Promise σ) (f : σ.S → σ.S) :
    knownIds (dynStateMut Y ord p f s).1 = insert p.id (knownIds s) := by
  obtain ⟨c', he, hd⟩ := invalidate_spec hi ord p
  have h1 : knownIds ({ s with c := c'.emit (.invalidate p) } : St σ) = knownIds s := knownIds_same hd.known
  have h2 := ensureDyn_knownIds (Y := Y) p { s with c := c'.emit (.invalidate p) }
  rw [h1] at h2
  unfold dynStateMut
  simp only [he]
  generalize ensureDyn Y p { s with c := c'.emit (.invalidate p) } = x at h2 ⊢
  obtain ⟨s2, r⟩ := x
  cases r with
  | val d => simp only; split <;> exact (knownIds_same rfl).trans h2
  | _ => exact h2

theorem getMut_knownIds (h : Reachable Y s) {n : Nat} {ord : HashOrder} {p : Promise σ} {f : σ.V → σ.V}
    (hg : (step Y n ord s (.getMut p f)).2.goesOn) : knownIds s ⊆ knownIds (step Y n ord s (.getMut p f)).1 := by
  have hl : s.live p = true := Went.live (.plain n ord) hg rfl
  rw [step_live rfl hl] at hg ⊢
  simp only [exec] at hg ⊢
  have key : knownIds s ⊆ knownIds (getMut Y ord (buildN Y n) p s).1 := by
    rcases getMut_spec h.inv n ord hl with ⟨c', he, _⟩ | ⟨c1, h1, ⟨c2, v, _, h2, _, hi2, he⟩ | ⟨ha, he⟩⟩
    · rw [he] at hg; exact absurd rfl hg
    · have s1 := (invalidateDependents_addStray h.inv h1).1
      rcases h.inv.invalidateDependents ord p.id with ⟨c', he', _⟩ | ⟨c', he', _, hinv, _⟩
      · rw [h1] at he'; cases he'
      · rw [h1] at he'; cases he'
        have s2 := (invalidateDependents_addStray (s := { s with c := c1 }) hinv h2).1
        rw [he, knownIds_same (s := s) (s' := { s with c := c2 }) (s2.trans s1)]
    · have s1 := (invalidateDependents_addStray h.inv h1).1
      rcases h.inv.invalidateDependents ord p.id with ⟨c', he', _⟩ | ⟨c', he', _, hinv, _⟩
      · rw [h1] at he'; cases he'
      · rw [h1] at he'; cases he'
        rw [he, ← knownIds_same (s := s) (s' := { s with c := c1 }) s1]
        exact knownIds_micros ((getA_ok Y n).2.ran p { s with c := c1 } hinv hl ha).micros
  generalize getMut Y ord (buildN Y n) p s = x at *
  obtain ⟨s2, r⟩ := x
  rcases r with (e | v) | _ | _ | _
  · exact key
  · simp only [writeArt]
    split
    · next hw => 
      split at hw
      · cases hw; exact key
      · cases hw
    · exact key
  all_goals exact key

/-- **C17** How the number of known builders changes with any operation (unless it ends the program): what only looks,
invalidates artifacts or writes to one, leaves it as it is; getting never decreases it; accessing the dynamic state of a builder adds
it; purging subtracts the builder purged; a garbage collection subtracts the number of those nobody references and nobody uses;
nothing is left after `clear_all`. -/
theorem C17_changes (h : Reachable Y s) {op : Op σ} {n : Nat} {ord : HashOrder} {r : Res (Ans σ)}
    (hs : step Y n ord s op = (s', r)) (hg : r.goesOn) {m m' : Nat}
    (hm : (step Y 0 ord s .numKnown).2 = .val (.nat m)) (hm' : (step Y 0 ord s' .numKnown).2 = .val (.nat m')) :
    match (generalizing := false) op with
    | .get .. | .getMut .. => m ≤ m'
    | .dynState p | .dynStateMut p _ => (Known s p.id → m' = m) ∧ (¬ Known s p.id → m' = m + 1)
    | .purge p => (Known s p.id → m' + 1 = m) ∧ (¬ Known s p.id → m' = m)
    | .clearAll => m' = 0
    | .gc => (∃ k, r = .panic k ∧ m' = m) ∨ m' + {a | Known s a ∧ Dead s a ∧ ∀ u, ¬ UsesNow s u a}.ncard = m
    | _ => m' = m := by
  have e : m = (knownIds s).ncard := by
    rw [knownIds_ncard]; simp only [step, Op.promise?, exec, numKnown] at hm; cases hm; rfl
  have e' : m' = (knownIds s').ncard := by
    rw [knownIds_ncard]; simp only [step, Op.promise?, exec, numKnown] at hm'; cases hm'; rfl
  have hsub : knownIds s ⊆ knownIds s' → m ≤ m' := fun hx => by rw [e, e']; exact Set.ncard_le_ncard hx (knownIds_finite s')
  have hsame : s'.c.known = s.c.known → m' = m := fun hx => by rw [e, e', knownIds_same hx]
  have hadd : ∀ a, knownIds s' = insert a (knownIds s) → (Known s a → m' = m) ∧ (¬ Known s a → m' = m + 1) := by
    intro a hx
    rw [e, e', hx]
    exact ⟨fun hk => by rw [Set.insert_eq_of_mem (show a ∈ knownIds s from hk)], fun hk => Set.ncard_insert_of_notMem hk (knownIds_finite s)⟩
  have hs1 : (step Y n ord s op).1 = s' := by rw [hs]
  have hs2 : (step Y n ord s op).2 = r := by rw [hs]
  have live : ∀ {p}, op.promise? = some p → s.live p = true := fun hp => Went.live (Y := Y) (.plain n ord) (hs2 ▸ hg) hp
  cases op with
  | get how p =>
    have hl := live rfl
    rw [step_live rfl hl] at hs1
    exact hsub (hs1 ▸ knownIds_micros ((getA_ok Y n).1.ran how p s h.inv).micros)
  | getMut p f => exact hsub (hs1 ▸ getMut_knownIds h (hs2 ▸ hg))
  | dynState p =>
    rw [step_live rfl (live rfl)] at hs1
    exact hadd p.id (hs1 ▸ ensureDyn_knownIds p s)
  | dynStateMut p f =>
    rw [step_live rfl (live rfl)] at hs1
    exact hadd p.id (hs1 ▸ dynStateMut_knownIds h.inv ord p f)
  | purge p =>
    have h13 := C13_purge h (live (p := p) rfl) n ord
    simp only [hs1] at h13
    obtain ⟨_, _, k1, _, _, k2, _⟩ := h13
    have hx : knownIds s' = knownIds s \ {p.id} := by
      ext a
      by_cases ha : a = p.id
      · subst ha; simpa [knownIds] using k1
      · simpa [knownIds, ha] using k2 a ha
    refine ⟨fun hk => ?_, fun hk => ?_⟩
    · rw [e, e', hx]; exact Set.ncard_sdiff_singleton_add_one hk (knownIds_finite s)
    · rw [e, e', hx, Set.sdiff_singleton_eq_self (show p.id ∉ knownIds s from hk)]
  | clearAll =>
    subst hs1
    rw [e']
    simp [knownIds, Known, step, Op.promise?, exec, St.onCache, Daab.clearAll, Cache.emit]
  | gc =>
    cases r with
    | val a =>
      refine .inr ?_
      obtain ⟨k1, _⟩ := C20_gc_collects h hs
      rw [e, e']
      have hx : knownIds s' = knownIds s \ {a | Known s a ∧ Dead s a ∧ ∀ u, ¬ UsesNow s u a} := by
        ext a; simpa only [knownIds, Set.mem_sdiff, Set.mem_ofPred_eq] using k1 a
      rw [hx]
      exact Set.ncard_sdiff_add_ncard_of_subset (fun a ha => ha.1) (knownIds_finite s)
    | panic k =>
      rcases step_gc h n ord with ⟨e1, _⟩ | ⟨_, c', e1, _⟩
      · rw [hs] at e1; cases e1
        exact .inl ⟨_, rfl, hsame rfl⟩
      · rw [hs] at e1; cases e1
    | stuck => cases hg
    | overflow => cases hg
  | invalidate p => exact hsame (Went.invalidate_known (hs1 ▸ hs2 ▸ .plain n ord : Went Y s (.invalidate p) s' r) hg h)
  | lookupMut p f => exact hsame (hs1 ▸ lookupMut_known h n ord (hs2 ▸ hg))
  | lookup how p | getDynState p | isKnown p =>
    rw [step_live rfl (live rfl)] at hs1
    exact hsame (hs1 ▸ rfl)
  | numKnown | clearArtifacts | free | world => exact hsame (hs1 ▸ rfl)
  | alloc p =>
    refine hsame ?_
    rw [← hs1]
    simp only [step, Op.promise?, exec]
    split
    · next ha => rw [allocB_c ha]
    · rfl

/-- Three builders are known; purging one of them leaves two; getting one that is not known makes it four. -/
example : (step Demo.Y 9 Demo.ord Demo.s1 .numKnown).2 = .val (.nat 3) ∧
    (step Demo.Y 9 Demo.ord (step Demo.Y 9 Demo.ord Demo.s1 (.purge (Demo.P 0))).1 .numKnown).2 = .val (.nat 2) ∧
    (step Demo.Y 9 Demo.ord (step Demo.Y 9 Demo.ord Demo.s1 (.get .bin (Demo.P 5))).1 .numKnown).2 = .val (.nat 4) :=
  ⟨rfl, rfl, rfl⟩

example : Known Demo.s1 10 → (2 : Nat) + 1 = 3 :=
  (C17_changes Demo.reach1 (op := .purge (Demo.P 0)) (n := 9) (ord := Demo.ord) rfl trivial rfl rfl).1

end Daab
