import Verif.Props36

/-!
# C22: mutable access with any hooks, and of a builder that used itself

What mutable access does if it does not panic, in all cases: nothing but the builder itself is recorded to have used it.  With any
doctor, `Debug` and `Clone`.
-/

open Std

namespace Daab

section
variable {σ : Sig} {Y : Sys σ} {s s' : St σ}

/-- If only `a` itself uses `a`, nothing but `a` depends upon it, directly or through others. -/
theorem strictHit_own {r : Id → Id → Prop} {a x : Id} (hall : ∀ x, r x a → x = a) : StrictHit r a x ↔ x = a ∧ r a a := by
  constructor
  · intro h
    unfold StrictHit at h
    induction h using Relation.TransGen.head_induction_on with
    | @single b h => obtain rfl := hall b h; exact ⟨rfl, h⟩
    | @head b c h _ ih => obtain ⟨rfl, h2⟩ := ih; exact ⟨hall b h, h2⟩
  · rintro ⟨rfl, h⟩
    exact .single h

/-- **C22**, what does hold for `lookup_mut(p)` if no other builder is recorded to have used `p`, whatever the hooks: unless `p` has used
itself, the cached artifact is returned and what the caller writes is what is cached afterwards; if `p` has used itself, nothing is
returned, and the artifact of `p` and its recorded uses are gone.  Nothing else changes. -/
theorem C22_lookup_mut_any_hooks_partial (h : Reachable Y s) {p : Promise σ} (hl : s.live p = true) {f : σ.V → σ.V} {r : Res (Ans σ)}
    (hw : Went Y s (.lookupMut p f) s' r) (hno : ∀ x, UsesNow s x p.id → x = p.id)
    (hty : ∀ v, Y.artTy v = Y.vty p.b → Y.artTy (f v) = Y.vty p.b) :
    (¬ UsesNow s p.id p.id → r = .val (.optArt (s.c.artifacts[p.id]?)) ∧ ∀ v, Cached s p.id v → Cached s' p.id (f v)) ∧
    (UsesNow s p.id p.id → r = .val (.optArt none) ∧ Uncached s' p.id) ∧
    (Uncached s p.id → Uncached s' p.id) ∧
    (∀ a v, a ≠ p.id → (Cached s' a v ↔ Cached s a v)) ∧ (∀ a d, HasState s' a d ↔ HasState s a d) ∧ (∀ a, Known s' a ↔ Known s a) ∧
    (∀ u d, UsesNow s' u d ↔ UsesNow s u d ∧ ¬ (u = p.id ∧ UsesNow s p.id p.id)) ∧ s'.w = s.w ∧ s'.heap = s.heap := by
  simp only [usesNow_iff] at hno ⊢
  have hi := h.inv
  obtain ⟨D, n, ord, rfl, rfl⟩ := went_plain hw
  clear hw
  rw [stepH_live rfl hl]
  simp only [execH, exec]
  rcases lookupMut_spec hi ord hl with ⟨c', he, x, hx1, hx2⟩ | ⟨c1, he, h1⟩
  · exact absurd (hno x hx2) hx1
  rcases hi.invalidateDependents ord p.id with ⟨c', he', _⟩ | ⟨c', he', hall, hinv, _, hk, hd, ha, hu, _⟩
  · rw [h1] at he'; cases he'
  rw [h1] at he'
  cases he'
  rw [he]
  simp only [strictHit_own hall] at ha hu
  cases hc : c1.artifacts[p.id]? with
  | none =>
    simp only
    refine ⟨fun hs => ?_, fun hs => ⟨trivial, hc⟩, fun _ => hc, fun a v hne => ?_, fun a d => ?_, fun a => ?_, hu, trivial, trivial⟩
    · have hn : s.c.artifacts[p.id]? = none := by
        cases hv : s.c.artifacts[p.id]? with
        | none => rfl
        | some v =>
          have := (ha p.id v).2 ⟨hv, fun h => hs h.2⟩
          rw [hc] at this; cases this
      rw [hn]
      exact ⟨rfl, fun v hv => by unfold Cached at hv; rw [hn] at hv; cases hv⟩
    · simp only [Cached, ha, hne, false_and, not_false_eq_true, and_true]
    · simp only [HasState, hd]
    · simp only [Known, hk]
  | some v =>
    obtain ⟨hv, hns⟩ := (ha p.id v).1 hc
    have hns : ¬ Dep s.c p.id p.id := fun h => hns ⟨rfl, h⟩
    have hm : p.id ∈ s.c.artifacts := (mem_getElem _ _).2 ⟨v, hv⟩
    obtain ⟨b, hb⟩ := (mem_getElem _ _).1 (hi.dynKnown _ (hi.artDyn _ hm))
    have hbb := hi.heapKnown _ _ _ hb (live_iff.1 hl)
    subst hbb
    have ht := hty v (hi.artTy _ _ _ hv hb)
    simp only [writeArt, ht, if_true]
    refine ⟨fun _ => ⟨by rw [hv], fun v' hv' => ?_⟩, fun hs => absurd hs hns, fun hn => ?_, fun a v' hne => ?_, fun a d => ?_, fun a => ?_,
      fun u d => ?_, trivial, trivial⟩
    · unfold Cached at hv' ⊢
      rw [hv] at hv'
      cases hv'
      simp [Cache.emit]
    · unfold Uncached at hn; rw [hv] at hn; cases hn
    · have h2 : ∀ x : σ.V, (c1.artifacts.insert p.id x)[a]? = c1.artifacts[a]? := by intro x; grind
      simp only [Cached, Cache.emit, h2, ha, hne, false_and, not_false_eq_true, and_true]
    · simp only [HasState, Cache.emit, hd]
    · simp only [Known, Cache.emit, hk]
    · exact hu u d

/-- **C22**, what does hold for `get_mut(p)` if no other builder is recorded to have used `p`, whatever the hooks: a cached artifact of a
`p` that has not used itself is returned and overwritten, and no builder is called; an artifact that is returned is overwritten, and it
comes from a new build if `p` has used itself or nothing was cached; an error comes only then; no other cached artifact changes. -/
theorem C22_get_mut_any_hooks_partial (h : Reachable Y s) {p : Promise σ} (hl : s.live p = true) {f : σ.V → σ.V} {r : Res (Ans σ)}
    (hw : Went Y s (.getMut p f) s' r) (hno : ∀ x, UsesNow s x p.id → x = p.id)
    (hty : ∀ v, Y.artTy v = Y.vty p.b → Y.artTy (f v) = Y.vty p.b) :
    (∀ v, Cached s p.id v → ¬ UsesNow s p.id p.id → r = .val (.art (.ok v)) ∧ s'.w = s.w ∧ ∀ q, ¬ Since s s' (.call q)) ∧
    (∀ v, r = .val (.art (.ok v)) → Cached s' p.id (f v)) ∧
    (∀ v, r = .val (.art (.ok v)) → Uncached s p.id ∨ UsesNow s p.id p.id → ∃ q : Promise σ, q.id = p.id ∧ Since s s' (.built q v)) ∧
    (∀ e, r = .val (.art (.error e)) → Uncached s p.id ∨ UsesNow s p.id p.id) ∧
    (∀ a v, a ≠ p.id → Cached s a v → Cached s' a v) := by
  simp only [usesNow_iff] at hno ⊢
  have hi := h.inv
  obtain ⟨D, n, ord, rfl, rfl⟩ := went_plain hw
  clear hw
  rw [stepH_live rfl hl]
  simp only [execH]
  rcases getMut_spec_of hi (getAH_ok Y D n).2 ord hl with ⟨c', he, x, hx1, hx2⟩ | ⟨c1, h1, h3⟩
  · exact absurd (hno x hx2) hx1
  rcases hi.invalidateDependents ord p.id with ⟨c', he', _⟩ | ⟨c', he', hall, hinv, hno1, hk, hd, ha, hu, hlog, _⟩
  · rw [h1] at he'; cases he'
  rw [h1] at he'
  cases he'
  simp only [strictHit_own hall] at ha hu
  rcases h3 with ⟨c2, v, h4, h5, h6, hinv2, he⟩ | ⟨h4, he⟩
  · rcases hinv.invalidateDependents ord p.id with ⟨c', he', _⟩ | ⟨c', he', hall2, _, _, _, _, ha2, _, hlog2, _⟩
    · rw [h5] at he'; cases he'
    rw [h5] at he'
    cases he'
    simp only [strictHit_own hall2] at ha2
    rw [he]
    obtain ⟨hv, hns⟩ := (ha p.id v).1 h4
    have hns : ¬ Dep s.c p.id p.id := fun h => hns ⟨rfl, h⟩
    have hm : p.id ∈ s.c.artifacts := (mem_getElem _ _).2 ⟨v, hv⟩
    obtain ⟨b, hb⟩ := (mem_getElem _ _).1 (hi.dynKnown _ (hi.artDyn _ hm))
    have hbb := hi.heapKnown _ _ _ hb (live_iff.1 hl)
    subst hbb
    have ht := hty v (hi.artTy _ _ _ hv hb)
    simp only [writeArt, ht, if_true, Cache.emit]
    have hnone : ¬ (Uncached s p.id ∨ Dep s.c p.id p.id) := by
      rintro (hn | hs)
      · unfold Uncached at hn; rw [hv] at hn; cases hn
      · exact hns hs
    refine ⟨?_, ?_, fun v' _ hc => absurd hc hnone, fun e he => (by cases he), ?_⟩
    · intro v' hv' _
      unfold Cached at hv'
      rw [hv] at hv'
      cases hv'
      refine ⟨rfl, trivial, ?_⟩
      rintro q ⟨new, hn, hm⟩
      simp only [hlog2, hlog] at hn
      have : new = [.write p.id (f v), .mutDeps p.id, .mutDeps p.id] := by
        have : [Event.write p.id (f v), .mutDeps p.id, .mutDeps p.id] ++ s.c.log = new ++ s.c.log := hn
        exact (List.append_cancel_right this).symm
      rw [this] at hm
      simp at hm
    · intro v' hv'
      cases hv'
      simp [Cached]
    · intro a w hne hw
      have hw1 := (ha a w).2 ⟨hw, fun h => hne h.1⟩
      have hw2 := (ha2 a w).2 ⟨hw1, fun h => hne h.1⟩
      unfold Cached
      simp only
      grind
  · rw [he]
    have hran := (getAH_ok Y D n).2.ran p _ hinv hl h4
    have hok := (getAH_ok Y D n).2.ok p _ hinv hl h4
    generalize buildNH Y D n p _ = x at hran hok
    obtain ⟨s2, r⟩ := x
    have hkeep : ∀ a v, a ≠ p.id → Cached s a v → s2.c.artifacts[a]? = some v := fun a v hne hv =>
      hran.keep a v ((ha a v).2 ⟨hv, fun h => hne h.1⟩)
    have hcon : ∀ v, Cached s p.id v → Dep s.c p.id p.id := by
      intro v hv
      by_contra hns
      have := (ha p.id v).2 ⟨hv, fun h => hns h.2⟩
      rw [h4] at this; cases this
    have hun : Uncached s p.id ∨ Dep s.c p.id p.id := by
      cases hv : s.c.artifacts[p.id]? with
      | none => exact .inl hv
      | some v => exact .inr (hcon v hv)
    have hbuilt : ∀ v, s2.c.artifacts[p.id]? = some v → ∃ q : Promise σ, q.id = p.id ∧ ∃ new, s2.c.log = new ++ s.c.log ∧ .built q v ∈ new := by
      intro v hv
      obtain ⟨new, e1, e2, _⟩ := micros_origin hran.micros
      rcases e2 p.id v hv with h | ⟨q, hq, hm⟩
      · simp only at h; rw [h4] at h; cases h
      · exact ⟨q, hq, new ++ [.mutDeps p.id], by rw [e1]; simp only [hlog]; simp, by simp [hm]⟩
    rcases r with (e | v) | k | _ | _
    · exact ⟨fun v hv hs => absurd (hcon v hv) hs, by simp, by simp, fun _ _ => hun, fun a v hne hv => hkeep a v hne hv⟩
    · obtain ⟨hv2, hty2⟩ := hok v rfl
      have ht := hty v hty2
      simp only [writeArt, ht, if_true, Cache.emit]
      refine ⟨fun v hv hs => absurd (hcon v hv) hs, ?_, ?_, by simp, ?_⟩
      · intro v' hv'; cases hv'; simp [Cached]
      · intro v' hv' _
        cases hv'
        obtain ⟨q, hq, new, e1, e2⟩ := hbuilt v hv2
        exact ⟨q, hq, .write p.id (f v) :: new, by simp only [e1]; rfl, by simp [e2]⟩
      · intro a w hne hw
        have := hkeep a w hne hw
        unfold Cached
        simp only
        grind
    · exact ⟨fun v hv hs => absurd (hcon v hv) hs, by simp, by simp, by simp, fun a v hne hv => hkeep a v hne hv⟩
    · exact ⟨fun v hv hs => absurd (hcon v hv) hs, by simp, by simp, by simp, fun a v hne hv => hkeep a v hne hv⟩
    · exact ⟨fun v hv hs => absurd (hcon v hv) hs, by simp, by simp, by simp, fun a v hne hv => hkeep a v hne hv⟩

end

/-! ## Examples -/

namespace Demo

/-- Builder 9 was got, and has used itself. -/
def s37 : St sig := after [.get .bin (P 9)]

theorem reach37 : Reachable Y s37 := reach _ (by decide)

theorem self37 : UsesNow s37 19 19 := (usesNow_iff ..).2 (by unfold Dep; decide +kernel)

theorem only37 : ∀ x, UsesNow s37 x 19 → x = 19 := by
  rintro x ⟨us, h, hm⟩
  have e : (s37.c.dependents[(19 : Id)]?).map (·.toList) = some [19] := by decide +kernel
  rw [h] at e
  have hx : x ∈ us.toList := ExtTreeSet.mem_toList.2 hm
  rw [show us.toList = [19] from Option.some.inj e] at hx
  simpa using hx

/-- `lookup_mut` of 9 returns nothing, though it was cached, ... -/
example : Cached s37 19 (9 : Nat) ∧ Uncached (step Y 9 ord s37 (.lookupMut (P 9) (· + (1 : Nat)))).1 19 :=
  ⟨by unfold Cached; decide +kernel, ((C22_lookup_mut_any_hooks_partial reach37 (p := P 9) (f := (· + (1 : Nat))) (by decide +kernel)
    (.plain 9 ord) only37 (fun _ _ => rfl)).2.1 self37).2⟩

/-- ... and `get_mut` builds it again. -/
example : ∃ q : Promise sig, q.id = 19 ∧ Since s37 (step Y 9 ord s37 (.getMut (P 9) (· + (1 : Nat)))).1 (.built q (9 : Nat)) :=
  (C22_get_mut_any_hooks_partial reach37 (p := P 9) (f := (· + (1 : Nat))) (r := .val (.art (.ok (9 : Nat)))) (by decide +kernel)
    (.plain 9 ord) only37 (fun _ _ => rfl)).2.2.1 (9 : Nat) rfl (.inr self37)

/-- Builder 2 was used by none: `get_mut` returns what is cached and calls nothing, in spite of a doctor. -/
example (D : Hooks sig) : ∀ q, ¬ Since s1 (stepH Y D 9 ord s1 (.getMut (P 2) (· + (1 : Nat)))).1 (.call q) := by
  have hno : ∀ x, ¬ UsesNow s1 x 12 := by
    rintro x ⟨us, h, _⟩
    rw [show s1.c.dependents[12]? = none by decide] at h
    cases h
  exact ((C22_get_mut_any_hooks_partial reach1 (p := P 2) (f := (· + (1 : Nat))) (by decide) (.hooked D 9 ord)
    (fun x hx => absurd hx (hno x)) (fun _ _ => rfl)).1 (110 : Nat) (by unfold Cached; decide) (hno 12)).2.2

end Demo

end Daab
