import Verif.Props15
import Verif.Props35
import Verif.Props41

/-!
# C50: dynamic states are variables, with any hooks

The doctor is told of every write, and may do anything, so that what it remembers can differ: the theorems compare caches after which
it remembers the same, and a write that it interrupts by a panic is an invalidation.
-/

open Std

namespace Daab

section
variable {σ : Sig} {Y : Sys σ} {s s' s'' t t' : St σ}

theorem Wrote.world {X : Id → Prop} {D : Id → Option (σ.B × σ.S)} {w w0 : σ.W} (h : Wrote X D w { s with w := w0 } s') (w' : σ.W) :
    Wrote X D w' s { s' with w := w' } := { h with w := rfl }

/-- What a `dyn_state_mut` that came back with a state has done. -/
theorem wrote_of_went (h : Reachable Y s) {p : Promise σ} {f : σ.S → σ.S} {d : σ.S}
    (hw : Went Y s (.dynStateMut p f) s' (.val (.state d))) :
    s.live p = true ∧ Y.stTy (f d) = Y.sty p.b ∧
    Wrote (· = p.id) (fun a => if a = p.id then some (p.b, f d) else none) s'.w s s' := by
  have hl := hw.live trivial rfl
  refine ⟨hl, ?_⟩
  obtain ⟨D, n, ord, rfl, hr⟩ := went_plain hw
  clear hw
  rw [stepH_live rfl hl] at hr ⊢
  simp only [execH] at hr ⊢
  obtain ⟨w, _, e | e⟩ := dynStateMutH_cases h.inv D ord p f
  · rw [e] at hr; cases hr
  · have hw : Reachable Y { s with w := w } := h.step 0 ord (.world fun _ => w) trivial
    have hl' : ({ s with w := w } : St σ).live p = true := hl
    have hs : step Y n ord { s with w := w } (.dynStateMut p f) = ((dynStateMutH Y D ord p f s).1, .val (.state d)) := by
      rw [step_live rfl hl', hr]
      simp only [exec, ← e]
    obtain ⟨_, h2, w', _, h3⟩ := wrote_of_val hw.inv hl' (ord := ord) (f := f) (n := n) (d := d) (by rw [hs])
    rw [hs] at h3
    exact ⟨h2, h3.world _⟩

/-- What a `dyn_state_mut` of a builder that has a state has done: the write, or, if the doctor panicked, an invalidation. -/
theorem went_write (h : Reachable Y s) {p : Promise σ} {f : σ.S → σ.S} {d : σ.S} (hl : s.live p = true) (hs : HasState s p.id d)
    (hf : Y.stTy (f d) = Y.sty p.b) {r : Res (Ans σ)} (hw : Went Y s (.dynStateMut p f) s' r) :
    r = .val (.state d) ∨ r = .panic .user ∧ Wrote (· = p.id) (fun _ => none) s'.w s s' := by
  obtain ⟨D, n, ord, rfl, rfl⟩ := went_plain hw
  clear hw
  rw [stepH_live rfl hl]
  simp only [execH]
  have hk := knownAt h.inv hl
  have hkb : s.c.known[p.id]? = some p.b := by
    have hm := h.inv.dynKnown p.id (by rw [mem_getElem]; exact ⟨d, hs⟩)
    obtain ⟨b, hb⟩ := (mem_getElem _ _).1 hm
    rw [live_iff] at hl
    rw [hb, h.inv.heapKnown _ _ _ hb hl]
  have hd := h.inv.dynTy p.id d p.b hs hkb
  have hF := (forgot_invalidate h.inv ord p).wrote
  obtain ⟨c, e, d0⟩ := invalidate_spec h.inv ord p
  rw [e] at hF
  unfold dynStateMutH
  rw [e]
  simp only
  unfold callHook
  split
  · exact .inr ⟨rfl, hF.world _⟩
  · next w hw =>
    left
    have h1 := d0.dynStates
    have hi1 : Inv Y { s with c := c.emit (.invalidate p), w := w } := (h.inv.invalidated d0).micro (.world w)
    have hf1 : Finds Y { s with c := c.emit (.invalidate p), w := w } p d w := by
      refine .inl ⟨?_, rfl⟩
      simp only [Cache.emit, h1]
      exact hs
    simp only
    rcases ensure_write hi1 (p := p) hl with ⟨d', w', s2, h2, h3, h4, _⟩ | ⟨h2, _⟩
    · obtain ⟨rfl, _⟩ := hf1.unique h2
      rw [h4]
      simp only [hf, if_true]
      rfl
    · exact absurd hd (h2 d w hf1)

theorem invalidated (h : Reachable Y s) {p : Promise σ} (hl : s.live p = true) {r : Res (Ans σ)} (hw : Went Y s (.invalidate p) s' r) :
    Wrote (· = p.id) (fun _ => none) s'.w s s' := by
  obtain ⟨D, n, ord, rfl, rfl⟩ := went_plain hw
  clear hw
  rw [stepH_live rfl hl]
  have hF := (forgot_invalidate h.inv ord p).wrote
  obtain ⟨c, e, d0⟩ := invalidate_spec h.inv ord p
  rw [e] at hF
  simp only [execH, e, thenTell]
  unfold callHook
  split
  · exact hF.world _
  · exact hF.world _

theorem Wrote.indistH {X X' : Id → Prop} {D D' : Id → Option (σ.B × σ.S)} {w w' : σ.W} {s1 s2 : St σ}
    (h1 : Wrote X D w s s1) (h2 : Wrote X' D' w' s s2) (hw : s1.w = s2.w) (hX : ∀ a, X' a ↔ X a) (hD : ∀ a, D' a = D a)
    (r1 : Reachable Y s1) (r2 : Reachable Y s2) : IndistinguishableH Y s1 s2 := by
  obtain rfl : w = w' := by rw [← h1.w, ← h2.w, hw]
  exact Sim.indistH (by simp) r1 r2 (h1.sim h2 hX hD) (h2.sim h1 (fun a => (hX a).symm) (fun a => (hD a).symm))

theorem Wrote.noop {X : Id → Prop} {w : σ.W} {p : Promise σ} {d : σ.S} (h : Wrote X (fun _ => none) w s s') (hi : Inv Y s)
    (hl : s.live p = true) (hs : HasState s p.id d) : Wrote X (fun a => if a = p.id then some (p.b, d) else none) w s s' := by
  have hk : s.c.known[p.id]? = some p.b := by
    have hm := hi.dynKnown p.id (by rw [mem_getElem]; exact ⟨d, hs⟩)
    obtain ⟨b, hb⟩ := (mem_getElem _ _).1 hm
    rw [live_iff] at hl
    rw [hb, hi.heapKnown _ _ _ hb hl]
  refine { h with set := ?_, keep := fun x _ => h.keep x rfl }
  intro x b e hx
  split at hx
  · next hxp =>
    subst hxp
    cases hx
    rw [(h.keep p.id rfl).1, (h.keep p.id rfl).2]
    exact ⟨hk, hs⟩
  · cases hx

/-! ## The theorems -/

/-- **C50** Two writes to the dynamic state of one builder are one write, with any hooks: the second finds what the first has written;
and if a single `dyn_state_mut(p)` that writes both at once finds the same state as the first of the two and leaves the outside world,
with what the doctor remembers, as the two do, then nobody can tell the difference afterwards. -/
theorem C50_two_writes_any_hooks (h : Reachable Y s) {p : Promise σ} {f g : σ.S → σ.S} {d e : σ.S}
    (h1 : Went Y s (.dynStateMut p f) s' (.val (.state d))) (h2 : Went Y s' (.dynStateMut p g) s'' (.val (.state e))) :
    e = f d ∧ (Went Y s (.dynStateMut p (g ∘ f)) t (.val (.state d)) → t.w = s''.w → IndistinguishableH Y s'' t) := by
  have r1 : Reachable Y s' := h.went h1 trivial
  have r2 : Reachable Y s'' := r1.went h2 trivial
  obtain ⟨hl, _, w1⟩ := wrote_of_went h h1
  obtain ⟨hl1, _, w2⟩ := wrote_of_went r1 h2
  have hst := (w1.set p.id p.b (f d) (by simp)).2
  obtain rfl : e = f d := by
    rcases (C11_any_hooks r1 h2).1 with h3 | ⟨h3, _⟩
    · unfold HasState at h3; rw [hst] at h3; cases h3; rfl
    · exact absurd hst (h3 _)
  refine ⟨rfl, fun h3 hw => ?_⟩
  obtain ⟨_, _, w3⟩ := wrote_of_went h h3
  refine (w1.trans w2).indistH w3 hw.symm (by simp) ?_ r2 (h.went h3 trivial)
  intro a
  by_cases ha : a = p.id <;> simp [ha]

/-- **C50** Writes to the dynamic states of two different builders that have states commute, with any hooks: in either order they hand
out the same states, and afterwards, if the outside world, with what the doctor remembers, is the same, nobody can tell in which order
they happened. -/
theorem C50_writes_commute_any_hooks (h : Reachable Y s) {p q : Promise σ} (hne : p.id ≠ q.id) {dp dq : σ.S}
    (hsp : HasState s p.id dp) (hsq : HasState s q.id dq) {f g : σ.S → σ.S} {d d' e e' : σ.S}
    (h1 : Went Y s (.dynStateMut p f) s' (.val (.state d))) (h2 : Went Y s' (.dynStateMut q g) s'' (.val (.state e)))
    (h3 : Went Y s (.dynStateMut q g) t (.val (.state e'))) (h4 : Went Y t (.dynStateMut p f) t' (.val (.state d'))) :
    d = dp ∧ d' = dp ∧ e = dq ∧ e' = dq ∧ (t'.w = s''.w → IndistinguishableH Y s'' t') := by
  have hne' : q.id ≠ p.id := fun h => hne h.symm
  have r1 : Reachable Y s' := h.went h1 trivial
  have r2 : Reachable Y s'' := r1.went h2 trivial
  have r3 : Reachable Y t := h.went h3 trivial
  have r4 : Reachable Y t' := r3.went h4 trivial
  have found : ∀ {u u' : St σ} {o : Promise σ} {k : σ.S → σ.S} {x y : σ.S}, Reachable Y u → HasState u o.id x →
      Went Y u (.dynStateMut o k) u' (.val (.state y)) → y = x := by
    intro u u' o k x y hu hx hw
    rcases (C11_any_hooks hu hw).1 with h5 | ⟨h5, _⟩
    · unfold HasState at h5 hx; rw [hx] at h5; cases h5; rfl
    · exact absurd hx (h5 _)
  obtain ⟨_, _, w1⟩ := wrote_of_went h h1
  obtain ⟨_, _, w2⟩ := wrote_of_went r1 h2
  obtain ⟨_, _, w3⟩ := wrote_of_went h h3
  obtain ⟨_, _, w4⟩ := wrote_of_went r3 h4
  have hsq1 : HasState s' q.id dq := by
    unfold HasState; rw [(w1.keep q.id (by simp [hne'])).2]; exact hsq
  have hsp1 : HasState t p.id dp := by
    unfold HasState; rw [(w3.keep p.id (by simp [hne])).2]; exact hsp
  obtain rfl := found h hsp h1
  obtain rfl := found r1 hsq1 h2
  obtain rfl := found h hsq h3
  obtain rfl := found r3 hsp1 h4
  refine ⟨rfl, rfl, rfl, rfl, fun hw => ?_⟩
  refine (w1.trans w2).indistH (w3.trans w4) hw.symm ?_ ?_ r2 r4
  · intro a; exact or_comm
  · intro a
    by_cases ha : a = p.id
    · have : a ≠ q.id := by rw [ha]; exact hne
      simp [ha, hne]
    · simp [ha]

/-- **C50** `dyn_state_mut(p)` on a builder that has a state either hands that state out, or the doctor panics, when it is told.  If it
panics, or if the write changes nothing, then the `dyn_state_mut(p)` is an `invalidate(p)`, be it that the doctor panics there or not:
if afterwards the outside world, with what the doctor remembers, is the same, nobody can tell which of the two it was. -/
theorem C50_no_write_any_hooks (h : Reachable Y s) {p : Promise σ} (hl : s.live p = true) {d : σ.S} (hs : HasState s p.id d)
    {f : σ.S → σ.S} (hf : Y.stTy (f d) = Y.stTy d) {r r' : Res (Ans σ)} (h1 : Went Y s (.dynStateMut p f) s' r)
    (h2 : Went Y s (.invalidate p) t r') :
    (r = .val (.state d) ∨ r = .panic .user) ∧
    (r = .panic .user ∨ f d = d → t.w = s'.w → IndistinguishableH Y s' t) := by
  have hkb : s.c.known[p.id]? = some p.b := by
    have hm := h.inv.dynKnown p.id (by rw [mem_getElem]; exact ⟨d, hs⟩)
    obtain ⟨b, hb⟩ := (mem_getElem _ _).1 hm
    rw [live_iff] at hl
    rw [hb, h.inv.heapKnown _ _ _ hb hl]
  have hd := h.inv.dynTy p.id d p.b hs hkb
  have hr' := (C05_any_hooks h hl h2).1
  have r2 : Reachable Y t := h.went h2 (by rcases hr' with rfl | rfl <;> simp [Res.goesOn])
  have w2 := invalidated h hl h2
  rcases went_write h hl hs (by rw [hf, hd]) h1 with rfl | ⟨rfl, w1⟩
  · refine ⟨.inl rfl, fun h3 hw => ?_⟩
    rcases h3 with h3 | h3
    · cases h3
    obtain ⟨_, _, w1⟩ := wrote_of_went h h1
    rw [h3] at w1
    exact w1.indistH (w2.noop h.inv hl hs) hw.symm (fun _ => Iff.rfl) (fun _ => rfl) (h.went h1 trivial) r2
  · refine ⟨.inr rfl, fun _ hw => ?_⟩
    exact w1.indistH w2 hw.symm (fun _ => Iff.rfl) (fun _ => rfl) (h.went h1 (by simp [Res.goesOn])) r2

end

namespace Demo

/-- A doctor that counts `k` for everything it is told. -/
def count (k : Nat) : Hooks sig := fun w _ => ((w + k : Nat), false)

/-- `dyn_state_mut` of builder `i`. -/
abbrev write (D : Hooks sig) (i : Nat) (f : Nat → Nat) (s : St sig) : St sig × Res (Ans sig) :=
  stepH Y D 9 ord s (.dynStateMut (P i) f)

theorem wrote42 (D : Hooks sig) (i : Nat) (f : Nat → Nat) (s : St sig) (d : Nat) (h : (write D i f s).2 = .val (.state d)) :
    Went Y s (.dynStateMut (P i) f) (write D i f s).1 (.val (.state d)) := by
  rw [← h]
  exact .hooked D 9 ord

/-- The state after the first write. -/
abbrev w42 : St sig := (write (count 1) 0 (fun d => d + 1) s1).1

/-- `C50_two_writes_any_hooks`: the doctor counts one for each of the two writes, but two for the single one. -/
example : IndistinguishableH Y (write (count 1) 0 (fun d => 2 * d) w42).1 (write (count 2) 0 (fun d => 2 * (d + 1)) s1).1 ∧
    (write (count 2) 0 (fun d => 2 * (d + 1)) s1).1.w = s1.w + 2 :=
  ⟨(C50_two_writes_any_hooks reach1 (wrote42 (count 1) 0 (fun d => d + 1) s1 5 rfl)
    (wrote42 (count 1) 0 (fun d => 2 * d) w42 6 rfl)).2 (wrote42 (count 2) 0 (fun d => 2 * (d + 1)) s1 5 rfl) rfl, rfl⟩

theorem has42 : HasState s1 (P 0).id (5 : Nat) := by unfold HasState; rfl

theorem has42' : HasState s1 (P 1).id (1 : Nat) := by unfold HasState; rfl

/-- `C50_writes_commute_any_hooks`: builder 1 uses builder 0, and both have states. -/
example : IndistinguishableH Y (write (count 2) 1 (fun d => d + 3) w42).1
    (write (count 2) 0 (fun d => d + 1) (write (count 1) 1 (fun d => d + 3) s1).1).1 := by
  have hw : (write (count 2) 0 (fun d => d + 1) (write (count 1) 1 (fun d => d + 3) s1).1).1.w =
      (write (count 2) 1 (fun d => d + 3) w42).1.w := by decide +kernel
  have h1 := wrote42 (count 1) 0 (fun d => d + 1) s1 5 rfl
  have h2 := wrote42 (count 2) 1 (fun d => d + 3) w42 1 rfl
  have h3 := wrote42 (count 1) 1 (fun d => d + 3) s1 1 rfl
  have h4 := wrote42 (count 2) 0 (fun d => d + 1) (write (count 1) 1 (fun d => d + 3) s1).1 5 rfl
  exact (C50_writes_commute_any_hooks reach1 (by decide) has42 has42' h1 h2 h3 h4).2.2.2.2 hw

/-- `C50_no_write_any_hooks`: the doctor panics when it is told of the write, so that nothing is written. -/
example : (write (tick s1.w) 0 (fun d => d + 1) s1).2 = .panic .user ∧
    IndistinguishableH Y (write (tick s1.w) 0 (fun d => d + 1) s1).1 (stepH Y (count 1) 3 ord' s1 (.invalidate (P 0))).1 := by
  have h1 : (write (tick s1.w) 0 (fun d => d + 1) s1).2 = .panic .user := rfl
  have h2 : Went Y s1 (.dynStateMut (P 0) fun d : Nat => d + 1) (write (tick s1.w) 0 (fun d => d + 1) s1).1 (.panic .user) := by
    rw [← h1]; exact .hooked (tick s1.w) 9 ord
  exact ⟨h1, (C50_no_write_any_hooks reach1 (by decide) has42 rfl h2 (.hooked (count 1) 3 ord')).2 (.inl rfl) rfl⟩

/-- `C50_no_write_any_hooks`: a write that changes nothing. -/
example : IndistinguishableH Y (write (count 4) 0 (fun d => max d 3) s1).1 (stepH Y (count 4) 3 ord' s1 (.invalidate (P 0))).1 :=
  (C50_no_write_any_hooks reach1 (by decide) has42 rfl (wrote42 (count 4) 0 (fun d => max d 3) s1 5 rfl)
    (.hooked (count 4) 3 ord')).2 (.inr rfl) rfl

end Demo

end Daab
