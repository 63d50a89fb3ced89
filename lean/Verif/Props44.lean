import Verif.Dag
import Verif.Update
import Verif.Props43

/-!
# C27: with any hooks

In a directed acyclic graph of builders no `get` builds the same thing twice, nor anything that was cached, also if a doctor, a
`Debug` or `Clone` implementation or a builder panics in the middle of it.
-/

open Std

namespace Daab

section
variable {σ : Sig} {Y : Sys σ} {s s' : St σ}

theorem went_low {rk : σ.B → Nat} (hrk : Ranked Y rk) (h : Reachable Y s) {p : Promise σ} {how : Access} {r : Res (Ans σ)}
    (hw : Went Y s (.get how p) s' r) : FreshTo s.c.log s'.c.log ∧ Micros Y s s' := by
  obtain ⟨D, n, ord, rfl, _⟩ := went_plain hw
  clear hw
  cases hlive : s.live p with
  | false => simp only [stepH, Op.promise?, hlive]; exact ⟨.refl, .refl⟩
  | true =>
    rw [stepH_live rfl hlive]
    exact ⟨(getAH_low hrk D n how p h.inv).fresh, ((getAH_ok Y D n).1 how p s h.inv).micros⟩

/-- **C27** If the builders form a directed acyclic graph, then in one `get`, however many paths lead to a builder, and whatever the
hooks do, an artifact of it is built at most once: no two events `built` in the log of one `get` are of the same builder. -/
theorem C27_any_hooks_builds_once {rk : σ.B → Nat} (hrk : Ranked Y rk) (h : Reachable Y s) {p : Promise σ} {how : Access}
    {res : Res (Ans σ)} (hw : Went Y s (.get how p) s' res) {new post mid pre : List (Event σ)} {q r : Promise σ} {v w : σ.V}
    (hnew : s'.c.log = new ++ s.c.log) (hl : new = post ++ .built q v :: (mid ++ .built r w :: pre)) : q.id ≠ r.id := by
  intro hqr
  have hfresh := went_low hrk h hw
  obtain ⟨new', h1, h2⟩ := hfresh.2.no_drop
  rw [hnew] at h1
  have := List.append_cancel_right h1
  subst this
  subst hl
  have h3 := hfresh.1.split (post := post) (pre := mid ++ .built r w :: pre) (q := q) (v := v)
    (by rw [hnew]; simp)
  refine Abs.art_stays (l := .built r w :: (pre ++ s.c.log)) (mid := mid) (a := q.id) ?_ ?_ ?_
  · simp [Abs.of, Abs.apply, hqr]
  · intro e he
    exact h2 e (by simp [he])
  · simpa using h3

/-- **C27** ... and only if it was not cached before. -/
theorem C27_any_hooks_builds_uncached {rk : σ.B → Nat} (hrk : Ranked Y rk) (h : Reachable Y s) {p : Promise σ} {how : Access}
    {res : Res (Ans σ)} (hw : Went Y s (.get how p) s' res) {q : Promise σ} {v : σ.V} (hb : Since s s' (.built q v)) :
    Uncached s q.id := by
  obtain ⟨hf, hm⟩ := went_low hrk h hw
  obtain ⟨new, h1, h2⟩ := hb
  obtain ⟨post, pre, rfl⟩ := List.append_of_mem h2
  obtain ⟨new', h3, h4⟩ := hm.no_drop
  rw [h1] at h3
  have := List.append_cancel_right h3
  subst this
  have h5 := hf.split (post := post) (pre := pre) (q := q) (v := v) (by rw [h1]; simp)
  cases hc : s.c.artifacts[q.id]? with
  | none => exact hc
  | some x =>
    refine absurd h5 (Abs.art_stays ?_ ?_)
    · intro hn
      have := h.inv.absArt q.id
      rw [hn, hc] at this
      cases this
    · intro e he; exact h4 e (by simp [he])

end

namespace Demo

set_option smartUnfolding false in
/-- `C27_any_hooks_builds_once`, `C27_any_hooks_builds_uncached`: the doctor counts. -/
example : Uncached dagS 11 ∧ (P 2).id ≠ (P 1).id := by
  have hl : (stepH dagY (tick 99) 3 ord dagS (.get .bin (P 2))).1.c.log =
      [.built (P 2) 4, .resolve (P 2) (P 1), .built (P 1) 2, .resolve (P 1) (P 0),
        .resolve (P 1) (P 0), .call (P 1), .resolve (P 2) (P 1), .call (P 2)] ++ dagS.c.log := rfl
  refine ⟨C27_any_hooks_builds_uncached dagY_ranked dagS_reachable (.hooked (tick 99) 3 ord) (q := P 1)
    (v := (2 : Nat)) ⟨_, hl, by simp⟩, ?_⟩
  refine C27_any_hooks_builds_once dagY_ranked dagS_reachable (.hooked (tick 99) 3 ord) hl (q := P 2) (v := (4 : Nat)) (r := P 1)
    (w := (2 : Nat)) (post := []) (mid := [.resolve (P 2) (P 1)])
    (pre := [.resolve (P 1) (P 0), .resolve (P 1) (P 0), .call (P 1), .resolve (P 2) (P 1), .call (P 2)]) rfl

set_option smartUnfolding false in
/-- Here the doctor panics when it is told of the second use of builder 1, which has been built meanwhile. -/
example : (stepH dagY (tick 7) 3 ord { dagS with w := (0 : Nat) } (.get .bin (P 2))).2 = .panic .user ∧
    (stepH dagY (tick 7) 3 ord { dagS with w := (0 : Nat) } (.get .bin (P 2))).1.c.log =
      [.resolve (P 2) (P 1), .built (P 1) 2, .resolve (P 1) (P 0),
        .resolve (P 1) (P 0), .call (P 1), .resolve (P 2) (P 1), .call (P 2)] ++ dagS.c.log ∧ Uncached dagS 11 := by
  have hl : (stepH dagY (tick 7) 3 ord { dagS with w := (0 : Nat) } (.get .bin (P 2))).1.c.log =
      [.resolve (P 2) (P 1), .built (P 1) 2, .resolve (P 1) (P 0),
        .resolve (P 1) (P 0), .call (P 1), .resolve (P 2) (P 1), .call (P 2)] ++ dagS.c.log := rfl
  have hr : Reachable dagY { dagS with w := (0 : Nat) } := 
    Reachable.step (Y := dagY) 0 ord (.world fun _ => (0 : Nat)) dagS_reachable trivial
  exact ⟨rfl, hl, C27_any_hooks_builds_uncached dagY_ranked hr (.hooked (tick 7) 3 ord) (q := P 1) (v := (2 : Nat)) ⟨_, hl, by simp⟩⟩

end Demo

end Daab
