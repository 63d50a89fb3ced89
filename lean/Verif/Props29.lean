import Verif.Work
import Verif.Props27
import Verif.Props13
import Verif.Props7

/-!
# Property C70: how much work invalidation and garbage collection are

`cache.rs` 782 documents: garbage collection "has the complexity of `O(n)` with `n` being the number of
known builders".  This is false (`C70_gc_not_linear`); what holds is a bound by the number of known builders and
the number of recorded uses that are removed, and that over any history the removal of uses is paid by
the resolves that recorded them.
-/

set_option autoImplicit false
namespace Daab
open Std

variable {σ : Sig} {Y : Sys σ} {s : St σ}

/-! ## One operation -/

/-- What an operation costs in any case: a constant, except for the operations that look at all known builders. -/
def Op.base (k : Nat) : Op σ → Nat
  | .gc => 4 * k + 1
  | .clearArtifacts => k
  | .invalidate _ | .purge _ | .dynStateMut .. => 1
  | _ => 0

theorem invalidate_pot (ord : HashOrder) (p : Promise σ) (c : Cache σ) :
    invalidateWork Y ord p.id c + (invalidate Y ord p c).1.pot ≤ 1 + c.pot := by
  have h := invalidateWork_le (Y := Y) ord p.id c
  unfold invalidate Cache.pot
  generalize invalidateById Y ord p.id c = x at h ⊢
  obtain ⟨c', e⟩ := x
  cases e <;> simp only [Cache.emit] at * <;> omega

theorem purge_pot (ord : HashOrder) (p : Promise σ) (n : Nat) (hl : s.live p = true) :
    opWork Y ord s (.purge p) + (step Y n ord s (.purge p)).1.c.pot ≤ 1 + s.c.pot := by
  rw [step_live rfl hl]
  simp only [opWork, exec, purge]
  have h := invalidateWork_le (Y := Y) ord p.id
    (({ s.c with known := s.c.known.erase p.id, artifacts := s.c.artifacts.erase p.id, dynStates := s.c.dynStates.erase p.id } :
      Cache σ).emit (.purged p))
  simp only [Cache.pot]
  generalize invalidateById Y ord p.id _ = x at h ⊢
  obtain ⟨c', e⟩ := x
  cases e <;> simp only [Cache.emit] at * <;> omega

theorem lookupMut_pot (ord : HashOrder) (p : Promise σ) (c : Cache σ) :
    mutWork Y ord p.id c + (lookupMut Y ord p c).1.pot ≤ c.pot := by
  have h := mutWork_le (Y := Y) ord p.id c
  unfold lookupMut Cache.pot
  generalize invalidateDependents Y ord p.id c = x at h ⊢
  obtain ⟨c', e⟩ := x
  cases e with
  | done =>
    simp only at *
    split
    · simp only; omega
    · split <;> simp only <;> omega
  | panic k => simp only at *; omega
  | outOfFuel => simp only at *; omega

theorem writeArt_pot {p : Promise σ} {f : σ.V → σ.V} {v : σ.V} {c c' : Cache σ} (h : writeArt Y p f v c = some c') :
    c'.pot = c.pot ∧ c'.log = .write p.id (f v) :: c.log := by
  unfold writeArt at h
  split at h
  · cases h; exact ⟨rfl, rfl⟩
  · cases h

theorem resolves_mono {s s' : St σ} (h : s.c.log <:+ s'.c.log) : resolves s ≤ resolves s' := h.sublist.countP_le

theorem pot_le_of_log {s s' : St σ} {w b : Nat} (h : w + s'.c.pot ≤ b + s.c.pot) (hl : s.c.log <:+ s'.c.log) :
    w + s'.c.pot + 3 * resolves s ≤ b + s.c.pot + 3 * resolves s' := by
  have := resolves_mono hl
  omega

/-- The work of an operation is paid by its base cost, the uses it removes and the resolves it makes. -/
theorem op_pot (hi : Inv Y s) (n : Nat) (ord : HashOrder) (op : Op σ) (hg : (step Y n ord s op).2.goesOn) :
    opWork Y ord s op + (step Y n ord s op).1.c.pot + 3 * resolves s ≤
      op.base s.c.known.size + s.c.pot + 3 * resolves (step Y n ord s op).1 := by
  have hlog := (step_trans hi n ord op hg).log_mono
  have live : ∀ p, op.promise? = some p → s.live p = true := by
    intro p hp
    cases hl : s.live p with
    | true => rfl
    | false => simp [step, hp, hl, Res.goesOn] at hg
  cases op with
  | get how p =>
    rw [step_live rfl (live p rfl)]
    have := ((getA_ok Y n).1.ran how p s hi).micros.pot
    simp only [opWork, Op.base, exec]
    omega
  | getMut p f =>
    have hl := live p rfl
    rw [step_live rfl hl] at hlog hg ⊢
    have m1 := lookupMut_pot (Y := Y) ord p s.c
    simp only [opWork, Op.base]
    rcases getMut_spec hi n ord hl with ⟨c', he, _⟩ | ⟨c1, h1, h2⟩
    · simp only [exec, he] at hg; exact absurd rfl hg
    · rcases lookupMut_spec hi ord hl with ⟨c', he, _⟩ | ⟨c1', he1, he2⟩
      · rcases hi.invalidateDependents ord p.id with ⟨c', h3, _⟩ | ⟨c', h3, h4, _⟩
        · rw [h1] at h3; cases h3
        · exact absurd he (by simp only [lookupMut, h1]; intro e; split at e <;> first | cases e | (split at e <;> (try split at e) <;> cases e))
      · rw [h1] at he2; cases he2
        rcases hi.invalidateDependents ord p.id with ⟨c', h3, _⟩ | ⟨c', h3, _, hinv, _, _, _, _, _, hlog1, _⟩
        · rw [h1] at h3; cases h3
        rw [h1] at h3; cases h3
        rcases h2 with ⟨c2, v, h4, h5, h6, hinv2, he⟩ | ⟨h4, he⟩
        · have m2 := lookupMut_pot (Y := Y) ord p c1
          have h7 : (lookupMut Y ord p c1).1 = c2 := by
            simp only [lookupMut, h5]; split
            · rfl
            · split <;> rfl
          rw [he1, h4] at m1 ⊢
          simp only at m1 ⊢
          rw [h7] at m2
          refine pot_le_of_log ?_ hlog
          simp only [exec, he]
          split
          · next c' hw => have := (writeArt_pot hw).1; simp only; omega
          · simp only; omega
        · rw [he1, h4] at m1 ⊢
          simp only at m1 ⊢
          have m2 := ((getA_ok Y n).2.ran p { s with c := c1 } hinv hl h4).micros.pot
          have hr1 : resolves ({ s with c := c1 } : St σ) = resolves s := by
            simp [resolves, hlog1]
          simp only [exec, he]
          generalize buildN Y n p { s with c := c1 } = x at m2
          obtain ⟨s', r⟩ := x
          simp only at m2
          rcases r with (_ | v) | _ | _ | _
          · simp only; omega
          · simp only
            split
            · next c' hw =>
              obtain ⟨e1, e2⟩ := writeArt_pot hw
              have : resolves ({ s' with c := c' } : St σ) = resolves s' := by simp [resolves, e2]
              simp only; omega
            · simp only; omega
          · simp only; omega
          · simp only; omega
          · simp only; omega
  | lookupMut p f =>
    refine pot_le_of_log ?_ hlog
    rw [step_live rfl (live p rfl)]
    have m1 := lookupMut_pot (Y := Y) ord p s.c
    simp only [opWork, Op.base, exec]
    generalize lookupMut Y ord p s.c = x at m1 ⊢
    obtain ⟨c1, r⟩ := x
    simp only at m1
    rcases r with (_ | v) | _ | _ | _
    · simp only; omega
    · simp only
      split
      · next c' hw => have := (writeArt_pot hw).1; simp only; omega
      · simp only; omega
    · simp only; omega
    · simp only; omega
    · simp only; omega
  | dynState p =>
    rw [step_live rfl (live p rfl)]
    have := (ensureDyn_ran hi (live p rfl)).1.micros.pot
    simp only [opWork, Op.base, exec]
    omega
  | dynStateMut p f =>
    have hl := live p rfl
    refine pot_le_of_log ?_ hlog
    rw [step_live rfl hl]
    simp only [opWork, Op.base, exec, dynStateMut]
    obtain ⟨c', he, hd⟩ := invalidate_spec hi ord p
    have h1 := invalidate_pot (Y := Y) ord p s.c
    rw [he] at h1 ⊢
    simp only at h1 ⊢
    have h2 : ∀ t : St σ, (ensureDyn Y p t).1.c.pot = t.c.pot := by
      intro t
      have hk : (makeKnown p t.c).pot = t.c.pot := by unfold makeKnown Cache.pot; split <;> rfl
      unfold ensureDyn
      simp only [St.onCache]
      split
      · exact hk
      · split
        · exact hk
        · split <;> exact hk
    have h3 := h2 { s with c := c'.emit (.invalidate p) }
    generalize ensureDyn Y p { s with c := c'.emit (.invalidate p) } = x at h3 ⊢
    obtain ⟨s1, r⟩ := x
    simp only at h3
    cases r with
    | val d =>
      simp only
      split
      · simp only [St.onCache, Cache.emit, Cache.pot] at *; omega
      · simp only; omega
    | _ => simp only; omega
  | invalidate p =>
    refine pot_le_of_log ?_ hlog
    rw [step_live rfl (live p rfl)]
    exact invalidate_pot ord p s.c
  | purge p => exact pot_le_of_log (purge_pot ord p n (live p rfl)) hlog
  | clearArtifacts =>
    refine pot_le_of_log ?_ hlog
    simp only [opWork, Op.base, step, Op.promise?, exec, St.onCache, clearArtifacts, Cache.emit, Cache.pot]
    have : edgeCount (∅ : AMap IdSet) = 0 := rfl
    omega
  | clearAll =>
    refine pot_le_of_log ?_ hlog
    simp only [opWork, Op.base, step, Op.promise?, exec, St.onCache, clearAll, Cache.emit, Cache.pot]
    have : edgeCount (∅ : AMap IdSet) = 0 := rfl
    omega
  | gc => exact pot_le_of_log (gcWork_le ord s) hlog
  | lookup how p => refine pot_le_of_log ?_ hlog; rw [step_live rfl (live p rfl)]; simp [opWork, exec]
  | getDynState p => refine pot_le_of_log ?_ hlog; rw [step_live rfl (live p rfl)]; simp [opWork, exec]
  | isKnown p => refine pot_le_of_log ?_ hlog; rw [step_live rfl (live p rfl)]; simp [opWork, exec]
  | numKnown => refine pot_le_of_log ?_ hlog; simp [step, opWork, exec, Op.promise?]
  | alloc p =>
    refine pot_le_of_log ?_ hlog
    simp only [step, opWork, exec, Op.promise?]
    split
    · next h => simp only [allocB_c h]; omega
    · simp only; omega
  | free a => refine pot_le_of_log ?_ hlog; simp [step, opWork, exec, Op.promise?, freeB]
  | world f => refine pot_le_of_log ?_ hlog; simp [step, opWork, exec, Op.promise?]

/-! ## The property -/

/-- **C70**, what does hold.  Let `k` be the number of known builders.  A garbage collection executes its loop
bodies at most `4 k + 1 + 3 r` times where `r` is how many recorded uses it removes; and it does execute them at
least `r` times if it returns. -/
theorem C70_gc_partial (h : Reachable Y s) (n : Nat) (ord : HashOrder) {k : Nat}
    (hk : (step Y n ord s .numKnown).2 = .val (.nat k)) :
    let s' := (step Y n ord s .gc).1
    opWork Y ord s .gc + 3 * uses s' ≤ 4 * k + 1 + 3 * uses s ∧
    ((step Y n ord s .gc).2 = .val .unit → uses s ≤ opWork Y ord s .gc + uses s') := by
  have hk : s.c.known.size = k := by simpa [step, Op.promise?, exec, numKnown] using hk
  subst hk
  have hg := step_gc_goesOn h n ord
  have hr := Reachable.step n ord .gc h hg
  intro s'
  have h1 := pot_uses h.inv
  have h2 := pot_uses hr.inv
  have h3 := gcWork_le (Y := Y) ord s
  refine ⟨?_, fun hret => ?_⟩
  · have h4 : (garbageCollection Y ord s).1.pot = 3 * uses s' := h2
    simp only [opWork]
    omega
  · rw [uses_dependencies h.inv, uses_dependencies hr.inv]
    refine gcWork_done ord s ?_
    simp only [step, Op.promise?, exec] at hret
    generalize (garbageCollection Y ord s).2 = e at hret
    cases e
    · rfl
    · cases hret
    · cases hret

/-- There are at most as many uses as pairs of known builders. -/
theorem C70_uses_partial (h : Reachable Y s) {n : Nat} {ord : HashOrder} {k : Nat}
    (hk : (step Y n ord s .numKnown).2 = .val (.nat k)) : uses s ≤ k * k := by
  obtain ⟨_, _, h1, h2, _⟩ := C66_tables_bounded_partial h hk
  rw [uses_dependents]
  exact (edgeCount_le h2).trans (Nat.mul_le_mul_right _ h1)

/-- **C70** In terms of the number of known builders only, the complexity of the garbage collection is quadratic. -/
theorem C70_gc_quadratic_partial (h : Reachable Y s) (n : Nat) (ord : HashOrder) {k : Nat}
    (hk : (step Y n ord s .numKnown).2 = .val (.nat k)) : opWork Y ord s .gc ≤ 4 * k + 1 + 3 * (k * k) := by
  have h1 := (C70_gc_partial h n ord hk).1
  have h2 := C70_uses_partial h hk
  omega

/-- **C70** `invalidate(p)`, and likewise `purge(p)`: at most one execution of a loop body, and three for each
recorded use that is removed; and at least one for each of these. -/
theorem C70_invalidate_partial (h : Reachable Y s) {p : Promise σ} (hl : s.live p = true) (n : Nat) (ord : HashOrder) :
    let s1 := (step Y n ord s (.invalidate p)).1
    let s2 := (step Y n ord s (.purge p)).1
    opWork Y ord s (.invalidate p) + 3 * uses s1 ≤ 1 + 3 * uses s ∧
    uses s ≤ opWork Y ord s (.invalidate p) + uses s1 ∧
    opWork Y ord s (.purge p) + 3 * uses s2 ≤ 1 + 3 * uses s ∧
    uses s ≤ opWork Y ord s (.purge p) + uses s2 := by
  obtain ⟨t1, t2, _⟩ := C10_invalidation_total h hl n ord id
  have r1 := Reachable.step n ord (.invalidate p) h (by rw [t1]; trivial)
  have r2 := Reachable.step n ord (.purge p) h (by rw [t2]; trivial)
  intro s1 s2
  have e0 := pot_uses h.inv
  have e1 : s1.c.pot = _ := pot_uses r1.inv
  have e2 : (step Y n ord s (.purge p)).1.c.pot = 3 * uses s2 := pot_uses r2.inv
  have p1 := invalidate_pot (Y := Y) ord p s.c
  have p2 := purge_pot (Y := Y) ord p n hl
  have q1 : s1.c = (invalidate Y ord p s.c).1 := by simp only [s1]; rw [step_live rfl hl]; rfl
  refine ⟨by simp only [opWork]; rw [q1] at e1; omega, ?_, by omega, ?_⟩
  · rw [uses_dependencies h.inv, uses_dependencies r1.inv]
    have hd : (invalidateById Y ord p.id s.c).2 = .done := by
      obtain ⟨c', he, _⟩ := invalidate_spec h.inv ord p
      unfold invalidate at he
      generalize invalidateById Y ord p.id s.c = x at he
      obtain ⟨c1, e⟩ := x
      cases e
      · rfl
      · cases he
      · cases he
    have := invalidateWork_done (Y := Y) ord p.id s.c hd
    have q2 : s1.c.dependencies = (invalidateById Y ord p.id s.c).1.dependencies := by
      rw [q1]; unfold invalidate
      generalize invalidateById Y ord p.id s.c = x at hd ⊢
      obtain ⟨c1, e⟩ := x
      cases hd; rfl
    simp only [opWork]
    rw [q2]; exact this
  · rw [uses_dependencies h.inv, uses_dependencies r2.inv]
    rw [step_live rfl hl] at t2 ⊢
    simp only [exec, purge] at t2 ⊢
    simp only [opWork]
    have hd := invalidateWork_done (Y := Y) ord p.id
      (({ s.c with known := s.c.known.erase p.id, artifacts := s.c.artifacts.erase p.id, dynStates := s.c.dynStates.erase p.id } :
        Cache σ).emit (.purged p))
    generalize invalidateById Y ord p.id _ = x at hd t2 ⊢
    obtain ⟨c1, e⟩ := x
    cases e
    · exact hd rfl
    · cases t2
    · cases t2

/-! ## Whole histories -/

/-- The base costs of the operations of a history, see `Op.base`: 1 for each invalidation, and the number of known builders at that time
for each `clear_artifacts`, four times that plus 1 for each garbage collection. -/
def playBase (Y : Sys σ) : History σ → St σ → Nat
  | [], _ => 0
  | (n, ord, op) :: h, s => op.base s.c.known.size + playBase Y h (step Y n ord s op).1

/-- **C70** The work of all operations of any history is bounded by their base costs and three times the number of
resolves made by builders: the removal of a recorded use is paid by the resolve that recorded it. -/
theorem C70_history_partial (h : Reachable Y s) (H : History σ) (hr : ∀ r ∈ (play Y H s).2, r.goesOn) :
    let s' := (play Y H s).1
    playWork Y H s + 3 * uses s' + 3 * resolves s ≤ playBase Y H s + 3 * uses s + 3 * resolves s' := by
  induction H generalizing s with
  | nil => simp [play, playWork, playBase]
  | cons x H ih =>
    obtain ⟨n, ord, op⟩ := x
    simp only [play, playWork, playBase, List.mem_cons, forall_eq_or_imp] at hr ⊢
    have h1 := op_pot h.inv n ord op hr.1
    have hs := Reachable.step n ord op h hr.1
    have h2 := ih hs hr.2
    have e0 := pot_uses h.inv
    have e1 := pot_uses hs.inv
    simp only at h2
    omega

/-- **C70** In particular, if there is no `garbage_collection()` and no `clear_artifacts()` in the history of a
cache, all its operations together execute loop bodies at most once per operation and three times per resolve. -/
theorem C70_amortized_partial (w : σ.W) (H : History σ) (hr : ∀ r ∈ (play Y H (St.new w)).2, r.goesOn)
    (hH : ∀ x ∈ H, x.2.2 ≠ .gc ∧ x.2.2 ≠ .clearArtifacts) :
    playWork Y H (St.new w) ≤ H.length + 3 * resolves (play Y H (St.new w)).1 := by
  have h1 := C70_history_partial (.new (Y := Y) w) H hr
  have h2 : ∀ s : St σ, playBase Y H s ≤ H.length := by
    clear h1 hr
    induction H with
    | nil => intro s; simp [playBase]
    | cons x H ih =>
      intro s
      obtain ⟨n, ord, op⟩ := x
      have h3 := ih (fun x hx => hH x (by simp [hx])) (step Y n ord s op).1
      have h4 := hH _ (List.mem_cons_self ..)
      simp only [playBase, List.length_cons]
      have : op.base s.c.known.size ≤ 1 := by
        cases op <;> simp [Op.base] at h4 ⊢
      omega
  have h3 := h2 (St.new w)
  have h4 : uses (St.new w : St σ) = 0 := by
    rw [uses_dependents]; rfl
  simp only at h1
  omega

/-! ## The documented complexity is wrong -/

namespace Demo29

/-- Resolve the builders `m - 1`, ..., `0`, which live at these addresses, whatever they answer. -/
def fanCode : Nat → Prog Demo.sig
  | 0 => .ret (.ok (0 : Nat))
  | m + 1 => .resolve .bin ⟨m, m⟩ fun _ => fanCode m

/-- The builders below `k` are leafs, the others use all of those. -/
def fan (dbg : Bool) (k : Nat) : Sys Demo.sig where
  code := fun b : Nat => if b < k then .ret (.ok b) else fanCode k
  init := fun b w => (w, some b)
  vty := fun _ => (0 : Nat)
  sty := fun _ => (0 : Nat)
  artTy := fun _ => (0 : Nat)
  stTy := fun _ => (0 : Nat)
  clone := id
  debug := dbg

/-- The rank of a builder. -/
def rk (k : Nat) : Demo.sig.B → Nat := fun b : Nat => if b < k then 0 else 1

theorem fanCode_only {P : Promise Demo.sig → Prop} (m : Nat) (h : ∀ j < m, P ⟨j, (j : Nat)⟩) : (fanCode m).only P := by
  induction m with
  | zero => trivial
  | succ m ih => exact ⟨h m (by omega), fun _ => ih fun j hj => h j (by omega)⟩

theorem fan_ranked (dbg : Bool) (k : Nat) : Ranked (fan dbg k) (rk k) := by
  intro (b : Nat)
  simp only [fan]
  split
  · trivial
  · next hb =>
    refine fanCode_only k fun j hj => ?_
    have h1 : rk k (j : Nat) = 0 := if_pos hj
    have h2 : rk k b = 1 := if_neg hb
    simp only [h1, h2]
    omega

theorem fan_pure (dbg : Bool) (k : Nat) : PureSys (fan dbg k) := by
  refine ⟨fun (b : Nat) => ?_, fun _ _ _ => rfl⟩
  have : ∀ m, (fanCode m).pure := by
    intro m
    induction m with
    | zero => trivial
    | succ m ih => exact fun _ => ih
  simp only [fan]
  split
  · trivial
  · exact this k

theorem fan_typed (dbg : Bool) (k : Nat) : WellTyped (fan dbg k) := by
  refine ⟨fun (b : Nat) => ?_, fun _ _ _ _ => rfl⟩
  have : ∀ m, (fanCode m).returns fun v => (fan dbg k).artTy v = (fan dbg k).vty b := by
    intro m
    induction m with
    | zero => exact rfl
    | succ m ih => exact fun _ => ih
  show Prog.returns _ (if b < k then _ else _)
  split
  · exact rfl
  · exact this k

/-- The builders `0`, ..., `m - 1`, and no others, are referenced. -/
def Heap (s : St Demo.sig) (P : Nat → Prop) : Prop := ∀ (a : Id) (b : Nat), s.heap[a]? = some b ↔ P a ∧ b = a

theorem Heap.live {s : St Demo.sig} {P : Nat → Prop} (h : Heap s P) (q : Promise Demo.sig) :
    s.live q = true ↔ P q.id ∧ @Eq Nat q.b q.id := by
  rw [live_iff]; exact h q.id q.b

theorem alloc_all (Y : Sys Demo.sig) (m : Nat) : ∃ s, ReachablePlain Y s ∧ s.c = {} ∧ Heap s (· < m) ∧
    ∀ b : Nat, b ∈ s.born → b < m := by
  induction m with
  | zero => exact ⟨St.new (0 : Nat), .new _, rfl, fun a b => by simp [St.new], by simp [St.new]⟩
  | succ m ih =>
    obtain ⟨s, h1, h2, h3, h4⟩ := ih
    have hm : allocB (σ := Demo.sig) ⟨m, (m : Nat)⟩ s =
        some { s with heap := s.heap.insert m (m : Nat), born := (m : Nat) :: s.born } := by
      unfold allocB
      rw [if_neg]
      simp only [Bool.or_eq_true, not_or, decide_eq_true_eq]
      refine ⟨⟨?_, by rw [h2]; simp⟩, fun h => absurd (h4 m h) (by omega)⟩
      intro hc
      obtain ⟨b, hb⟩ := (mem_getElem s.heap m).1 (by simpa using hc)
      exact absurd ((h3 m b).1 hb).1 (by omega)
    have e : step Y 0 Demo.ord s (.alloc ⟨m, (m : Nat)⟩) =
        ({ s with heap := s.heap.insert m (m : Nat), born := (m : Nat) :: s.born }, .val .unit) := by
      simp only [step, Op.promise?, exec, hm]
    have hr := ReachablePlain.step 0 Demo.ord (.alloc ⟨m, (m : Nat)⟩) h1 (by simp [Op.mutates]) (by rw [e]; trivial)
    rw [e] at hr
    refine ⟨_, hr, h2, ?_, ?_⟩
    · intro a b
      have h3' := h3 a b
      simp only [ExtTreeMap.getElem?_insert]
      split
      · next ha =>
        have : m = a := by simpa using ha
        subst this
        constructor
        · intro h; cases h; exact ⟨Nat.lt_succ_self m, rfl⟩
        · rintro ⟨_, rfl⟩; rfl
      · next ha =>
        have : m ≠ a := by simpa using ha
        rw [h3']
        constructor
        · rintro ⟨h, rfl⟩; exact ⟨Nat.lt_succ_of_lt h, rfl⟩
        · rintro ⟨h, rfl⟩; exact ⟨Nat.lt_of_le_of_ne (Nat.le_of_lt_succ h) (Ne.symm this), rfl⟩
    · intro b hb
      rcases List.mem_cons.1 hb with rfl | hb
      · exact Nat.lt_succ_self _
      · exact Nat.lt_succ_of_lt (h4 b hb)

theorem fan_code_user (dbg : Bool) {k b : Nat} (h : ¬ b < k) : (fan dbg k).code b = fanCode k := if_neg h
theorem fan_code_leaf (dbg : Bool) {k b : Nat} (h : b < k) : (fan dbg k).code b = .ret (.ok b) := if_pos h

theorem fan_scratch (dbg : Bool) (k : Nat) (st : Promise Demo.sig → Option Nat) (hst : ∀ q, ∃ d, st q = some d)
    (p : Promise Demo.sig) (m : Nat) (hm : m ≤ k) :
    ScratchCode (fan dbg k) st (fun _ _ => True) p (fanCode m) (.ok (0 : Nat)) := by
  induction m with
  | zero => exact .ret
  | succ m ih =>
    obtain ⟨d, hd⟩ := hst ⟨m, (m : Nat)⟩
    refine .resolve (r1 := .ok (m : Nat)) trivial hd ?_ (ih (by omega))
    rw [fan_code_leaf dbg (b := m) (by omega)]
    exact .ret

/-- What is kept while the users are asked for. -/
structure Asked (dbg : Bool) (k j : Nat) (s : St Demo.sig) : Prop where
  reach : ReachablePlain (fan dbg k) s
  heap : Heap s (· < 2 * k)
  cached : ∀ i < j, ∃ v, Cached s (k + i) v
  known : ∀ (a : Id) (b : Nat), s.c.known[a]? = some b → a < 2 * k ∧ b = a
  calm : ∀ a, ¬ StrayLeaf s.c a

theorem ask_all (dbg : Bool) (k j : Nat) (hj : j ≤ k) : ∃ s, Asked dbg k j s := by
  induction j with
  | zero =>
    obtain ⟨s, h1, h2, h3, _⟩ := alloc_all (fan dbg k) (2 * k)
    exact ⟨s, h1, h3, by simp, by rw [h2]; simp, by rw [h2]; simp [StrayLeaf]⟩
  | succ j ih =>
    obtain ⟨s, h⟩ := ih (by omega)
    let p : Promise Demo.sig := ⟨k + j, (k + j : Nat)⟩
    have hl : s.live p = true := (h.heap.live p).2 ⟨by show k + j < 2 * k; omega, rfl⟩
    have ho : Owning (fan dbg k) s := by
      rintro ⟨a, (b : Nat)⟩ hq
      obtain ⟨hq, _⟩ := (h.heap.live _).1 hq
      simp only [fan]
      split
      · trivial
      · exact fanCode_only k fun i hi => (h.heap.live _).2 ⟨by show i < 2 * k; omega, rfl⟩
    have hst : ∀ q, ∃ d, stateOf (fan dbg k) s q = some d := by
      intro q
      unfold stateOf
      cases s.c.dynStates[q.id]? with
      | some d => exact ⟨d, rfl⟩
      | none => exact ⟨q.b, rfl⟩
    have hsc : Scratch (fan dbg k) (stateOf (fan dbg k) s) p (.ok (0 : Nat)) := by
      refine ⟨hst p, ?_⟩
      have : (fan dbg k).code p.b = fanCode k := fan_code_user dbg (b := k + j) (by omega)
      rw [this]
      exact fan_scratch dbg k _ hst p k (Nat.le_refl k)
    obtain ⟨N, hN⟩ := C28_from_scratch_is_get (fan_pure dbg k) (fan_typed dbg k) h.reach ho hl hsc .bin
    have hN := hN N (Nat.le_refl N) Demo.ord
    have hg : (step (fan dbg k) N Demo.ord s (.get .bin p)).2.goesOn := by rw [hN]; trivial
    have hi := h.reach.reachable.inv
    have hgrow := ((getA_sound (fan_pure dbg k) N) .bin p s hi (h.reach.sound (fan_pure dbg k))).2.1
    have hran := (getA_ok (fan dbg k) N).1.ran .bin p s hi
    have hstray := step_stray hi N Demo.ord (.get .bin p) hg
    have hreach := ReachablePlain.step N Demo.ord (.get .bin p) h.reach (by simp [Op.mutates]) hg
    obtain ⟨v, _, hv, _⟩ := C68_get (fan_ranked dbg k) h.reach.reachable (D := fun w _ => (w, false)) (p := p) (how := .bin) (n := N)
      (ord := Demo.ord) (x := (0 : Nat)) (s' := (step (fan dbg k) N Demo.ord s (.get .bin p)).1) (by
        rw [C59_quiet_hooks (fun _ _ => rfl)]; exact Prod.ext rfl hN)
    have e : (step (fan dbg k) N Demo.ord s (.get .bin p)).1 = (getA (fan dbg k) N .bin p s).1 := by
      rw [step_live rfl hl]; rfl
    refine ⟨_, hreach, ?_, ?_, ?_, ?_⟩
    · intro a b
      rw [e, hgrow.heap]
      exact h.heap a b
    · intro i hi'
      by_cases hij : i = j
      · subst hij; exact ⟨v, hv⟩
      · obtain ⟨v, hv⟩ := h.cached i (by omega)
        exact ⟨v, by rw [e]; exact hran.keep _ _ hv⟩
    · intro a b hab
      rw [e] at hab
      rcases hgrow.back a b hab with h1 | h1
      · exact h.known a b h1
      · exact (h.heap a b).1 h1
    · intro a ha
      rcases (hstray a).1 ha with ⟨_, _, h1 | h1⟩
      · rcases h1 with ⟨p, h1, _⟩ | ⟨p, h1, _⟩ | ⟨p, f, h1, _⟩ | ⟨p, f, h1, _⟩ <;> cases h1
      · exact h.calm a h1

theorem free_all {Y : Sys Demo.sig} {k : Nat} {s : St Demo.sig} (h : Reachable Y s) (hh : Heap s (· < 2 * k)) (j : Nat) :
    ∃ s', Reachable Y s' ∧ s'.c = s.c ∧ Heap s' (fun a => a < 2 * k ∧ ¬ (k ≤ a ∧ a < k + j)) := by
  induction j with
  | zero =>
    refine ⟨s, h, rfl, fun a b => (hh a b).trans ⟨?_, ?_⟩⟩
    · rintro ⟨h1, h2⟩; exact ⟨⟨h1, by omega⟩, h2⟩
    · rintro ⟨⟨h1, _⟩, h2⟩; exact ⟨h1, h2⟩
  | succ j ih =>
    obtain ⟨s', h1, h2, h3⟩ := ih
    refine ⟨_, Reachable.step 0 Demo.ord (.free (k + j)) h1 trivial, h2, ?_⟩
    intro a b
    have h4 := h3 a b
    simp only [step, Op.promise?, exec, freeB, ExtTreeMap.getElem?_erase]
    split
    · next ha =>
      have : k + j = a := by simpa using ha
      subst this
      constructor
      · intro h; cases h
      · rintro ⟨⟨_, h⟩, _⟩; exact absurd ⟨Nat.le_add_right k j, by show k + j < k + (j + 1); omega⟩ h
    · next ha =>
      have hne : k + j ≠ a := by simpa using ha
      rw [h4]
      simp only
      have : ∀ a : Nat, k + j ≠ a → ((a < 2 * k ∧ ¬ (k ≤ a ∧ a < k + j)) ↔ (a < 2 * k ∧ ¬ (k ≤ a ∧ a < k + (j + 1)))) := by
        intro a ha; omega
      rw [this a hne]

theorem made_uses {dbg : Bool} {k m : Nat} {s : St Demo.sig} {p : Promise Demo.sig} {d d' : Nat} {r : Except Nat Nat}
    (h : MadeFrom (fan dbg k) s p (fanCode m) d r d') : ∀ l < m, UsesNow s p.id l := by
  induction m with
  | zero => simp
  | succ m ih =>
    have : UsesNow s p.id m ∧ ∀ l < m, UsesNow s p.id l := by
      cases h with
      | got h1 _ _ h2 => exact ⟨h1, ih h2⟩
      | failed h1 _ h2 => exact ⟨h1, ih h2⟩
    intro l hl
    by_cases hlm : l = m
    · subst hlm; exact this.1
    · exact this.2 l (by omega)

/-- After `k` builders that all used the same `k` others were dropped, there are at most `2 k` known builders,
and the garbage collection returns after executing loop bodies at least `k * k` times. -/
theorem fan_gc (dbg : Bool) (k : Nat) : ∃ s m, Reachable (fan dbg k) s ∧ m ≤ 2 * k ∧ ∀ n ord,
    (step (fan dbg k) n ord s .numKnown).2 = .val (.nat m) ∧ (step (fan dbg k) n ord s .gc).2 = .val .unit ∧
    k * k ≤ opWork (fan dbg k) ord s .gc := by
  obtain ⟨s0, h0⟩ := ask_all dbg k k (Nat.le_refl k)
  obtain ⟨s, hr, hc, hh⟩ := free_all h0.reach.reachable h0.heap k
  have hrank := fan_ranked dbg k
  have huse : ∀ u d, UsesNow s u d ↔ UsesNow s0 u d := by
    intro u d; unfold UsesNow; rw [hc]
  have hall : ∀ i < k, ∀ l < k, UsesNow s (k + i) l := by
    intro i hi l hl
    rw [huse]
    obtain ⟨v, hv⟩ := h0.cached i hi
    let p : Promise Demo.sig := ⟨k + i, (k + i : Nat)⟩
    obtain ⟨d, d', v0, hm, _⟩ := C68_coherent hrank h0.reach.reachable (p := p)
      ((h0.heap.live p).2 ⟨by show k + i < 2 * k; omega, rfl⟩) hv
    have : (fan dbg k).code p.b = fanCode k := fan_code_user dbg (b := k + i) (by omega)
    rw [this] at hm
    exact made_uses hm l hl
  have hknown : ∀ (a : Id) (b : Nat), s.c.known[a]? = some b → a < 2 * k ∧ b = a := by
    rw [hc]; exact h0.known
  -- whoever uses something is one of the dropped builders
  have huser : ∀ u d, UsesNow s u d → k ≤ u ∧ u < 2 * k ∧ d < k := by
    intro u d hud
    obtain ⟨bu, e1⟩ := (mem_getElem _ _).1 (hr.inv.depU _ _ ((usesNow_iff ..).1 hud))
    obtain ⟨bd, e2⟩ := (mem_getElem _ _).1 (hr.inv.depD _ _ ((usesNow_iff ..).1 hud))
    have h1 := hr.downward hrank u d bu bd hud e1 e2
    obtain ⟨h2, h2'⟩ := hknown u bu e1
    obtain ⟨h3, h3'⟩ := hknown d bd e2
    have : ∀ x y : Nat, rk k x < rk k y → x < k ∧ k ≤ y := by
      intro x y h
      unfold rk at h
      split at h <;> split at h <;> omega
    obtain ⟨h4, h5⟩ := this bd bu h1
    rw [h2'] at h5
    rw [h3'] at h4
    exact ⟨h5, h2, h4⟩
  have hdead : ∀ u : Id, k ≤ u → u < 2 * k → Dead s u := by
    rintro u h1 h2 p rfl
    cases hl : s.live p with
    | false => rfl
    | true =>
      obtain ⟨⟨_, h3⟩, _⟩ := (hh.live p).1 hl
      have h1 : k ≤ (p.id : Nat) := h1
      have h2 : (p.id : Nat) < 2 * k := h2
      exact absurd ⟨h1, by omega⟩ h3
  have huses : k * k ≤ uses s := by
    unfold uses
    have h1 : ((fun x : Nat × Nat => ((k + x.1, x.2) : Id × Id)) '' ((Finset.range k ×ˢ Finset.range k : Finset (Nat × Nat)) : Set (Nat × Nat))) ⊆
        {x : Id × Id | UsesNow s x.1 x.2} := by
      rintro ⟨u, d⟩ ⟨⟨i, l⟩, h, e⟩
      simp only [Finset.coe_product, Finset.coe_range, Set.mem_prod, Set.mem_Iio] at h
      cases e
      exact hall i h.1 l h.2
    have h2 := Set.ncard_le_ncard h1 (uses_finite s)
    rw [Set.ncard_image_of_injective, Set.ncard_coe_finset, Finset.card_product, Finset.card_range] at h2
    · exact h2
    · rintro ⟨a, b⟩ ⟨c, d⟩ h
      simp only [Prod.mk.injEq] at h ⊢
      exact ⟨Nat.add_left_cancel h.1, h.2⟩
  obtain ⟨ids, hnd, hids, _⟩ := C17_number_of_known (Y := fan dbg k) 0 Demo.ord s
  refine ⟨s, s.c.known.size, hr, ?_, fun n ord => ?_⟩
  · rw [← ExtTreeMap.length_keys]
    have h1 : s.c.known.keys ⊆ (List.range (2 * k) : List Nat) := by
      intro a ha
      rw [ExtTreeMap.mem_keys] at ha
      obtain ⟨b, hb⟩ := (mem_getElem _ _).1 ha
      exact List.mem_range.2 (hknown a b hb).1
    have := (List.Nodup.subperm ExtTreeMap.nodup_keys h1).length_le
    simpa using this
  have hret : (step (fan dbg k) n ord s .gc).2 = .val .unit := by
    rcases step_gc hr n ord with ⟨_, a, h1, h2⟩ | ⟨_, c', e, _⟩
    · rw [hc] at h1 h2
      exact absurd ⟨h1, h2⟩ (h0.calm a)
    · rw [e]
  have hnum : (step (fan dbg k) n ord s .numKnown).2 = .val (.nat s.c.known.size) := rfl
  refine ⟨hnum, hret, ?_⟩
  have h1 := (C70_gc_partial hr n ord hnum).2 hret
  have h2 : uses (step (fan dbg k) n ord s .gc).1 = 0 := by
    have h3 := (C20_gc_collects hr (n := n) (ord := ord) (s' := (step (fan dbg k) n ord s .gc).1) (r := .unit)
      (by rw [← hret])).2.2.2
    unfold uses
    have : {x : Id × Id | UsesNow (step (fan dbg k) n ord s .gc).1 x.1 x.2} = ∅ := by
      ext ⟨u, d⟩
      simp only [Set.mem_ofPred_eq, Set.mem_empty_iff_false, iff_false]
      intro hu
      obtain ⟨h4, h5⟩ := (h3 u d).1 hu
      obtain ⟨h6, h7, _⟩ := huser u d h4
      refine h5 ⟨hr.inv.depU _ _ ((usesNow_iff ..).1 h4), hdead u h6 h7, fun x hx => ?_⟩
      have h8 : (u : Nat) < k := (huser x u hx).2.2
      exact Nat.lt_irrefl _ (Nat.lt_of_lt_of_le h8 h6)
    rw [this, Set.ncard_empty]
  omega

end Demo29

/-- **C70 is false**: `cache.rs` 782 documents that the complexity of `garbage_collection` is `O(n)` with `n` being the number
of known builders.  But for every constant `C` there are a program of acyclic builders that do not fail or panic and a
history after which `garbage_collection()` returns, in debug and release builds, whatever the hash orders are, but executes
the bodies of its loops more than `C * (n + 1)` times. -/
theorem C70_gc_not_linear (dbg : Bool) (C : Nat) : ∃ (Y : Sys Demo.sig) (rk : Demo.sig.B → Nat) (s : St Demo.sig) (m : Nat),
    Y.debug = dbg ∧ Ranked Y rk ∧ Reachable Y s ∧ ∀ n ord, (step Y n ord s .numKnown).2 = .val (.nat m) ∧
      (step Y n ord s .gc).2 = .val .unit ∧ C * (m + 1) < opWork Y ord s .gc := by
  obtain ⟨s, m, h1, h2, h3⟩ := Demo29.fan_gc dbg (2 * C + 2)
  refine ⟨Demo29.fan dbg (2 * C + 2), Demo29.rk (2 * C + 2), s, m, rfl, Demo29.fan_ranked _ _, h1, fun n ord => ?_⟩
  obtain ⟨h4, h5, h6⟩ := h3 n ord
  refine ⟨h4, h5, Nat.lt_of_lt_of_le ?_ h6⟩
  have h7 : C * (m + 1) ≤ C * (4 * C + 5) := Nat.mul_le_mul_left _ (by omega)
  have h8 : C * (4 * C + 5) = 4 * (C * C) + 5 * C := by rw [Nat.mul_add, Nat.mul_left_comm, Nat.mul_comm C 5]
  have h9 : (2 * C + 2) * (2 * C + 2) = 4 * (C * C) + 8 * C + 4 := by
    simp only [Nat.add_mul, Nat.mul_add, Nat.mul_assoc, Nat.mul_left_comm C 2]; omega
  omega

/-! ## Examples -/

namespace Demo29

/-- Builder 2 was got, and then dropped: 2 uses 1 and 0, 1 uses 0; garbage collection removes two of these uses. -/
def sG : St Demo.sig := Demo.after [.get .bin (Demo.P 2), .free 12]

example : Reachable Demo.Y sG ∧ (step Demo.Y 9 Demo.ord sG .numKnown).2 = .val (.nat 3) ∧ uses sG = 3 ∧
    (step Demo.Y 9 Demo.ord sG .gc).2 = .val .unit ∧ uses (step Demo.Y 9 Demo.ord sG .gc).1 = 1 ∧
    opWork Demo.Y Demo.ord sG .gc = 8 := by
  refine ⟨Demo.reach _ (by decide +kernel), rfl, ?_, rfl, ?_, by decide +kernel⟩
  · rw [uses_dependents]; decide +kernel
  · rw [uses_dependents]; decide +kernel

/-- The invalidation of 0 removes all three uses. -/
example : Reachable Demo.Y Demo.s1 ∧ Demo.s1.live (Demo.P 0) = true ∧ uses Demo.s1 = 3 ∧
    uses (step Demo.Y 9 Demo.ord Demo.s1 (.invalidate (Demo.P 0))).1 = 0 ∧
    opWork Demo.Y Demo.ord Demo.s1 (.invalidate (Demo.P 0)) = 8 := by
  refine ⟨Demo.reach1, by decide +kernel, ?_, ?_, by decide +kernel⟩
  · rw [uses_dependents]; decide +kernel
  · rw [uses_dependents]; decide +kernel

/-- Three gets with invalidations in between: 5 resolves. -/
def hist : History Demo.sig :=
  (Demo.allocs ++ ([.get .bin (Demo.P 2), .invalidate (Demo.P 0), .get .bin (Demo.P 1), .get .bin (Demo.P 2),
    .purge (Demo.P 1)] : List (Op Demo.sig))).map fun op => (9, Demo.ord, op)

example : (∀ r ∈ (play Demo.Y hist (St.new (0 : Nat))).2, r.goesOn) ∧
    (∀ x ∈ hist, x.2.2 ≠ .gc ∧ x.2.2 ≠ .clearArtifacts) ∧
    resolves (play Demo.Y hist (St.new (0 : Nat))).1 = 6 ∧ playWork Demo.Y hist (St.new (0 : Nat)) = 14 := by
  refine ⟨?_, ?_, by decide +kernel, by decide +kernel⟩
  · have : ((play Demo.Y hist (St.new (0 : Nat))).2.all fun r => decide r.goesOn) = true := by decide +kernel
    simpa using this
  · intro x hx
    simp only [hist, Demo.allocs, List.map_append, List.mem_append, List.mem_map, List.map_cons, List.map_nil, List.mem_cons,
      List.not_mem_nil, or_false] at hx
    rcases hx with ⟨_, ⟨_, _, rfl⟩, rfl⟩ | rfl | rfl | rfl | rfl | rfl <;> simp

end Demo29

end Daab
