import Verif.Props19
import Verif.Props22
import Verif.Props42

/-!
# C55: several caches, each with doctors, `Debug`, `Clone` and destructors that may do anything

`Multi.lean` once more, with hooks: each operation on a cache runs with hooks of its own (a doctor per cache, for example), which may
change the outside world, which all caches share, and may panic.
-/

open Std

namespace Daab

section
variable {σ : Sig}

/-! ## What an operation with hooks can do to the memory -/

theorem callHook_grow {α : Type} (D : Hooks σ) (e : Hook σ) {s0 s : St σ} (h0 : Grow s0 s) {k : St σ → St σ × Res α}
    (hk : ∀ s', s'.heap = s.heap → s'.born = s.born → Grow s0 (k s').1) : Grow s0 (callHook D e s k).1 := by
  unfold callHook
  split
  · exact h0.trans (Grow.same rfl rfl)
  · exact hk _ rfl rfl

theorem runProgH_grow (Y : Sys σ) (D : Hooks σ) {g : Getter σ} (hg : GrowG g) (p : Promise σ) (prog : Prog σ) (s : St σ) :
    Grow s (runProgH Y D g p prog s).1 := by
  induction prog generalizing s with
  | ret r => cases r <;> exact Grow.refl _
  | panic => exact Grow.refl _
  | resolve how q k ih =>
    simp only [runProgH]
    split
    · split
      · exact Grow.same rfl rfl
      · rename_i c hc
        refine callHook_grow D _ ?_ fun s' hh hb => ?_
        · exact Grow.same rfl rfl
        have h0 : Grow s s' := Grow.same hh hb
        have h1 := hg how q s'
        split <;> rename_i h2 <;> rw [h2] at h1
        · exact h0.trans (h1.trans (ih _ _))
        all_goals exact h0.trans h1
    · exact Grow.refl _
  | myState f k ih =>
    simp only [runProgH]
    have h1 := myState_grow Y p f s
    split <;> rename_i h2 <;> rw [h2] at h1
    · exact h1.trans (ih _ _)
    all_goals exact h1
  | world f k ih =>
    simp only [runProgH]
    exact (ih s.w { s with w := f s.w }).from rfl rfl
  | alloc q k ih =>
    simp only [runProgH]
    split
    · rename_i h; exact (Grow.alloc h).trans (ih _)
    · exact Grow.refl _
  | free a k ih =>
    simp only [runProgH]
    exact (Grow.free a s).trans (ih _)

theorem storeH_grow (D : Hooks σ) (p : Promise σ) (v : σ.V) (s : St σ) : Grow s (storeH D p v s).1 := by
  unfold storeH
  simp only
  split
  · exact Grow.same rfl rfl
  · refine callHook_grow D _ ?_ fun s' hh hb => ?_ <;> [exact Grow.same rfl rfl; exact Grow.same hh hb]

theorem buildH_grow (Y : Sys σ) (D : Hooks σ) {g : Getter σ} (hg : GrowG g) : GrowB (buildH Y D g) := by
  intro p s
  unfold buildH
  split
  · exact Grow.refl _
  simp only
  have h0 : Grow s (s.onCache (makeKnown p)) := Grow.same rfl rfl
  have h1 := h0.trans (ensureDyn_grow Y p (s.onCache (makeKnown p)))
  split <;> rename_i h2 <;> rw [h2] at h1
  iterate 3 exact h1
  refine callHook_grow D _ h1 fun s1 hh hb => ?_
  have h3 := (h1.trans (Grow.same hh hb)).trans ((runProgH_grow Y D hg p (Y.code p.b) (s1.onCache (·.emit (.call p)))).from rfl rfl)
  split <;> rename_i h4 <;> rw [h4] at h3
  · exact callHook_grow D _ h3 fun s2 hh hb => (h3.trans (Grow.same hh hb)).trans (storeH_grow D p _ s2)
  all_goals exact h3

theorem getByH_grow (Y : Sys σ) (D : Hooks σ) {b : BuildFn σ} (hb : GrowB b) : GrowG (getByH Y D b) := by
  intro how p s
  have hr : Grow s (getRef Y b p s).1 := by
    unfold getRef
    split
    · split <;> exact Grow.refl _
    · exact fresh_grow Y p (hb p s)
    all_goals exact Grow.refl _
  unfold getByH
  split
  · cases how with
    | bin =>
      simp only
      unfold getBin
      split
      · exact Grow.refl _
      · exact fresh_grow Y p (hb p s)
      all_goals exact Grow.refl _
    | ref => exact hr
    | cloned =>
      simp only
      unfold getClonedH
      split
      · rename_i h; rw [h] at hr
        exact callHook_grow D _ hr fun s' hh hb => hr.trans (Grow.same hh hb)
      · exact hr
  · exact Grow.refl _

theorem getAH_grow (Y : Sys σ) (D : Hooks σ) (n : Nat) : GrowG (getAH Y D n) := by
  induction n with
  | zero => exact getByH_grow Y D fun p s => Grow.refl _
  | succ n ih => exact getByH_grow Y D (buildH_grow Y D ih)

theorem buildNH_grow (Y : Sys σ) (D : Hooks σ) (n : Nat) : GrowB (buildNH Y D n) := by
  cases n with
  | zero => exact fun p s => Grow.refl _
  | succ n => exact buildH_grow Y D (getAH_grow Y D n)

theorem execH_grow (Y : Sys σ) (D : Hooks σ) (n : Nat) (ord : HashOrder) (s : St σ) (op : Op σ) : Grow s (execH Y D n ord s op).1 := by
  cases op with
  | get how p => exact getAH_grow Y D n how p s
  | getMut p f =>
    simp only [execH]
    have h := getMut_grow Y ord (buildNH_grow Y D n) p s
    split <;> rename_i h1 <;> rw [h1] at h
    · split
      · exact h.trans (Grow.same rfl rfl)
      · exact h
    all_goals exact h
  | lookup how p =>
    simp only [execH]
    unfold lookupByH
    split
    · exact Grow.refl _
    · exact Grow.refl _
    · split
      · refine callHook_grow D _ ?_ fun s' hh hb => ?_ <;> [exact Grow.refl _; exact Grow.same hh hb]
      · exact Grow.refl _
  | dynStateMut p f =>
    simp only [execH]
    unfold dynStateMutH
    split
    · refine callHook_grow D _ ?_ fun s' hh hb => ?_
      · exact Grow.same rfl rfl
      have h : Grow s _ := (ensureDyn_grow Y p s').from hh hb
      split
      · rename_i h1
        rw [h1] at h
        split
        · exact h.trans (Grow.same rfl rfl)
        · exact h
      · exact h
    all_goals exact Grow.same rfl rfl
  | invalidate p =>
    simp only [execH]
    unfold thenTell
    split
    · refine callHook_grow D _ ?_ fun s' hh hb => ?_ <;> [exact Grow.same rfl rfl; exact Grow.same hh hb]
    · exact Grow.same rfl rfl
  | purge p =>
    simp only [execH]
    unfold thenTell
    split
    · refine callHook_grow D _ ?_ fun s' hh hb => ?_ <;> [exact Grow.same rfl rfl; exact Grow.same hh hb]
    · exact Grow.same rfl rfl
  | clearAll =>
    simp only [execH]
    refine callHook_grow D _ ?_ fun s' hh hb => ?_ <;> [exact Grow.same rfl rfl; exact Grow.same hh hb]
  | _ => exact exec_grow Y n ord s _

theorem stepH_grow (Y : Sys σ) (D : Hooks σ) (n : Nat) (ord : HashOrder) (s : St σ) (op : Op σ) : Grow s (stepH Y D n ord s op).1 := by
  unfold stepH
  split
  · split
    · exact execH_grow ..
    · exact Grow.refl _
  · exact execH_grow ..

/-! ## A cache used alone -/

/-- One operation of a cache as the program sees it: with which hooks, stack space and hash order, what was called, and what it
answered. -/
structure EntryH (σ : Sig) where
  D : Hooks σ
  n : Nat
  ord : HashOrder
  op : Op σ
  ans : Res (Ans σ)

/-- A program that has only this cache did the operations `d` on it (first operation first), and anything
outside of it (creating and dropping builders, changing the world), and is in the state `s` now. -/
inductive AloneH (Y : Sys σ) : List (EntryH σ) → St σ → Prop
  | new (w : σ.W) : AloneH Y [] (St.new w)
  | own {d : List (EntryH σ)} {s : St σ} (D : Hooks σ) (n : Nat) (ord : HashOrder) (op : Op σ) : AloneH Y d s →
      op.own = true → (stepH Y D n ord s op).2.ended →
      AloneH Y (d ++ [⟨D, n, ord, op, (stepH Y D n ord s op).2⟩]) (stepH Y D n ord s op).1
  | outside {d : List (EntryH σ)} {s : St σ} (n : Nat) (ord : HashOrder) (op : Op σ) : AloneH Y d s →
      op.own = false → (step Y n ord s op).2.ended → AloneH Y d (step Y n ord s op).1

theorem AloneH.isExternal (Y : Sys σ) (d : List (EntryH σ)) : External (AloneH Y d) := by
  have ord : HashOrder := ⟨fun _ l => l, fun _ _ => List.Perm.refl _⟩
  refine ⟨fun s w h => h.outside 0 ord (.world fun _ => w) rfl ⟨nofun, nofun⟩, fun s q s' h hal => ?_,
    fun s a h => h.outside 0 ord (.free a) rfl ⟨nofun, nofun⟩⟩
  have h2 := h.outside 0 ord (.alloc q) rfl
  simp only [Daab.step, Op.promise?, exec, hal] at h2
  exact h2 ⟨nofun, nofun⟩

/-! ## Programs with several caches -/

/-- The state of a program with a cache for each `i : ι`, over one memory and world.  `done i` (ghost): the
operations done on the cache `i` since it was made. -/
structure MStH (ι : Type) (σ : Sig) where
  caches : ι → Cache σ
  w : σ.W
  heap : AMap σ.B
  born : List σ.B
  done : ι → List (EntryH σ)

variable {ι : Type} [DecidableEq ι] {Y : ι → Sys σ} {S : MStH ι σ}

/-- The program as the cache `i` sees it. -/
def MStH.view (S : MStH ι σ) (i : ι) : St σ := { c := S.caches i, w := S.w, heap := S.heap, born := S.born }

/-- The program does an operation on the cache `i`, with these hooks (or, if it is not an operation of caches, anywhere). -/
def MStH.step (Y : ι → Sys σ) (S : MStH ι σ) (i : ι) (D : Hooks σ) (n : Nat) (ord : HashOrder) (op : Op σ) :
    MStH ι σ × Res (Ans σ) :=
  let r := stepH (Y i) D n ord (S.view i) op
  ({ caches := Function.update S.caches i r.1.c
     w := r.1.w
     heap := r.1.heap
     born := r.1.born
     done := if op.own then Function.update S.done i (S.done i ++ [⟨D, n, ord, op, r.2⟩]) else S.done }, r.2)

/-- The program drops the cache `i` and makes a new one in its place. -/
def MStH.renew (S : MStH ι σ) (i : ι) : MStH ι σ :=
  { S with caches := Function.update S.caches i {}, done := Function.update S.done i [] }

/-- The allocator does not hand out an address that is kept by a weak reference in another cache: see `NoClash`. -/
def NoClashH (S S' : MStH ι σ) (i : ι) : Prop :=
  ∀ j, j ≠ i → ∀ (a : Id) b, S'.heap[a]? = some b → S.heap[a]? ≠ some b → (S.caches j).known[a]? = none

/-- What a program with several caches can get to: it uses the caches in any order, drops some and makes
new ones.  Each cache has its own artifact and state types, hence its own `Sys`; each operation has its hooks.  A cache may be used
further after any panic. -/
inductive MReachH (Y : ι → Sys σ) : MStH ι σ → Prop
  | new (w : σ.W) : MReachH Y ⟨fun _ => {}, w, ∅, [], fun _ => []⟩
  | op {S : MStH ι σ} (i : ι) (D : Hooks σ) (n : Nat) (ord : HashOrder) (op : Op σ) : MReachH Y S →
      (S.step Y i D n ord op).2.ended → NoClashH S (S.step Y i D n ord op).1 i → MReachH Y (S.step Y i D n ord op).1
  | renew {S : MStH ι σ} (i : ι) : MReachH Y S → MReachH Y (S.renew i)

theorem stepH_outside {Y : Sys σ} {D : Hooks σ} {n : Nat} {ord : HashOrder} {s : St σ} {op : Op σ} (h : op.own = false) :
    stepH Y D n ord s op = Daab.step Y n ord s op := by
  cases op <;> simp [Op.own] at h <;> rfl

/-- What holds of the memory, and each cache has a history of its own. -/
theorem MReachH.good (h : MReachH Y S) :
    S.born.Nodup ∧ (∀ i, HeapOk (S.view i)) ∧ ∀ i, AloneH (Y i) (S.done i) (S.view i) := by
  induction h with
  | new w =>
    refine ⟨List.nodup_nil, fun i => ⟨?_, ?_⟩, fun i => AloneH.new w⟩
    · intro a a' b h; simp [MStH.view] at h
    · intro a b h; simp [MStH.view] at h
  | @op S i D n ord op _ he hc ih =>
    obtain ⟨h1, h2, h3⟩ := ih
    have hg := stepH_grow (Y i) D n ord (S.view i) op
    have hown : AloneH (Y i) (if op.own then S.done i ++ [⟨D, n, ord, op, (stepH (Y i) D n ord (S.view i) op).2⟩] else S.done i)
        (stepH (Y i) D n ord (S.view i) op).1 := by
      split
      · rename_i ho; exact (h3 i).own D n ord op ho he
      · rename_i ho
        have ho : op.own = false := by simpa using ho
        simp only [MStH.step] at he
        rw [stepH_outside ho] at he ⊢
        exact (h3 i).outside n ord op ho he
    simp only [MStH.step] at he hc ⊢
    simp only [NoClashH] at hc
    generalize stepH (Y i) D n ord (S.view i) op = r at he hc hg hown ⊢
    obtain ⟨s', r⟩ := r
    obtain ⟨l, g1, g2, g3, g4, g5⟩ := hg
    have hok : HeapOk s' := g5 (h2 i)
    refine ⟨?_, fun j => ⟨hok.inj, hok.born⟩, fun j => ?_⟩
    · show s'.born.Nodup
      rw [g1, List.nodup_append]
      refine ⟨g2, h1, ?_⟩
      rintro a ha b hb rfl
      exact g3 a ha hb
    · by_cases hji : j = i
      · subst hji
        simp only [MStH.view, Function.update_self]
        split at hown <;> rename_i ho
        · rw [if_pos ho, Function.update_self]; exact hown
        · rw [if_neg ho]; exact hown
      · have e : (if op.own then Function.update S.done i (S.done i ++ [⟨D, n, ord, op, r⟩]) else S.done) j = S.done j := by
          split
          · rw [Function.update_of_ne hji]
          · rfl
        simp only [MStH.view, e, Function.update_of_ne hji]
        have := (AloneH.isExternal (Y j) (S.done j)).to (h3 j) (h2 j) s'.w g2 g3 g4 hok.inj (hc j hji)
        rw [show l ++ (S.view j).born = s'.born from g1.symm] at this
        exact this
  | @renew S i _ ih =>
    obtain ⟨h1, h2, h3⟩ := ih
    refine ⟨h1, fun j => ⟨(h2 j).inj, (h2 j).born⟩, fun j => ?_⟩
    by_cases hji : j = i
    · subst hji
      have h0 := (AloneH.isExternal (Y j) []).to (AloneH.new S.w) ⟨by simp [St.new], by simp [St.new]⟩ S.w (heap' := S.heap)
        (l := S.born) h1
        (by simp [St.new]) (fun a b hb => .inr ((h2 j).born a b hb)) (h2 j).inj (by simp [St.new])
      simp only [St.new, List.append_nil] at h0
      simp only [MStH.view, MStH.renew, Function.update_self]
      exact h0
    · simp only [MStH.view, MStH.renew, Function.update_of_ne hji]
      exact h3 j

/-! ## The theorems -/

/-- **C55** Whatever a program does with other caches in between, and whatever the doctors, `Debug` and `Clone` implementations and
destructors do there, each cache is in a state, and has given answers, that the same operations in the same order with the same hooks
give in a program that has no other cache: what the other caches do, can only matter to it as changes of the world, and by creating
and dropping builders. -/
theorem C55_as_if_alone_any_hooks (h : MReachH Y S) (i : ι) : AloneH (Y i) (S.done i) (S.view i) :=
  h.good.2.2 i

/-- **C55** So all that is proved of a single cache holds for each cache of the program, as long as
this very cache did not suffer the panic of finding 2 (C22): panics and corruptions of other caches do not
matter. -/
theorem C55_sound_on_its_own_any_hooks (h : MReachH Y S) (i : ι) (hd : ∀ e ∈ S.done i, e.ans.goesOn) :
    Reachable (Y i) (S.view i) := by
  have := C55_as_if_alone_any_hooks h i
  generalize S.done i = d at this hd
  generalize S.view i = s at this
  induction this with
  | new w => exact Reachable.new w
  | own D n ord op _ _ _ ih =>
    exact (ih fun e he => hd e (List.mem_append_left _ he)).hooked D n ord op (hd _ (List.mem_append_right _ (List.mem_singleton.2 rfl)))
  | outside n ord op _ ho he ih =>
    refine (ih hd).step n ord op ?_
    cases op <;> cases ho
    · simp only [step, Op.promise?, exec] at he ⊢
      split at he
      · exact trivial
      · exact absurd rfl he.1
    all_goals exact trivial

/-- **C55** An operation on the cache `i`, whatever its hooks do -- a build, an invalidation, a change of a dynamic state, clearing
everything, whether it returns or panics -- changes nothing that another cache `j` can be asked for:
artifacts, dynamic states, known builders. -/
theorem C55_others_untouched_any_hooks {i j : ι} (hij : j ≠ i) (D : Hooks σ) (n : Nat) (ord : HashOrder) (op : Op σ)
    {q : Op σ} (hq : Asks q) (hl : ∀ p, q.promise? = some p →
      (S.view j).live p = true ∧ ((S.step Y i D n ord op).1.view j).live p = true) (m : Nat) (ord' : HashOrder) :
    (step (Y j) m ord' ((S.step Y i D n ord op).1.view j) q).2 = (step (Y j) m ord' (S.view j) q).2 := by
  have e : ((S.step Y i D n ord op).1.view j).c = (S.view j).c := by
    simp [MStH.step, MStH.view, Function.update_of_ne hij]
  cases hq with
  | numKnown => simp only [step, Op.promise?, exec, e]
  | _ =>
    obtain ⟨h1, h2⟩ := hl _ rfl
    simp only [step, Op.promise?, h1, h2, if_true, exec, e]

/-- **C55** A cache that was cleared with `clear_all`, at any time and whatever happened to it before (also
after the panic of finding 2), and even if the doctor panics when it is told, is as good as new: it is in a state (except for what was
reported to the doctor) that is proper for a single cache, and all its later answers are those of a cache made just now, with the same
effects on the outside world, whatever the hooks do. -/
theorem C55_cleared_is_as_new_any_hooks (h : MReachH Y S) (i : ι) (D : Hooks σ) (n : Nat) (ord : HashOrder) :
    let S' := (S.step Y i D n ord .clearAll).1
    let s := S'.view i
    let new := (S'.renew i).view i
    SameButLog s new ∧ Reachable (Y i) new ∧
    ∀ hist, (playH (Y i) hist s).2 = (playH (Y i) hist new).2 ∧ (playH (Y i) hist s).1.w = (playH (Y i) hist new).1.w := by
  have hcl : ((S.step Y i D n ord .clearAll).2 = .val .unit ∨ (S.step Y i D n ord .clearAll).2 = .panic .user) ∧
      ({ (stepH (Y i) D n ord (S.view i) .clearAll).1.c with log := [] } : Cache σ) = {} ∧
      (stepH (Y i) D n ord (S.view i) .clearAll).1.heap = S.heap := by
    simp only [MStH.step, stepH, Op.promise?, execH]
    unfold callHook
    split
    · exact ⟨.inr rfl, rfl, rfl⟩
    · exact ⟨.inl rfl, rfl, rfl⟩
  obtain ⟨e2, e3, e4⟩ := hcl
  have e : SameButLog ((S.step Y i D n ord .clearAll).1.view i) (((S.step Y i D n ord .clearAll).1.renew i).view i) := by
    simp only [SameButLog, MStH.step, MStH.view, MStH.renew, Function.update_self, St.mk.injEq]
    exact ⟨e3, trivial, trivial, trivial⟩
  have hend : (S.step Y i D n ord .clearAll).2.ended := by
    rcases e2 with e2 | e2 <;> rw [e2] <;> exact ⟨nofun, nofun⟩
  have hmr : MReachH Y (S.step Y i D n ord .clearAll).1 := by
    refine .op i D n ord .clearAll h hend ?_
    intro j _ a b h1 h2
    rw [show (S.step Y i D n ord .clearAll).1.heap = S.heap from e4] at h1
    exact absurd h1 h2
  refine ⟨e, C55_sound_on_its_own_any_hooks (hmr.renew i) i (by simp [MStH.renew]), fun hist => ?_⟩
  obtain ⟨h1, h2⟩ := playH_sameButLog e hist
  exact ⟨h1, by have := congrArg St.w h2; exact this⟩

end

/-! ## The hypotheses are met -/

namespace Demo

/-- Whether the new builders are at addresses unknown to the other cache. -/
def noClashH (S S' : MStH Bool sig) (i : Bool) : Bool :=
  S'.heap.toList.all fun x => S.heap[x.1]? == some x.2 || ((S.caches (!i)).known[x.1]?).isNone

theorem noClashH_ok {S S' : MStH Bool sig} {i : Bool} (h : noClashH S S' i = true) : NoClashH S S' i := by
  intro j hj a b h1 h2
  have hj : j = !i := by cases i <;> cases j <;> simp_all
  subst hj
  have := List.all_eq_true.1 h (a, b) (ExtTreeMap.mem_toList_iff_getElem?_eq_some.2 h1)
  simpa [h2] using this

def runMH : List (Bool × Hooks sig × Op sig) → MStH Bool sig → MStH Bool sig
  | [], S => S
  | (i, D, op) :: l, S => runMH l (S.step two i D 9 ord op).1

def okMH : List (Bool × Hooks sig × Op sig) → MStH Bool sig → Bool
  | [], _ => true
  | (i, D, op) :: l, S => decide (S.step two i D 9 ord op).2.ended && noClashH S (S.step two i D 9 ord op).1 i &&
      okMH l (S.step two i D 9 ord op).1

theorem reachMH (l : List (Bool × Hooks sig × Op sig)) {S : MStH Bool sig} (h : MReachH two S) (ho : okMH l S = true) :
    MReachH two (runMH l S) := by
  induction l generalizing S with
  | nil => exact h
  | cons x l ih =>
    obtain ⟨i, D, op⟩ := x
    simp only [okMH, Bool.and_eq_true, decide_eq_true_eq] at ho
    exact ih (h.op i D 9 ord op ho.1.1 (noClashH_ok ho.1.2)) ho.2

/-- Builders 0 to 3 are created; cache `true` builds 2 (with 0 and 1), its doctor counts; the state of builder 0 is set to 5 in
cache `false`, whose doctor panics when it is told about the first use; then it is quiet. -/
def MH : MStH Bool sig :=
  runMH ((List.range 4).map (fun b => (true, count 1, .alloc (P b))) ++
    [(true, count 1, .get .bin (P 2)), (false, count 1, .dynStateMut (P 0) fun _ => 5), (false, fun w _ => (w, true), .get .bin (P 2)),
      (false, count 0, .get .bin (P 2)), (false, count 0, .lookupMut (P 0) id), (true, tick 99, .get .cloned (P 1))])
    ⟨fun _ => {}, (0 : Nat), ∅, [], fun _ => []⟩

theorem reach_MH : MReachH two MH := reachMH _ (MReachH.new (Y := two) (0 : Nat)) (by decide +kernel)

/-- `C55_sound_on_its_own_any_hooks`: the cache `true` is sound, though the other is not. -/
example : Reachable Demo.Y (MH.view true) :=
  C55_sound_on_its_own_any_hooks (Y := two) reach_MH true (by
    have : (MH.done true).all (fun e => decide e.ans.goesOn) = true := by decide +kernel
    intro e he
    simpa using List.all_eq_true.1 this e he)

/-- The doctors have counted, one of them has panicked, and one cache is spoiled. -/
example : Cached (MH.view true) 12 (100 : Nat) ∧ Cached (MH.view false) 12 (110 : Nat) ∧
    ((MH.done false).map fun e => decide e.ans.goesOn) = [true, true, true, false] ∧
    ((MH.done true).map fun e => decide e.ans.goesOn) = [true, true] ∧ 0 < (show Nat from MH.w) := by
  unfold Cached; decide +kernel

/-- `C55_as_if_alone_any_hooks`: both caches, also the spoiled one. -/
example : AloneH (two false) (MH.done false) (MH.view false) ∧ AloneH (two true) (MH.done true) (MH.view true) :=
  ⟨C55_as_if_alone_any_hooks reach_MH false, C55_as_if_alone_any_hooks reach_MH true⟩

/-- `C55_others_untouched_any_hooks`: clearing the one cache, at which the doctor panics, leaves the artifacts of the other. -/
example : (step (two true) 9 ord ((MH.step two false (tick 0) 0 ord .clearAll).1.view true) (.lookup .bin (P 2))).2 =
    (step (two true) 9 ord (MH.view true) (.lookup .bin (P 2))).2 :=
  C55_others_untouched_any_hooks (Y := two) (S := MH) (i := false) (j := true) (by decide) (tick 0) 0 ord .clearAll
    (q := .lookup .bin (P 2)) (.lookup _ _) (by
      intro p hp
      cases hp
      exact ⟨by decide +kernel, by decide +kernel⟩) 9 ord

/-- `C55_cleared_is_as_new_any_hooks`: the spoiled cache, too, is as new after `clear_all` at which the doctor panics. -/
example : Reachable (two false) (((MH.step two false (fun w _ => (w, true)) 0 ord .clearAll).1.renew false).view false) :=
  (C55_cleared_is_as_new_any_hooks reach_MH false (fun w _ => (w, true)) 0 ord).2.1

end Demo

end Daab
