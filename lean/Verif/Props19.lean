import Verif.Multi
import Verif.Props12

/-!
# C55: several caches

Programs with any number of caches that share builders, memory and the outside world (`Multi.lean`).
-/

open Std

namespace Daab

variable {σ : Sig} {ι : Type} [DecidableEq ι] {Y : ι → Sys σ} {S : MSt ι σ}

/-- **C55** Whatever a program does with other caches in between, each cache is in a state, and has given
answers, that the same operations in the same order give in a program that has no other cache: what the
other caches do, can only matter to it as changes of the world, and by creating and dropping builders. -/
theorem C55_as_if_alone (h : MReach Y S) (i : ι) : Alone (Y i) (S.done i) (S.view i) :=
  h.good.2.2 i

/-- **C55** So all that is proved of a single cache holds for each cache of the program, as long as
this very cache did not suffer the panic of finding 2 (C22): panics and corruptions of other caches do not
matter. -/
theorem C55_sound_on_its_own (h : MReach Y S) (i : ι) (hd : ∀ e ∈ S.done i, e.ans.goesOn) :
    Reachable (Y i) (S.view i) := by
  have := C55_as_if_alone h i
  generalize S.done i = d at this hd
  generalize S.view i = s at this
  induction this with
  | new w => exact Reachable.new w
  | own n ord op _ _ _ ih =>
    exact (ih fun e he => hd e (List.mem_append_left _ he)).step n ord op (hd _ (List.mem_append_right _ (List.mem_singleton.2 rfl)))
  | outside n ord op _ ho he ih =>
    refine (ih hd).step n ord op ?_
    cases op <;> cases ho
    · simp only [step, Op.promise?, exec] at he ⊢
      split at he
      · exact trivial
      · exact absurd rfl he.1
    all_goals exact trivial

/-- An operation that only asks. -/
inductive Asks : Op σ → Prop
  | lookup (how : Access) (p : Promise σ) : Asks (.lookup how p)
  | getDynState (p : Promise σ) : Asks (.getDynState p)
  | isKnown (p : Promise σ) : Asks (.isKnown p)
  | numKnown : Asks .numKnown

/-- **C55** An operation on the cache `i` -- a build, an invalidation, a change of a dynamic state, clearing
everything, whether it returns or panics -- changes nothing that another cache `j` can be asked for:
artifacts, dynamic states, known builders. -/
theorem C55_others_untouched {i j : ι} (hij : j ≠ i) (n : Nat) (ord : HashOrder) (op : Op σ)
    {q : Op σ} (hq : Asks q) (hl : ∀ p, q.promise? = some p →
      (S.view j).live p = true ∧ ((S.step Y i n ord op).1.view j).live p = true) (m : Nat) (ord' : HashOrder) :
    (step (Y j) m ord' ((S.step Y i n ord op).1.view j) q).2 = (step (Y j) m ord' (S.view j) q).2 := by
  have e : ((S.step Y i n ord op).1.view j).c = (S.view j).c := by
    simp [MSt.step, MSt.view, Function.update_of_ne hij]
  cases hq with
  | numKnown => simp only [step, Op.promise?, exec, e]
  | _ =>
    obtain ⟨h1, h2⟩ := hl _ rfl
    simp only [step, Op.promise?, h1, h2, if_true, exec, e]

/-- **C55** A cache that was cleared with `clear_all`, at any time and whatever happened to it before (also
after the panic of finding 2), is as good as new: it is in a state (except for what was reported to the
doctor) that is proper for a single cache, and all its later answers are those of a cache made just now. -/
theorem C55_cleared_is_as_new (h : MReach Y S) (i : ι) (n : Nat) (ord : HashOrder) :
    let s := (S.step Y i n ord .clearAll).1.view i
    let new := (S.renew i).view i
    SameButLog s new ∧ Reachable (Y i) new ∧ ∀ hist, (play (Y i) hist s).2 = (play (Y i) hist new).2 := by
  have e : SameButLog ((S.step Y i n ord .clearAll).1.view i) ((S.renew i).view i) := by
    simp only [SameButLog, MSt.step, MSt.view, MSt.renew, step, Op.promise?, exec, Function.update_self]
    rfl
  refine ⟨e, C55_sound_on_its_own (h.renew i) i ?_, fun hist => (play_sameButLog e hist).1⟩
  simp [MSt.renew]

/-! ## The hypotheses are met -/

namespace Demo

/-- Two caches, one compiled without debug assertions (say, of another crate). -/
def two : Bool → Sys sig := fun i => { Demo.Y with debug := i }

/-- Whether the new builders are at addresses unknown to the other cache. -/
def noClash (S S' : MSt Bool sig) (i : Bool) : Bool :=
  S'.heap.toList.all fun x => S.heap[x.1]? == some x.2 || ((S.caches (!i)).known[x.1]?).isNone

theorem noClash_ok {S S' : MSt Bool sig} {i : Bool} (h : noClash S S' i = true) : NoClash S S' i := by
  intro j hj a b h1 h2
  have hj : j = !i := by cases i <;> cases j <;> simp_all
  subst hj
  have := List.all_eq_true.1 h (a, b) (ExtTreeMap.mem_toList_iff_getElem?_eq_some.2 h1)
  simpa [h2] using this

instance {α : Type} (r : Res α) : Decidable r.ended := by
  cases r
  · exact .isTrue ⟨nofun, nofun⟩
  · exact .isTrue ⟨nofun, nofun⟩
  · exact .isFalse fun h => h.1 rfl
  · exact .isFalse fun h => h.2 rfl

def runM : List (Bool × Op sig) → MSt Bool sig → MSt Bool sig
  | [], S => S
  | (i, op) :: l, S => runM l (S.step two i 9 ord op).1

def okM : List (Bool × Op sig) → MSt Bool sig → Bool
  | [], _ => true
  | (i, op) :: l, S => decide (S.step two i 9 ord op).2.ended && noClash S (S.step two i 9 ord op).1 i &&
      okM l (S.step two i 9 ord op).1

theorem reachM (l : List (Bool × Op sig)) {S : MSt Bool sig} (h : MReach two S) (ho : okM l S = true) :
    MReach two (runM l S) := by
  induction l generalizing S with
  | nil => exact h
  | cons x l ih =>
    obtain ⟨i, op⟩ := x
    simp only [okM, Bool.and_eq_true, decide_eq_true_eq] at ho
    exact ih (h.op i 9 ord op ho.1.1 (noClash_ok ho.1.2)) ho.2

/-- Builders 0 to 3 are created; cache `true` builds 2 (with 0 and 1); the state of builder 0 is set to 5 in
cache `false`, which builds 2, too; there, mutable access to 0 panics (finding 2). -/
def M : MSt Bool sig :=
  runM ((List.range 4).map (fun b => (true, .alloc (P b))) ++
    [(true, .get .bin (P 2)), (false, .dynStateMut (P 0) fun _ => 5), (false, .get .bin (P 2)),
      (false, .lookupMut (P 0) id), (true, .get .bin (P 1))])
    ⟨fun _ => {}, (0 : Nat), ∅, [], fun _ => []⟩

theorem reach_M : MReach two M := reachM _ (MReach.new (Y := two) (0 : Nat)) (by decide)

/-- The cache `true` is sound, though the other is not. -/
example : Reachable Demo.Y (M.view true) :=
  C55_sound_on_its_own (Y := two) reach_M true (by
    have : (M.done true).all (fun e => decide e.ans.goesOn) = true := by decide
    intro e he
    simpa using List.all_eq_true.1 this e he)

example : Cached (M.view true) 12 (100 : Nat) ∧ Cached (M.view false) 12 (110 : Nat) := by unfold Cached; decide

example : ((M.done false).map fun e => decide e.ans.goesOn) = [true, true, false] ∧
    ((M.done true).map fun e => decide e.ans.goesOn) = [true, true] := by decide

/-- The spoiled cache, too, is as new after `clear_all`, and then answers as it should. -/
example : (play (two false) [(9, ord, .get .bin (P 2))] ((M.step two false 0 ord .clearAll).1.view false)).2 =
    [.val (.art (.ok (100 : Nat)))] := by
  rw [(C55_cleared_is_as_new reach_M false 0 ord).2.2]; rfl

/-- `C55_as_if_alone`: both caches, also the spoiled one. -/
example : Alone (two false) (M.done false) (M.view false) ∧ Alone (two true) (M.done true) (M.view true) :=
  ⟨C55_as_if_alone reach_M false, C55_as_if_alone reach_M true⟩

/-- `C55_others_untouched`: clearing the one cache leaves the artifacts of the other. -/
example : (step (two true) 9 ord ((M.step two false 0 ord .clearAll).1.view true) (.lookup .bin (P 2))).2 =
    (step (two true) 9 ord (M.view true) (.lookup .bin (P 2))).2 :=
  C55_others_untouched (Y := two) (S := M) (i := false) (j := true) (by decide) 0 ord .clearAll
    (q := .lookup .bin (P 2)) (.lookup _ _) (by
      intro p hp
      cases hp
      exact ⟨by decide, by decide⟩) 9 ord

end Demo
end Daab
