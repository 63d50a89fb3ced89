import Verif.Props9
import Verif.Demo

/-!
# The builders of `src/utils.rs` in a concrete system

Shows that the hypotheses of the theorems for C33-C35 are met, and what the builders do in a concrete
history.  Nothing here is a property theorem.
-/

open Std

namespace Daab

/-- Reachability by operations satisfying a decidable condition. -/
theorem ReachableBy.runOps {σ : Sig} {Y : Sys σ} {A : Op σ → Prop} {H : Hooks σ → Prop} {n : Nat} {ord : HashOrder}
    (ops : List (Op σ)) {s : St σ} (h : ReachableBy Y A H s) (hA : ∀ op ∈ ops, A op) (hg : goOn Y n ord ops s = true) :
    ReachableBy Y A H (runOps Y n ord ops s) := by
  induction ops generalizing s with
  | nil => exact h
  | cons op ops ih =>
    simp only [goOn, Bool.and_eq_true, decide_eq_true_eq] at hg
    exact ih (.step n ord op h (hA op (by simp)) hg.1) (fun o ho => hA o (by simp [ho])) hg.2

namespace DemoUtils

open Demo (sig P ord)

/-- An optional number as number. -/
def enc : Option Nat → Nat
  | none => 0
  | some v => v + 1

def dec : Nat → Option Nat
  | 0 => none
  | v + 1 => some v

/-- A closure counting its calls in its state; fails the third time, then panics. -/
def counter : Closure sig := fun d w => (w + 1, d + 1, if d < 2 then some (.ok d) else if d = 2 then some (.error 0) else none)

/-- * 0: configurable, initially 40.  1: forwards 0.  2: feigns 0.  3: clones 0.  4: constant 17.
* 5: fails while the world is 0, then returns the world.  6: redeems 5, no default.
* 7: redeems 5, default 9.  8: functional. -/
def code : Nat → Prog sig
  | 0 => configurableCode fun d => d
  | 1 => forwardingCode (P 0)
  | 2 => feigningCode (P 0)
  | 3 => clonedCode (fun v => v + 1000) (P 0)
  | 4 => constCode (17 : Nat)
  | 5 => .world id fun w => match w with
    | 0 => .ret (.error 5)
    | w => .ret (.ok w)
  | 6 => redeemingCode enc dec (P 5)
  | 7 => redeemingCode enc dec (P 5)
  | 8 => functionalCode counter
  | b => .ret (.ok b)

def init : Nat → Nat
  | 0 => 40
  | 6 => enc none
  | 7 => enc (some 9)
  | _ => 0

def Y : Sys sig where
  code := code
  init b w := (w, some (init b))
  vty _ := 0
  sty _ := 0
  artTy _ := 0
  stTy _ := 0
  clone v := v
  debug := true

theorem forwarding : Forwarding Y (P 1) (P 0) := ⟨rfl, rfl, 0, rfl, fun _ => rfl⟩
theorem feigning : Feigning Y (P 2) (P 0) := ⟨rfl, rfl, 0, rfl, fun _ => rfl⟩
theorem cloning : Cloning Y (fun v => v + 1000) (P 3) (P 0) := ⟨rfl, fun _ _ => rfl, 0, rfl, fun _ => rfl⟩
theorem constant : Constant Y (17 : Nat) (P 4) := ⟨rfl, rfl, 0, rfl, fun _ => rfl⟩
theorem configurable : Configurable Y (fun d => d) (40 : Nat) (P 0) := ⟨rfl, fun _ _ => rfl, rfl, fun _ => rfl⟩
theorem functional : Functional Y counter (0 : Nat) (P 8) :=
  ⟨rfl, fun _ _ _ => rfl, fun _ _ _ _ => rfl, rfl, fun _ => rfl⟩
theorem redeeming6 : Redeeming Y enc dec none (P 6) (P 5) :=
  ⟨rfl, rfl, fun _ _ => rfl, fun o => by cases o <;> rfl, fun _ => rfl, rfl, fun _ => rfl⟩
theorem redeeming7 : Redeeming Y enc dec (some (9 : Nat)) (P 7) (P 5) :=
  ⟨rfl, rfl, fun _ _ => rfl, fun o => by cases o <;> rfl, fun _ => rfl, rfl, fun _ => rfl⟩

def after (ops : List (Op sig)) : St sig := runOps Y 9 ord (Demo.allocs ++ ops) (St.new 0)

theorem reach (ops : List (Op sig)) (h : goOn Y 9 ord (Demo.allocs ++ ops) (St.new 0) = true) :
    Reachable Y (after ops) :=
  Reachable.runOps _ (Reachable.new (Y := Y) (0 : Nat)) h

theorem reachBy {A : Op sig → Prop} {H : Hooks sig → Prop} (ops : List (Op sig)) (hA : ∀ op ∈ Demo.allocs ++ ops, A op)
    (h : goOn Y 9 ord (Demo.allocs ++ ops) (St.new 0) = true) : ReachableBy Y A H (after ops) :=
  ReachableBy.runOps _ (ReachableBy.new (Y := Y) (0 : Nat)) hA h

/-- The answer to the last operation. -/
def answer (ops : List (Op sig)) (op : Op sig) : Res (Ans sig) := (step Y 9 ord (after ops) op).2

/-! C34 -/

example : ∃ s, Reachable Y s ∧ Forwarding Y (P 1) (P 0) ∧ s.live (P 1) = true ∧ s.live (P 0) = true ∧
    Uncached s (P 1).id :=
  ⟨after [.get .bin (P 0)], reach _ (by decide), forwarding, by decide, by decide, by unfold Uncached; decide⟩

example : answer [.dynStateMut (P 0) fun _ => (50 : Nat)] (.get .bin (P 1)) = .val (.art (.ok (50 : Nat))) := rfl
example : answer [] (.get .bin (P 2)) = .val (.art (.ok (40 : Nat))) := rfl
example : answer [] (.get .bin (P 3)) = .val (.art (.ok (1040 : Nat))) := rfl
example : Cached (after [.get .bin (P 1)]) (P 1).id (40 : Nat) := by unfold Cached; decide
example : Uncached (after [.get .bin (P 1), .invalidate (P 0)]) (P 1).id := by unfold Uncached; decide

/-! C35 -/

example : ∃ s, ReachableBy Y (NotMutating (P 4)) (fun _ => True) s ∧ Constant Y (17 : Nat) (P 4) ∧ s.live (P 4) = true :=
  ⟨after [.get .bin (P 4), .invalidate (P 4)], reachBy _ (by
    intro op hop q f h
    rcases h with rfl | rfl <;> simp [Demo.allocs] at hop) (by decide), constant, by decide⟩

example : answer [] (.get .cloned (P 4)) = .val (.art (.ok (17 : Nat))) := rfl

example : ∃ s, Reachable Y s ∧ Functional Y counter (0 : Nat) (P 8) ∧ s.live (P 8) = true ∧
    Uncached s (P 8).id :=
  ⟨after [.get .bin (P 8), .invalidate (P 8)], reach _ (by decide), functional, by decide, by unfold Uncached; decide⟩

example : answer [.get .bin (P 8), .invalidate (P 8)] (.get .bin (P 8)) = .val (.art (.ok (1 : Nat))) := rfl

/-! C33 -/

/-- The hypotheses of `C33_redeeming`, in a state where the builder has seen a success, its inner
builder was invalidated, and would now fail. -/
example : ∃ s, ReachableBy Y (NotSetting (P 6)) (Hears (P 6)) s ∧ Redeeming Y enc dec none (P 6) (P 5) ∧
    s.live (P 6) = true ∧ s.live (P 5) = true ∧ Uncached s (P 6).id ∧
    lastGood (P 6) none s.c.log = some (3 : Nat) :=
  ⟨after [.world fun _ => (3 : Nat), .get .bin (P 6), .invalidate (P 5), .world fun _ => (0 : Nat)],
    reachBy _ (by
      intro op hop f h
      subst h
      simp [Demo.allocs] at hop) (by decide), redeeming6, by decide, by decide, by unfold Uncached; decide, rfl⟩

example : answer [.world fun _ => (3 : Nat), .get .bin (P 6), .invalidate (P 5), .world fun _ => (0 : Nat)]
    (.get .bin (P 6)) = .val (.art (.ok (3 : Nat))) := rfl
example : answer [] (.get .bin (P 6)) = .panic .user := rfl
example : answer [] (.get .bin (P 7)) = .val (.art (.ok (9 : Nat))) := rfl

/-! The theorems applied -/

/-- `C34_forwarding`, `C34_feigning`, `C34_cloned`: 1, 2 and 3 wrap 0, whose state was set to 50. -/
example : let s := after [.dynStateMut (P 0) fun _ => (50 : Nat)]
    (∃ s1, Asked Y s s1 (P 1) (P 0) ∧
      (step Y 9 ord s (.get .ref (P 1))).2 = passOn Y .ref (step Y 8 ord s1 (.get .bin (P 0))).2) ∧
    (∃ s1, Asked Y s s1 (P 2) (P 0) ∧
      (step Y 9 ord s (.get .ref (P 2))).2 = passOn Y .ref (step Y 8 ord s1 (.get .bin (P 0))).2) ∧
    ∃ s1, Asked Y s s1 (P 3) (P 0) :=
  ⟨C34_forwarding (reach _ (by decide)) forwarding (by decide) (by decide) (by unfold Uncached; decide) 8 ord .ref,
    C34_feigning (reach _ (by decide)) feigning (by decide) (by decide) (by unfold Uncached; decide) 8 ord .ref,
    (C34_cloned (reach _ (by decide)) cloning (by decide) (by decide) (by unfold Uncached; decide) 8 ord .ref).imp
      fun _ h => h.1⟩

/-- `C34_same_bin`. -/
example : let s := after [.dynStateMut (P 0) fun _ => (50 : Nat)]
    ∃ v, (50 : Nat) = seen Y .bin v ∧ Cached (step Y 9 ord s (.get .bin (P 1))).1 11 v ∧
      Cached (step Y 9 ord s (.get .bin (P 1))).1 10 v :=
  C34_same_bin (p := P 1) (q := P 0) (reach _ (by decide)) (.inl forwarding) (by decide) (by decide)
    (by unfold Uncached; decide) rfl

/-- `C34_invalidated_with_inner`, `C07_unavoidable_use_on_record`, `C07_unavoidable_invalidated` and
`C33_invalidated_with_inner`: 1 (a `ForwardingBuilder`) and 6 (a `RedeemingBuilder`) are cached. -/
example : let s := after [.world fun _ => (3 : Nat), .get .bin (P 1), .get .bin (P 6)]
    Cached s 11 (40 : Nat) ∧ Cached s 16 (3 : Nat) ∧ (∃ q, q = P 0 ∧ UsesNow s 11 q.id) ∧
    Uncached (step Y 9 ord s (.invalidate (P 0))).1 11 ∧ Uncached (step Y 9 ord s (.invalidate (P 5))).1 16 := by
  intro s
  have h : Reachable Y s := reach _ (by decide)
  have hd : (Y.code (P 1).b).demands (· = P 0) := Wraps.demands (.inl forwarding)
  have : Uncached (step Y 9 ord s (.invalidate (P 0))).1 11 :=
    C07_unavoidable_invalidated h (p := P 1) (by decide) (by decide) hd 9 ord
  exact ⟨by unfold Cached; decide, by unfold Cached; decide,
    C07_unavoidable_use_on_record h (p := P 1) (by decide) hd (v := (40 : Nat)) (by unfold Cached; decide),
    C34_invalidated_with_inner h (p := P 1) (.inl forwarding) (by decide) (by decide) 9 ord,
    C33_invalidated_with_inner h redeeming6 (p := P 6) (by decide) (by decide) 9 ord⟩

/-- `C35_const`, `C35_configurable`, `C35_configurable_set` after a history with a state change. -/
example : let s := after [.dynStateMut (P 0) fun _ => (50 : Nat), .get .bin (P 1), .get .bin (P 4), .invalidate (P 4)]
    (step Y 9 ord s (.get .bin (P 4))).2 = .val (.art (.ok (17 : Nat))) ∧
    (∃ d, stateOf Y s (P 0) = some d ∧ (step Y 9 ord s (.get .bin (P 0))).2 = .val (.art (.ok d))) ∧
    (step Y 9 ord (step Y 9 ord s (.dynStateMut (P 0) (· + 1))).1 (.get .bin (P 0))).2 =
      .val (.art (.ok (51 : Nat))) := by
  intro s
  have h : ∀ p, ReachableBy Y (NotMutating p) (fun _ => True) s := fun p => reachBy _ (by
    intro op hop q f h
    rcases h with rfl | rfl <;> simp [Demo.allocs] at hop) (by decide)
  exact ⟨C35_const (h _) constant (by decide) 8 ord .bin, C35_configurable (h _) configurable (by decide) 8 ord .bin,
    C35_configurable_set (h _) configurable (by decide) (n := 9) (ord := ord) (f := (· + 1)) (d := (50 : Nat)) rfl 8 ord .bin⟩

/-- `C35_functional`: the closure has been called once before; it counts in its state and in the outside world. -/
example : let s := after [.get .bin (P 8), .invalidate (P 8)]
    ∃ d, stateOf Y s (P 8) = some d ∧ HasState (step Y 9 ord s (.get .bin (P 8))).1 18 (counter d s.w).2.1 :=
  (C35_functional (reach _ (by decide)) functional (by decide) (by unfold Uncached; decide) 8 ord .bin).imp
    fun _ h => ⟨h.1, h.2.1⟩

/-- `C35_uses_possible` and `C35_leaf_uses_nothing`: 1 only ever uses 0, which uses nothing. -/
example : let s := after [.get .bin (P 1)]
    UsesNow s 11 10 ∧ (∀ d, UsesNow s 11 d → ∃ q, q = P 0 ∧ q.id = d) ∧ ∀ d, ¬ UsesNow s 10 d := by
  intro s
  have h : Reachable Y s := reach _ (by decide)
  exact ⟨⟨_, rfl, by decide⟩, fun d hu => C35_uses_possible h (p := P 1) (by decide)
      (by rw [forwarding.code]; exact ⟨rfl, fun r => trivial⟩) hu,
    C35_leaf_uses_nothing h (p := P 0) (by decide) (.inr (.inl ⟨_, _, configurable⟩))⟩

/-- `C33_redeeming`: the inner builder fails, and the artifact of the last success is answered. -/
example : let s := after [.world fun _ => (3 : Nat), .get .bin (P 6), .invalidate (P 5), .world fun _ => (0 : Nat)]
    ∃ s1, Asked Y s s1 (P 6) (P 5) ∧ (step Y 9 ord s (.get .bin (P 6))).2 =
      redeemed Y .bin (lastGood (P 6) none (step Y 8 ord s1 (.get .bin (P 5))).1.c.log)
        (step Y 8 ord s1 (.get .bin (P 5))).2 :=
  (C33_redeeming (reachBy _ (by
      intro op hop f h
      subst h
      simp [Demo.allocs] at hop) (by decide)) redeeming6 (by decide) (by decide) (by unfold Uncached; decide) 8 ord
    .bin).imp fun _ h => ⟨h.1, h.2.1⟩

/-! A doctor that panics -/

/-- A doctor that panics whenever it is told that something was built. -/
def refusing : Hooks sig
  | w, .report (.built _ _) => (w, true)
  | w, _ => (w, false)

/-- A doctor that panics whenever it is told about a use. -/
def shy : Hooks sig
  | w, .report (.resolve _ _) => (w, true)
  | w, _ => (w, false)

/-- `shy` meets the condition of `C33_redeeming`, `refusing` does not. -/
example : Hears (P 6) shy ∧ ¬ Hears (P 6) refusing :=
  ⟨fun _ _ => rfl, fun h => by have := h (0 : Nat) (0 : Nat); simp [refusing] at this⟩

set_option smartUnfolding false in
/-- A state in which the doctor panicked while a `ConstBuilder` was built. -/
example : ∃ s, ReachableBy Y (NotMutating (P 4)) (fun _ => True) s ∧ Constant Y (17 : Nat) (P 4) ∧
    s.live (P 4) = true ∧ (stepH Y refusing 9 ord (after []) (.get .bin (P 4))) = (s, .panic .user) := by
  refine ⟨(stepH Y refusing 9 ord (after []) (.get .bin (P 4))).1, .hooked refusing 9 ord (.get .bin (P 4)) (reachBy _ (by
    intro op hop q f h
    rcases h with rfl | rfl <;> simp [Demo.allocs] at hop) (by decide)) (by rintro q f (h | h) <;> cases h) trivial ?_,
    constant, rfl, rfl⟩
  have : (stepH Y refusing 9 ord (after []) (.get .bin (P 4))).2 = .panic .user := rfl
  rw [this]
  exact (by decide : Panic.user ≠ Panic.noCounterpart)

/-- The inner builder of the `RedeemingBuilder` 6 works, 6 is built, but the doctor panics when it is told so; then
the inner builder is invalidated and fails. -/
def refused : St sig :=
  runOps Y 9 ord [.invalidate (P 5), .world fun _ => (0 : Nat)]
    (stepH Y refusing 9 ord (after [.world fun _ => (3 : Nat), .get .bin (P 5)]) (.get .bin (P 6))).1

set_option smartUnfolding false in
/-- The condition on the doctor in `C33_redeeming` is needed: 6 was never built, but it remembers the artifact whose
announcement made the doctor panic. -/
example : lastGood (P 6) none refused.c.log = none ∧
    (step Y 9 ord refused (.get .bin (P 6))).2 = .val (.art (.ok (3 : Nat))) := ⟨rfl, rfl⟩

end DemoUtils
end Daab
