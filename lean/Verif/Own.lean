import Verif.Step

/-!
# Memory and own steps

What code of the program can do beside using the cache: act on the outside world, create builders, and drop builders.
-/

open Std

namespace Daab

variable {σ : Sig} {Y : Sys σ}

/-- What all threads can act on: the outside world, and the builders. -/
structure Shared (σ : Sig) where
  w : σ.W
  heap : AMap σ.B
  born : List σ.B

/-- A cache and the shared memory. -/
def Shared.st (m : Shared σ) (c : Cache σ) : St σ := { c := c, w := m.w, heap := m.heap, born := m.born }

/-- The shared memory of a state. -/
def St.mem (s : St σ) : Shared σ := ⟨s.w, s.heap, s.born⟩

@[simp] theorem Shared.st_c (m : Shared σ) (c : Cache σ) : (m.st c).c = c := rfl
@[simp] theorem Shared.st_heap (m : Shared σ) (c : Cache σ) : (m.st c).heap = m.heap := rfl
@[simp] theorem Shared.st_w (m : Shared σ) (c : Cache σ) : (m.st c).w = m.w := rfl
@[simp] theorem Shared.st_born (m : Shared σ) (c : Cache σ) : (m.st c).born = m.born := rfl
@[simp] theorem Shared.st_mem (m : Shared σ) (c : Cache σ) : (m.st c).mem = m := rfl
@[simp] theorem St.mem_heap (s : St σ) : s.mem.heap = s.heap := rfl
@[simp] theorem St.mem_w (s : St σ) : s.mem.w = s.w := rfl
@[simp] theorem St.mem_born (s : St σ) : s.mem.born = s.born := rfl
@[simp] theorem St.mem_st (s : St σ) : s.mem.st s.c = s := rfl

/-- The own steps of a program: acting on the world, creating and dropping builders. -/
inductive OwnSteps : St σ → St σ → Prop
  | refl (s : St σ) : OwnSteps s s
  | world {s s' : St σ} (f : σ.W → σ.W) : OwnSteps { s with w := f s.w } s' → OwnSteps s s'
  | alloc {s s1 s' : St σ} (q : Promise σ) : allocB q s = some s1 → OwnSteps s1 s' → OwnSteps s s'
  | free {s s' : St σ} (a : Id) : OwnSteps (freeB a s) s' → OwnSteps s s'

theorem OwnSteps.cache {s s' : St σ} (h : OwnSteps s s') : s'.c = s.c := by
  induction h with
  | refl s => rfl
  | world f _ ih => exact ih
  | alloc q ha _ ih => exact ih.trans (allocB_c ha)
  | free a _ ih => exact ih

theorem OwnSteps.trans {s s' s'' : St σ} (h : OwnSteps s s') (h' : OwnSteps s' s'') : OwnSteps s s'' := by
  induction h with
  | refl s => exact h'
  | world f _ ih => exact .world f (ih h')
  | alloc q ha _ ih => exact .alloc q ha (ih h')
  | free a _ ih => exact .free a (ih h')

theorem OwnSteps.reachable {s s' : St σ} (h : OwnSteps s s') (hr : Reachable Y s) : Reachable Y s' := by
  have o : HashOrder := ⟨fun _ l => l, fun _ l => .refl l⟩
  induction h with
  | refl s => exact hr
  | @world s _ f _ ih => exact ih (Reachable.step 0 o (.world f) hr trivial)
  | @alloc s s1 _ q ha _ ih =>
    have e : step Y 0 o s (.alloc q) = (s1, .val .unit) := by simp only [step, Op.promise?, exec, ha]
    have := Reachable.step 0 o (.alloc q) hr (by rw [e]; trivial)
    rw [e] at this
    exact ih this
  | @free s _ a _ ih => exact ih (Reachable.step 0 o (.free a) hr trivial)

/-- The memory can go from `m` to `m'` by own steps of a program whose cache is `c`, or has fewer builders. -/
def Moves (c : Cache σ) (m m' : Shared σ) : Prop :=
  ∀ c' : Cache σ, (∀ a : Id, a ∈ c'.known → a ∈ c.known) → OwnSteps (m.st c') (m'.st c')

theorem Moves.refl (c : Cache σ) (m : Shared σ) : Moves c m m := fun _ _ => .refl _

theorem Moves.trans {c : Cache σ} {m m' m'' : Shared σ} (h : Moves c m m') (h' : Moves c m' m'') : Moves c m m'' :=
  fun c' hc => (h c' hc).trans (h' c' hc)

theorem Moves.anti {c c' : Cache σ} {m m' : Shared σ} (h : Moves c m m') (hc : ∀ a : Id, a ∈ c'.known → a ∈ c.known) :
    Moves c' m m' := fun c'' hc' => h c'' fun a ha => hc a (hc' a ha)

theorem OwnSteps.moves {c : Cache σ} {m m' : Shared σ} (h : OwnSteps (m.st c) (m'.st c)) : Moves c m m' := by
  intro c' hc
  have key : ∀ s s' : St σ, OwnSteps s s' → (∀ a : Id, a ∈ c'.known → a ∈ s.c.known) →
      OwnSteps (s.mem.st c') (s'.mem.st c') := by
    intro s s' h
    induction h with
    | refl s => exact fun _ => .refl _
    | world f _ ih => exact fun hk => .world f (ih hk)
    | @alloc s s1 _ q ha _ ih =>
      intro hk
      have h1 : allocB q (s.mem.st c') = some (s1.mem.st c') := by
        unfold allocB at ha ⊢
        split at ha
        · cases ha
        · next hn =>
          cases ha
          simp only [Bool.or_eq_true, not_or, Bool.not_eq_true, decide_eq_true_eq] at hn
          have : c'.known.contains q.id = false := by
            have := fun h => hk q.id h
            simp only [ExtTreeMap.mem_iff_contains] at this
            cases hx : c'.known.contains q.id with
            | false => rfl
            | true => rw [this hx] at hn; simp at hn
          simp only [Shared.st, St.mem, hn.1.1, this, hn.2, Bool.or_false, decide_false]
          rfl
      exact .alloc q h1 (ih (by rw [allocB_c ha]; exact hk))
    | free a _ ih => exact fun hk => .free a (ih hk)
  exact key _ _ h hc

end Daab
