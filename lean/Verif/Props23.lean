import Verif.Threads
import Verif.Props5
import Verif.Props4

/-!
# C63, C64: caches in several threads at the same time

Programs with any number of threads that have a cache each, share builders and act on the same outside world; the code
of builders is executed step by step, with steps of other threads between any two of them, and so is garbage
collection (`Threads.lean`).
-/

open Std

namespace Daab

variable {σ : Sig}

/-! ## Specification -/

/-- The builder's code neither looks at nor changes the outside world, and creates and drops no builders: it only
resolves others and uses its dynamic state. -/
inductive Prog.Local : Prog σ → Prop
  | ret (r : Except σ.E σ.V) : Local (.ret r)
  | panic : Local .panic
  | resolve (how : Access) (q : Promise σ) {k : Except σ.E σ.V → Prog σ} : (∀ r, Local (k r)) → Local (.resolve how q k)
  | myState (f : σ.S → σ.S) {k : σ.S → Prog σ} : (∀ d, Local (k d)) → Local (.myState f k)

/-- The same for all the builders, and `init_dyn_state` neither looks at nor changes the outside world. -/
structure Sys.Local (Y : Sys σ) : Prop where
  code : ∀ b, (Y.code b).Local
  init : ∃ init : σ.B → Option σ.S, ∀ b w, Y.init b w = (w, init b)

/-- What is left of the task after `n` steps, if it finds the memory `ms j` at its `j`th step. -/
def Task.after {α : Type} : Task σ α → (Nat → Shared σ) → Nat → Task σ α
  | t, _, 0 => t
  | .done c r, _, _ + 1 => .done c r
  | .act _ _ k, ms, n + 1 => (k (ms 0)).after (fun j => ms (j + 1)) n

/-! ## Lemmas -/

theorem Task.ends {α : Type} (t : Task σ α) (ms : Nat → Shared σ) : ∃ N c r, t.after ms N = .done c r := by
  induction t generalizing ms with
  | done c r => exact ⟨0, c, r, rfl⟩
  | act c a k ih =>
    obtain ⟨N, c', r, h⟩ := ih (ms 0) fun j => ms (j + 1)
    exact ⟨N + 1, c', r, h⟩

theorem Alone.reachable {Y : Sys σ} {d : List (Entry σ)} {s : St σ} (h : Alone Y d s)
    (hd : ∀ e ∈ d, e.ans.goesOn) : Reachable Y s := by
  induction h with
  | new w => exact Reachable.new w
  | own n ord op _ _ _ ih =>
    exact (ih fun e he => hd e (List.mem_append_left _ he)).step n ord op (hd _ (List.mem_append_right _ (List.mem_singleton.2 rfl)))
  | outside n ord op _ ho he ih =>
    refine (ih hd).step n ord op ?_
    cases op <;> cases ho
    · simp only [step, Op.promise?, exec] at he ⊢
      split at he
      · exact trivial
      · exact absurd rfl he.1
    all_goals exact trivial

/-- Whatever memory the task finds, it ends with `r` and leaves `c` in the cache (or finds a builder that is gone), and
does not act on the memory. -/
inductive Task.Fixed {α : Type} (c : Cache σ) (r : Res α) : Task σ α → Prop
  | done : Fixed c r (.done c r)
  | gone (c' : Cache σ) : Fixed c r (.done c' .stuck)
  | see (c' : Cache σ) {a : Act σ} {k : Shared σ → Task σ α} : (∀ c m, a.run c m = m) → (∀ m, Fixed c r (k m)) →
      Fixed c r (.act c' a k)

/-- The same for a call. -/
def Call.Fixed {α : Type} (c : Cache σ) (r : Res α) (x : Call σ α) : Prop := ∀ w, (x w).1 = w ∧ (x w).2.Fixed c r

theorem Task.Fixed.bind {α β : Type} {c : Cache σ} {r : Res α} {t : Task σ α} (h : t.Fixed c r)
    {k : Cache σ → α → Task σ β} (hk : ∀ c a, ∃ c' r', (k c a).Fixed c' r') : ∃ c' r', (t.bind k).Fixed c' r' := by
  have : ∃ c' r', (Task.bind k (.done c r)).Fixed c' r' := by
    cases r with
    | val a => exact hk c a
    | panic e => exact ⟨_, _, .done⟩
    | stuck => exact ⟨_, _, .done⟩
    | overflow => exact ⟨_, _, .done⟩
  obtain ⟨c', r', h'⟩ := this
  refine ⟨c', r', ?_⟩
  induction h with
  | done => exact h'
  | gone c'' => exact .gone c''
  | see c'' ha _ ih => exact .see c'' ha ih

theorem Call.Fixed.bind {α β : Type} {c : Cache σ} {r : Res α} {x : Call σ α} (h : x.Fixed c r)
    {k : Cache σ → α → Task σ β} (hk : ∀ c a, ∃ c' r', (k c a).Fixed c' r') : ∃ c' r', (x.bind k).Fixed c' r' := by
  by_cases hw : Nonempty σ.W
  · obtain ⟨w0⟩ := hw
    have : ∃ c' r', (Task.bind k (.done c r)).Fixed c' r' := (Task.Fixed.done (c := c) (r := r)).bind hk
    obtain ⟨c', r', h'⟩ := this
    refine ⟨c', r', fun w => ⟨(h w).1, ?_⟩⟩
    show ((x w).2.bind k).Fixed c' r'
    generalize (x w).2 = t, (h w).2 = ht
    induction ht with
    | done => exact h'
    | gone c'' => exact .gone c''
    | see c'' ha _ ih => exact .see c'' ha ih
  · exact ⟨c, .stuck, fun w => absurd ⟨w⟩ hw⟩

theorem Call.fixed_of {α : Type} (c : Cache σ) (r : Res α) : ∃ c' r', (Call.of (.done c r)).Fixed c' r' :=
  ⟨c, r, fun _ => ⟨rfl, .done⟩⟩

theorem Task.Fixed.leads {α : Type} {c : Cache σ} {r : Res α} {t t' : Task σ α} (h : t.Fixed c r) (hl : t.Leads t') :
    t'.Fixed c r := by
  induction hl with
  | refl => exact h
  | act m _ ih =>
    cases ih with
    | see _ _ h => exact h m

theorem Task.Fixed.solo {α : Type} {c : Cache σ} {r : Res α} {t : Task σ α} (h : t.Fixed c r) (m : Shared σ) :
    t.solo (fun s => (s, true)) m = (m.st c, r) ∨ (t.solo (fun s => (s, true)) m).2 = .stuck := by
  induction h with
  | done => exact .inl rfl
  | gone c'' => exact .inr rfl
  | see c'' ha _ ih =>
    simp only [Task.solo, st_mem, ha]
    exact ih m

variable {Y : Sys σ}

theorem runProgT_fixed {getT : GetterT σ}
    (hg : ∀ how q c, ∃ c' r, (getT how q c).Fixed c' r) (p : Promise σ) {P : Prog σ} (hP : P.Local) (c : Cache σ) :
    ∃ c' r, (runProgT Y getT p P c).Fixed c' r := by
  induction hP generalizing c with
  | ret r => cases r <;> exact ⟨_, _, .done⟩
  | panic => exact ⟨_, _, .done⟩
  | resolve how q _ ih =>
    rename_i k _
    simp only [runProgT]
    have hw : ∀ c0 m, (Act.init (resolveW Y getT p how q c)).run c0 m = m := by
      intro c0 m
      have : resolveW Y getT p how q c m = m.w := by
        unfold resolveW
        split
        · generalize track Y p q c = x
          obtain ⟨c1, o⟩ := x
          cases o with
          | some pk => rfl
          | none =>
            obtain ⟨c2, r, h⟩ := hg how q c1
            exact (h m.w).1
        · rfl
      simp only [Act.run, this]
    have : ∃ c' r, ∀ m : Shared σ, Task.Fixed c' r (match track Y p q c with
      | (c, some pk) => .done c (.panic pk)
      | (c, none) => (getT how q c m.w).2.bind fun c r => runProgT Y getT p (k r) c) := by
      generalize track Y p q c = x
      obtain ⟨c1, o⟩ := x
      cases o with
      | some pk => exact ⟨_, _, fun _ => .done⟩
      | none =>
        obtain ⟨c2, r, h⟩ := hg how q c1
        obtain ⟨c3, r3, h3⟩ := h.bind fun c a => ih a c
        exact ⟨c3, r3, fun m => (h3 m.w).2⟩
    obtain ⟨c', r, h⟩ := this
    refine ⟨c', r, .see _ hw fun m => ?_⟩
    split
    · exact h m
    · exact .gone _
  | myState f _ ih =>
    rename_i k _
    simp only [runProgT]
    by_cases hm : Nonempty (Shared σ)
    · obtain ⟨m0⟩ := hm
      have e : ∀ m : Shared σ, (myState Y p f (m.st c)).1.c = (myState Y p f (m0.st c)).1.c ∧
          (myState Y p f (m.st c)).2 = (myState Y p f (m0.st c)).2 := by
        intro m
        simp only [myState, st_c]
        cases c.dynStates[p.id]? with
        | none => exact ⟨rfl, rfl⟩
        | some d =>
          simp only
          by_cases h1 : (Y.debug && !isKnown p.id c) = true
          · simp only [h1, if_true]; exact ⟨rfl, trivial⟩
          · by_cases h2 : Y.stTy d = Y.sty p.b
            · by_cases h3 : Y.stTy (f d) = Y.sty p.b
              · simp only [h1, h2, h3, if_true, if_false, Bool.false_eq_true]; exact ⟨trivial, trivial⟩
              · simp only [h1, h2, h3, if_true, if_false, Bool.false_eq_true]; exact ⟨rfl, trivial⟩
            · simp only [h1, h2, if_false, Bool.false_eq_true]; exact ⟨rfl, trivial⟩
      obtain ⟨c', r, h⟩ : ∃ c' r, Task.Fixed c' r (match myState Y p f (m0.st c) with
        | (s, .val d) => runProgT Y getT p (k d) s.c
        | (s, .panic pk) => .done s.c (.panic pk)
        | (s, .stuck) => .done s.c .stuck
        | (s, .overflow) => .done s.c .overflow) := by
        generalize myState Y p f (m0.st c) = x
        obtain ⟨s, r⟩ := x
        cases r with
        | val d => exact ih d s.c
        | panic k => exact ⟨_, _, .done⟩
        | stuck => exact ⟨_, _, .done⟩
        | overflow => exact ⟨_, _, .done⟩
      refine ⟨c', r, .see _ (fun _ _ => rfl) fun m => ?_⟩
      obtain ⟨e1, e2⟩ := e m
      generalize myState Y p f (m0.st c) = x at e1 e2 h
      generalize myState Y p f (m.st c) = y at e1 e2 ⊢
      obtain ⟨s, r⟩ := x
      obtain ⟨s', r'⟩ := y
      simp only at e1 e2
      subst e2
      cases r' <;> simp only [e1] <;> exact h
    · exact ⟨c, .stuck, .see _ (fun _ _ => rfl) fun m => absurd ⟨m⟩ hm⟩

theorem buildNT_fixed (hY : Y.Local) (n : Nat) :
    (∀ p c, ∃ c' r, (buildNT Y n p c).Fixed c' r) ∧
    ∀ how p c, ∃ c' r, (getByT Y (buildNT Y n) how p c).Fixed c' r := by
  have get : ∀ n, (∀ p c, ∃ c' r, (buildNT Y n p c).Fixed c' r) →
      ∀ how p c, ∃ c' r, (getByT Y (buildNT Y n) how p c).Fixed c' r := by
    intro n hb how p c
    unfold getByT
    cases lookup Y p c with
    | val o =>
      cases o with
      | some v => exact Call.fixed_of _ _
      | none =>
        obtain ⟨c1, r1, h1⟩ := hb p c
        have : ∃ c' r, (freshT Y p (buildNT Y n p c)).Fixed c' r :=
          h1.bind fun c a => by cases a <;> exact ⟨_, _, .done⟩
        obtain ⟨c2, r2, h2⟩ := this
        exact h2.bind fun c a => by cases a <;> exact ⟨_, _, .done⟩
    | panic k => exact Call.fixed_of _ _
    | stuck => exact Call.fixed_of _ _
    | overflow => exact Call.fixed_of _ _
  induction n with
  | zero =>
    have hb : ∀ p c, ∃ c' r, (buildNT Y 0 p c).Fixed c' r := fun p c => Call.fixed_of _ _
    exact ⟨hb, get 0 hb⟩
  | succ n ih =>
    have hb : ∀ p c, ∃ c' r, (buildNT Y (n + 1) p c).Fixed c' r := by
      intro p c
      obtain ⟨init, hi⟩ := hY.init
      have he : ∃ c1 r, ∀ w, ensureDynT Y p (makeKnown p c) w = (w, c1, r) := by
        simp only [ensureDynT, hi]
        cases (makeKnown p (makeKnown p c)).dynStates[p.id]? with
        | some d => exact ⟨_, _, fun _ => rfl⟩
        | none =>
          cases init p.b with
          | none => exact ⟨_, _, fun _ => rfl⟩
          | some d =>
            simp only
            split <;> exact ⟨_, _, fun _ => rfl⟩
      obtain ⟨c1, r, he⟩ := he
      simp only [buildNT]
      unfold buildT Call.Fixed
      split
      · exact ⟨_, _, fun _ => ⟨rfl, .done⟩⟩
      simp only [he]
      cases r with
      | val d =>
        obtain ⟨c2, r2, h2⟩ := runProgT_fixed (Y := Y) ih.2 p (hY.code p.b) (c1.emit (.call p))
        obtain ⟨c3, r3, h3⟩ := h2.bind (k := fun c (r : Except σ.E σ.V) => match r with
          | .ok v => Task.done { c.emit (.built p v) with artifacts := c.artifacts.insert p.id v }
              (.val (Except.ok (ε := σ.E) v))
          | .error e => .done c (.val (.error e))) fun c a => by cases a <;> exact ⟨_, _, .done⟩
        exact ⟨c3, r3, fun w => ⟨rfl, h3⟩⟩
      | panic k => exact ⟨_, _, fun _ => ⟨rfl, .done⟩⟩
      | stuck => exact ⟨_, _, fun _ => ⟨rfl, .done⟩⟩
      | overflow => exact ⟨_, _, fun _ => ⟨rfl, .done⟩⟩
    exact ⟨hb, get _ hb⟩

theorem opT_fixed (hY : Y.Local) {n : Nat} {ord : HashOrder} {c : Cache σ} {op : Op σ} (hgc : op ≠ .gc)
    {t : Call σ (Ans σ)} (ht : opT Y n ord c op = some t) : ∃ c' r, t.Fixed c' r := by
  cases op <;> first | (cases ht; done) | (exact absurd rfl hgc) | skip
  · rename_i how p
    cases ht
    obtain ⟨c1, r1, h1⟩ := (buildNT_fixed hY n).2 how p c
    exact h1.bind fun c a => ⟨_, _, .done⟩
  · rename_i p f
    cases ht
    unfold getMutT
    have : ∃ c' r, Call.Fixed c' r (match lookupMut Y ord p c with
      | (c, .val (some _)) =>
        match lookupMut Y ord p c with
        | (c, .val (some v)) => .of (.done c (.val (.ok v)))
        | (c, .val none) => .of (.done c (.panic .secondLookup))
        | (c, .panic k) => .of (.done c (.panic k))
        | (c, .stuck) => .of (.done c .stuck)
        | (c, .overflow) => .of (.done c .overflow)
      | (c, .val none) => freshT Y p (buildNT Y n p c)
      | (c, .panic k) => .of (.done c (.panic k))
      | (c, .stuck) => .of (.done c .stuck)
      | (c, .overflow) => .of (.done c .overflow)) := by
      generalize lookupMut Y ord p c = x
      obtain ⟨c1, r⟩ := x
      rcases r with (_ | v) | _ | _ | _
      · obtain ⟨c2, r2, h2⟩ := (buildNT_fixed hY n).1 p c1
        exact h2.bind fun c a => by cases a <;> exact ⟨_, _, .done⟩
      · simp only
        generalize lookupMut Y ord p c1 = x
        obtain ⟨c2, r⟩ := x
        rcases r with (_ | v) | _ | _ | _ <;> exact Call.fixed_of _ _
      all_goals exact Call.fixed_of _ _
    obtain ⟨c1, r1, h1⟩ := this
    exact h1.bind fun c a => by
      cases a with
      | error e => exact ⟨_, _, .done⟩
      | ok v =>
        simp only
        cases writeArt Y p f v c <;> exact ⟨_, _, .done⟩

/-! ## The property -/

section
variable {ι : Type} [DecidableEq ι] {K : Clock σ} {Y : ι → Sys σ} {C : Conf ι σ}

/-- **C64** (the steps are those of the code) An operation that is executed step by step, with nothing in between, is
the operation of the cache. -/
theorem C64_steps_are_the_operation {Y : Sys σ} {n : Nat}
    {ord : HashOrder} {op : Op σ} {s : St σ} {t : Call σ (Ans σ)} (ht : opT Y n ord s.c op = some t)
    (hl : ∀ p, op.promise? = some p → s.live p = true) : t.solo (fun s => (s, true)) s.mem = step Y n ord s op := by
  by_cases hgc : op = .gc
  · subst hgc; exact (opT_gc ht).symm
  · exact (opT_solo (cuts_none Y) hgc ht hl).symm

/-- **C64** Whatever the other threads do, and whenever they do it -- also between any two steps of a builder's code --:
a cache that is not in use is in a state, and has given answers, that the same operations in the same order give in
a program that has no other thread and no other cache, but where things happen by themselves while builders work (`E`
says which, and when): the world changes, and builders are created and dropped. -/
theorem C64_as_if_alone (h : Interleaved K Y C) {i : ι} {c : Cache σ}
    (hc : C.thr i = .rest c) : ∃ E, Alone ((Y i).among K E) (C.done i) (C.mem.st c) := by
  have := (h.good).2.2 i
  rw [hc] at this
  obtain ⟨E, h⟩ := this
  exact ⟨E, h E fun _ _ => rfl⟩

/-- **C64** So all that is proved of a single cache (for any builders) holds for each cache, as long as this very cache
did not suffer the panic of finding 2 (C22). -/
theorem C64_sound (h : Interleaved K Y C) {i : ι} {c : Cache σ}
    (hc : C.thr i = .rest c) (hd : ∀ e ∈ C.done i, e.ans.goesOn) :
    ∃ E, Reachable ((Y i).among K E) (C.mem.st c) := by
  obtain ⟨E, h⟩ := C64_as_if_alone h hc
  exact ⟨E, h.reachable hd⟩

/-- **C64** An operation (other than garbage collection, see C63) that is completed has done and answered what it does and answers in a program without other
threads, where things happen by themselves while builders work. -/
theorem C64_operation (h : Interleaved K Y C) {i : ι} {s : St σ} {n : Nat}
    {ord : HashOrder} {op : Op σ} {c : Cache σ} {r : Res (Ans σ)}
    (hc : C.thr i = .busy s n ord op (.done c r)) (hgc : op ≠ .gc) :
    ∃ E, ∃ m : Shared σ, Alone ((Y i).among K E) (C.done i) s ∧ step ((Y i).among K E) n ord s op = (m.st c, r) := by
  have := (h.good).2.2 i
  rw [hc] at this
  rcases this with ⟨e, _⟩ | ⟨_, E, ml, t0, _, _, _, g4, g5, _, g6⟩
  · exact absurd e hgc
  obtain ⟨k1, k2⟩ := g6 E fun _ _ => rfl
  refine ⟨E, ml, k1, ?_⟩
  rw [opT_solo (cuts_among (Y i) K E) hgc g4 g5, k2]
  rfl

/-- **C64** If the builders do not use the outside world (and `init_dyn_state` does not, either), it does not matter at all what other threads do meanwhile:
the answer, and what is in the cache afterwards, are the same as if the operation had been done at once when it was
started.  (Provided that it can be done at once: the builders are there.) -/
theorem C64_schedule_does_not_matter (h : Interleaved K Y C) {i : ι}
    (hY : (Y i).Local) {s : St σ} {n : Nat} {ord : HashOrder} {op : Op σ} {c : Cache σ}
    {r : Res (Ans σ)} (hc : C.thr i = .busy s n ord op (.done c r)) (hgc : op ≠ .gc) (hr : r ≠ .stuck) (hs : (step (Y i) n ord s op).2 ≠ .stuck) :
    step (Y i) n ord s op = ({ s with c := c }, r) := by
  have := (h.good).2.2 i
  rw [hc] at this
  rcases this with ⟨e, _⟩ | ⟨_, E, ml, t0, _, _, _, g4, g5, gl, _⟩
  · exact absurd e hgc
  obtain ⟨c', r', hf⟩ := opT_fixed hY hgc g4
  have e1 := C64_steps_are_the_operation g4 g5
  have h1 := (hf s.w).2.leads gl
  rw [← e1] at hs ⊢
  have e2 : t0.solo (fun s => (s, true)) s.mem = (t0 s.w).2.solo (fun s => (s, true)) s.mem := by
    show (t0 s.w).2.solo _ { s.mem with w := (t0 s.w).1 } = _
    rw [(hf s.w).1]; rfl
  rw [e2] at hs ⊢
  rcases (hf s.w).2.solo s.mem with h2 | h2
  · rw [h2]
    cases h1 with
    | done => rfl
    | gone => exact absurd rfl hr
  · exact absurd h2 hs

/-- **C64** What a completed `get` answered is in the cache (in particular: also if other threads invalidated the same
builder in their caches meanwhile). -/
theorem C64_get_memoizes (h : Interleaved K Y C) {i : ι}
    (hd : ∀ e ∈ C.done i, e.ans.goesOn) {s : St σ} {n : Nat} {ord : HashOrder} {how : Access} {p : Promise σ} {c : Cache σ}
    {w : σ.V} (hc : C.thr i = .busy s n ord (.get how p) (.done c (.val (.art (.ok w))))) :
    ∃ v, c.artifacts[p.id]? = some v ∧ w = seen (Y i) how v := by
  obtain ⟨E, m, h1, h2⟩ := C64_operation h hc nofun
  have := C02_get_memoizes_all (h1.reachable hd) (n := n) (ord := ord) (how := how) (p := p) (w := w) (by rw [h2])
  rw [h2] at this
  exact this

/-- **C64** The cache of a thread never builds a builder again whose artifact it has, unless it was dropped in this very
cache: between a successful build and the next call of the builder the thread itself invalidated, cleared or collected. -/
theorem C64_no_redundant_build (h : Interleaved K Y C) {i : ι} {c : Cache σ}
    (hc : C.thr i = .rest c) (hd : ∀ e ∈ C.done i, e.ans.goesOn) {p q : Promise σ} {v : σ.V} (hpq : q.id = p.id)
    {post mid pre : List (Event σ)} (hl : c.log = post ++ .call q :: (mid ++ .built p v :: pre)) :
    ∃ e ∈ mid, e.mayDrop := by
  obtain ⟨E, hr⟩ := C64_sound h hc hd
  exact C27_call_needs_invalidation hr hpq hl

/-- **C64** A `get` of what is in the cache takes no step that others could come between. -/
theorem C64_hit_is_atomic (h : Interleaved K Y C) {i : ι} {c : Cache σ}
    (hc : C.thr i = .rest c) (hd : ∀ e ∈ C.done i, e.ans.goesOn) {p : Promise σ} (hl : (C.mem.st c).live p = true)
    {v : σ.V} (hv : c.artifacts[p.id]? = some v) (n : Nat) (ord : HashOrder) (how : Access) :
    opT (Y i) n ord c (.get how p) = some (.of (.done c (.val (.art (.ok (seen (Y i) how v)))))) := by
  obtain ⟨E, hr⟩ := C64_sound h hc hd
  have h1 : lookup ((Y i).among K E) p c = .val (some v) := by
    exact (lookup_eq hr.inv hl).trans (congrArg Res.val hv)
  have h2 : lookup (Y i) p c = .val (some v) := h1
  simp only [opT, getByT, h2]
  cases how <;> rfl

/-- **C64** No thread waits for another one: an operation is completed after finitely many of its own steps, whatever
memory it finds at each of them. -/
theorem C64_wait_free {Y : Sys σ} {n : Nat} {ord : HashOrder} {c : Cache σ} {op : Op σ}
    {t : Call σ (Ans σ)} (_ : opT Y n ord c op = some t) (w : σ.W) (ms : Nat → Shared σ) :
    ∃ N c' r, (t w).2.after ms N = .done c' r :=
  (t w).2.ends ms

/-! ## Garbage collection -/

theorem gc_at_once (h : Interleaved K Y C) {i : ι} {s : St σ} {n : Nat}
    {ord : HashOrder} {c : Cache σ} {r : Res (Ans σ)} (hc : C.thr i = .busy s n ord .gc (.done c r)) :
    ∃ heap' : AMap σ.B, (∀ (a : Id) b, heap'[a]? = some b → s.heap[a]? = some b) ∧
      (∀ (a : Id) b, s.heap[a]? = some b → C.mem.heap[a]? = some b → heap'[a]? = some b) ∧
      step (Y i) n ord { s with heap := heap' } .gc = ({ s with heap := heap', c := c }, r) ∧
      ∃ E, Alone ((Y i).among K E) (C.done i) { s with heap := heap' } := by
  have := (h.good).2.2 i
  rw [hc] at this
  rcases this with ⟨_, ⟨E, k1⟩, k2, k3, k4⟩ | ⟨e, _⟩
  · have k4 : ∃ heap', (∀ (a : Id) b, heap'[a]? = some b → s.heap[a]? = some b) ∧
        step (Y i) n ord { s with heap := heap' } .gc = ({ s with c := c, heap := heap' }, r) ∧
        Outer c { s.mem with heap := heap' } C.mem := by
      rcases k4 with ⟨acc, rest, old, dead, g1, g0, g2, g3, g4, g5⟩ | ⟨c', r', heap', g1, g⟩
      · cases rest with
        | cons x rest => cases g1
        | nil =>
          obtain ⟨c', r', heap', e, g⟩ := gc_done g1 g0 (by simpa using g2) g3 g4 g5
          cases e
          exact ⟨heap', g⟩
      · cases g1
        exact ⟨heap', g⟩
    obtain ⟨heap', q1, q2, q3⟩ := k4
    refine ⟨heap', q1, fun a b hs hm => ?_, q2, E, (Alone.isExternal _ _).freeTo (k1 E fun _ _ => rfl) q1⟩
    obtain ⟨l, _, _, h3, h4, _⟩ := q3
    rcases h4 a b hm with h4 | h4
    · exact h4
    · exact absurd (k3.born a b hs) (h3 b h4)
  · exact absurd rfl e

/-- **C63** While a thread collects garbage, others may drop builders.  The collection does what it does if it is done
at once, at a moment when some of the builders (`heap'`: those that are left) are dropped: of those that were there
when it began, only such as are dropped when it ends. -/
theorem C63_gc_at_once (h : Interleaved K Y C) {i : ι} {s : St σ} {n : Nat}
    {ord : HashOrder} {c : Cache σ} {r : Res (Ans σ)} (hc : C.thr i = .busy s n ord .gc (.done c r)) :
    ∃ heap' : AMap σ.B, (∀ (a : Id) b, heap'[a]? = some b → s.heap[a]? = some b) ∧
      (∀ (a : Id) b, s.heap[a]? = some b → C.mem.heap[a]? = some b → heap'[a]? = some b) ∧
      step (Y i) n ord { s with heap := heap' } .gc = ({ s with heap := heap', c := c }, r) := by
  obtain ⟨heap', h1, h2, h3, _⟩ := gc_at_once h hc
  exact ⟨heap', h1, h2, h3⟩

/-- **C63** A builder that somebody still has when the collection ends, loses nothing. -/
theorem C63_live_kept (h : Interleaved K Y C) {i : ι}
    (hd : ∀ e ∈ C.done i, e.ans.goesOn) {s : St σ} {n : Nat}
    {ord : HashOrder} {c : Cache σ} {r : Res (Ans σ)} (hc : C.thr i = .busy s n ord .gc (.done c r)) {p : Promise σ}
    (hs : s.live p = true) (hl : (C.mem.st c).live p = true) :
    (∀ v, Cached (C.mem.st c) p.id v ↔ Cached s p.id v) ∧ (∀ d, HasState (C.mem.st c) p.id d ↔ HasState s p.id d) ∧
    (Known (C.mem.st c) p.id ↔ Known s p.id) ∧ (∀ d, UsesNow (C.mem.st c) p.id d ↔ UsesNow s p.id d) := by
  obtain ⟨heap', h1, h2, h3, E, h4⟩ := gc_at_once h hc
  have hr := h4.reachable hd
  have e := step_gc_code (Y := Y i) (Y' := (Y i).among K E) rfl n ord { s with heap := heap' }
  have hlp : ({ s with heap := heap' } : St σ).live p = true := by
    have h5 : s.heap[p.id]? = some p.b := by simpa [St.live] using hs
    have h6 : C.mem.heap[p.id]? = some p.b := by simpa [St.live, Shared.st] using hl
    simp [St.live, h2 _ _ h5 h6]
  have := (C19_gc_keeps_live hr n ord).1 p hlp
  rw [e, h3] at this
  exact this.2

/-- **C63** What was already garbage when the collection began (known, dropped, and used by nobody) is collected, if the
collection returns. -/
theorem C63_garbage_collected (h : Interleaved K Y C) {i : ι}
    (hd : ∀ e ∈ C.done i, e.ans.goesOn) {s : St σ} {n : Nat}
    {ord : HashOrder} {c : Cache σ} {r : Ans σ} (hc : C.thr i = .busy s n ord .gc (.done c (.val r))) {a : Id}
    (hk : Known s a) (ha : Dead s a) (hu : ∀ u, ¬ UsesNow s u a) :
    ¬ Known (C.mem.st c) a ∧ (∀ v, ¬ Cached (C.mem.st c) a v) ∧ ∀ d, ¬ HasState (C.mem.st c) a d := by
  obtain ⟨heap', h1, h2, h3, E, h4⟩ := gc_at_once h hc
  have hr := h4.reachable hd
  have e := step_gc_code (Y := Y i) (Y' := (Y i).among K E) rfl n ord { s with heap := heap' }
  have := C20_gc_collects hr (e.trans h3)
  have hdead : Dead { s with heap := heap' } a := by
    rw [dead_iff] at ha ⊢
    cases hx : heap'[a]? with
    | none => rfl
    | some b => rw [h1 a b hx] at ha; cases ha
  have hG : Known ({ s with heap := heap' } : St σ) a ∧ Dead ({ s with heap := heap' } : St σ) a ∧
      ∀ u, ¬ UsesNow ({ s with heap := heap' } : St σ) u a := ⟨hk, hdead, hu⟩
  exact ⟨fun hx => ((this.1 a).1 hx).2 hG, fun v hx => ((this.2.1 a v).1 hx).2 hG, fun d hx => ((this.2.2.1 a d).1 hx).2 hG⟩

/-- **C63** Nothing that is used by another known builder is collected, even if all its references are dropped, and
nothing that is not yet known. -/
theorem C63_used_kept (h : Interleaved K Y C) {i : ι}
    (hd : ∀ e ∈ C.done i, e.ans.goesOn) {s : St σ} {n : Nat}
    {ord : HashOrder} {c : Cache σ} {r : Ans σ} (hc : C.thr i = .busy s n ord .gc (.done c (.val r))) {a u : Id}
    (hk : Known s a) (hu : UsesNow s u a) :
    Known (C.mem.st c) a ∧ (∀ v, Cached s a v → Cached (C.mem.st c) a v) ∧
      ∀ d, HasState s a d → HasState (C.mem.st c) a d := by
  obtain ⟨heap', h1, h2, h3, E, h4⟩ := gc_at_once h hc
  have hr := h4.reachable hd
  have e := step_gc_code (Y := Y i) (Y' := (Y i).among K E) rfl n ord { s with heap := heap' }
  have := C20_gc_collects hr (e.trans h3)
  exact ⟨(this.1 a).2 ⟨hk, fun hG => hG.2.2 u hu⟩, fun v hx => (this.2.1 a v).2 ⟨hx, fun hG => hG.2.2 u hu⟩,
    fun d hx => (this.2.2.1 a d).2 ⟨hx, fun hG => hG.2.2 u hu⟩⟩

/-- **C63** Whether the collection panics (finding 1, C21) does not depend on what others do. -/
theorem C63_same_result (h : Interleaved K Y C) {i : ι}
    (hd : ∀ e ∈ C.done i, e.ans.goesOn) {s : St σ} {n : Nat} {ord : HashOrder} {c : Cache σ} {r : Res (Ans σ)}
    (hc : C.thr i = .busy s n ord .gc (.done c r)) : r = (step (Y i) n ord s .gc).2 := by
  obtain ⟨heap', h1, h2, h3, E, h4⟩ := gc_at_once h hc
  have hr := h4.reachable hd
  have := (h.good).2.2 i
  rw [hc] at this
  rcases this with ⟨_, ⟨E', k1⟩, _⟩ | ⟨e, _⟩
  · have hr' := (k1 E' fun _ _ => rfl).reachable hd
    have e := step_gc_code (Y := Y i) (Y' := (Y i).among K E) rfl n ord { s with heap := heap' }
    have e' := step_gc_code (Y := Y i) (Y' := (Y i).among K E') rfl n ord s
    rcases step_gc hr n ord with ⟨g1, a, g2, g3⟩ | ⟨g1, c', g2, _⟩ <;>
      rcases step_gc hr' n ord with ⟨q1, a', q2, q3⟩ | ⟨q1, c'', q2, _⟩
    · rw [e, h3] at g1
      rw [e'] at q1
      rw [q1]
      exact congrArg Prod.snd g1
    · exact absurd (q1 a g2) g3
    · exact absurd (g1 a' q2) q3
    · rw [e, h3] at g2
      rw [e'] at q2
      rw [q2]
      exact congrArg Prod.snd g2
  · exact absurd rfl e

end

/-! ## The hypotheses are met -/

namespace Demo

/-- The world is a clock and a counter. -/
abbrev sigT : Sig := ⟨Nat, Nat, Nat, Nat, Nat × Nat, Nat, inferInstance, inferInstance⟩

def PT (b : Nat) : Promise sigT := ⟨10 + b, b⟩

def add100 : Nat × Nat → Nat × Nat := fun w => (w.1, w.2 + 100)

/-- * 0: counts up, and returns the number before.
* 1: resolves 0, and returns 10 times that plus what the counter is then.
* 2: resolves 3 and adds its own state; 3: returns 7.  (They do not use the world.) -/
def codeT : Nat → Prog sigT
  | 0 => .world (fun w => (w.1, w.2 + 1)) fun w => .ret (.ok w.2)
  | 1 => .resolve .bin (PT 0) fun r => match r with
    | .ok v => .world id fun w => .ret (.ok (10 * v + w.2))
    | .error e => .ret (.error e)
  | 2 => .resolve .bin (PT 3) fun r => match r with
    | .ok v => .myState id fun d => .ret (.ok (v + d))
    | .error e => .ret (.error e)
  | _ => .ret (.ok 7)

/-- `f` is what `init_dyn_state` does to the world. -/
def YT (code : Nat → Prog sigT) (f : Nat × Nat → Nat × Nat) : Sys sigT :=
  { code := code, init := fun _ w => (f w, some 5), clone := id, artTy := fun _ => 0, stTy := fun _ => 0,
    vty := fun _ => 0, sty := fun _ => 0, debug := true }

def clockT : Clock sigT := ⟨fun w => w.1, fun w => (w.1 + 1, w.2), fun w => by simp⟩

/-- Two threads. -/
abbrev Two := Conf Bool sigT

inductive Cmd where
  | quick (op : Op sigT)
  | start (op : Op sigT)
  | move
  | finish

/-- Whether the new builders are at addresses unknown to the other cache. -/
def apart (C : Two) (i : Bool) (m : Shared sigT) : Bool :=
  m.heap.toList.all fun x => C.mem.heap[x.1]? == some x.2 || ((C.thr (!i)).cache.known[x.1]?).isNone

theorem apart_ok {C : Two} {i : Bool} {m : Shared sigT} (h : apart C i m = true) : C.Apart i m := by
  intro j hj a b h1 h2
  have hj : j = !i := by cases i <;> cases j <;> simp_all
  subst hj
  have := List.all_eq_true.1 h (a, b) (ExtTreeMap.mem_toList_iff_getElem?_eq_some.2 h1)
  simpa [h2] using this

/-- What the thread `i` is told to do; `none`: it cannot do that now. -/
def next (Y : Sys sigT) (C : Two) (i : Bool) : Cmd → Option Two
  | .quick op => match C.thr i with
    | .rest c =>
      let r := step Y 9 ord (C.mem.st c) op
      if (opT Y 9 ord c op).isNone ∧ r.2.ended ∧ apart C i r.1.mem = true ∧ C.mem.w.1 ≤ r.1.w.1 then
        some { thr := Function.update C.thr i (.rest r.1.c)
               mem := r.1.mem
               done := if op.own then Function.update C.done i (C.done i ++ [⟨9, ord, op, r.2⟩]) else C.done }
      else none
    | _ => none
  | .start op => match C.thr i with
    | .rest c => match opT Y 9 ord c op with
      | some t =>
        if (op.promise?.all fun p => (C.mem.st c).live p) = true ∧ C.mem.w.1 ≤ (t C.mem.w).1.1 then
          some { C with
            thr := Function.update C.thr i (.busy (C.mem.st c) 9 ord op (t C.mem.w).2)
            mem := { C.mem with w := (t C.mem.w).1 } }
        else none
      | none => none
    | _ => none
  | .move => match C.thr i with
    | .busy s n o op (.act c a k) =>
      let m := a.run c { C.mem with w := clockT.tick C.mem.w }
      if apart C i m = true ∧ C.mem.w.1 < m.w.1 then
        some { C with
          thr := Function.update C.thr i (.busy s n o op (k { C.mem with w := clockT.tick C.mem.w }))
          mem := m }
      else none
    | _ => none
  | .finish => match C.thr i with
    | .busy _ n o op (.done c r) =>
      if r.ended then
        some { C with
          thr := Function.update C.thr i (.rest c)
          done := Function.update C.done i (C.done i ++ [⟨n, o, op, r⟩]) }
      else none
    | _ => none

theorem next_ok {Y : Sys sigT} {C C' : Two} (h : Interleaved clockT (fun _ => Y) C) {i : Bool} {cmd : Cmd}
    (hn : next Y C i cmd = some C') : Interleaved clockT (fun _ => Y) C' := by
  cases cmd with
  | quick op =>
    simp only [next] at hn
    split at hn
    · rename_i c hc
      split at hn
      · rename_i hx
        cases hn
        exact h.quick i 9 ord op hc (by simpa using hx.1) hx.2.1 (apart_ok hx.2.2.1) hx.2.2.2
      · cases hn
    · cases hn
  | start op =>
    simp only [next] at hn
    split at hn
    · rename_i c hc
      split at hn
      · rename_i t ht
        split at hn
        · rename_i hx
          cases hn
          refine h.start i 9 ord op hc ht (fun p hp => ?_) hx.2
          have hx := hx.1
          rw [hp] at hx
          simpa using hx
        · cases hn
      · cases hn
    · cases hn
  | move =>
    simp only [next] at hn
    split at hn
    · rename_i s n o op c a k hc
      split at hn
      · rename_i hx
        cases hn
        exact h.move i hc (apart_ok hx.1) hx.2
      · cases hn
    · cases hn
  | finish =>
    simp only [next] at hn
    split at hn
    · rename_i s n o op c r hc
      split at hn
      · rename_i hx
        cases hn
        exact h.finish i hc hx
      · cases hn
    · cases hn

def runT (Y : Sys sigT) : List (Bool × Cmd) → Two → Option Two
  | [], C => some C
  | (i, cmd) :: l, C => (next Y C i cmd).bind (runT Y l)

theorem runT_ok {Y : Sys sigT} (l : List (Bool × Cmd)) {C C' : Two} (h : Interleaved clockT (fun _ => Y) C)
    (hr : runT Y l C = some C') : Interleaved clockT (fun _ => Y) C' := by
  induction l generalizing C with
  | nil => cases hr; exact h
  | cons x l ih =>
    obtain ⟨i, cmd⟩ := x
    simp only [runT] at hr
    cases hn : next Y C i cmd with
    | none => rw [hn] at hr; cases hr
    | some C1 => rw [hn] at hr; exact ih (next_ok h hn) hr

def startT : Two := ⟨fun _ => .rest {}, ⟨(0, 0), ∅, []⟩, fun _ => []⟩

/-- Both threads build 1 at the same time: their steps alternate, until the thread `true` has its answer. -/
def cmdsT : List (Bool × Cmd) :=
  [(true, .quick (.alloc (PT 0))), (true, .quick (.alloc (PT 1))), (true, .start (.get .bin (PT 1))),
    (false, .start (.get .bin (PT 1))), (true, .move), (false, .move), (true, .move), (false, .move), (true, .move),
    (true, .finish)]

/-- What the thread has been answered last, and what is in its cache for the builder. -/
def answerT (i : Bool) (b : Nat) (C : Two) : Option (List (Res (Ans sigT)) × Option Nat) :=
  match C.thr i with
  | .rest c => some ((C.done i).map Entry.ans, c.artifacts[(PT b).id]?)
  | _ => none

/-- The other thread has counted up in between, which can be seen in the answer. -/
theorem runT_answer : (runT (YT codeT add100) cmdsT startT).bind (answerT true 1) =
    some ([.val (.art (.ok (4402 : Nat)))], some (4402 : Nat)) := by
  rfl

theorem runT_get {Y : Sys sigT} {l : List (Bool × Cmd)} (h : (runT Y l startT).isSome = true) :
    Interleaved clockT (fun _ => Y) ((runT Y l startT).get h) :=
  runT_ok l (C := startT) (Interleaved.new _) (Option.some_get h).symm

/-- A build in which others do something in between, as if alone; and the other thread has not even finished. -/
example : ∃ (C : Two) (E : Nat → List (Deed sigT)) (c : Cache sigT), C.thr true = .rest c ∧
    C.done true = [⟨9, ord, .get .bin (PT 1), .val (.art (.ok (4402 : Nat)))⟩] ∧
    Alone ((YT codeT add100).among clockT E) (C.done true) (C.mem.st c) ∧ ∃ s n o op t, C.thr false = .busy s n o op t := by
  have h : (runT (YT codeT add100) cmdsT startT).isSome = true := rfl
  obtain ⟨E, hE⟩ := C64_as_if_alone (runT_get h) (i := true) rfl
  exact ⟨_, E, _, rfl, rfl, hE, _, _, _, _, _, rfl⟩

/-- Builders that do not use the world: 0 resolves 1 and adds its own state. -/
def codeL : Nat → Prog sigT
  | 0 => .resolve .bin (PT 1) fun r => match r with
    | .ok v => .myState id fun d => .ret (.ok (v + d))
    | .error e => .ret (.error e)
  | _ => .ret (.ok 7)

theorem localL (b : Nat) : (codeL b).Local := by
  cases b with
  | zero => exact .resolve _ _ fun r => by cases r with
    | ok v => exact .myState _ fun d => .ret _
    | error e => exact .ret _
  | succ b => exact .ret _

theorem localY : (YT codeL id).Local := ⟨localL, fun _ => some 5, fun _ _ => rfl⟩

/-- Both threads build 0; in between, the thread `false` changes the state of 0 in its own cache. -/
def cmdsL : List (Bool × Cmd) :=
  [(true, .quick (.alloc (PT 0))), (true, .quick (.alloc (PT 1))), (true, .start (.get .bin (PT 0))),
    (true, .move), (false, .quick (.dynStateMut (PT 0) fun _ => 50)), (false, .start (.get .bin (PT 0))), (false, .move),
    (false, .move), (false, .finish), (true, .move)]

set_option maxHeartbeats 4000000 in
/-- The answer is the one of the operation done at once. -/
example : ∃ (C : Two) (s : St sigT) (c : Cache sigT),
    C.thr true = .busy s 9 ord (.get .bin (PT 0)) (.done c (.val (.art (.ok (12 : Nat))))) ∧
    step (YT codeL id) 9 ord s (.get .bin (PT 0)) = ({ s with c := c }, .val (.art (.ok (12 : Nat)))) ∧
    (C.done false).map Entry.ans = [.val (.state (5 : Nat)), .val (.art (.ok (57 : Nat)))] := by
  have h : (runT (YT codeL id) cmdsL startT).isSome = true := rfl
  exact ⟨(runT (YT codeL id) cmdsL startT).get h, _, _, rfl, C64_schedule_does_not_matter (runT_get h) (i := true) localY rfl nofun
    nofun (fun h : (.val (.art (.ok (12 : Nat))) : Res (Ans sigT)) = .stuck => nomatch h), rfl⟩

/-- Builders 1, 2 and 3 are built by the thread `true`; 1 is dropped; the thread `true` collects garbage, and after it
has looked at 1 and 2, the thread `false` drops the others. -/
def cmdsG : List (Bool × Cmd) :=
  [1, 2, 3].map (fun b => (true, .quick (.alloc (PT b)))) ++
  [1, 2, 3].flatMap (fun b => [(true, .start (.get .bin (PT b))), (true, .finish)]) ++
  [(false, .quick (.free 11)), (true, .start .gc), (true, .move), (true, .move), (false, .quick (.free 12)),
    (false, .quick (.free 13)), (true, .move)]

theorem someG : (runT (YT codeL id) cmdsG startT).isSome = true := rfl

def CG : Two := (runT (YT codeL id) cmdsG startT).get someG

/-- The state in which the collection was started. -/
def sG : St sigT := match CG.thr true with
  | .busy s _ _ _ _ => s
  | .rest c => CG.mem.st c

set_option maxHeartbeats 4000000 in
/-- The builder 1 is collected, as it has to be, and so is 3.  This is not what is collected if it is done at once when it
is started (only 1), and not what is collected if it is done at once when it ends (all). -/
example : ∃ c : Cache sigT, CG.thr true = .busy sG 9 ord .gc (.done c (.val .unit)) ∧
    c.known.keys = [12] ∧ ¬ Known (CG.mem.st c) 11 ∧ (step (YT codeL id) 9 ord sG .gc).1.c.known.keys = [12, 13] ∧
    (step (YT codeL id) 9 ord (CG.mem.st sG.c) .gc).1.c.known.keys = [] := by
  have hd : (CG.done true).all (fun e => decide e.ans.goesOn) = true := by decide
  refine ⟨(CG.thr true).cache, rfl, by decide, ?_, by decide, by decide⟩
  refine (C63_garbage_collected (runT_get someG) (i := true) ?_ (s := sG) rfl (a := 11) ?_ ?_ ?_).1
  · intro e he
    simpa using List.all_eq_true.1 hd e he
  · show 11 ∈ sG.c.known
    decide
  · rw [dead_iff]
    decide
  · rintro u hu
    rw [usesNow_iff] at hu
    have h0 : (setAt sG.c.dependents 11).toList = [] := by decide
    have : u ∈ (setAt sG.c.dependents 11).toList := ExtTreeSet.mem_toList.2 hu
    rw [h0] at this
    cases this

end Demo
end Daab
