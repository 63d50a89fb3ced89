import Verif.Props19
import Verif.Drops

/-!
# Several caches in several threads

Builders, blueprints and artifacts may be shared between threads (`src/arc.rs`); a cache is used by one thread at a
time (`&mut self`, `src/cache.rs`).  Here, threads with a cache each run at the same time: the code of builders is
executed step by step, with steps of other threads between any two of them.

Simplifications:
* the operations that run no builder code are one step each: they do not touch anything other threads can touch (except
  for garbage collection, which looks whether builders are still there: one step for each);
* `init_dyn_state` is executed at once, in the same step as the call of `get` or `resolve` that makes it necessary (such
  a call itself does not look at anything that others could change, so that it does not matter when it happens);
* doctors, `Debug`, `Clone` and destructors (hooks) do not act on what the threads share.
-/

open Std

namespace Daab

variable {σ : Sig}

/-! ## Memory that is shared by the threads -/

/-- What a builder's code can do to the shared memory in one step. -/
inductive Act (σ : Sig) where
  /-- nothing (but it may be read) -/
  | see
  | world (f : σ.W → σ.W)
  /-- `init_dyn_state` of a builder that is being resolved, if this is necessary -/
  | init (f : Shared σ → σ.W)
  | alloc (q : Promise σ)
  | free (a : Id)

/-- The effect of a step; `c`: the cache of the thread.  (An allocator would not do an impossible `alloc`, see
`allocB`.) -/
def Act.run (c : Cache σ) (m : Shared σ) : Act σ → Shared σ
  | .see => m
  | .world f => { m with w := f m.w }
  | .init f => { m with w := f m }
  | .alloc q => match allocB q (m.st c) with
    | some s => s.mem
    | none => m
  | .free a => (freeB a (m.st c)).mem

/-! ## Operations in steps -/

/-- An operation that is being executed.  `c` is what the thread's cache holds at the moment. -/
inductive Task (σ : Sig) (α : Type) where
  /-- It is done. -/
  | done (c : Cache σ) (r : Res α)
  /-- Next, it does `a`, and then goes on with `k m` where `m` is the memory it finds at that moment. -/
  | act (c : Cache σ) (a : Act σ) (k : Shared σ → Task σ α)

namespace Task

/-- What the cache holds at the moment. -/
def cache {α : Type} : Task σ α → Cache σ
  | .done c _ => c
  | .act c _ _ => c

/-- First the one, then, if it returned, the other. -/
def bind {α β : Type} (k : Cache σ → α → Task σ β) : Task σ α → Task σ β
  | .done c (.val a) => k c a
  | .done c (.panic e) => .done c (.panic e)
  | .done c .stuck => .done c .stuck
  | .done c .overflow => .done c .overflow
  | .act c a k' => .act c a fun m => bind k (k' m)

end Task

/-- The call of something that is executed in steps: what happens at once to the outside world, and the task. -/
abbrev Call (σ : Sig) (α : Type) := σ.W → σ.W × Task σ α

/-- First the one, then, if it returned, the other. -/
def Call.bind {α β : Type} (x : Call σ α) (k : Cache σ → α → Task σ β) : Call σ β :=
  fun w => ((x w).1, (x w).2.bind k)

/-- Nothing happens at once. -/
def Call.of {α : Type} (t : Task σ α) : Call σ α := fun w => (w, t)

/-- The functions that get an artifact. -/
abbrev GetterT (σ : Sig) := Access → Promise σ → Cache σ → Call σ (Except σ.E σ.V)

/-- What happens at once to the outside world if `q` is resolved by the code of `p`. -/
def resolveW (Y : Sys σ) (getN : GetterT σ) (p : Promise σ) (how : Access) (q : Promise σ) (c : Cache σ)
    (m : Shared σ) : σ.W :=
  if (m.st c).live q then
    match track Y p q c with
    | (_, some _) => m.w
    | (c, none) => (getN how q c m.w).1
  else m.w

/-- `runProg` (`cache.rs` 854-1003), in steps: one for every action of the code. -/
def runProgT (Y : Sys σ) (getN : GetterT σ) (p : Promise σ) :
    Prog σ → Cache σ → Task σ (Except σ.E σ.V)
  | .ret (.error e), c => .done c (.val (.error e))
  | .ret (.ok v), c => .done c (if Y.artTy v = Y.vty p.b then .val (.ok v) else .stuck)
  | .panic, c => .done c (.panic .user)
  | .resolve how q k, c => .act c (.init (resolveW Y getN p how q c)) fun m =>
    if (m.st c).live q then
      match track Y p q c with
      | (c, some pk) => .done c (.panic pk)
      | (c, none) => (getN how q c m.w).2.bind fun c r => runProgT Y getN p (k r) c
    else .done c .stuck
  | .myState f k, c => .act c .see fun m =>
    match myState Y p f (m.st c) with
    | (s, .val d) => runProgT Y getN p (k d) s.c
    | (s, .panic pk) => .done s.c (.panic pk)
    | (s, .stuck) => .done s.c .stuck
    | (s, .overflow) => .done s.c .overflow
  | .world f k, c => .act c (.world f) fun m => runProgT Y getN p (k m.w) c
  | .alloc q k, c => .act c (.alloc q) fun m =>
    match allocB q (m.st c) with
    | some _ => runProgT Y getN p k c
    | none => .done c .stuck
  | .free a k, c => .act c (.free a) fun _ => runProgT Y getN p k c

/-- `ensureDyn` (`internal.rs` 600-619). -/
def ensureDynT (Y : Sys σ) (p : Promise σ) (c : Cache σ) (w : σ.W) : σ.W × Cache σ × Res σ.S :=
  let c := makeKnown p c
  match c.dynStates[p.id]? with
  | some d => (w, c, if Y.stTy d = Y.sty p.b then .val d else .panic .badDyn)
  | none =>
    match Y.init p.b w with
    | (w, none) => (w, c.emit (.initDyn p none), .panic .init)
    | (w', some d) =>
      if Y.stTy d = Y.sty p.b then
        (w', ({ c with dynStates := c.dynStates.insert p.id d }).emit (.initDyn p (some d)), .val d)
      else (w, c, .stuck)

/-- `build` (`internal.rs` 426-497), in steps. -/
def buildT (Y : Sys σ) (getN : GetterT σ) (p : Promise σ) (c : Cache σ) : Call σ (Except σ.E σ.V) := fun w =>
  if Y.debug && containsArtifact p.id c then (w, .done c (.panic .buildCached)) else
  match ensureDynT Y p (makeKnown p c) w with
  | (w, c, .panic k) => (w, .done c (.panic k))
  | (w, c, .stuck) => (w, .done c .stuck)
  | (w, c, .overflow) => (w, .done c .overflow)
  | (w, c, .val _) =>
    (w, (runProgT Y getN p (Y.code p.b) (c.emit (.call p))).bind fun c r =>
      match r with
      | .ok v => .done { c.emit (.built p v) with artifacts := c.artifacts.insert p.id v } (.val (.ok v))
      | .error e => .done c (.val (.error e)))

/-- The downcast of the artifact just built, `internal.rs` 518-521, 544-547, 572-575. -/
def freshT (Y : Sys σ) (p : Promise σ) (t : Call σ (Except σ.E σ.V)) : Call σ (Except σ.E σ.V) :=
  t.bind fun c r => match r with
    | .ok v => .done c (if Y.artTy v = Y.vty p.b then .val (.ok v) else .panic .badFresh)
    | .error e => .done c (.val (.error e))

/-- `get`, `get_ref`, `get_cloned` (`internal.rs` 502-549, 581-595), in steps. -/
def getByT (Y : Sys σ) (bld : Promise σ → Cache σ → Call σ (Except σ.E σ.V)) : GetterT σ := fun how p c =>
  let out : σ.V → σ.V := fun v => match how with
    | .cloned => Y.clone v
    | _ => v
  match lookup Y p c with
  | .val (some v) => .of (.done c (.val (.ok (out v))))
  | .val none => (freshT Y p (bld p c)).bind fun c r => match r with
    | .ok v => .done c (.val (.ok (out v)))
    | .error e => .done c (.val (.error e))
  | .panic k => .of (.done c (.panic k))
  | .stuck => .of (.done c .stuck)
  | .overflow => .of (.done c .overflow)

/-- `build` with stack space for `n` nested `build` calls, in steps. -/
def buildNT (Y : Sys σ) : Nat → Promise σ → Cache σ → Call σ (Except σ.E σ.V)
  | 0 => fun _ c => .of (.done c .overflow)
  | n + 1 => buildT Y (getByT Y (buildNT Y n))

/-- `get_mut` (`internal.rs` 555-577) with the caller's write `f`, in steps. -/
def getMutT (Y : Sys σ) (ord : HashOrder) (bld : Promise σ → Cache σ → Call σ (Except σ.E σ.V)) (p : Promise σ)
    (f : σ.V → σ.V) (c : Cache σ) : Call σ (Ans σ) :=
  let first : Call σ (Except σ.E σ.V) :=
    match lookupMut Y ord p c with
    | (c, .val (some _)) =>
      match lookupMut Y ord p c with
      | (c, .val (some v)) => .of (.done c (.val (.ok v)))
      | (c, .val none) => .of (.done c (.panic .secondLookup))
      | (c, .panic k) => .of (.done c (.panic k))
      | (c, .stuck) => .of (.done c .stuck)
      | (c, .overflow) => .of (.done c .overflow)
    | (c, .val none) => freshT Y p (bld p c)
    | (c, .panic k) => .of (.done c (.panic k))
    | (c, .stuck) => .of (.done c .stuck)
    | (c, .overflow) => .of (.done c .overflow)
  first.bind fun c r => match r with
    | .ok v => match writeArt Y p f v c with
      | some c => .done c (.val (.art (.ok v)))
      | none => .done c .stuck
    | .error e => .done c (.val (.art (.error e)))

/-- `garbageCollection` (`internal.rs` 897-910), in steps: one for every leaf that is looked at.  `acc`: those found to
be dropped, last first; then the leafs that are still to be looked at.  (`upgrade_from_weak` makes a strong reference
and drops it again: if others drop theirs in the meantime, the builder is dropped here.  This is a drop by others
just after the step.) -/
def gcT (Y : Sys σ) (ord : HashOrder) (c : Cache σ) (acc : List Id) : List Id → Task σ (Ans σ)
  | [] => .done (collectEach Y ord acc.reverse c).1 ((collectEach Y ord acc.reverse c).2.res .unit)
  | a :: rest => .act c .see fun m =>
    match c.known[a]? with
    | none => .done c (.panic .leafUnknown)
    | some b => gcT Y ord c (bif isDead (m.st c) a b then a :: acc else acc) rest

/-- The operations that run builder code, and garbage collection, in steps.  `none`: another operation. -/
def opT (Y : Sys σ) (n : Nat) (ord : HashOrder) (c : Cache σ) : Op σ → Option (Call σ (Ans σ))
  | .get how p => some ((getByT Y (buildNT Y n) how p c).bind fun c r => .done c (.val (.art r)))
  | .getMut p f => some (getMutT Y ord (buildNT Y n) p f c)
  | .gc => some (.of (if Y.debug && !gcAssertion c then .done c (.panic .gcAssert) else
      gcT Y ord c [] (ord.f ⟨3, 0, 0⟩ c.leafs.toList)))
  | _ => none

/-! ## An operation is the sum of its steps -/

/-- The task is executed without the others, except that `h` happens just before each of its steps (`false`: `h` is
impossible). -/
def Task.solo {α : Type} (h : St σ → St σ × Bool) : Task σ α → Shared σ → St σ × Res α
  | .done c r, m => (m.st c, r)
  | .act c a k, m =>
    match h (m.st c) with
    | (s, true) => solo h (k s.mem) (a.run c s.mem)
    | (s, false) => (s, .stuck)

theorem solo_bind {α β : Type} (h : St σ → St σ × Bool) (k : Cache σ → α → Task σ β) (t : Task σ α) (m : Shared σ) :
    (t.bind k).solo h m = match t.solo h m with
      | (s, .val a) => (k s.c a).solo h s.mem
      | (s, .panic e) => (s, .panic e)
      | (s, .stuck) => (s, .stuck)
      | (s, .overflow) => (s, .overflow) := by
  induction t generalizing m with
  | done c r => cases r <;> rfl
  | act c a k' ih =>
    simp only [Task.bind, Task.solo]
    generalize h (m.st c) = x
    obtain ⟨s, b⟩ := x
    cases b
    · rfl
    · exact ih _ _

/-- The same for a call. -/
def Call.solo {α : Type} (h : St σ → St σ × Bool) (x : Call σ α) (m : Shared σ) : St σ × Res α :=
  (x m.w).2.solo h { m with w := (x m.w).1 }

theorem Call.solo_bind {α β : Type} (h : St σ → St σ × Bool) (k : Cache σ → α → Task σ β) (x : Call σ α)
    (m : Shared σ) : (x.bind k).solo h m = match x.solo h m with
      | (s, .val a) => (k s.c a).solo h s.mem
      | (s, .panic e) => (s, .panic e)
      | (s, .stuck) => (s, .stuck)
      | (s, .overflow) => (s, .overflow) := Daab.solo_bind h k _ _

@[simp] theorem mem_st (s : St σ) : s.mem.st s.c = s := rfl
theorem mem_w (s : St σ) : s.mem.w = s.w := rfl
@[simp] theorem st_mem (m : Shared σ) (c : Cache σ) : (m.st c).mem = m := rfl
@[simp] theorem st_c (m : Shared σ) (c : Cache σ) : (m.st c).c = c := rfl

/-- `Y'` is `Y` where `h` happens at every step of the builders' code. -/
structure Cuts (Y Y' : Sys σ) (h : St σ → St σ × Bool) : Prop where
  same : Y' = { Y with code := Y'.code }
  keep : ∀ s, (h s).1.c = s.c
  run : ∀ p (getN : Getter σ) (getT : GetterT σ), (∀ how q s, s.live q = true → getN how q s = (getT how q s.c).solo h s.mem) →
    ∀ b s, runProg Y' getN p (Y'.code b) s = (runProgT Y getT p (Y.code b) s.c).solo h s.mem

variable {Y Y' : Sys σ} {h : St σ → St σ × Bool}

theorem ensureDyn_T (p : Promise σ) (s : St σ) :
    ensureDyn Y p s = ({ s with w := (ensureDynT Y p s.c s.w).1, c := (ensureDynT Y p s.c s.w).2.1 },
      (ensureDynT Y p s.c s.w).2.2) := by
  simp only [ensureDyn, ensureDynT, St.onCache]
  cases (makeKnown p s.c).dynStates[p.id]? with
  | some d => rfl
  | none =>
    simp only
    generalize Y.init p.b s.w = x
    obtain ⟨w, o⟩ := x
    cases o with
    | none => rfl
    | some d => simp only; split <;> rfl

theorem build_T (hc : Cuts Y Y' h) {getN : Getter σ} {getT : GetterT σ}
    (hg : ∀ how q s, s.live q = true → getN how q s = (getT how q s.c).solo h s.mem) (p : Promise σ) (s : St σ) :
    build Y' getN p s = (buildT Y getT p s.c).solo h s.mem := by
  have e1 : Y'.debug = Y.debug := by rw [hc.same]
  have e2 : ensureDynT Y' = ensureDynT Y := by rw [hc.same]; rfl
  unfold build buildT Call.solo
  rw [e1]
  split
  · rfl
  simp only [ensureDyn_T, e2, St.onCache, mem_w]
  generalize ensureDynT Y p (makeKnown p s.c) s.w = x
  obtain ⟨w, c, r⟩ := x
  cases r with
  | panic k => rfl
  | stuck => rfl
  | overflow => rfl
  | val d =>
    simp only
    rw [hc.run p getN getT hg, solo_bind]
    simp only
    show (match (runProgT Y getT p (Y.code p.b) (c.emit (.call p))).solo h { s.mem with w := w } with
      | (s, .val (.ok v)) => _ | (s, .val (.error e)) => _ | (s, .panic k) => _ | (s, .stuck) => _
      | (s, .overflow) => _) = _
    generalize (runProgT Y getT p (Y.code p.b) (c.emit (.call p))).solo h { s.mem with w := w } = y
    obtain ⟨s', r⟩ := y
    rcases r with (e | v) | _ | _ | _ <;> rfl

theorem fresh_T {p : Promise σ} {x : St σ × Res (Except σ.E σ.V)} {t : Call σ (Except σ.E σ.V)} {m : Shared σ}
    (hx : x = t.solo h m) : fresh Y p x = (freshT Y p t).solo h m := by
  unfold freshT
  rw [Call.solo_bind, ← hx]
  obtain ⟨s, r⟩ := x
  rcases r with (e | v) | _ | _ | _ <;> rfl

theorem getBy_T (hc : Cuts Y Y' h) {bld : BuildFn σ} {bldT : Promise σ → Cache σ → Call σ (Except σ.E σ.V)}
    (hb : ∀ p s, bld p s = (bldT p s.c).solo h s.mem) (how : Access) (p : Promise σ) (s : St σ)
    (hl : s.live p = true) : getBy Y' bld how p s = (getByT Y bldT how p s.c).solo h s.mem := by
  have e1 : lookup Y' p s.c = lookup Y p s.c := by rw [hc.same]; rfl
  have e2 : lookupRef Y' p s.c = lookup Y p s.c := by rw [hc.same]; rfl
  have e3 : fresh Y' p (bld p s) = (freshT Y p (bldT p s.c)).solo h s.mem := by
    rw [← fresh_T (Y := Y) (hb p s), hc.same]; rfl
  have e4 : Y'.clone = Y.clone := by rw [hc.same]
  unfold getBy getByT
  rw [if_pos hl]
  have hf : ∀ out : σ.V → σ.V, ((freshT Y p (bldT p s.c)).bind fun c r => match r with
      | .ok v => Task.done c (.val (.ok (out v)))
      | .error e => .done c (.val (.error e))).solo h s.mem =
      match fresh Y' p (bld p s) with
      | (s, .val (.ok v)) => (s, .val (.ok (out v)))
      | r => r := by
    intro out
    rw [Call.solo_bind, ← e3]
    generalize fresh Y' p (bld p s) = x
    obtain ⟨s', r⟩ := x
    rcases r with (e | v) | _ | _ | _ <;> rfl
  cases how with
  | bin =>
    simp only [getBin, e1]
    cases lookup Y p s.c with
    | val o =>
      cases o with
      | some v => rfl
      | none =>
        simp only
        rw [hf]
        generalize fresh Y' p (bld p s) = x
        obtain ⟨s', r⟩ := x
        rcases r with (e | v) | _ | _ | _ <;> rfl
    | panic k => rfl
    | stuck => rfl
    | overflow => rfl
  | ref =>
    simp only [getRef, e2]
    cases lookup Y p s.c with
    | val o =>
      cases o with
      | some v => rfl
      | none =>
        simp only
        rw [hf]
        generalize fresh Y' p (bld p s) = x
        obtain ⟨s', r⟩ := x
        rcases r with (e | v) | _ | _ | _ <;> rfl
    | panic k => rfl
    | stuck => rfl
    | overflow => rfl
  | cloned =>
    simp only [getCloned, getRef, e2, e4]
    cases lookup Y p s.c with
    | val o =>
      cases o with
      | some v => rfl
      | none =>
        simp only
        rw [hf]
        generalize fresh Y' p (bld p s) = x
        obtain ⟨s', r⟩ := x
        rcases r with (e | v) | _ | _ | _ <;> rfl
    | panic k => rfl
    | stuck => rfl
    | overflow => rfl

theorem buildN_T (hc : Cuts Y Y' h) (n : Nat) (p : Promise σ) (s : St σ) :
    buildN Y' n p s = (buildNT Y n p s.c).solo h s.mem ∧
    (s.live p = true → ∀ how, getA Y' n how p s = (getByT Y (buildNT Y n) how p s.c).solo h s.mem) := by
  induction n generalizing p s with
  | zero => exact ⟨rfl, fun hl how => getBy_T (bldT := buildNT Y 0) hc (fun _ _ => rfl) how p s hl⟩
  | succ n ih =>
    have hb : ∀ p s, build Y' (getA Y' n) p s = (buildT Y (getByT Y (buildNT Y n)) p s.c).solo h s.mem :=
      fun p s => build_T hc (fun how q s hl => (ih q s).2 hl how) p s
    exact ⟨hb p s, fun hl how => getBy_T hc hb how p s hl⟩

theorem unlink_code (e : Y'.debug = Y.debug) (pr : IdSet) (bid : Id) (l : List Id) (c : Cache σ) :
    unlink Y' pr bid l c = unlink Y pr bid l c := by
  induction l generalizing c with
  | nil => rfl
  | cons d l ih => simp only [unlink, e, ih]

theorem invLoop_code (e : Y'.debug = Y.debug) (ord : HashOrder) (root : Id) (n : Nat) (pr : IdSet) (l : List Id)
    (c : Cache σ) : invLoop Y' ord root n pr l c = invLoop Y ord root n pr l c := by
  induction n generalizing pr l c with
  | zero => cases l <;> rfl
  | succ n ih =>
    cases l with
    | nil => rfl
    | cons x l => simp only [invLoop, popDependencies, unlink_code e, ih]

theorem invEach_code (e : Y'.debug = Y.debug) (ord : HashOrder) (l : List Id) (c : Cache σ) :
    invEach Y' ord l c = invEach Y ord l c := by
  induction l generalizing c with
  | nil => rfl
  | cons x l ih => simp only [invEach, invalidateById, invLoop_code e, ih]

theorem lookupMut_code (e : Y'.debug = Y.debug) (e1 : Y'.artTy = Y.artTy) (e2 : Y'.vty = Y.vty) (ord : HashOrder)
    (p : Promise σ) (c : Cache σ) : lookupMut Y' ord p c = lookupMut Y ord p c := by
  simp only [lookupMut, invalidateDependents, invEach_code e, e, e1, e2]

theorem gcT_solo (ord : HashOrder) (c : Cache σ) (acc l : List Id) (m : Shared σ) :
    (gcT Y ord c acc l).solo (fun s => (s, true)) m = match selectDead (m.st c) l with
      | none => (m.st c, .panic .leafUnknown)
      | some k => (m.st (collectEach Y ord (acc.reverse ++ k) c).1, (collectEach Y ord (acc.reverse ++ k) c).2.res .unit) := by
  induction l generalizing acc with
  | nil => simp only [gcT, selectDead, Task.solo, List.append_nil]
  | cons a l ih =>
    simp only [gcT, Task.solo, selectDead, st_mem, st_c, Act.run]
    cases c.known[a]? with
    | none => rfl
    | some b =>
      simp only
      rw [ih]
      cases selectDead (m.st c) l with
      | none => rfl
      | some k =>
        by_cases hd : isDead (m.st c) a b = true
        · simp only [hd, cond_true, if_true, List.reverse_cons, List.append_assoc, List.cons_append, List.nil_append]
        · simp only [hd, cond_false, Bool.false_eq_true, if_false]

/-- Garbage collection in steps, if nothing happens in between, is garbage collection. -/
theorem opT_gc {n : Nat} {ord : HashOrder} {s : St σ} {t : Call σ (Ans σ)} (ht : opT Y n ord s.c .gc = some t) :
    step Y n ord s .gc = t.solo (fun s => (s, true)) s.mem := by
  cases ht
  simp only [step, Op.promise?, exec, garbageCollection, Call.solo, Call.of]
  split
  · rfl
  · show _ = Task.solo _ _ s.mem
    rw [gcT_solo, mem_st]
    cases selectDead s (ord.f ⟨3, 0, 0⟩ s.c.leafs.toList) <;> rfl

/-- An operation in steps is the operation. -/
theorem opT_solo (hc : Cuts Y Y' h) {n : Nat} {ord : HashOrder} {op : Op σ} (hgc : op ≠ .gc)
    {s : St σ} {t : Call σ (Ans σ)} (ht : opT Y n ord s.c op = some t) (hl : ∀ p, op.promise? = some p → s.live p = true) :
    step Y' n ord s op = t.solo h s.mem := by
  cases op <;> first | (cases ht; done) | (exact absurd rfl hgc) | skip
  · rename_i how p
    cases ht
    rw [step_live rfl (hl p rfl), Call.solo_bind, ← (buildN_T hc n p s).2 (hl p rfl) how]
    simp only [exec]
    generalize getA Y' n how p s = x
    obtain ⟨s', r⟩ := x
    cases r <;> rfl
  · rename_i p f
    cases ht
    rw [step_live rfl (hl p rfl)]
    have e1 : ∀ c, lookupMut Y' ord p c = lookupMut Y ord p c := by
      exact fun c => lookupMut_code (by rw [hc.same]) (by rw [hc.same]) (by rw [hc.same]) ord p c
    have e2 : writeArt Y' p f = writeArt Y p f := by rw [hc.same]; rfl
    simp only [exec, getMut, getMutT, e1, e2, Call.solo_bind]
    generalize lookupMut Y ord p s.c = x
    obtain ⟨c, r⟩ := x
    rcases r with (_ | v) | _ | _ | _
    · simp only
      have e3 : fresh Y' p (buildN Y' n p { s with c := c }) =
          (freshT Y p (buildNT Y n p c)).solo h s.mem := by
        refine Eq.trans ?_ (fresh_T (Y := Y) (buildN_T hc n p { s with c := c }).1)
        generalize buildN Y' n p { s with c := c } = x
        rw [hc.same]; rfl
      rw [e3]
      generalize (freshT Y p (buildNT Y n p c)).solo h s.mem = x
      obtain ⟨s', r⟩ := x
      rcases r with (e | v) | _ | _ | _
      · rfl
      · simp only; cases writeArt Y p f v s'.c <;> rfl
      all_goals rfl
    · simp only
      generalize lookupMut Y ord p c = x
      obtain ⟨c', r⟩ := x
      rcases r with (_ | v) | _ | _ | _ <;> first | rfl | skip
      simp only [Call.solo, Call.of, Task.solo, st_c, st_mem]
      show _ = Task.solo h (match writeArt Y p f v c' with | some c => _ | none => _) s.mem
      cases writeArt Y p f v c' <;> rfl
    all_goals rfl

/-! ## What others do in between -/

/-- One thing that others do. -/
inductive Deed (σ : Sig) where
  | world (w : σ.W)
  | alloc (q : Promise σ)
  | free (a : Id)

/-- Its effect; `none`: the allocator does not do this. -/
def Deed.run (s : St σ) : Deed σ → Option (St σ)
  | .world w => some { s with w := w }
  | .alloc q => allocB q s
  | .free a => some (freeB a s)

/-- Do all of it (`false`: got stuck). -/
def deeds : List (Deed σ) → St σ → St σ × Bool
  | [], s => (s, true)
  | d :: l, s => match d.run s with
    | some s => deeds l s
    | none => (s, false)

/-- The code that first does all of it. -/
def Prog.after (P : Prog σ) : List (Deed σ) → Prog σ
  | [] => P
  | .world w :: l => .world (fun _ => w) fun _ => P.after l
  | .alloc q :: l => .alloc q (P.after l)
  | .free a :: l => .free a (P.after l)

/-- The outside world has a clock. -/
structure Clock (σ : Sig) where
  time : σ.W → Nat
  tick : σ.W → σ.W
  ticks : ∀ w, time w < time (tick w)

/-- What happens before a step of some code: what others do at this time, and the clock ticks. -/
def others (K : Clock σ) (E : Nat → List (Deed σ)) (s : St σ) : St σ × Bool :=
  match deeds (E (K.time s.w)) s with
  | (s, true) => ({ s with w := K.tick s.w }, true)
  | r => r

/-- The code `P` where, before each of its steps, things `E` are done that depend on the time only. -/
def Prog.among (K : Clock σ) (E : Nat → List (Deed σ)) : Prog σ → Prog σ
  | .ret r => .ret r
  | .panic => .panic
  | .resolve how q k => .world id fun w =>
      (Prog.world K.tick fun _ => .resolve how q fun r => among K E (k r)).after (E (K.time w))
  | .myState f k => .world id fun w =>
      (Prog.world K.tick fun _ => .myState f fun d => among K E (k d)).after (E (K.time w))
  | .world f k => .world id fun w =>
      (Prog.world K.tick fun _ => .world f fun v => among K E (k v)).after (E (K.time w))
  | .alloc q k => .world id fun w => (Prog.world K.tick fun _ => .alloc q (among K E k)).after (E (K.time w))
  | .free a k => .world id fun w => (Prog.world K.tick fun _ => .free a (among K E k)).after (E (K.time w))

/-- The builders `Y` in an environment that does things while they work. -/
def Sys.among (Y : Sys σ) (K : Clock σ) (E : Nat → List (Deed σ)) : Sys σ :=
  { Y with code := fun b => (Y.code b).among K E }

theorem runProg_after (getN : Getter σ) (p : Promise σ) (P : Prog σ) (l : List (Deed σ)) (s : St σ) :
    runProg Y getN p (P.after l) s = match deeds l s with
      | (s, true) => runProg Y getN p P s
      | (s, false) => (s, .stuck) := by
  induction l generalizing s with
  | nil => rfl
  | cons d l ih =>
    cases d with
    | world w => exact ih _
    | free a => exact ih _
    | alloc q =>
      simp only [Prog.after, runProg, deeds, Deed.run]
      cases allocB q s with
      | none => rfl
      | some s' => exact ih s'

theorem runProg_cut (K : Clock σ) (E : Nat → List (Deed σ)) (getN : Getter σ) (p : Promise σ) (P : Prog σ) (s : St σ) :
    runProg Y getN p (.world id fun w => (Prog.world K.tick fun _ => P).after (E (K.time w))) s =
      match others K E s with
      | (s, true) => runProg Y getN p P s
      | (s, false) => (s, .stuck) := by
  show runProg Y getN p (Prog.after _ (E (K.time s.w))) s = _
  rw [runProg_after]
  unfold others
  generalize deeds (E (K.time s.w)) s = x
  obtain ⟨s', b⟩ := x
  cases b <;> rfl

theorem deeds_c (l : List (Deed σ)) (s : St σ) : (deeds l s).1.c = s.c := by
  induction l generalizing s with
  | nil => rfl
  | cons d l ih =>
    cases d with
    | world w => exact ih _
    | free a => exact ih _
    | alloc q =>
      simp only [deeds, Deed.run]
      cases ha : allocB q s with
      | none => rfl
      | some s' => exact (ih s').trans (allocB_c ha)

theorem others_c (K : Clock σ) (E : Nat → List (Deed σ)) (s : St σ) : (others K E s).1.c = s.c := by
  have := deeds_c (E (K.time s.w)) s
  unfold others
  generalize deeds (E (K.time s.w)) s = x at this ⊢
  obtain ⟨s', b⟩ := x
  cases b <;> exact this

theorem myState_c (p : Promise σ) (f : σ.S → σ.S) (s : St σ) :
    (myState Y p f s).1.mem = s.mem := by
  unfold myState
  repeat' split
  all_goals rfl

theorem track_code (e : Y'.debug = Y.debug) (u q : Promise σ) (c : Cache σ) : track Y' u q c = track Y u q c := by
  simp only [track, e]

/-- One step of code, if the rest is as it should be. -/
theorem runProg_steps (hs : Y' = { Y with code := Y'.code }) (hk : ∀ s, (h s).1.c = s.c) (g : Prog σ → Prog σ)
    {getN : Getter σ} {getT : GetterT σ}
    (hg : ∀ how q s, s.live q = true → getN how q s = (getT how q s.c).solo h s.mem) (p : Promise σ)
    (hret : ∀ r, g (.ret r) = .ret r) (hpan : g .panic = .panic)
    (hres : ∀ how q k s, runProg Y' getN p (g (.resolve how q k)) s = match h s with
      | (s, true) => runProg Y' getN p (.resolve how q fun r => g (k r)) s
      | (s, false) => (s, .stuck))
    (hmy : ∀ f k s, runProg Y' getN p (g (.myState f k)) s = match h s with
      | (s, true) => runProg Y' getN p (.myState f fun r => g (k r)) s
      | (s, false) => (s, .stuck))
    (hwo : ∀ f k s, runProg Y' getN p (g (.world f k)) s = match h s with
      | (s, true) => runProg Y' getN p (.world f fun r => g (k r)) s
      | (s, false) => (s, .stuck))
    (hal : ∀ q k s, runProg Y' getN p (g (.alloc q k)) s = match h s with
      | (s, true) => runProg Y' getN p (.alloc q (g k)) s
      | (s, false) => (s, .stuck))
    (hfr : ∀ a k s, runProg Y' getN p (g (.free a k)) s = match h s with
      | (s, true) => runProg Y' getN p (.free a (g k)) s
      | (s, false) => (s, .stuck))
    (P : Prog σ) (s : St σ) : runProg Y' getN p (g P) s = (runProgT Y getT p P s.c).solo h s.mem := by
  have e1 : Y'.artTy = Y.artTy := by rw [hs]
  have e2 : Y'.vty = Y.vty := by rw [hs]
  have e3 : Y'.debug = Y.debug := by rw [hs]
  have e4 : ∀ f s, myState Y' p f s = myState Y p f s := by rw [hs]; intro f s; rfl
  induction P generalizing s with
  | ret r =>
    rw [hret]
    cases r with
    | error e => rfl
    | ok v => simp only [runProg, runProgT, Task.solo, e1, e2, mem_st]
  | panic => rw [hpan]; rfl
  | resolve how q k ih =>
    rw [hres]
    simp only [runProgT, Task.solo, mem_st]
    have := hk s
    generalize h s = x at this ⊢
    obtain ⟨s', b⟩ := x
    cases b with
    | false => rfl
    | true =>
      simp only at this
      rw [← this]
      simp only [runProg, track_code e3, Act.run, resolveW, mem_st, mem_w]
      by_cases hl : s'.live q = true
      · simp only [hl, if_true]
        generalize track Y p q s'.c = y
        obtain ⟨c, o⟩ := y
        cases o with
        | some pk => rfl
        | none =>
          simp only
          rw [solo_bind, hg how q { s' with c := c } hl]
          show (match (getT how q c).solo h s'.mem with
            | (s, .val r) => _ | (s, .panic pk) => _ | (s, .stuck) => _ | (s, .overflow) => _) = _
          have e : (getT how q c s'.w).2.solo h { s'.mem with w := (getT how q c s'.w).1 } =
            (getT how q c).solo h s'.mem := rfl
          rw [e]
          generalize (getT how q c).solo h s'.mem = z
          obtain ⟨s'', r⟩ := z
          cases r with
          | val r => exact ih r s''
          | panic k => rfl
          | stuck => rfl
          | overflow => rfl
      · simp only [hl, if_false]; rfl
  | myState f k ih =>
    rw [hmy]
    simp only [runProgT, Task.solo, mem_st]
    have := hk s
    generalize h s = x at this ⊢
    obtain ⟨s', b⟩ := x
    cases b with
    | false => rfl
    | true =>
      simp only at this
      rw [← this]
      simp only [runProg, e4, Act.run, mem_st]
      have hm := myState_c (Y := Y) p f s'
      generalize myState Y p f s' = y at hm ⊢
      obtain ⟨s'', r⟩ := y
      simp only at hm
      rw [← hm]
      cases r with
      | val r => exact ih r s''
      | panic k => rfl
      | stuck => rfl
      | overflow => rfl
  | world f k ih =>
    rw [hwo]
    simp only [runProgT, Task.solo, mem_st]
    have := hk s
    generalize h s = x at this ⊢
    obtain ⟨s', b⟩ := x
    cases b with
    | false => rfl
    | true =>
      simp only at this
      rw [← this]
      exact ih s'.w { s' with w := f s'.w }
  | alloc q k ih =>
    rw [hal]
    simp only [runProgT, Task.solo, mem_st]
    have := hk s
    generalize h s = x at this ⊢
    obtain ⟨s', b⟩ := x
    cases b with
    | false => rfl
    | true =>
      simp only at this
      rw [← this]
      simp only [runProg, Act.run, mem_st]
      cases ha : allocB q s' with
      | none => rfl
      | some s'' =>
        simp only
        rw [ih s'', allocB_c ha]
  | free a k ih =>
    rw [hfr]
    simp only [runProgT, Task.solo, mem_st]
    have := hk s
    generalize h s = x at this ⊢
    obtain ⟨s', b⟩ := x
    cases b with
    | false => rfl
    | true =>
      simp only at this
      rw [← this]
      exact ih (freeB a s')

/-- Nothing happens in between. -/
theorem cuts_none (Y : Sys σ) : Cuts Y Y fun s => (s, true) where
  same := rfl
  keep _ := rfl
  run p _ _ hg b s := runProg_steps rfl (fun _ => rfl) id hg p (fun _ => rfl) rfl (fun _ _ _ _ => rfl)
    (fun _ _ _ => rfl) (fun _ _ _ => rfl) (fun _ _ _ => rfl) (fun _ _ _ => rfl) (Y.code b) s

theorem cuts_among (Y : Sys σ) (K : Clock σ) (E : Nat → List (Deed σ)) : Cuts Y (Y.among K E) (others K E) where
  same := rfl
  keep := others_c K E
  run p _ _ hg b s := runProg_steps rfl (others_c K E) (Prog.among K E) hg p (fun _ => rfl) rfl
    (fun _ _ _ _ => runProg_cut ..) (fun _ _ _ => runProg_cut ..) (fun _ _ _ => runProg_cut ..)
    (fun _ _ _ => runProg_cut ..) (fun _ _ _ => runProg_cut ..) (Y.code b) s

/-! ## Programs with several threads -/

/-- What a thread does with its cache. -/
inductive Thread (σ : Sig) where
  /-- It does not use it at the moment. -/
  | rest (c : Cache σ)
  /-- It executes the operation `op`, and has come as far as `t`.  (Ghost: it has done so since the state `s`.) -/
  | busy (s : St σ) (n : Nat) (ord : HashOrder) (op : Op σ) (t : Task σ (Ans σ))

/-- What the cache holds at the moment. -/
def Thread.cache : Thread σ → Cache σ
  | .rest c => c
  | .busy _ _ _ _ t => t.cache

/-- A program with threads that have a cache each: their states, the shared memory, and (ghost) the operations
completed so far. -/
structure Conf (ι : Type) (σ : Sig) where
  thr : ι → Thread σ
  mem : Shared σ
  done : ι → List (Entry σ)

section
variable {ι : Type}

/-- The allocator does not hand out an address that a cache of another thread keeps by a weak reference at the moment
(see `NoClash`). -/
def Conf.Apart (C : Conf ι σ) (i : ι) (m : Shared σ) : Prop :=
  ∀ j, j ≠ i → ∀ (a : Id) b, m.heap[a]? = some b → C.mem.heap[a]? ≠ some b → (C.thr j).cache.known[a]? = none

variable [DecidableEq ι]

/-- What such a program can get to.  In each step, some thread
* does an operation that runs no builder code (other than garbage collection), or something outside of the caches (`quick`),
* starts an operation that may run builder code, or a garbage collection, does the next step of it, or finishes it,
* drops its cache and makes a new one.
Nobody sets the clock back. -/
inductive Interleaved (K : Clock σ) (Y : ι → Sys σ) : Conf ι σ → Prop
  | new (w : σ.W) : Interleaved K Y ⟨fun _ => .rest {}, ⟨w, ∅, []⟩, fun _ => []⟩
  | quick {C : Conf ι σ} {c : Cache σ} (i : ι) (n : Nat) (ord : HashOrder) (op : Op σ) : Interleaved K Y C →
      C.thr i = .rest c → opT (Y i) n ord c op = none →
      (step (Y i) n ord (C.mem.st c) op).2.ended → C.Apart i (step (Y i) n ord (C.mem.st c) op).1.mem →
      K.time C.mem.w ≤ K.time (step (Y i) n ord (C.mem.st c) op).1.w →
      Interleaved K Y
        { thr := Function.update C.thr i (.rest (step (Y i) n ord (C.mem.st c) op).1.c)
          mem := (step (Y i) n ord (C.mem.st c) op).1.mem
          done := if op.own then
              Function.update C.done i (C.done i ++ [⟨n, ord, op, (step (Y i) n ord (C.mem.st c) op).2⟩])
            else C.done }
  | start {C : Conf ι σ} {c : Cache σ} {t : Call σ (Ans σ)} (i : ι) (n : Nat) (ord : HashOrder) (op : Op σ) :
      Interleaved K Y C → C.thr i = .rest c → opT (Y i) n ord c op = some t →
      (∀ p, op.promise? = some p → (C.mem.st c).live p = true) →
      K.time C.mem.w ≤ K.time (t C.mem.w).1 →
      Interleaved K Y
        { C with
          thr := Function.update C.thr i (.busy (C.mem.st c) n ord op (t C.mem.w).2)
          mem := { C.mem with w := (t C.mem.w).1 } }
  | move {C : Conf ι σ} {s : St σ} {n : Nat} {ord : HashOrder} {op : Op σ} {c : Cache σ} {a : Act σ}
      {k : Shared σ → Task σ (Ans σ)} (i : ι) : Interleaved K Y C → C.thr i = .busy s n ord op (.act c a k) →
      C.Apart i (a.run c { C.mem with w := K.tick C.mem.w }) →
      K.time C.mem.w < K.time (a.run c { C.mem with w := K.tick C.mem.w }).w →
      Interleaved K Y
        { C with
          thr := Function.update C.thr i (.busy s n ord op (k { C.mem with w := K.tick C.mem.w }))
          mem := a.run c { C.mem with w := K.tick C.mem.w } }
  | finish {C : Conf ι σ} {s : St σ} {n : Nat} {ord : HashOrder} {op : Op σ} {c : Cache σ} {r : Res (Ans σ)} (i : ι) :
      Interleaved K Y C → C.thr i = .busy s n ord op (.done c r) → r.ended →
      Interleaved K Y
        { C with
          thr := Function.update C.thr i (.rest c)
          done := Function.update C.done i (C.done i ++ [⟨n, ord, op, r⟩]) }
  | renew {C : Conf ι σ} {c : Cache σ} (i : ι) : Interleaved K Y C → C.thr i = .rest c →
      Interleaved K Y
        { C with thr := Function.update C.thr i (.rest {}), done := Function.update C.done i [] }

end

/-! ## Proofs -/

/-- What others do to the memory while the cache holds `c`. -/
def Outer (c : Cache σ) (m m' : Shared σ) : Prop :=
  ∃ l, m'.born = l ++ m.born ∧ l.Nodup ∧ (∀ b ∈ l, b ∉ m.born) ∧
    (∀ (a : Id) b, m'.heap[a]? = some b → m.heap[a]? = some b ∨ b ∈ l) ∧
    (∀ (a : Id) b, m'.heap[a]? = some b → m.heap[a]? ≠ some b → c.known[a]? = none)

theorem Outer.refl (c : Cache σ) (m : Shared σ) : Outer c m m :=
  ⟨[], rfl, List.nodup_nil, by simp, fun _ _ h => .inl h, fun _ _ h h' => absurd h h'⟩

theorem Outer.trans {c : Cache σ} {m m' m'' : Shared σ} (h : Outer c m m') (h' : Outer c m' m'') : Outer c m m'' := by
  obtain ⟨l, h1, h2, h3, h4, h5⟩ := h
  obtain ⟨k, g1, g2, g3, g4, g5⟩ := h'
  refine ⟨k ++ l, by rw [g1, h1, List.append_assoc], ?_, ?_, ?_, ?_⟩
  · rw [List.nodup_append]
    refine ⟨g2, h2, ?_⟩
    rintro b hb c hc rfl
    exact g3 b hb (by rw [h1]; exact List.mem_append_left _ hc)
  · intro b hb hs
    rcases List.mem_append.1 hb with hb | hb
    · exact g3 b hb (by rw [h1]; exact List.mem_append_right _ hs)
    · exact h3 b hb hs
  · intro a b hb
    rcases g4 a b hb with hb | hb
    · exact (h4 a b hb).imp id (List.mem_append_right _)
    · exact .inr (List.mem_append_left _ hb)
  · intro a b hb hn
    by_cases hm : m'.heap[a]? = some b
    · exact h5 a b hm hn
    · exact g5 a b hb hm

theorem Outer.of_grow {c c' c'' : Cache σ} {m m' : Shared σ} (h : Grow (m.st c') (m'.st c''))
    (hk : ∀ (a : Id) b, m'.heap[a]? = some b → m.heap[a]? ≠ some b → c.known[a]? = none) : Outer c m m' := by
  obtain ⟨l, h1, h2, h3, h4, _⟩ := h
  exact ⟨l, h1, h2, h3, h4, hk⟩

theorem Outer.to {Q : St σ → Prop} (hQ : External Q) {c : Cache σ} {m m' : Shared σ} (h : Outer c m m')
    (hi : HeapOk (m.st c)) (hi' : HeapOk (m'.st c)) (hm : Q (m.st c)) : Q (m'.st c) := by
  obtain ⟨l, h1, h2, h3, h4, h5⟩ := h
  have := hQ.to hm hi m'.w h2 h3 h4 hi'.inj h5
  rw [show l ++ (m.st c).born = m'.born from h1.symm] at this
  exact this

theorem deeds_append (l k : List (Deed σ)) (s : St σ) :
    deeds (l ++ k) s = match deeds l s with
      | (s, true) => deeds k s
      | r => r := by
  induction l generalizing s with
  | nil => rfl
  | cons d l ih =>
    simp only [List.cons_append, deeds]
    cases d.run s with
    | none => rfl
    | some s' => exact ih s'

theorem External.of_deeds (s : St σ) : External fun s' => ∃ l, deeds l s = (s', true) := by
  have one : ∀ {s1 s2 : St σ} (d : Deed σ), (∃ l, deeds l s = (s1, true)) → d.run s1 = some s2 →
      ∃ l, deeds l s = (s2, true) := by
    rintro s1 s2 d ⟨l, hl⟩ hd
    exact ⟨l ++ [d], by rw [deeds_append, hl]; simp [deeds, hd]⟩
  exact ⟨fun s1 w h => one (.world w) h rfl, fun s1 q s2 h ha => one (.alloc q) h ha, fun s1 a h => one (.free a) h rfl⟩

theorem Outer.deeds {c : Cache σ} {m m' : Shared σ} (h : Outer c m m') (hi : HeapOk (m.st c)) (hi' : HeapOk (m'.st c)) :
    ∃ l, Daab.deeds l (m.st c) = (m'.st c, true) :=
  h.to (External.of_deeds (m.st c)) hi hi' ⟨[], rfl⟩

theorem HeapOk.any {c c' : Cache σ} {m : Shared σ} (h : HeapOk (m.st c)) : HeapOk (m.st c') := ⟨h.inj, h.born⟩

theorem Act.grow (c : Cache σ) (m : Shared σ) (w : σ.W) (a : Act σ) :
    Grow (m.st c) ((a.run c { m with w := w }).st c) := by
  have h0 : Grow (m.st c) (({ m with w := w } : Shared σ).st c) := Grow.same rfl rfl
  refine h0.trans ?_
  cases a with
  | see => exact Grow.refl _
  | world f => exact Grow.same rfl rfl
  | init f => exact Grow.same rfl rfl
  | alloc q =>
    simp only [Act.run]
    cases ha : allocB q (({ m with w := w } : Shared σ).st c) with
    | none => exact Grow.refl _
    | some s' =>
      have := Grow.alloc ha
      have e : s'.mem.st c = s' := by
        have := allocB_c ha
        rw [st_c] at this
        rw [← this]; rfl
      simp only [e]; exact this
  | free a => exact Grow.free a _

theorem step_quick (hs : Y' = { Y with code := Y'.code }) {n : Nat} {ord : HashOrder} {c : Cache σ} {op : Op σ}
    (ho : opT Y n ord c op = none) (s : St σ) : step Y' n ord s op = step Y n ord s op := by
  have e : Y'.debug = Y.debug := by rw [hs]
  have e1 : Y'.artTy = Y.artTy := by rw [hs]
  have e2 : Y'.vty = Y.vty := by rw [hs]
  have e3 : Y'.stTy = Y.stTy := by rw [hs]
  have e4 : Y'.sty = Y.sty := by rw [hs]
  have e5 : Y'.clone = Y.clone := by rw [hs]
  have e6 : Y'.init = Y.init := by rw [hs]
  have hb : ∀ a c, invalidateById Y' ord a c = invalidateById Y ord a c := fun a c => by
    simp only [invalidateById, invLoop_code e]
  unfold step
  cases op <;> first | (cases ho; done) | skip
  all_goals simp only [exec, Op.promise?]
  · rename_i how p
    cases how <;> simp only [lookupBy, lookup, lookupRef, lookupCloned, e, e1, e2, e5]
  · simp only [lookupMut_code e e1 e2, writeArt, e1, e2]
  · simp only [ensureDyn, e3, e4, e6]
  · simp only [getDynState, e, e3, e4]
  · simp only [dynStateMut, invalidate, hb, ensureDyn, e3, e4, e6]
  · simp only [invalidate, hb]
  · simp only [purge, hb]

theorem step_gc_code (hs : Y' = { Y with code := Y'.code }) (n : Nat) (ord : HashOrder) (s : St σ) :
    step Y' n ord s .gc = step Y n ord s .gc := by
  have e : Y'.debug = Y.debug := by rw [hs]
  have hg : ∀ l c, collectEach Y' ord l c = collectEach Y ord l c := by
    intro l
    induction l with
    | nil => intro c; rfl
    | cons a l ih => intro c; simp only [collectEach, invalidateById, invLoop_code e, ih]
  simp only [step, Op.promise?, exec, garbageCollection, e, hg]

/-- The same up to time `t`. -/
def Agree (t : Nat) (E E' : Nat → List (Deed σ)) : Prop := ∀ u, u < t → E' u = E u

theorem Agree.mono {t t' : Nat} {E E' : Nat → List (Deed σ)} (h : Agree t' E E') (ht : t ≤ t') : Agree t E E' :=
  fun u hu => h u (by omega)

/-- A task can go from here to there (whatever memory it finds). -/
inductive Task.Leads {α : Type} (t : Task σ α) : Task σ α → Prop
  | refl : Leads t t
  | act {c : Cache σ} {a : Act σ} {k : Shared σ → Task σ α} (m : Shared σ) : Leads t (.act c a k) → Leads t (k m)

/-- The invariant of a thread that collects garbage. -/
def GoodGc (K : Clock σ) (Y : Sys σ) (mem : Shared σ) (done : List (Entry σ)) (s : St σ) (n : Nat) (ord : HashOrder)
    (t : Task σ (Ans σ)) : Prop :=
  (∃ E, ∀ E', Agree (K.time s.w) E E' → Alone (Y.among K E') done s) ∧ K.time s.w ≤ K.time mem.w ∧ HeapOk s ∧
  ((∃ acc rest old dead, t = gcT Y ord s.c acc rest ∧ (Y.debug && !gcAssertion s.c) = false ∧
      old ++ rest = ord.f ⟨3, 0, 0⟩ s.c.leafs.toList ∧ Outer s.c s.mem mem ∧ acc.reverse = old.filter dead ∧
      ∀ a ∈ old, ∃ b, s.c.known[a]? = some b ∧ (dead a = true → mem.heap[a]? ≠ some b) ∧
        (dead a = false → s.heap[a]? = some b)) ∨
    ∃ c r heap', t = .done c r ∧ (∀ (a : Id) b, heap'[a]? = some b → s.heap[a]? = some b) ∧
      step Y n ord { s with heap := heap' } .gc = ({ s with c := c, heap := heap' }, r) ∧
      Outer c { s.mem with heap := heap' } mem)

/-- The invariant of a thread. -/
def GoodThread (K : Clock σ) (Y : Sys σ) (mem : Shared σ) (done : List (Entry σ)) :
    Thread σ → Prop
  | .rest c => ∃ E, ∀ E', Agree (K.time mem.w) E E' → Alone (Y.among K E') done (mem.st c)
  | .busy s n ord op t => (op = .gc ∧ GoodGc K Y mem done s n ord t) ∨ op ≠ .gc ∧ ∃ E ml t0, HeapOk (ml.st t.cache) ∧ Outer t.cache ml mem ∧ K.time ml.w ≤ K.time mem.w ∧
      opT Y n ord s.c op = some t0 ∧ (∀ p, op.promise? = some p → s.live p = true) ∧ (t0 s.w).2.Leads t ∧
      ∀ E', Agree (K.time ml.w) E E' → Alone (Y.among K E') done s ∧
        t0.solo (others K E') s.mem = t.solo (others K E') ml

theorem Outer.news {c : Cache σ} {m m' : Shared σ} (h : Outer c m m') {a : Id} {b : σ.B} (h1 : m'.heap[a]? = some b)
    (h2 : m.heap[a]? ≠ some b) : c.known[a]? = none := by
  obtain ⟨_, _, _, _, _, h5⟩ := h
  exact h5 a b h1 h2

theorem selectDead_filter {s : St σ} {dead : Id → Bool} (l : List Id)
    (h : ∀ a ∈ l, ∃ b, s.c.known[a]? = some b ∧ isDead s a b = dead a) : selectDead s l = some (l.filter dead) := by
  induction l with
  | nil => rfl
  | cons a l ih =>
    obtain ⟨b, h1, h2⟩ := h a (List.mem_cons_self ..)
    simp only [selectDead, h1, h2, ih fun x hx => h x (List.mem_cons_of_mem _ hx), List.filter_cons]

/-- All leafs have been looked at. -/
theorem gc_done {mem : Shared σ} {s : St σ} {n : Nat} {ord : HashOrder} {t : Task σ (Ans σ)} {acc old : List Id}
    {dead : Id → Bool} (g1 : t = gcT Y ord s.c acc []) (g0 : (Y.debug && !gcAssertion s.c) = false)
    (g2 : old = ord.f ⟨3, 0, 0⟩ s.c.leafs.toList) (g3 : Outer s.c s.mem mem)
    (g4 : acc.reverse = old.filter dead) (g5 : ∀ a ∈ old, ∃ b, s.c.known[a]? = some b ∧
      (dead a = true → mem.heap[a]? ≠ some b) ∧ (dead a = false → s.heap[a]? = some b)) :
    ∃ c r heap', t = .done c r ∧ (∀ (a : Id) b, heap'[a]? = some b → s.heap[a]? = some b) ∧
      step Y n ord { s with heap := heap' } .gc = ({ s with c := c, heap := heap' }, r) ∧
      Outer c { s.mem with heap := heap' } mem := by
  let gone : Id → σ.B → Bool := fun a b => old.contains a && dead a && (s.c.known[a]? == some b)
  let heap' : AMap σ.B := s.heap.filterMap fun a b => if gone a b then none else some b
  have hh : ∀ (a : Id) b, heap'[a]? = some b ↔ s.heap[a]? = some b ∧ gone a b = false := by
    intro a b
    simp only [heap']
    rw [ExtTreeMap.getElem?_filterMap']
    cases hx : s.heap[a]? with
    | none => simp
    | some c =>
      simp only [Option.bind_some, Option.some.injEq]
      constructor
      · intro h
        split at h
        · cases h
        · cases h; exact ⟨rfl, by simp_all⟩
      · rintro ⟨rfl, h⟩
        rw [h]; rfl
  refine ⟨_, _, heap', g1, fun a b h => ((hh a b).1 h).1, ?_, ?_⟩
  · have e : selectDead { s with heap := heap' } (ord.f ⟨3, 0, 0⟩ s.c.leafs.toList) = some (old.filter dead) := by
      rw [← g2]
      refine selectDead_filter _ fun a ha => ?_
      obtain ⟨b, k1, k2, k3⟩ := g5 a ha
      refine ⟨b, k1, ?_⟩
      cases hd : dead a with
      | true =>
        simp only [isDead]
        have : heap'[a]? ≠ some b := fun hx => by
          have := ((hh a b).1 hx).2
          simp only [gone, k1, hd, Bool.and_true, beq_self_eq_true] at this
          simp [ha] at this
        simpa using this
      | false =>
        have : heap'[a]? = some b := (hh a b).2 ⟨k3 hd, by simp [gone, hd]⟩
        simp [isDead, this]
    simp only [step, Op.promise?, exec, garbageCollection]
    rw [if_neg (by rw [g0]; nofun), e, g4]
  · obtain ⟨l, h1, h2, h3, h4, h5⟩ := g3
    have key : ∀ (a : Id) b, mem.heap[a]? = some b → s.heap[a]? = some b → heap'[a]? = some b := by
      intro a b hm hs
      refine (hh a b).2 ⟨hs, ?_⟩
      cases hg : gone a b with
      | false => rfl
      | true =>
        simp only [gone, Bool.and_eq_true, List.contains_iff_mem] at hg
        obtain ⟨b', k1, k2, _⟩ := g5 a (by simpa using hg.1.1)
        have : b' = b := by
          have := hg.2
          rw [k1] at this
          simpa using this
        subst this
        exact absurd hm (k2 hg.1.2)
    refine ⟨l, h1, h2, h3, fun a b hb => (h4 a b hb).imp (key a b hb) id, fun a b hb hn => ?_⟩
    have := h5 a b hb fun hs => hn (key a b hb hs)
    have hk := (collectEach_within (Y := Y) ord acc.reverse s.c).known a
    cases hx : (collectEach Y ord acc.reverse s.c).1.known[a]? with
    | none => rfl
    | some v =>
      have : a ∈ s.c.known := hk (by rw [ExtTreeMap.mem_iff_isSome_getElem?, hx]; rfl)
      rw [ExtTreeMap.mem_iff_isSome_getElem?] at this
      simp_all

/-- Others do something. -/
theorem GoodThread.outer {K : Clock σ} {mem mem' : Shared σ} {done : List (Entry σ)} {th : Thread σ}
    (hg : GoodThread K Y mem done th) (hi : HeapOk (mem.st th.cache)) (hi' : HeapOk (mem'.st th.cache))
    (ho : Outer th.cache mem mem') (ht : K.time mem.w ≤ K.time mem'.w) : GoodThread K Y mem' done th := by
  cases th with
  | rest c =>
    obtain ⟨E, h⟩ := hg
    exact ⟨E, fun E' hE => ho.to (Alone.isExternal _ _) hi hi' (h E' (hE.mono ht))⟩
  | busy s n ord op t =>
    rcases hg with ⟨e, h1, h2, h3, h4⟩ | ⟨e, E, ml, t0, h1, h2, h3, h4⟩
    · refine .inl ⟨e, h1, Nat.le_trans h2 ht, h3, ?_⟩
      rcases h4 with ⟨acc, rest, old, dead, g1, g0, g2, g3, g4, g5⟩ | ⟨c, r, heap', g1, g2, g3, g4⟩
      · have hc : (Thread.busy s n ord op t).cache = s.c ∨ rest = [] := by
          cases rest with
          | nil => exact .inr rfl
          | cons a rest => left; rw [g1]; rfl
        rcases hc with hc | hc
        · rw [hc] at ho
          refine .inl ⟨acc, rest, old, dead, g1, g0, g2, g3.trans ho, g4, fun a ha => ?_⟩
          obtain ⟨b, k1, k2, k3⟩ := g5 a ha
          refine ⟨b, k1, fun hd hb => ?_, k3⟩
          have := ho.news hb (k2 hd)
          rw [k1] at this; cases this
        · subst hc
          obtain ⟨c, r, heap', g1, g2, g3, g4⟩ := gc_done g1 g0 (by simpa using g2) g3 g4 g5
          subst g1
          exact .inr ⟨c, r, heap', rfl, g2, g3, g4.trans ho⟩
      · subst g1
        exact .inr ⟨c, r, heap', rfl, g2, g3, g4.trans ho⟩
    · exact .inr ⟨e, E, ml, t0, h1, h2.trans ho, Nat.le_trans h3 ht, h4⟩


theorem Outer.of_apart {K : Clock σ} {c c' : Cache σ} {m m' : Shared σ} (hg : Grow (m.st c) (m'.st c'))
    {th : Thread σ} (ha : ∀ (a : Id) b, m'.heap[a]? = some b → m.heap[a]? ≠ some b → th.cache.known[a]? = none)
    {done : List (Entry σ)} (hi : ∀ c, HeapOk (m.st c)) (h : GoodThread K Y m done th)
    (ht : K.time m.w ≤ K.time m'.w) : GoodThread K Y m' done th := by
  obtain ⟨_, _, _, _, _, h5⟩ := id hg
  exact h.outer (hi _) ((h5 (hi _)).any) (Outer.of_grow hg ha) ht

theorem Grow.nodup {s s' : St σ} (h : Grow s s') (hn : s.born.Nodup) : s'.born.Nodup := by
  obtain ⟨l, h1, h2, h3, _⟩ := h
  rw [h1, List.nodup_append]
  exact ⟨h2, hn, fun a ha b hb he => h3 a ha (he ▸ hb)⟩

theorem Grow.heapOk {s s' : St σ} (h : Grow s s') (hn : HeapOk s) : HeapOk s' := by
  obtain ⟨_, _, _, _, _, h5⟩ := h
  exact h5 hn

section
variable {ι : Type} [DecidableEq ι] {K : Clock σ} {Y : ι → Sys σ} {C : Conf ι σ}

theorem Interleaved.good (h : Interleaved K Y C) :
    C.mem.born.Nodup ∧ (∀ c, HeapOk (C.mem.st c)) ∧
      ∀ i, GoodThread K (Y i) C.mem (C.done i) (C.thr i) := by
  induction h with
  | new w =>
    refine ⟨List.nodup_nil, fun c => ⟨?_, ?_⟩, fun i => ⟨fun _ => [], fun E' _ => Alone.new w⟩⟩
    · intro a a' b h; simp [Shared.st] at h
    · intro a b h; simp [Shared.st] at h
  | @quick C c i n ord op _ hr ho he ha ht ih =>
    obtain ⟨h1, h2, h3⟩ := ih
    have hg := step_grow (Y i) n ord (C.mem.st c) op
    refine ⟨hg.nodup h1, fun c' => (hg.heapOk (h2 c)).any (m := (step (Y i) n ord (C.mem.st c) op).1.mem), fun j => ?_⟩
    by_cases hji : j = i
    · subst hji
      have h4 := h3 j
      rw [hr] at h4
      obtain ⟨E, h4⟩ := h4
      simp only [Function.update_self]
      refine ⟨E, fun E' hE => ?_⟩
      have h5 := h4 E' (hE.mono ht)
      have e := step_quick (Y := Y j) (Y' := (Y j).among K E') rfl ho (C.mem.st c)
      rw [mem_st]
      by_cases hw : op.own = true
      · have := h5.own n ord op hw (by rw [e]; exact he)
        rw [e] at this
        simpa only [hw, if_true, Function.update_self] using this
      · have := h5.outside n ord op (by simpa using hw) (by rw [e]; exact he)
        rw [e] at this
        simpa only [hw, if_false, Bool.false_eq_true] using this
    · have e : (if op.own then Function.update C.done i
          (C.done i ++ [⟨n, ord, op, (step (Y i) n ord (C.mem.st c) op).2⟩]) else C.done) j = C.done j := by
        split
        · rw [Function.update_of_ne hji]
        · rfl
      simp only [e, Function.update_of_ne hji]
      exact Outer.of_apart (c := c) hg (ha j hji) h2 (h3 j) ht
  | @start C c t i n ord op _ hr ho hl ht ih =>
    obtain ⟨h1, h2, h3⟩ := ih
    have h2' : ∀ c', HeapOk (({ C.mem with w := (t C.mem.w).1 } : Shared σ).st c') := fun c' => ⟨(h2 c').inj, (h2 c').born⟩
    refine ⟨h1, h2', fun j => ?_⟩
    by_cases hji : j = i
    · subst hji
      have h4 := h3 j
      rw [hr] at h4
      obtain ⟨E, h4⟩ := h4
      simp only [Function.update_self]
      by_cases hgc : op = .gc
      · subst hgc
        refine .inl ⟨rfl, ⟨E, h4⟩, ht, h2 _, ?_⟩
        cases ho
        by_cases hx : ((Y j).debug && !gcAssertion c) = true
        · refine .inr ⟨c, .panic .gcAssert, C.mem.heap, ?_, fun _ _ h => h, ?_, Outer.refl _ _⟩
          · simp only [Call.of, if_pos hx]
          · simp only [step, Op.promise?, exec, garbageCollection, st_c]
            simp only [hx, if_true]; rfl
        · refine .inl ⟨[], _, [], fun _ => false, ?_, by simpa using hx, rfl, Outer.refl _ _, rfl, by simp⟩
          simp only [Call.of, if_neg hx]; rfl
      · exact .inr ⟨hgc, E, { C.mem with w := (t C.mem.w).1 }, t, h2' _, Outer.refl _ _, Nat.le_refl _, ho, hl, .refl,
          fun E' hE => ⟨h4 E' (hE.mono ht), rfl⟩⟩
    · simp only [Function.update_of_ne hji]
      exact Outer.of_apart (c := c) (c' := c) (m := C.mem) (m' := { C.mem with w := (t C.mem.w).1 }) (Grow.same rfl rfl) (fun _ _ h h' => absurd h h') h2 (h3 j) ht
  | @move C s n ord op c a k i _ hr ha ht ih =>
    obtain ⟨h1, h2, h3⟩ := ih
    have hg := Act.grow c C.mem (K.tick C.mem.w) a
    have hok : ∀ c', HeapOk ((a.run c { C.mem with w := K.tick C.mem.w }).st c') := fun c' => (hg.heapOk (h2 c)).any
    refine ⟨hg.nodup h1, hok, fun j => ?_⟩
    by_cases hji : j = i
    · subst hji
      have h4 := h3 j
      rw [hr] at h4
      simp only [Function.update_self]
      rcases h4 with ⟨e, k1, k2, k3, k4⟩ | ⟨hgc, E, ml, t0, g1, g2, g3, g4, g5, gl, g6⟩
      · refine .inl ⟨e, k1, Nat.le_of_lt (Nat.lt_of_le_of_lt k2 ht), k3, ?_⟩
        rcases k4 with ⟨acc, rest, old, dead, g1, g0, g2, g3, g4, g5⟩ | ⟨c', r, heap', g1, _⟩
        · cases rest with
          | nil => cases g1
          | cons x rest =>
            simp only [gcT, Task.act.injEq] at g1
            obtain ⟨rfl, rfl, rfl⟩ := g1
            have ho : Outer s.c s.mem (Act.run s.c { C.mem with w := K.tick C.mem.w } .see) :=
              g3.trans (Outer.of_grow (c' := s.c) (c'' := s.c) (m := C.mem) (Grow.same rfl rfl) fun _ _ h h' => absurd h h')
            simp only
            cases hx : s.c.known[x]? with
            | none =>
              refine .inr ⟨s.c, .panic .leafUnknown, s.heap, rfl, fun _ _ h => h, ?_, ho⟩
              have e : selectDead s (ord.f ⟨3, 0, 0⟩ s.c.leafs.toList) = none := by
                rw [selectDead_none]
                refine ⟨x, by rw [← g2]; simp, ?_⟩
                rw [ExtTreeMap.mem_iff_isSome_getElem?, hx]; nofun
              simp only [step, Op.promise?, exec, garbageCollection]
              rw [if_neg (by rw [g0]; nofun), e]; rfl
            | some b =>
              have hnd : (old ++ x :: rest).Nodup := by
                rw [g2]
                exact (ord.perm _ _).nodup_iff.2 (idset_toList_nodup _)
              have hxo : x ∉ old := fun h => by
                rw [List.nodup_append] at hnd
                exact hnd.2.2 x h x (List.mem_cons_self ..) rfl
              let d := isDead (({ C.mem with w := K.tick C.mem.w } : Shared σ).st s.c) x b
              have hold : ∀ a, a ∈ old → Function.update dead x d a = dead a := fun a ha =>
                Function.update_of_ne (fun h : a = x => hxo (h ▸ ha)) _ _
              refine .inl ⟨_, rest, old ++ [x], Function.update dead x d, rfl, g0, by rw [← g2]; simp, ho, ?_, ?_⟩
              · rw [List.filter_append, List.filter_congr hold, ← g4]
                show (bif d then _ else _ : List Id).reverse = _
                cases d <;> simp
              · intro a ha
                rcases List.mem_append.1 ha with ha | ha
                · obtain ⟨b', q1, q2, q3⟩ := g5 a ha
                  rw [hold a ha]
                  exact ⟨b', q1, q2, q3⟩
                · obtain rfl := List.mem_singleton.1 ha
                  refine ⟨b, hx, ?_, ?_⟩
                  · rw [Function.update_self]
                    intro h
                    show C.mem.heap[a]? ≠ some b
                    simpa [d, isDead, Shared.st] using h
                  · rw [Function.update_self]
                    intro h
                    have hb : C.mem.heap[a]? = some b := by simpa [d, isDead, Shared.st] using h
                    by_contra hs
                    have := g3.news hb hs
                    rw [hx] at this; cases this
        · cases g1
      obtain ⟨l, hl⟩ := g2.deeds g1 (h2 _)
      refine .inr ⟨hgc, Function.update E (K.time ml.w) l, a.run c { C.mem with w := K.tick C.mem.w }, t0, hok _,
        Outer.refl _ _, Nat.le_refl _, g4, g5, gl.act _, fun E' hE => ?_⟩
      have hE1 : Agree (K.time ml.w) E E' := fun u hu => by
        rw [hE u (by omega), Function.update_of_ne (by omega)]
      have hE2 : E' (K.time ml.w) = l := by rw [hE _ (by omega), Function.update_self]
      obtain ⟨k1, k2⟩ := g6 E' hE1
      refine ⟨k1, k2.trans ?_⟩
      have e : others K E' (ml.st c) = (({ C.mem with w := K.tick C.mem.w } : Shared σ).st c, true) := by
        have hl' : deeds (E' (K.time (ml.st c).w)) (ml.st c) = (C.mem.st c, true) := by
          show deeds (E' (K.time ml.w)) _ = _
          rw [hE2]; exact hl
        unfold others
        rw [hl']; rfl
      simp only [Task.solo, e, st_mem]
    · simp only [Function.update_of_ne hji]
      exact Outer.of_apart (c := c) hg (ha j hji) h2 (h3 j) (Nat.le_of_lt ht)
  | @finish C s n ord op c r i _ hr he ih =>
    obtain ⟨h1, h2, h3⟩ := ih
    refine ⟨h1, h2, fun j => ?_⟩
    by_cases hji : j = i
    · subst hji
      have h4 := h3 j
      rw [hr] at h4
      simp only [Function.update_self]
      rcases h4 with ⟨e, ⟨E, k1⟩, k2, k3, k4⟩ | ⟨hgc, E, ml, t0, g1, g2, g3, g4, g5, gl, g6⟩
      · subst e
        have k4 : ∃ heap', (∀ (a : Id) b, heap'[a]? = some b → s.heap[a]? = some b) ∧
            step (Y j) n ord { s with heap := heap' } .gc = ({ s with c := c, heap := heap' }, r) ∧
            Outer c { s.mem with heap := heap' } C.mem := by
          rcases k4 with ⟨acc, rest, old, dead, g1, g0, g2, g3, g4, g5⟩ | ⟨c', r', heap', g1, g⟩
          · cases rest with
            | cons x rest => cases g1
            | nil =>
              obtain ⟨c', r', heap', e, g⟩ := gc_done g1 g0 (by simpa using g2) g3 g4 g5
              cases e
              exact ⟨heap', g⟩
          · cases g1
            exact ⟨heap', g⟩
        obtain ⟨heap', q1, q2, q3⟩ := k4
        refine ⟨E, fun E' hE => ?_⟩
        have q4 := (Alone.isExternal _ _).freeTo (k1 E' (hE.mono k2)) q1
        have e := step_gc_code (Y := Y j) (Y' := (Y j).among K E') rfl n ord { s with heap := heap' }
        have q5 := q4.own n ord .gc rfl (by rw [e, q2]; exact he)
        rw [e, q2] at q5
        have q6 : HeapOk (({ s.mem with heap := heap' } : Shared σ).st c) :=
          ⟨fun a a' b h h' => k3.inj a a' b (q1 a b h) (q1 a' b h'), fun a b h => k3.born a b (q1 a b h)⟩
        exact q3.to (Alone.isExternal _ _) q6 (h2 _) q5
      refine ⟨E, fun E' hE => ?_⟩
      obtain ⟨k1, k2⟩ := g6 E' (hE.mono g3)
      have k3 := opT_solo (cuts_among (Y j) K E') hgc g4 g5
      rw [k2] at k3
      have hw : op.own = true := by cases op <;> first | rfl | cases g4
      have k4 := k1.own n ord op hw (by rw [k3]; exact he)
      rw [k3] at k4
      exact g2.to (Alone.isExternal _ _) g1 (h2 _) k4
    · simp only [Function.update_of_ne hji]; exact h3 j
  | @renew C c i _ hr ih =>
    obtain ⟨h1, h2, h3⟩ := ih
    refine ⟨h1, h2, fun j => ?_⟩
    by_cases hji : j = i
    · subst hji
      simp only [Function.update_self]
      refine ⟨fun _ => [], fun E' _ => ?_⟩
      have h0 := (Alone.new (Y := (Y j).among K E') C.mem.w).external ⟨by simp [St.new], by simp [St.new]⟩ C.mem.w
        (heap' := C.mem.heap) (l := C.mem.born) h1
        (by simp [St.new]) (fun a b hb => .inr ((h2 {}).born a b hb)) (h2 {}).inj (by simp [St.new])
      simp only [St.new, List.append_nil] at h0
      exact h0
    · simp only [Function.update_of_ne hji]; exact h3 j

end

end Daab
