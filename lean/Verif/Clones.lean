import Verif.Props22
import Verif.Threads

/-!
# Clone implementations that are arbitrary code

In `Model` the value of a clone is a function of the artifact (`Sys.clone`), and a `Clone` implementation may besides
act on the world and panic (hooks).  Here `Clone::clone` is any code that has no access to the cache: its
result may depend on the outside world, it may create and drop builders, and panic.  The theorems reduce this to
the model without clones: `get_cloned` is `get_ref` and then own code of the caller.
-/

open Std

namespace Daab

variable {σ : Sig} {Y : Sys σ} {s : St σ}

/-- Code without access to the cache (`Clone::clone(&V) -> V` gets no reference to it). -/
inductive Own (σ : Sig) where
  /-- return the clone -/
  | ret (v : σ.V)
  /-- `panic!()` -/
  | panic
  /-- any effect outside of the cache -/
  | world (f : σ.W → σ.W) (k : σ.W → Own σ)
  /-- create a builder -/
  | alloc (q : Promise σ) (k : Own σ)
  /-- drop the last strong reference to a builder -/
  | free (a : Id) (k : Own σ)

/-- Run such code. -/
def Own.run : Own σ → St σ → St σ × Res σ.V
  | .ret v, s => (s, .val v)
  | .panic, s => (s, .panic .user)
  | .world f k, s => (k s.w).run { s with w := f s.w }
  | .alloc q k, s =>
    match allocB q s with
    | some s => k.run s
    | none => (s, .stuck)
  | .free a k, s => k.run (freeB a s)

/-- The `Clone` implementations of the artifacts. -/
abbrev CloneCode (σ : Sig) := σ.V → Own σ

/-- `internal.rs` 581-595 `get_cloned`, with any `Clone` implementation in line 593. -/
def getClonedK (Y : Sys σ) (K : CloneCode σ) (bld : BuildFn σ) (p : Promise σ) (s : St σ) :
    St σ × Res (Except σ.E σ.V) :=
  match getRef Y bld p s with
  | (s, .val (.ok v)) => ((K v).run s).map id (Res.map .ok)
  | r => r

/-- One of the three getters (`internal.rs` 502-523, 527-549, 581-595). -/
def getByK (Y : Sys σ) (K : CloneCode σ) (bld : BuildFn σ) (how : Access) (p : Promise σ) (s : St σ) :
    St σ × Res (Except σ.E σ.V) :=
  if s.live p then
    match how with
    | .bin => getBin Y bld p s
    | .ref => getRef Y bld p s
    | .cloned => getClonedK Y K bld p s
  else (s, .stuck)

/-- `getAH` with any `Clone` implementations: also `Resolver::resolve_cloned` (`cache.rs` 974-987) ends up
here. -/
def getAK (Y : Sys σ) (K : CloneCode σ) (D : Hooks σ) : Nat → Getter σ
  | 0 => getByK Y K fun _ s => (s, .overflow)
  | n + 1 => getByK Y K (buildH Y D (getAK Y K D n))

/-- `buildNH` likewise. -/
def buildNK (Y : Sys σ) (K : CloneCode σ) (D : Hooks σ) : Nat → BuildFn σ
  | 0 => fun _ s => (s, .overflow)
  | n + 1 => buildH Y D (getAK Y K D n)

/-- `internal.rs` 403-417 `lookup_cloned`, with any `Clone` implementation in line 415. -/
def lookupClonedK (Y : Sys σ) (K : CloneCode σ) (p : Promise σ) (s : St σ) : St σ × Res (Option σ.V) :=
  match lookupRef Y p s.c with
  | .val (some v) => ((K v).run s).map id (Res.map some)
  | r => (s, r)

/-- One operation (`cache.rs` 320-830), with a doctor `D` and any `Clone` implementations. -/
def execK (Y : Sys σ) (K : CloneCode σ) (D : Hooks σ) (n : Nat) (ord : HashOrder) (s : St σ) : Op σ → St σ × Res (Ans σ)
  | .get how p =>
    let r := getAK Y K D n how p s
    (r.1, r.2.map .art)
  | .getMut p f =>
    match getMut Y ord (buildNK Y K D n) p s with
    | (s, .val (.ok v)) =>
      match writeArt Y p f v s.c with
      | some c => ({ s with c := c }, .val (.art (.ok v)))
      | none => (s, .stuck)
    | (s, .val (.error e)) => (s, .val (.art (.error e)))
    | (s, .panic k) => (s, .panic k)
    | (s, .stuck) => (s, .stuck)
    | (s, .overflow) => (s, .overflow)
  | .lookup .cloned p =>
    let r := lookupClonedK Y K p s
    (r.1, r.2.map .optArt)
  | op => execH Y D n ord s op

/-- One operation, the promise being alive. -/
def stepK (Y : Sys σ) (K : CloneCode σ) (D : Hooks σ) (n : Nat) (ord : HashOrder) (s : St σ) (op : Op σ) :
    St σ × Res (Ans σ) :=
  match op.promise? with
  | some p => if s.live p then execK Y K D n ord s op else (s, .stuck)
  | none => execK Y K D n ord s op

/-- The states a program can be in, with any `Clone` implementations. -/
inductive ReachableK (Y : Sys σ) (K : CloneCode σ) : St σ → Prop
  | new (w : σ.W) : ReachableK Y K (St.new w)
  | step {s : St σ} (D : Hooks σ) (n : Nat) (ord : HashOrder) (op : Op σ) :
      ReachableK Y K s → (stepK Y K D n ord s op).2.goesOn → ReachableK Y K (stepK Y K D n ord s op).1

/-! ## The reduction -/

/-- The code of a builder that does the cloning itself. -/
def Own.followed : Own σ → (σ.V → Prog σ) → Prog σ
  | .ret v, k => k v
  | .panic, _ => .panic
  | .world f k', k => .world f fun w => (k' w).followed k
  | .alloc q k', k => .alloc q (k'.followed k)
  | .free a k', k => .free a (k'.followed k)

/-- Builder code in which every `resolve_cloned(q)` is `resolve_ref(q)` followed by the code of the clone. -/
def Prog.cloning (K : CloneCode σ) : Prog σ → Prog σ
  | .ret r => .ret r
  | .panic => .panic
  | .resolve how q k =>
    match how with
    | .cloned => .resolve .ref q fun r =>
      match r with
      | .ok v => (K v).followed fun v' => (k (.ok v')).cloning K
      | .error e => (k (.error e)).cloning K
    | how => .resolve how q fun r => (k r).cloning K
  | .myState f k => .myState f fun d => (k d).cloning K
  | .world f k => .world f fun w => (k w).cloning K
  | .alloc q k => .alloc q (k.cloning K)
  | .free a k => .free a (k.cloning K)

/-- The builders that clone for themselves. -/
def Sys.cloning (K : CloneCode σ) (Y : Sys σ) : Sys σ := { Y with code := fun b => (Y.code b).cloning K }

theorem Own.run_steps (o : Own σ) (s : St σ) : OwnSteps s (o.run s).1 := by
  induction o generalizing s with
  | ret v => exact .refl s
  | panic => exact .refl s
  | world f k ih => exact .world f (ih _ _)
  | alloc q k ih =>
    simp only [Own.run]
    cases ha : allocB q s with
    | none => exact .refl s
    | some s' => exact .alloc q ha (ih s')
  | free a k ih => exact .free a (ih _)

theorem runProgH_followed (D : Hooks σ) (g : Getter σ) (p : Promise σ) (o : Own σ) (k : σ.V → Prog σ) (s : St σ) :
    runProgH Y D g p (o.followed k) s =
      match o.run s with
      | (s, .val v) => runProgH Y D g p (k v) s
      | (s, .panic pk) => (s, .panic pk)
      | (s, .stuck) => (s, .stuck)
      | (s, .overflow) => (s, .overflow) := by
  induction o generalizing s with
  | ret v => rfl
  | panic => rfl
  | world f k' ih => exact ih _ _
  | alloc q k' ih =>
    simp only [Own.followed, runProgH, Own.run]
    cases ha : allocB q s with
    | none => rfl
    | some s' => exact ih _
  | free a k' ih => exact ih _

/-- What `get_cloned` is, given `get_ref`. -/
def thenClone (K : CloneCode σ) (x : St σ × Res (Except σ.E σ.V)) : St σ × Res (Except σ.E σ.V) :=
  match x with
  | (s, .val (.ok v)) => ((K v).run s).map id (Res.map .ok)
  | r => r

theorem thenClone_stuck (K : CloneCode σ) (s : St σ) : thenClone K (s, .stuck) = (s, .stuck) := rfl

theorem runProgH_cloning (K : CloneCode σ) (D : Hooks σ) {g g' : Getter σ} (hb : ∀ q s, g .bin q s = g' .bin q s)
    (hr : ∀ q s, g .ref q s = g' .ref q s) (hc : ∀ q s, g .cloned q s = thenClone K (g' .ref q s))
    (p : Promise σ) (prog : Prog σ) (s : St σ) :
    runProgH Y D g p prog s = runProgH (Y.cloning K) D g' p (prog.cloning K) s := by
  induction prog generalizing s with
  | ret r => cases r <;> rfl
  | panic => rfl
  | resolve how q k ih =>
    cases hl : s.live q with
    | false => cases how <;> simp only [Prog.cloning, runProgH, hl] <;> rfl
    | true =>
      have ht : track (Y.cloning K) p q s.c = track Y p q s.c := rfl
      cases how with
      | bin =>
        simp only [Prog.cloning, runProgH, hl, if_true, ht]
        generalize track Y p q s.c = t
        obtain ⟨c, _ | pk⟩ := t
        · simp only
          congr 1
          funext s1
          rw [hb]
          generalize g' .bin q s1 = x
          obtain ⟨s2, r⟩ := x
          cases r <;> simp only [ih]
        · rfl
      | ref =>
        simp only [Prog.cloning, runProgH, hl, if_true, ht]
        generalize track Y p q s.c = t
        obtain ⟨c, _ | pk⟩ := t
        · simp only
          congr 1
          funext s1
          rw [hr]
          generalize g' .ref q s1 = x
          obtain ⟨s2, r⟩ := x
          cases r <;> simp only [ih]
        · rfl
      | cloned =>
        simp only [Prog.cloning, runProgH, hl, if_true, ht]
        generalize track Y p q s.c = t
        obtain ⟨c, _ | pk⟩ := t
        · simp only
          congr 1
          funext s1
          rw [hc]
          generalize g' .ref q s1 = x
          obtain ⟨s2, r⟩ := x
          rcases r with (e | v) | _ | _ | _
          · exact ih _ _
          · simp only [thenClone, runProgH_followed]
            generalize (K v).run s2 = y
            obtain ⟨s3, r3⟩ := y
            cases r3 with
            | val v' => exact ih _ _
            | panic pk => rfl
            | stuck => rfl
            | overflow => rfl
          · rfl
          · rfl
          · rfl
        · rfl
  | myState f k ih =>
    simp only [Prog.cloning, runProgH]
    have : myState (Y.cloning K) p f s = myState Y p f s := rfl
    rw [this]
    generalize myState Y p f s = x
    obtain ⟨s1, r⟩ := x
    cases r <;> simp only [ih]
  | world f k ih => exact ih _ _
  | alloc q k ih =>
    simp only [Prog.cloning, runProgH]
    cases allocB q s with
    | none => rfl
    | some s' => exact ih _
  | free a k ih => exact ih _

theorem buildH_cloning (K : CloneCode σ) (D : Hooks σ) {g g' : Getter σ} (hb : ∀ q s, g .bin q s = g' .bin q s)
    (hr : ∀ q s, g .ref q s = g' .ref q s) (hc : ∀ q s, g .cloned q s = thenClone K (g' .ref q s)) :
    buildH Y D g = buildH (Y.cloning K) D g' := by
  funext p s
  have he : ∀ s, ensureDyn (Y.cloning K) p s = ensureDyn Y p s := fun _ => rfl
  have hd : (Y.cloning K).debug = Y.debug := rfl
  have hcode : (Y.cloning K).code p.b = (Y.code p.b).cloning K := rfl
  unfold buildH
  simp only [he, hd, hcode]
  simp only [runProgH_cloning (Y := Y) K D hb hr hc]

theorem getAK_eq (K : CloneCode σ) (D : Hooks σ) (n : Nat) :
    (∀ q s, getAK Y K D n .bin q s = getAH (Y.cloning K) D n .bin q s) ∧
    (∀ q s, getAK Y K D n .ref q s = getAH (Y.cloning K) D n .ref q s) ∧
    (∀ q s, getAK Y K D n .cloned q s = thenClone K (getAH (Y.cloning K) D n .ref q s)) ∧
    buildNK Y K D n = buildNH (Y.cloning K) D n := by
  have key : ∀ bld, (∀ q s, getByK Y K bld .bin q s = getByH (Y.cloning K) D bld .bin q s) ∧
      (∀ q s, getByK Y K bld .ref q s = getByH (Y.cloning K) D bld .ref q s) ∧
      ∀ q s, getByK Y K bld .cloned q s = thenClone K (getByH (Y.cloning K) D bld .ref q s) := by
    intro bld
    refine ⟨fun _ _ => rfl, fun _ _ => rfl, ?_⟩
    intro q s
    simp only [getByK, getByH]
    split
    · rfl
    · rfl
  induction n with
  | zero => exact ⟨(key _).1, (key _).2.1, (key _).2.2, rfl⟩
  | succ n ih =>
    obtain ⟨h1, h2, h3, _⟩ := ih
    have e := buildH_cloning (Y := Y) K D h1 h2 h3
    refine ⟨?_, ?_, ?_, e⟩
    · intro q s; simp only [getAK, getAH, e]; exact (key _).1 q s
    · intro q s; simp only [getAK, getAH, e]; exact (key _).2.1 q s
    · intro q s; simp only [getAK, getAH, e]; exact (key _).2.2 q s

/-- The operations that clone. -/
def Op.clones : Op σ → Prop
  | .get .cloned _ => True
  | .lookup .cloned _ => True
  | _ => False

/-- What happens to the answer of a `get_ref`, `lookup_ref` in the respective operation with `_cloned`. -/
def thenCloneAns (K : CloneCode σ) (x : St σ × Res (Ans σ)) : St σ × Res (Ans σ) :=
  match x with
  | (s, .val (.art (.ok v))) => ((K v).run s).map id (Res.map fun v' => .art (.ok v'))
  | (s, .val (.optArt (some v))) => ((K v).run s).map id (Res.map fun v' => .optArt (some v'))
  | r => r

theorem collectEach_code {Y' : Sys σ} (e : Y'.debug = Y.debug) (ord : HashOrder) (l : List Id) (c : Cache σ) :
    collectEach Y' ord l c = collectEach Y ord l c := by
  induction l generalizing c with
  | nil => rfl
  | cons x l ih => simp only [collectEach, invalidateById, invLoop_code e, ih]

theorem execH_shallow_code {Y' : Sys σ} (hY : Y' = { Y with code := Y'.code }) (D : Hooks σ) (n : Nat) (ord : HashOrder)
    (s : St σ) (op : Op σ) (hop : ∀ how p, op ≠ .get how p) (hop' : ∀ p f, op ≠ .getMut p f) :
    execH Y' D n ord s op = execH Y D n ord s op := by
  have e : Y'.debug = Y.debug := by rw [hY]
  have e1 : Y'.artTy = Y.artTy := by rw [hY]
  have e2 : Y'.vty = Y.vty := by rw [hY]
  have e3 : Y'.stTy = Y.stTy := by rw [hY]
  have e4 : Y'.sty = Y.sty := by rw [hY]
  have e5 : Y'.init = Y.init := by rw [hY]
  have e6 : Y'.clone = Y.clone := by rw [hY]
  have ei : ∀ p c, invalidate Y' ord p c = invalidate Y ord p c := by
    intro p c; simp only [invalidate, invalidateById, invLoop_code e]
  have ep : ∀ p c, purge Y' ord p c = purge Y ord p c := by
    intro p c; simp only [purge, invalidateById, invLoop_code e]
  have ee : ∀ p s, ensureDyn Y' p s = ensureDyn Y p s := by
    intro p s; simp only [ensureDyn, e3, e4, e5]
  cases op with
  | get how p => exact absurd rfl (hop how p)
  | getMut p f => exact absurd rfl (hop' p f)
  | lookup how p => cases how <;> simp only [execH, lookupByH, lookup, lookupRef, e, e1, e2, e6]
  | lookupMut p f => simp only [execH, exec, lookupMut_code e e1 e2, writeArt, e1, e2]
  | dynState p => simp only [execH, exec, ee]
  | getDynState p => simp only [execH, exec, getDynState, e, e3, e4]
  | dynStateMut p f => simp only [execH, dynStateMutH, ei, ee, e3, e4]
  | invalidate p => simp only [execH, ei]
  | purge p => simp only [execH, ep]
  | gc => simp only [execH, exec, garbageCollection, e, collectEach_code e]
  | _ => rfl

/-- **C59** `Clone` implementations may be any code, with results that depend on anything outside of the cache:
an operation does what it does when the builders do their cloning themselves after a `resolve_ref`; and `get_cloned` and
`lookup_cloned` are `get_ref` and `lookup_ref`, followed by the code of the clone of the artifact answered. -/
theorem C59_any_clone (K : CloneCode σ) (D : Hooks σ) (n : Nat) (ord : HashOrder) (s : St σ) :
    (∀ op : Op σ, ¬ op.clones → stepK Y K D n ord s op = stepH (Y.cloning K) D n ord s op) ∧
    (∀ p, stepK Y K D n ord s (.get .cloned p) = thenCloneAns K (stepH (Y.cloning K) D n ord s (.get .ref p))) ∧
    ∀ p, stepK Y K D n ord s (.lookup .cloned p) = thenCloneAns K (stepH (Y.cloning K) D n ord s (.lookup .ref p)) := by
  obtain ⟨h1, h2, h3, h4⟩ := getAK_eq (Y := Y) K D n
  refine ⟨?_, ?_, ?_⟩
  · intro op hop
    have : execK Y K D n ord s op = execH (Y.cloning K) D n ord s op := by
      cases op with
      | get how p =>
        cases how with
        | bin => simp only [execK, execH, h1]
        | ref => simp only [execK, execH, h2]
        | cloned => exact absurd trivial hop
      | getMut p f =>
        have e1 : ∀ c, lookupMut (Y.cloning K) ord p c = lookupMut Y ord p c := lookupMut_code (Y := Y) (Y' := Y.cloning K) rfl rfl rfl ord p
        have e2 : getMut (Y.cloning K) ord (buildNH (Y.cloning K) D n) p s = getMut Y ord (buildNH (Y.cloning K) D n) p s := by
          simp only [getMut, e1]
          rfl
        simp only [execK, execH, h4, e2]
        rfl
      | lookup how p =>
        cases how with
        | bin => rfl
        | ref => rfl
        | cloned => exact absurd trivial hop
      | _ =>
        rw [execH_shallow_code (Y := Y) (Y' := Y.cloning K) rfl D n ord s]
        · rfl
        · exact fun _ _ => nofun
        · exact fun _ _ => nofun
    unfold stepK stepH
    rw [this]
    cases op.promise? <;> rfl
  · intro p
    simp only [stepK, stepH, Op.promise?]
    cases s.live p with
    | false => rfl
    | true =>
      simp only [if_true, execK, execH, h3]
      generalize getAH (Y.cloning K) D n .ref p s = x
      obtain ⟨s1, r⟩ := x
      rcases r with (e | v) | _ | _ | _
      · rfl
      · simp only [thenClone, Res.map, thenCloneAns]
        generalize (K v).run s1 = y
        obtain ⟨s2, r⟩ := y
        cases r <;> rfl
      · rfl
      · rfl
      · rfl
  · intro p
    simp only [stepK, stepH, Op.promise?]
    cases s.live p with
    | false => rfl
    | true =>
      have e : lookupRef (Y.cloning K) p s.c = lookupRef Y p s.c := rfl
      simp only [if_true, execK, execH, lookupClonedK, lookupByH, e]
      generalize lookupRef Y p s.c = r
      rcases r with (_ | v) | _ | _ | _
      · rfl
      · simp only [Res.map, thenCloneAns]
        generalize (K v).run s = y
        obtain ⟨s2, r⟩ := y
        cases r <;> rfl
      · rfl
      · rfl
      · rfl

theorem thenCloneAns_cases (K : CloneCode σ) (x : St σ × Res (Ans σ)) :
    OwnSteps x.1 (thenCloneAns K x).1 ∧ ((thenCloneAns K x).2.goesOn → x.2.goesOn) := by
  obtain ⟨s, r⟩ := x
  unfold thenCloneAns
  split
  · next v heq => cases heq; exact ⟨(K v).run_steps _, fun _ => trivial⟩
  · next v heq => cases heq; exact ⟨(K v).run_steps _, fun _ => trivial⟩
  · exact ⟨.refl _, id⟩

/-- **C59** So the states a program can reach with any `Clone` implementations are states that can be reached without
them, and everything proved about reachable states holds for these. -/
theorem C59_any_clone_reachable {K : CloneCode σ} (h : ReachableK Y K s) : Reachable (Y.cloning K) s := by
  induction h with
  | new w => exact .new w
  | @step s D n ord op _ hg ih =>
    obtain ⟨h1, h2, h3⟩ := C59_any_clone (Y := Y) K D n ord s
    by_cases hop : op.clones
    · obtain ⟨p, rfl | rfl⟩ : ∃ p, op = .get .cloned p ∨ op = .lookup .cloned p := by
        cases op with
        | get how p => cases how <;> first | exact ⟨p, .inl rfl⟩ | exact hop.elim
        | lookup how p => cases how <;> first | exact ⟨p, .inr rfl⟩ | exact hop.elim
        | _ => exact hop.elim
      · rw [h2] at hg ⊢
        obtain ⟨c1, c2⟩ := thenCloneAns_cases K (stepH (Y.cloning K) D n ord s (.get .ref p))
        exact c1.reachable (.hooked D n ord _ ih (c2 hg))
      · rw [h3] at hg ⊢
        obtain ⟨c1, c2⟩ := thenCloneAns_cases K (stepH (Y.cloning K) D n ord s (.lookup .ref p))
        exact c1.reachable (.hooked D n ord _ ih (c2 hg))
    · rw [h1 op hop] at hg ⊢
      exact .hooked D n ord op ih hg

/-- **C59** A `get_cloned` or `lookup_cloned` that finds an artifact clones that artifact and leaves the cache as it is,
whatever the clone does, returns, or whether it panics. -/
theorem C59_any_clone_hit {K : CloneCode σ} (h : ReachableK Y K s) {p : Promise σ} {v : σ.V} (hl : s.live p = true)
    (hc : Cached s p.id v) (D : Hooks σ) (n : Nat) (ord : HashOrder) :
    (stepK Y K D n ord s (.get .cloned p) = ((K v).run s).map id (Res.map fun v' => .art (.ok v'))) ∧
    (stepK Y K D n ord s (.lookup .cloned p) = ((K v).run s).map id (Res.map fun v' => .optArt (some v'))) ∧
    (stepK Y K D n ord s (.get .cloned p)).1.c = s.c ∧ (stepK Y K D n ord s (.lookup .cloned p)).1.c = s.c := by
  obtain ⟨_, h2, h3⟩ := C59_any_clone (Y := Y) K D n ord s
  have hr := C59_any_clone_reachable h
  have hlk : lookupRef (Y.cloning K) p s.c = .val (some v) := by
    have := lookupBy_eq hr.inv .ref hl
    simp only [lookupBy] at this
    rw [this, show s.c.artifacts[p.id]? = some v from hc]
    rfl
  have e1 : stepH (Y.cloning K) D n ord s (.get .ref p) = (s, .val (.art (.ok v))) := by
    have : getAH (Y.cloning K) D n .ref p s = (s, .val (.ok v)) := by
      cases n <;> simp only [getAH, getByH, hl, if_true, getRef, hlk]
    simp only [stepH, Op.promise?, hl, if_true, execH, this, Res.map]
  have e2 : stepH (Y.cloning K) D n ord s (.lookup .ref p) = (s, .val (.optArt (some v))) := by
    simp only [stepH, Op.promise?, hl, if_true, execH, lookupByH, hlk, Res.map]
  rw [h2, h3, e1, e2]
  exact ⟨rfl, rfl, ((K v).run_steps s).cache, ((K v).run_steps s).cache⟩

namespace Demo

/-- A clone that returns the artifact plus the number of clones made so far, and panics in the third. -/
def counting : CloneCode sig := fun v => .world (· + 1) fun w => if w = 2 then .panic else .ret (v + w)

set_option smartUnfolding false in
/-- Builder 2 resolves 1 by reference and 0 cloned: 105 + (5 + 0); the next two clones of it are 110 + 1, and a panic; the
artifact stays. -/
example :
    let s := runOps Demo.Y 9 ord (allocs ++ [.dynStateMut (P 0) (fun _ => 5)]) (St.new (0 : Nat))
    let x1 := stepK Demo.Y counting (fun w _ => (w, false)) 9 ord s (.get .cloned (P 2))
    x1.2 = .val (.art (.ok (111 : Nat))) ∧
    let x2 := stepK Demo.Y counting (fun w _ => (w, false)) 9 ord x1.1 (.lookup .cloned (P 2))
    x2.2 = .panic .user ∧ Cached x2.1 12 (110 : Nat) := ⟨rfl, rfl, rfl⟩

/-- A history with quiet doctor. -/
def runK : List (Op sig) → St sig → St sig
  | [], s => s
  | op :: ops, s => runK ops (stepK Demo.Y counting (fun w _ => (w, false)) 9 ord s op).1

/-- It goes on. -/
def goOnK : List (Op sig) → St sig → Bool
  | [], _ => true
  | op :: ops, s => decide (stepK Demo.Y counting (fun w _ => (w, false)) 9 ord s op).2.goesOn &&
      goOnK ops (stepK Demo.Y counting (fun w _ => (w, false)) 9 ord s op).1

theorem reachK (ops : List (Op sig)) {s : St sig} (h : ReachableK Demo.Y counting s) (hg : goOnK ops s = true) :
    ReachableK Demo.Y counting (runK ops s) := by
  induction ops generalizing s with
  | nil => exact h
  | cons op ops ih =>
    simp only [goOnK, Bool.and_eq_true, decide_eq_true_eq] at hg
    exact ih (.step _ 9 ord op h hg.1) hg.2

set_option smartUnfolding false in
/-- The hypotheses of `C59_any_clone_hit` are met. -/
example : let s := runK (allocs ++ [.get .cloned (P 2)]) (St.new (0 : Nat))
    ReachableK Demo.Y counting s ∧ s.live (P 2) = true ∧ Cached s 12 (100 : Nat) :=
  ⟨reachK _ (.new _) rfl, rfl, rfl⟩

set_option smartUnfolding false in
/-- `C59_any_clone_reachable`. -/
example : Reachable (Demo.Y.cloning counting) (runK (allocs ++ [.get .cloned (P 2)]) (St.new (0 : Nat))) :=
  C59_any_clone_reachable (reachK _ (.new _) rfl)

/-- `C59_any_clone`. -/
example := (C59_any_clone (Y := Demo.Y) counting (fun w _ => (w, false)) 9 ord s1).2.1 (P 2)

end Demo
end Daab
