import Verif.Props4
import Verif.Props5
import Verif.Own

/-!
# Destructors

A cache that removes an artifact or a dynamic state drops it (unless it shares an `Rc`/`Arc` of it with others), so the
destructor of the user's type runs in the middle of `invalidate`, `purge`, `clear_artifacts`, `clear_all`,
`garbage_collection`, `dyn_state_mut`, `lookup_mut` and `get_mut`.  `Model` treats these as code that does nothing; here they may act on the outside world and panic
(`stepD`, `stepM`), also together with doctors, `Debug` and `Clone` that do so (`stepDH`, `stepMH`).
-/

open Std

namespace Daab

variable {σ : Sig} {Y : Sys σ} {s s' : St σ}

/-! ## Model -/

/-- What the destructor of an artifact or dynamic state, dropped by the cache, does to the outside world and to the builders,
and whether it panics.  (If others share the value, dropping it does nothing; who shares it is part of the outside world
here.  A destructor does not see the cache: it is an argument because of the allocator, see `Destructors.Proper`.) -/
abbrev Destructors (σ : Sig) := Cache σ → Shared σ → σ.V ⊕ σ.S → Shared σ × Bool

/-- What any code can do: act on the outside world, create and drop builders, where no builder gets an address that is still
in use (also by a `Weak` of the cache, see `allocB`). -/
def Destructors.Proper (D : Destructors σ) : Prop := ∀ c m x, OwnSteps (m.st c) ((D c m x).1.st c)

/-- Destructors that only act on the outside world. -/
def Destructors.plain (f : σ.W → σ.V ⊕ σ.S → σ.W × Bool) : Destructors σ := fun _ m x =>
  ({ m with w := (f m.w x).1 }, (f m.w x).2)

theorem Destructors.plain_proper (f : σ.W → σ.V ⊕ σ.S → σ.W × Bool) : (Destructors.plain f).Proper :=
  fun _ m x => .world (fun _ => (f m.w x).1) (.refl _)

/-- They do not panic. -/
def Destructors.Quiet (D : Destructors σ) : Prop := ∀ c m x, (D c m x).2 = false

/-- They do not drop the builder `p` (a caller that uses it holds it). -/
def Destructors.Spares (D : Destructors σ) (p : Promise σ) : Prop :=
  ∀ c m x, m.heap[p.id]? = some p.b → (D c m x).1.heap[p.id]? = some p.b

/-- Drop what a map's `remove` returned. -/
def dropOpt (D : Destructors σ) (c : Cache σ) (m : Shared σ) : Option (σ.V ⊕ σ.S) → Shared σ × Bool
  | none => (m, false)
  | some x => D c m x

/-- Drop the contents of a map (std `HashMap::clear`), until one panics. -/
def dropEach (D : Destructors σ) (c : Cache σ) (m : Shared σ) : List (σ.V ⊕ σ.S) → Shared σ × Bool
  | [] => (m, false)
  | x :: l =>
    match D c m x with
    | (m, true) => (m, true)
    | (m, false) => dropEach D c m l

/-- `internal.rs` 801-843: the loop of `invalidate_by_id`, with the artifact removed in line 841 being dropped there. -/
def invLoopD (Y : Sys σ) (D : Destructors σ) (ord : HashOrder) (root : Id) :
    Nat → IdSet → List Id → Cache σ → Shared σ → Cache σ × Shared σ × LoopEnd
  | _, _, [], c, m => (c, m, .done)
  | 0, _, _ :: _, c, m => (c, m, .outOfFuel)
  | n + 1, processed, bid :: pending, c, m =>
    let processed := processed.insert bid
    let r := popDependents ord ⟨0, root, n⟩ bid pending c
    let q := popDependencies Y ord ⟨1, root, n⟩ processed bid r.2
    match q with
    | (c, .done) =>
      let c := { c with leafs := c.leafs.insert bid }
      let v := c.artifacts[bid]?
      let c := { c with artifacts := c.artifacts.erase bid }
      match dropOpt D c m (v.map .inl) with
      | (m, true) => (c, m, .panic .user)
      | (m, false) => invLoopD Y D ord root n processed r.1 c m
    | (c, e) => (c, m, e)

/-- `internal.rs` 789-845 `invalidate_by_id`. -/
def invalidateByIdD (Y : Sys σ) (D : Destructors σ) (ord : HashOrder) (a : Id) (c : Cache σ) (m : Shared σ) :
    Cache σ × Shared σ × LoopEnd :=
  invLoopD Y D ord a (edgeCount c.dependents + 1) ((∅ : IdSet).insert a) [a] c m

/-- `internal.rs` 864-879 `invalidate`. -/
def invalidateD (Y : Sys σ) (D : Destructors σ) (ord : HashOrder) (p : Promise σ) (c : Cache σ) (m : Shared σ) :
    Cache σ × Shared σ × LoopEnd :=
  match invalidateByIdD Y D ord p.id c m with
  | (c, m, .done) => (c.emit (.invalidate p), m, .done)
  | r => r

/-- `internal.rs` 733-757 `purge`: drops the artifact in line 748, the dynamic state in line 749. -/
def purgeD (Y : Sys σ) (D : Destructors σ) (ord : HashOrder) (p : Promise σ) (c : Cache σ) (m : Shared σ) :
    Cache σ × Shared σ × LoopEnd :=
  let c := { c with known := c.known.erase p.id }
  let v := c.artifacts[p.id]?
  let c := { c with artifacts := c.artifacts.erase p.id }
  match dropOpt D c m (v.map .inl) with
  | (m, true) => (c, m, .panic .user)
  | (m, false) =>
    let d := c.dynStates[p.id]?
    let c := { c with dynStates := c.dynStates.erase p.id }.emit (.purged p)
    match dropOpt D c m (d.map .inr) with
    | (m, true) => (c, m, .panic .user)
    | (m, false) =>
      match invalidateByIdD Y D ord p.id c m with
      | (c, m, .done) => (c.emit (.invalidate p), m, .done)
      | r => r

/-- `internal.rs` 761-769 `clear_artifacts`; `HashMap::clear` leaves the map empty even if a destructor panics. -/
def clearArtifactsD (D : Destructors σ) (ord : HashOrder) (c : Cache σ) (m : Shared σ) : Cache σ × Shared σ × LoopEnd :=
  match dropEach D { c with artifacts := ∅ } m (((ord.f ⟨4, 0, 0⟩ c.artifacts.keys).filterMap (c.artifacts[·]?)).map .inl) with
  | (m, true) => ({ c with artifacts := ∅ }, m, .panic .user)
  | (m, false) => (clearArtifacts c, m, .done)

/-- `internal.rs` 774-784 `clear_all`. -/
def clearAllD (D : Destructors σ) (ord : HashOrder) (c : Cache σ) (m : Shared σ) : Cache σ × Shared σ × LoopEnd :=
  match dropEach D { c with artifacts := ∅ } m (((ord.f ⟨4, 0, 0⟩ c.artifacts.keys).filterMap (c.artifacts[·]?)).map .inl) with
  | (m, true) => ({ c with artifacts := ∅ }, m, .panic .user)
  | (m, false) =>
    match dropEach D { c with artifacts := ∅, dynStates := ∅ } m (((ord.f ⟨5, 0, 0⟩ c.dynStates.keys).filterMap (c.dynStates[·]?)).map .inr) with
    | (m, true) => ({ c with artifacts := ∅, dynStates := ∅ }, m, .panic .user)
    | (m, false) => (clearAll c, m, .done)

/-- `internal.rs` 905-910: the loop of the garbage collection; the dynamic state is dropped in line 907. -/
def collectEachD (Y : Sys σ) (D : Destructors σ) (ord : HashOrder) : List Id → Cache σ → Shared σ → Cache σ × Shared σ × LoopEnd
  | [], c, m => (c, m, .done)
  | a :: rest, c, m =>
    match invalidateByIdD Y D ord a c m with
    | (c, m, .done) =>
      let d := c.dynStates[a]?
      let c := { c with dynStates := c.dynStates.erase a }
      match dropOpt D c m (d.map .inr) with
      | (m, true) => (c, m, .panic .user)
      | (m, false) =>
        collectEachD Y D ord rest
          ({ c with known := c.known.erase a, leafs := c.leafs.erase a }.emit (.collect a)) m
    | r => r

/-- `internal.rs` 884-911 `garbage_collection`. -/
def garbageCollectionD (Y : Sys σ) (D : Destructors σ) (ord : HashOrder) (s : St σ) : Cache σ × Shared σ × LoopEnd :=
  if Y.debug && !gcAssertion s.c then (s.c, s.mem, .panic .gcAssert) else
  match selectDead s (ord.f ⟨3, 0, 0⟩ s.c.leafs.toList) with
  | none => (s.c, s.mem, .panic .leafUnknown)
  | some l => collectEachD Y D ord l s.c s.mem

/-- The operations that only remove things. -/
inductive Removal (σ : Sig) where
  | invalidate (p : Promise σ)
  | purge (p : Promise σ)
  | clearArtifacts
  | clearAll
  | gc

/-- As operations of the interface. -/
def Removal.op : Removal σ → Op σ
  | .invalidate p => .invalidate p
  | .purge p => .purge p
  | .clearArtifacts => .clearArtifacts
  | .clearAll => .clearAll
  | .gc => .gc

/-- A removal, with destructors. -/
def stepD (Y : Sys σ) (D : Destructors σ) (ord : HashOrder) (s : St σ) (op : Removal σ) : St σ × Res (Ans σ) :=
  if (match op.op.promise? with | some p => s.live p | none => true) then
    let x := match op with
      | .invalidate p => invalidateD Y D ord p s.c s.mem
      | .purge p => purgeD Y D ord p s.c s.mem
      | .clearArtifacts => clearArtifactsD D ord s.c s.mem
      | .clearAll => clearAllD D ord s.c s.mem
      | .gc => garbageCollectionD Y D ord s
    (x.2.1.st x.1, x.2.2.res .unit)
  else (s, .stuck)

/-- `internal.rs` 852-854: the loop of `invalidate_dependents`, with destructors. -/
def invEachD (Y : Sys σ) (D : Destructors σ) (ord : HashOrder) : List Id → Cache σ → Shared σ → Cache σ × Shared σ × LoopEnd
  | [], c, m => (c, m, .done)
  | a :: rest, c, m =>
    match invalidateByIdD Y D ord a c m with
    | (c, m, .done) => invEachD Y D ord rest c m
    | r => r

/-- `internal.rs` 850-859 `invalidate_dependents`. -/
def invalidateDependentsD (Y : Sys σ) (D : Destructors σ) (ord : HashOrder) (a : Id) (c : Cache σ) (m : Shared σ) :
    Cache σ × Shared σ × LoopEnd :=
  let r :=
    match c.dependents[a]? with
    | some set => invEachD Y D ord (ord.f ⟨2, a, 0⟩ set.toList) { c with dependents := c.dependents.erase a } m
    | none => (c, m, .done)
  match r with
  | (c, m, .done) => ({ c with leafs := c.leafs.insert a }.emit (.mutDeps a), m, .done)
  | r => r

/-- `internal.rs` 367-399 `lookup_mut` (without the caller's write). -/
def lookupMutD (Y : Sys σ) (D : Destructors σ) (ord : HashOrder) (p : Promise σ) (c : Cache σ) (m : Shared σ) :
    Cache σ × Shared σ × Res (Option σ.V) :=
  match invalidateDependentsD Y D ord p.id c m with
  | (c, m, .done) =>
    if Y.debug && !(!containsArtifact p.id c || isKnown p.id c) then (c, m, .panic .artUnknown)
    else
      match c.artifacts[p.id]? with
      | none => (c, m, .val none)
      | some v => (c, m, if Y.artTy v = Y.vty p.b then .val (some v) else .panic .badArt)
  | (c, m, .panic k) => (c, m, .panic k)
  | (c, m, .outOfFuel) => (c, m, .overflow)

/-- `internal.rs` 555-577 `get_mut` (with its second lookup, line 565; without the write). -/
def getMutD (Y : Sys σ) (D : Destructors σ) (ord : HashOrder) (bld : BuildFn σ) (p : Promise σ) (s : St σ) :
    St σ × Res (Except σ.E σ.V) :=
  match lookupMutD Y D ord p s.c s.mem with
  | (c, m, .val (some _)) =>
    match lookupMutD Y D ord p c m with
    | (c, m, .val (some v)) => (m.st c, .val (.ok v))
    | (c, m, .val none) => (m.st c, .panic .secondLookup)
    | (c, m, .panic k) => (m.st c, .panic k)
    | (c, m, .stuck) => (m.st c, .stuck)
    | (c, m, .overflow) => (m.st c, .overflow)
  | (c, m, .val none) => fresh Y p (bld p (m.st c))
  | (c, m, .panic k) => (m.st c, .panic k)
  | (c, m, .stuck) => (m.st c, .stuck)
  | (c, m, .overflow) => (m.st c, .overflow)

/-- `internal.rs` 683-699 `dyn_state_mut`, with the caller's write `f`. -/
def dynStateMutD (Y : Sys σ) (D : Destructors σ) (ord : HashOrder) (p : Promise σ) (f : σ.S → σ.S) (s : St σ) :
    St σ × Res σ.S :=
  match invalidateD Y D ord p s.c s.mem with
  | (c, m, .done) =>
    match ensureDyn Y p (m.st c) with
    | (s, .val d) =>
      if Y.stTy (f d) = Y.sty p.b then
        (s.onCache fun c => { c with dynStates := c.dynStates.insert p.id (f d) }.emit (.setDyn p (f d)), .val d)
      else (s, .stuck)
    | r => r
  | (c, m, .panic k) => (m.st c, .panic k)
  | (c, m, .outOfFuel) => (m.st c, .overflow)

/-- The operations that hand out mutable references, and for that invalidate something first. -/
inductive Mutation (σ : Sig) where
  | lookupMut (p : Promise σ) (f : σ.V → σ.V)
  | getMut (p : Promise σ) (f : σ.V → σ.V)
  | dynStateMut (p : Promise σ) (f : σ.S → σ.S)

/-- As operations of the interface. -/
def Mutation.op : Mutation σ → Op σ
  | .lookupMut p f => .lookupMut p f
  | .getMut p f => .getMut p f
  | .dynStateMut p f => .dynStateMut p f

/-- Whose artifact or state is accessed. -/
def Mutation.promise : Mutation σ → Promise σ
  | .lookupMut p _ => p
  | .getMut p _ => p
  | .dynStateMut p _ => p

/-- A mutable access, with destructors (of the artifacts invalidated; those that the caller's write replaces are dropped by
the caller). -/
def stepM (Y : Sys σ) (D : Destructors σ) (n : Nat) (ord : HashOrder) (s : St σ) (op : Mutation σ) : St σ × Res (Ans σ) :=
  if s.live op.promise then
    match op with
    | .lookupMut p f =>
      match lookupMutD Y D ord p s.c s.mem with
      | (c, m, .val (some v)) =>
        match writeArt Y p f v c with
        | some c => (m.st c, .val (.optArt (some v)))
        | none => (m.st c, .stuck)
      | (c, m, .val none) => (m.st c, .val (.optArt none))
      | (c, m, .panic k) => (m.st c, .panic k)
      | (c, m, .stuck) => (m.st c, .stuck)
      | (c, m, .overflow) => (m.st c, .overflow)
    | .getMut p f =>
      match getMutD Y D ord (buildN Y n) p s with
      | (s, .val (.ok v)) =>
        match writeArt Y p f v s.c with
        | some c => ({ s with c := c }, .val (.art (.ok v)))
        | none => (s, .stuck)
      | (s, .val (.error e)) => (s, .val (.art (.error e)))
      | (s, .panic k) => (s, .panic k)
      | (s, .stuck) => (s, .stuck)
      | (s, .overflow) => (s, .overflow)
    | .dynStateMut p f =>
      let r := dynStateMutD Y D ord p f s
      (r.1, r.2.map .state)
  else (s, .stuck)

/-- What the doctor is told at the end of a removal (`internal.rs` 756, 783, 878; `clear_artifacts` and the garbage collection
do not tell it). -/
def Removal.report : Removal σ → Option (Event σ)
  | .invalidate p => some (.invalidate p)
  | .purge p => some (.invalidate p)
  | .clearAll => some .clear
  | .clearArtifacts => none
  | .gc => none

/-- A removal, with destructors and hooks. -/
def stepDH (Y : Sys σ) (D : Destructors σ) (H : Hooks σ) (ord : HashOrder) (s : St σ) (op : Removal σ) : St σ × Res (Ans σ) :=
  match stepD Y D ord s op with
  | (s, .val a) =>
    match op.report with
    | some e => callHook H (.report e) s fun s => (s, .val a)
    | none => (s, .val a)
  | r => r

/-- `dyn_state_mut`, with destructors and hooks. -/
def dynStateMutDH (Y : Sys σ) (D : Destructors σ) (H : Hooks σ) (ord : HashOrder) (p : Promise σ) (f : σ.S → σ.S) (s : St σ) :
    St σ × Res σ.S :=
  match invalidateD Y D ord p s.c s.mem with
  | (c, m, .done) =>
    callHook H (.report (.invalidate p)) (m.st c) fun s =>
      match ensureDyn Y p s with
      | (s, .val d) =>
        if Y.stTy (f d) = Y.sty p.b then
          (s.onCache fun c => { c with dynStates := c.dynStates.insert p.id (f d) }.emit (.setDyn p (f d)), .val d)
        else (s, .stuck)
      | r => r
  | (c, m, .panic k) => (m.st c, .panic k)
  | (c, m, .outOfFuel) => (m.st c, .overflow)

/-- A mutable access, with destructors and hooks (`lookup_mut` has none of these). -/
def stepMH (Y : Sys σ) (D : Destructors σ) (H : Hooks σ) (n : Nat) (ord : HashOrder) (s : St σ) (op : Mutation σ) :
    St σ × Res (Ans σ) :=
  if s.live op.promise then
    match op with
    | .lookupMut p f => stepM Y D n ord s (.lookupMut p f)
    | .getMut p f =>
      match getMutD Y D ord (buildNH Y H n) p s with
      | (s, .val (.ok v)) =>
        match writeArt Y p f v s.c with
        | some c => ({ s with c := c }, .val (.art (.ok v)))
        | none => (s, .stuck)
      | (s, .val (.error e)) => (s, .val (.art (.error e)))
      | (s, .panic k) => (s, .panic k)
      | (s, .stuck) => (s, .stuck)
      | (s, .overflow) => (s, .overflow)
    | .dynStateMut p f =>
      let r := dynStateMutDH Y D H ord p f s
      (r.1, r.2.map .state)
  else (s, .stuck)

/-! ## Vocabulary -/

/-- All that `s` has, `s'` has, too. -/
structure Within (s s' : St σ) : Prop where
  cached : ∀ a v, Cached s a v → Cached s' a v
  state : ∀ a d, HasState s a d → HasState s' a d
  known : ∀ a, Known s a → Known s' a
  uses : ∀ u d, UsesNow s u d → UsesNow s' u d

/-! ## Proofs -/

/-- The same for caches. -/
structure CWithin (c c' : Cache σ) : Prop where
  cached : ∀ (a : Id) v, c.artifacts[a]? = some v → c'.artifacts[a]? = some v
  state : ∀ (a : Id) d, c.dynStates[a]? = some d → c'.dynStates[a]? = some d
  known : ∀ a : Id, a ∈ c.known → a ∈ c'.known
  uses : ∀ u d : Id, (∃ us, c.dependents[d]? = some us ∧ u ∈ us) → ∃ us, c'.dependents[d]? = some us ∧ u ∈ us

theorem CWithin.refl (c : Cache σ) : CWithin c c := ⟨fun _ _ h => h, fun _ _ h => h, fun _ h => h, fun _ _ h => h⟩

theorem CWithin.trans {c c' c'' : Cache σ} (h : CWithin c c') (h' : CWithin c' c'') : CWithin c c'' :=
  ⟨fun a v x => h'.cached a v (h.cached a v x), fun a v x => h'.state a v (h.state a v x),
    fun a x => h'.known a (h.known a x), fun u d x => h'.uses u d (h.uses u d x)⟩

theorem erase_some {α : Type} {m : AMap α} {a x : Id} {v : α} (h : (m.erase a)[x]? = some v) : m[x]? = some v := by
  rw [ExtTreeMap.getElem?_erase] at h
  split at h
  · cases h
  · exact h

theorem CWithin.of {c c' : Cache σ} (h1 : ∀ (a : Id) v, c.artifacts[a]? = some v → c'.artifacts[a]? = some v)
    (h2 : ∀ (a : Id) d, c.dynStates[a]? = some d → c'.dynStates[a]? = some d) (h3 : ∀ a : Id, a ∈ c.known → a ∈ c'.known)
    (h4 : c.dependents = c'.dependents) : CWithin c c' := ⟨h1, h2, h3, fun _ _ h => h4 ▸ h⟩

theorem unlink_within (processed : IdSet) (bid : Id) (l : List Id) (c : Cache σ) :
    CWithin (unlink Y processed bid l c).1 c := by
  induction l generalizing c with
  | nil => exact .refl c
  | cons dep rest ih =>
    rw [unlink]
    split
    · exact ih c
    · split
      · exact .refl c
      · next set hs =>
        have h1 : CWithin ({ c with dependents := c.dependents.insert dep (set.erase bid) } : Cache σ) c := by
          refine ⟨fun _ _ h => h, fun _ _ h => h, fun _ h => h, ?_⟩
          rintro u d ⟨us, h1, h2⟩
          simp only [ExtTreeMap.getElem?_insert] at h1
          split at h1
          · next e =>
            obtain rfl : dep = d := by simpa using e
            cases h1
            exact ⟨set, hs, (ExtTreeSet.mem_erase.1 h2).2⟩
          · exact ⟨us, h1, h2⟩
        simp only
        split
        · exact h1
        · refine (ih _).trans ?_
          split
          · exact ⟨h1.cached, h1.state, h1.known, h1.uses⟩
          · exact h1

theorem popDependents_within (ord : HashOrder) (i : IterPoint) (bid : Id) (pending : List Id) (c : Cache σ) :
    CWithin (popDependents ord i bid pending c).2 c := by
  unfold popDependents
  split
  · refine ⟨fun _ _ h => h, fun _ _ h => h, fun _ h => h, ?_⟩
    rintro u d ⟨us, h1, h2⟩
    exact ⟨us, erase_some h1, h2⟩
  · exact .refl c

theorem popDependencies_within (ord : HashOrder) (i : IterPoint) (processed : IdSet) (bid : Id) (c : Cache σ) :
    CWithin (popDependencies Y ord i processed bid c).1 c := by
  unfold popDependencies
  split
  · refine (unlink_within ..).trans (.of (fun _ _ h => h) (fun _ _ h => h) (fun _ h => h) rfl)
  · exact .refl c

theorem eraseArt_within (bid : Id) (c : Cache σ) :
    CWithin ({ c with leafs := c.leafs.insert bid, artifacts := c.artifacts.erase bid } : Cache σ) c :=
  .of (fun _ _ h => erase_some h) (fun _ _ h => h) (fun _ h => h) rfl

theorem invLoop_within (ord : HashOrder) (root : Id) (n : Nat) (processed : IdSet) (pending : List Id) (c : Cache σ) :
    CWithin (invLoop Y ord root n processed pending c).1 c := by
  induction n generalizing processed pending c with
  | zero => cases pending <;> exact .refl c
  | succ n ih =>
    cases pending with
    | nil => exact .refl c
    | cons bid pending =>
      rw [invLoop]
      simp only
      have h1 := popDependents_within ord ⟨0, root, n⟩ bid pending c
      have h2 := popDependencies_within (Y := Y) ord ⟨1, root, n⟩ (processed.insert bid) bid
        (popDependents ord ⟨0, root, n⟩ bid pending c).2
      generalize popDependencies Y ord ⟨1, root, n⟩ (processed.insert bid) bid
        (popDependents ord ⟨0, root, n⟩ bid pending c).2 = q at h2 ⊢
      obtain ⟨c1, e⟩ := q
      have h3 := h2.trans h1
      cases e with
      | done => exact (ih _ _ _).trans ((eraseArt_within bid c1).trans h3)
      | panic k => exact h3
      | outOfFuel => exact h3

/-- A loop with destructors (`x`), started with `c` and `m`, does what it does without (`f`), or broke off in between because
one panicked. -/
structure OrBroke (D : Destructors σ) (c : Cache σ) (m : Shared σ) (f : Cache σ × LoopEnd)
    (x : Cache σ × Shared σ × LoopEnd) : Prop where
  either : (x.1 = f.1 ∧ x.2.2 = f.2) ∨
    x.2.2 = .panic .user ∧ (∃ c m v, D c m v = (x.2.1, true)) ∧ CWithin f.1 x.1
  within : CWithin x.1 c
  moves : D.Proper → Moves x.1 m x.2.1

theorem OrBroke.start {D : Destructors σ} {c c' : Cache σ} {m m' : Shared σ} {f : Cache σ × LoopEnd}
    {x : Cache σ × Shared σ × LoopEnd} (h : OrBroke D c' m' f x) (hc : CWithin c' c) (hm : D.Proper → Moves c' m m') :
    OrBroke D c m f x :=
  ⟨h.either, h.within.trans hc, fun hD => ((hm hD).anti h.within.known).trans (h.moves hD)⟩

theorem OrBroke.same (D : Destructors σ) (c : Cache σ) (m : Shared σ) {f : Cache σ × LoopEnd} (hf : CWithin f.1 c) :
    OrBroke D c m f (f.1, m, f.2) := ⟨.inl ⟨rfl, rfl⟩, hf, fun _ => .refl _ _⟩

theorem dropOpt_true {D : Destructors σ} {c : Cache σ} {m m' : Shared σ} {o : Option (σ.V ⊕ σ.S)}
    (h : dropOpt D c m o = (m', true)) : ∃ c m v, D c m v = (m', true) := by
  cases o with
  | none => cases h
  | some v => exact ⟨c, m, v, h⟩

theorem dropOpt_moves {D : Destructors σ} (hD : D.Proper) {c : Cache σ} {m m' : Shared σ} {b : Bool}
    {o : Option (σ.V ⊕ σ.S)} (h : dropOpt D c m o = (m', b)) : Moves c m m' := by
  cases o with
  | none => cases h; exact .refl _ _
  | some v =>
    have := (hD c m v).moves
    rw [show D c m v = (m', b) from h] at this
    exact this

theorem dropEach_true {D : Destructors σ} {c : Cache σ} {m m' : Shared σ} {l : List (σ.V ⊕ σ.S)}
    (h : dropEach D c m l = (m', true)) : ∃ c m v, D c m v = (m', true) := by
  induction l generalizing m with
  | nil => cases h
  | cons x l ih =>
    rw [dropEach] at h
    split at h
    · next m1 e => cases h; exact ⟨c, m, x, e⟩
    · exact ih h

theorem dropEach_moves {D : Destructors σ} (hD : D.Proper) {c : Cache σ} {m m' : Shared σ} {b : Bool}
    {l : List (σ.V ⊕ σ.S)} (h : dropEach D c m l = (m', b)) : Moves c m m' := by
  induction l generalizing m with
  | nil => cases h; exact .refl _ _
  | cons x l ih =>
    have h1 := (hD c m x).moves
    rw [dropEach] at h
    split at h
    · next m1 e => cases h; rw [e] at h1; exact h1
    · next m1 e => rw [e] at h1; exact h1.trans (ih h)

theorem invLoopD_orBroke (D : Destructors σ) (ord : HashOrder) (root : Id) (n : Nat) (processed : IdSet) (pending : List Id)
    (c : Cache σ) (m : Shared σ) : OrBroke D c m (invLoop Y ord root n processed pending c)
      (invLoopD Y D ord root n processed pending c m) := by
  induction n generalizing processed pending c m with
  | zero => cases pending <;> exact .same D c m (.refl c)
  | succ n ih =>
    cases pending with
    | nil => exact .same D c m (.refl c)
    | cons bid pending =>
      rw [invLoop, invLoopD]
      simp only
      have h1 := popDependents_within ord ⟨0, root, n⟩ bid pending c
      have h2 := popDependencies_within (Y := Y) ord ⟨1, root, n⟩ (processed.insert bid) bid
        (popDependents ord ⟨0, root, n⟩ bid pending c).2
      generalize popDependencies Y ord ⟨1, root, n⟩ (processed.insert bid) bid
        (popDependents ord ⟨0, root, n⟩ bid pending c).2 = q at h2 ⊢
      obtain ⟨c1, e⟩ := q
      have h3 := h2.trans h1
      cases e with
      | done =>
        simp only
        split
        · next m1 e =>
          exact ⟨.inr ⟨rfl, dropOpt_true e, invLoop_within ..⟩, (eraseArt_within bid c1).trans h3,
            fun hD => dropOpt_moves hD e⟩
        · next m1 e => exact (ih _ _ _ _).start ((eraseArt_within bid c1).trans h3) fun hD => dropOpt_moves hD e
      | panic k => exact .same D c m (f := (c1, .panic k)) h3
      | outOfFuel => exact .same D c m (f := (c1, .outOfFuel)) h3

theorem emit_within (c : Cache σ) (e : Event σ) : CWithin (c.emit e) c :=
  .of (fun _ _ h => h) (fun _ _ h => h) (fun _ h => h) rfl

theorem OrBroke.emit {D : Destructors σ} {c : Cache σ} {m : Shared σ} {f : Cache σ × LoopEnd}
    {x : Cache σ × Shared σ × LoopEnd} {e : Event σ} (h : OrBroke D c m f x) :
    OrBroke D c m (match (generalizing := false) f with | (c, .done) => (c.emit e, .done) | r => r)
      (match (generalizing := false) x with | (c, m, .done) => (c.emit e, m, .done) | r => r) := by
  obtain ⟨c1, e1⟩ := f
  obtain ⟨c2, m2, e2⟩ := x
  obtain ⟨⟨h1, h2⟩ | ⟨h1, h2, h3⟩, h4, h5⟩ := h
  · simp only at h1 h2 h4 h5
    subst h1 h2
    cases e2 with
    | done => exact ⟨.inl ⟨rfl, rfl⟩, (emit_within _ e).trans h4, fun hD => (h5 hD).anti fun _ h => h⟩
    | _ => exact ⟨.inl ⟨rfl, rfl⟩, h4, h5⟩
  · simp only at h1
    subst h1
    refine ⟨.inr ⟨rfl, h2, ?_⟩, h4, h5⟩
    cases e1 with
    | done => exact (emit_within c1 e).trans h3
    | _ => exact h3

theorem invalidateD_orBroke (D : Destructors σ) (ord : HashOrder) (p : Promise σ) (c : Cache σ) (m : Shared σ) :
    OrBroke D c m (invalidate Y ord p c) (invalidateD Y D ord p c m) := by
  unfold invalidate invalidateD
  exact (invLoopD_orBroke ..).emit

theorem purgeD_orBroke (D : Destructors σ) (ord : HashOrder) (p : Promise σ) (c : Cache σ) (m : Shared σ) :
    OrBroke D c m (purge Y ord p c) (purgeD Y D ord p c m) := by
  have h1 : CWithin ({ c with known := c.known.erase p.id, artifacts := c.artifacts.erase p.id } : Cache σ) c :=
    .of (fun _ _ h => erase_some h) (fun _ _ h => h) (fun _ h => (ExtTreeMap.mem_erase.1 h).2) rfl
  have h2 : CWithin (({ c with known := c.known.erase p.id, artifacts := c.artifacts.erase p.id, dynStates := c.dynStates.erase p.id } : Cache σ).emit (.purged p))
      ({ c with known := c.known.erase p.id, artifacts := c.artifacts.erase p.id } : Cache σ) :=
    .of (fun _ _ h => h) (fun _ _ h => erase_some h) (fun _ h => h) rfl
  unfold purgeD
  have h3 := invLoop_within (Y := Y) ord p.id (edgeCount c.dependents + 1) ((∅ : IdSet).insert p.id) [p.id]
    (({ c with known := c.known.erase p.id, artifacts := c.artifacts.erase p.id, dynStates := c.dynStates.erase p.id } : Cache σ).emit (.purged p))
  have fin : CWithin (purge Y ord p c).1
      (({ c with known := c.known.erase p.id, artifacts := c.artifacts.erase p.id, dynStates := c.dynStates.erase p.id } : Cache σ).emit (.purged p)) := by
    refine .trans ?_ h3
    unfold purge
    simp only
    change CWithin _ (invalidateById Y ord p.id _).1
    generalize invalidateById Y ord p.id (({ c with known := c.known.erase p.id, artifacts := c.artifacts.erase p.id, dynStates := c.dynStates.erase p.id } : Cache σ).emit (.purged p)) = x
    obtain ⟨c1, e⟩ := x
    cases e with
    | done => exact emit_within _ _
    | panic k => exact .refl _
    | outOfFuel => exact .refl _
  have h4 : ∀ m, OrBroke D _ m (purge Y ord p c) _ := fun m =>
    (invLoopD_orBroke (Y := Y) D ord p.id (edgeCount c.dependents + 1) ((∅ : IdSet).insert p.id) [p.id]
      (({ c with known := c.known.erase p.id, artifacts := c.artifacts.erase p.id, dynStates := c.dynStates.erase p.id } : Cache σ).emit (.purged p)) m).emit
      (e := .invalidate p)
  simp only
  split
  · next m1 e => exact ⟨.inr ⟨rfl, dropOpt_true e, fin.trans h2⟩, h1, fun hD => dropOpt_moves hD e⟩
  · next m1 e1 =>
    split
    · next m2 e =>
      exact ⟨.inr ⟨rfl, dropOpt_true e, fin⟩, h2.trans h1, fun hD =>
        ((dropOpt_moves hD e1).anti h2.known).trans (dropOpt_moves hD e)⟩
    · next m2 e =>
      exact (h4 _).start (h2.trans h1) fun hD => ((dropOpt_moves hD e1).anti h2.known).trans (dropOpt_moves hD e)

theorem clearArtifactsD_orBroke (D : Destructors σ) (ord : HashOrder) (c : Cache σ) (m : Shared σ) :
    OrBroke D c m (clearArtifacts c, .done) (clearArtifactsD D ord c m) := by
  have h0 : CWithin (clearArtifacts c) ({ c with artifacts := ∅ } : Cache σ) :=
    ⟨fun _ _ h => h, fun _ _ h => h, fun _ h => h, fun u d ⟨us, h, _⟩ => by simp [clearArtifacts, Cache.emit] at h⟩
  have h1 : CWithin ({ c with artifacts := ∅ } : Cache σ) c :=
    .of (fun _ _ h => by simp at h) (fun _ _ h => h) (fun _ h => h) rfl
  unfold clearArtifactsD
  split
  · next m1 e => exact ⟨.inr ⟨rfl, dropEach_true e, h0⟩, h1, fun hD => dropEach_moves hD e⟩
  · next m1 e => exact ⟨.inl ⟨rfl, rfl⟩, h0.trans h1, fun hD => (dropEach_moves hD e).anti fun _ h => h⟩

theorem clearAllD_orBroke (D : Destructors σ) (ord : HashOrder) (c : Cache σ) (m : Shared σ) :
    OrBroke D c m (clearAll c, .done) (clearAllD D ord c m) := by
  have h0 : ∀ c', CWithin (clearAll c) c' := fun c' =>
    ⟨fun _ _ h => by simp [clearAll, Cache.emit] at h, fun _ _ h => by simp [clearAll, Cache.emit] at h,
      fun _ h => by simp [clearAll, Cache.emit] at h, fun u d ⟨us, h, _⟩ => by simp [clearAll, Cache.emit] at h⟩
  unfold clearAllD
  split
  · next m1 e =>
    exact ⟨.inr ⟨rfl, dropEach_true e, h0 _⟩, .of (fun _ _ h => by simp at h) (fun _ _ h => h) (fun _ h => h) rfl,
      fun hD => dropEach_moves hD e⟩
  · next m1 e1 =>
    split
    · next m2 e =>
      exact ⟨.inr ⟨rfl, dropEach_true e, h0 _⟩,
        .of (fun _ _ h => by simp at h) (fun _ _ h => by simp at h) (fun _ h => h) rfl,
        fun hD => .trans ((dropEach_moves hD e1).anti fun _ h => h) (dropEach_moves (c := { c with artifacts := ∅, dynStates := ∅ }) hD e)⟩
    · next m2 e =>
      exact ⟨.inl ⟨rfl, rfl⟩, h0 _, fun hD =>
        ((dropEach_moves hD e1).anti (h0 _).known).trans ((dropEach_moves hD e).anti (h0 _).known)⟩

theorem collectEach_within (ord : HashOrder) (l : List Id) (c : Cache σ) : CWithin (collectEach Y ord l c).1 c := by
  induction l generalizing c with
  | nil => exact .refl c
  | cons a rest ih =>
    rw [collectEach]
    have h1 := invLoop_within (Y := Y) ord a (edgeCount c.dependents + 1) ((∅ : IdSet).insert a) [a] c
    change CWithin (invalidateById Y ord a c).1 c at h1
    generalize invalidateById Y ord a c = x at h1 ⊢
    obtain ⟨c1, e⟩ := x
    cases e with
    | done =>
      refine (ih _).trans (.trans ?_ h1)
      exact .of (fun _ _ h => h) (fun _ _ h => erase_some h) (fun _ h => (ExtTreeMap.mem_erase.1 h).2) rfl
    | panic k => exact h1
    | outOfFuel => exact h1

theorem collectEachD_orBroke (D : Destructors σ) (ord : HashOrder) (l : List Id) (c : Cache σ) (m : Shared σ) :
    OrBroke D c m (collectEach Y ord l c) (collectEachD Y D ord l c m) := by
  induction l generalizing c m with
  | nil => exact .same D c m (.refl c)
  | cons a rest ih =>
    rw [collectEach, collectEachD]
    have h0 := invLoop_within (Y := Y) ord a (edgeCount c.dependents + 1) ((∅ : IdSet).insert a) [a] c
    have h1 := invLoopD_orBroke (Y := Y) D ord a (edgeCount c.dependents + 1) ((∅ : IdSet).insert a) [a] c m
    change CWithin (invalidateById Y ord a c).1 c at h0
    change OrBroke D c m (invalidateById Y ord a c) (invalidateByIdD Y D ord a c m) at h1
    generalize invalidateById Y ord a c = x at h0 h1 ⊢
    generalize invalidateByIdD Y D ord a c m = y at h1 ⊢
    obtain ⟨c1, e⟩ := x
    obtain ⟨c2, m2, e2⟩ := y
    have hc : CWithin (({ c1 with dynStates := c1.dynStates.erase a, known := c1.known.erase a, leafs := c1.leafs.erase a } : Cache σ).emit (.collect a)) ({ c1 with dynStates := c1.dynStates.erase a } : Cache σ) :=
      .of (fun _ _ h => h) (fun _ _ h => h) (fun _ h => (ExtTreeMap.mem_erase.1 h).2) rfl
    have hc' : CWithin ({ c1 with dynStates := c1.dynStates.erase a } : Cache σ) c1 :=
      .of (fun _ _ h => h) (fun _ _ h => erase_some h) (fun _ h => h) rfl
    obtain ⟨⟨h1, h2⟩ | ⟨h1, h2, h3⟩, h4, h5⟩ := h1
    · simp only at h1 h2 h4 h5
      subst h1 h2
      cases e2 with
      | done =>
        simp only
        split
        · next m1 e =>
          exact ⟨.inr ⟨rfl, dropOpt_true e, (collectEach_within ..).trans hc⟩, hc'.trans h0,
            fun hD => ((h5 hD).anti hc'.known).trans (dropOpt_moves hD e)⟩
        · next m1 e =>
          exact (ih _ _).start (hc.trans (hc'.trans h0)) fun hD =>
            (((h5 hD).anti hc'.known).trans (dropOpt_moves hD e)).anti hc.known
      | panic k => exact ⟨.inl ⟨rfl, rfl⟩, h4, h5⟩
      | outOfFuel => exact ⟨.inl ⟨rfl, rfl⟩, h4, h5⟩
    · simp only at h1 h4 h5
      subst h1
      refine ⟨.inr ⟨rfl, h2, ?_⟩, h4, h5⟩
      cases e with
      | done => exact (collectEach_within ..).trans (hc.trans (hc'.trans h3))
      | panic k => exact h3
      | outOfFuel => exact h3

theorem garbageCollectionD_orBroke (D : Destructors σ) (ord : HashOrder) (s : St σ) :
    OrBroke D s.c s.mem (garbageCollection Y ord s) (garbageCollectionD Y D ord s) := by
  unfold garbageCollection garbageCollectionD
  split
  · exact .same D s.c s.mem (f := (s.c, .panic .gcAssert)) (.refl _)
  · generalize selectDead s (ord.f ⟨3, 0, 0⟩ s.c.leafs.toList) = o
    cases o with
    | none => exact .same D s.c s.mem (f := (s.c, .panic .leafUnknown)) (.refl _)
    | some l => exact collectEachD_orBroke ..

/-- A removal with destructors does to the cache what it does without, or broke off in one; the memory only moves. -/
theorem stepD_orBroke (D : Destructors σ) (n : Nat) (ord : HashOrder) (s : St σ) (op : Removal σ) :
    let x := stepD Y D ord s op
    let y := step Y n ord s op.op
    (x.1.c = y.1.c ∧ x.2 = y.2 ∨
      x.2 = .panic .user ∧ (∃ c m v, D c m v = (x.1.mem, true)) ∧ Within y.1 x.1) ∧
    Within x.1 s ∧ y.1.mem = s.mem ∧ (D.Proper → Moves x.1.c s.mem x.1.mem) := by
  have key : ∀ (f : Cache σ × LoopEnd) (x : Cache σ × Shared σ × LoopEnd), OrBroke D s.c s.mem f x →
      ((x.2.1.st x.1).c = f.1 ∧ x.2.2.res (Ans.unit (σ := σ)) = f.2.res .unit ∨
        x.2.2.res (Ans.unit (σ := σ)) = .panic .user ∧ (∃ c m v, D c m v = ((x.2.1.st x.1).mem, true)) ∧
        Within { s with c := f.1 } (x.2.1.st x.1)) ∧
      Within (x.2.1.st x.1) s ∧ True ∧ (D.Proper → Moves (x.2.1.st x.1).c s.mem (x.2.1.st x.1).mem) := by
    rintro ⟨c1, e1⟩ ⟨c2, m2, e2⟩ ⟨⟨h1, h2⟩ | ⟨h1, h2, h3⟩, h4, h5⟩
    · simp only at h1 h2 h4 h5
      subst h1 h2
      exact ⟨.inl ⟨rfl, rfl⟩, ⟨h4.cached, h4.state, h4.known, h4.uses⟩, trivial, h5⟩
    · simp only at h1 h4 h5
      subst h1
      exact ⟨.inr ⟨rfl, h2, ⟨h3.cached, h3.state, h3.known, h3.uses⟩⟩, ⟨h4.cached, h4.state, h4.known, h4.uses⟩, trivial, h5⟩
  have fin : ∀ {A B C C' E : Prop}, (A ∨ B) ∧ C ∧ True ∧ E → C' → (A ∨ B) ∧ C ∧ C' ∧ E :=
    fun ⟨h1, h2, _, h3⟩ h => ⟨h1, h2, h, h3⟩
  have hs : Within s s := ⟨fun _ _ h => h, fun _ _ h => h, fun _ h => h, fun _ _ h => h⟩
  simp only
  unfold stepD step
  cases op with
  | invalidate p =>
    simp only [Removal.op, Op.promise?]
    by_cases hl : s.live p = true
    case neg => simp only [hl]; exact ⟨.inl ⟨rfl, rfl⟩, hs, rfl, fun _ => .refl _ _⟩
    case pos =>
      simp only [hl, if_true, exec]
      exact fin (key _ _ (invalidateD_orBroke (Y := Y) D ord p s.c s.mem)) rfl
  | purge p =>
    simp only [Removal.op, Op.promise?]
    by_cases hl : s.live p = true
    case neg => simp only [hl]; exact ⟨.inl ⟨rfl, rfl⟩, hs, rfl, fun _ => .refl _ _⟩
    case pos =>
      simp only [hl, if_true, exec]
      exact fin (key _ _ (purgeD_orBroke (Y := Y) D ord p s.c s.mem)) rfl
  | clearArtifacts => exact fin (key _ _ (clearArtifactsD_orBroke D ord s.c s.mem)) rfl
  | clearAll => exact fin (key _ _ (clearAllD_orBroke D ord s.c s.mem)) rfl
  | gc =>
    simp only [Removal.op, Op.promise?, if_true, exec]
    exact fin (key _ _ (garbageCollectionD_orBroke (Y := Y) D ord s)) rfl

/-- What `unlink` leaves alone. -/
theorem unlink_frame (processed : IdSet) (bid : Id) (l : List Id) (c : Cache σ) :
    (unlink Y processed bid l c).1.artifacts = c.artifacts ∧
    (unlink Y processed bid l c).1.dependencies = c.dependencies ∧
    ∀ x : Id, x ∈ processed → (unlink Y processed bid l c).1.dependents[x]? = c.dependents[x]? := by
  induction l generalizing c with
  | nil => exact ⟨rfl, rfl, fun _ _ => rfl⟩
  | cons dep rest ih =>
    rw [unlink]
    split
    · exact ih c
    · next hd =>
      split
      · exact ⟨rfl, rfl, fun _ _ => rfl⟩
      · next set hs =>
        have h1 : ∀ x : Id, x ∈ processed → (c.dependents.insert dep (set.erase bid))[x]? = c.dependents[x]? := by
          intro x hx
          rw [ExtTreeMap.getElem?_insert]
          split
          · next e =>
            obtain rfl : dep = x := by simpa using e
            exact absurd hx hd
          · rfl
        simp only
        split
        · exact ⟨rfl, rfl, h1⟩
        · obtain ⟨h2, h3, h4⟩ := ih (if (set.erase bid).isEmpty = true then
            { c with dependents := c.dependents.insert dep (set.erase bid), leafs := c.leafs.insert dep }
            else { c with dependents := c.dependents.insert dep (set.erase bid) })
          refine ⟨?_, ?_, fun x hx => ?_⟩
          · rw [h2]; split <;> rfl
          · rw [h3]; split <;> rfl
          · rw [h4 x hx]; split <;> exact h1 x hx

/-- The first round of an invalidation, with a destructor that panics. -/
theorem invalidateByIdD_first (h : Reachable Y s) {D : Destructors σ} {ord : HashOrder} {a : Id} {v : σ.V}
    (hv : s.c.artifacts[a]? = some v) (hD : ∀ c, (D c s.mem (.inl v)).2 = true) :
    ∃ c c', invalidateByIdD Y D ord a s.c s.mem = (c, (D c' s.mem (.inl v)).1, .panic .user) ∧ c.artifacts = s.c.artifacts.erase a ∧
      c.dependents[a]? = none ∧ c.dependencies[a]? = none := by
  obtain ⟨cF, hF, _⟩ := invalidateById_spec Y ord a s.c h.inv.sync
  unfold invalidateById at hF
  unfold invalidateByIdD
  rw [invLoop] at hF
  rw [invLoopD]
  simp only at hF ⊢
  have hp : (popDependents ord ⟨0, a, edgeCount s.c.dependents⟩ a [] s.c).2.artifacts = s.c.artifacts ∧
      (popDependents ord ⟨0, a, edgeCount s.c.dependents⟩ a [] s.c).2.dependents[a]? = none := by
    unfold popDependents
    split
    · exact ⟨rfl, by simp⟩
    · next e => exact ⟨rfl, e⟩
  generalize popDependents ord ⟨0, a, edgeCount s.c.dependents⟩ a [] s.c = r at hF hp ⊢
  obtain ⟨pend, c1⟩ := r
  obtain ⟨hp1, hp2⟩ := hp
  simp only at hF hp1 hp2 ⊢
  have hq : (popDependencies Y ord ⟨1, a, edgeCount s.c.dependents⟩ (((∅ : IdSet).insert a).insert a) a c1).1.artifacts =
        s.c.artifacts ∧
      (popDependencies Y ord ⟨1, a, edgeCount s.c.dependents⟩ (((∅ : IdSet).insert a).insert a) a c1).1.dependents[a]? = none ∧
      (popDependencies Y ord ⟨1, a, edgeCount s.c.dependents⟩ (((∅ : IdSet).insert a).insert a) a c1).1.dependencies[a]? =
        none := by
    unfold popDependencies
    split
    · next set hs =>
      obtain ⟨h1, h2, h3⟩ := unlink_frame (Y := Y) (((∅ : IdSet).insert a).insert a) a
        (ord.f ⟨1, a, edgeCount s.c.dependents⟩ set.toList) { c1 with dependencies := c1.dependencies.erase a }
      refine ⟨h1.trans hp1, ?_, ?_⟩
      · rw [h3 a (by simp)]; exact hp2
      · rw [h2]; simp
    · next e => exact ⟨hp1, hp2, e⟩
  generalize popDependencies Y ord ⟨1, a, edgeCount s.c.dependents⟩ (((∅ : IdSet).insert a).insert a) a c1 = q at hF hq ⊢
  obtain ⟨c2, e⟩ := q
  obtain ⟨h1, h2, h3⟩ := hq
  simp only at h1 h2 h3
  cases e with
  | done =>
    simp only [h1, hv, Option.map_some, dropOpt]
    have hx := hD ({ c2 with leafs := c2.leafs.insert a, artifacts := s.c.artifacts.erase a } : Cache σ)
    refine ⟨({ c2 with leafs := c2.leafs.insert a, artifacts := s.c.artifacts.erase a } : Cache σ),
      ({ c2 with leafs := c2.leafs.insert a, artifacts := s.c.artifacts.erase a } : Cache σ), ?_, rfl, h2, h3⟩
    generalize D ({ c2 with leafs := c2.leafs.insert a, artifacts := s.c.artifacts.erase a } : Cache σ) s.mem (.inl v) = y at hx ⊢
    obtain ⟨m, b⟩ := y
    simp only at hx
    subst hx
    rfl
  | panic k => simp at hF
  | outOfFuel => simp at hF

/-! ## The property -/

/-- **C60**, for destructors that do not panic: whatever they do (act on the outside world, create builders, drop builders),
a removal has the effect and the answer it has without them; the program is as if they had run directly after it.
(Missing: see `C60_stale`.) -/
theorem C60_quiet_drops_partial {D : Destructors σ} (hP : D.Proper) (hD : D.Quiet) (n : Nat) (ord : HashOrder) (s : St σ)
    (op : Removal σ) :
    (stepD Y D ord s op).2 = (step Y n ord s op.op).2 ∧ OwnSteps (step Y n ord s op.op).1 (stepD Y D ord s op).1 := by
  obtain ⟨⟨h1, h2⟩ | ⟨_, ⟨c, m, v, h⟩, _⟩, _, h3, h4⟩ := stepD_orBroke (Y := Y) D n ord s op
  · refine ⟨h2, ?_⟩
    have := h4 hP (step Y n ord s op.op).1.c fun _ h => h1 ▸ h
    rw [← h3, ← h1, St.mem_st, h1, St.mem_st] at this
    exact this
  · have := hD c m v
    rw [h] at this; cases this

/-- **C60** If a destructor panics, the panic comes out, and the removal broke off somewhere between: everything it would
have left is left, and nothing is there that was not there before. -/
theorem C60_between_partial {D : Destructors σ} (hP : D.Proper) (n : Nat) (ord : HashOrder) (s : St σ) (op : Removal σ) :
    let x := stepD Y D ord s op
    let y := step Y n ord s op.op
    (x.2 = y.2 ∧ OwnSteps y.1 x.1) ∨
    x.2 = .panic .user ∧ (∃ c m v, D c m v = (x.1.mem, true)) ∧ Within y.1 x.1 ∧ Within x.1 s ∧
      OwnSteps { s with c := x.1.c } x.1 := by
  obtain ⟨⟨h1, h2⟩ | ⟨h1, h2, h5⟩, h6, h3, h4⟩ := stepD_orBroke (Y := Y) D n ord s op
  · refine .inl ⟨h2, ?_⟩
    have := h4 hP (step Y n ord s op.op).1.c fun _ h => h1 ▸ h
    rw [← h3, ← h1, St.mem_st, h1, St.mem_st] at this
    exact this
  · exact .inr ⟨h1, h2, h5, h6, h4 hP _ fun _ h => h⟩

/-- **C60** So an `invalidate(p)` in which a destructor panicked has dropped no artifacts but those of `p` and its
transitive users, and no dynamic state and no builder. -/
theorem C60_invalidate_partial (h : Reachable Y s) {p : Promise σ} (hl : s.live p = true) (D : Destructors σ)
    (ord : HashOrder) :
    let s' := (stepD Y D ord s (.invalidate p)).1
    (∀ a v, Cached s a v → ¬ Cached s' a v → Hit (UsesNow s) p.id a) ∧
    (∀ a d, HasState s' a d ↔ HasState s a d) ∧ (∀ a, Known s' a ↔ Known s a) := by
  have h1 := (C05_invalidate_exact h hl 0 ord).2
  obtain ⟨c, e, hd⟩ := step_invalidate h hl 0 ord
  have hs1 : ∀ a d, HasState s a d → HasState (step Y 0 ord s (.invalidate p)).1 a d := by
    intro a d hx; rw [e]; simp only [HasState, Cache.emit, hd.dynStates]; exact hx
  have hk1 : ∀ a, Known s a → Known (step Y 0 ord s (.invalidate p)).1 a := by
    intro a hx; rw [e]; simp only [Known, Cache.emit, hd.known]; exact hx
  have hs2 : ∀ a d, HasState (step Y 0 ord s (.invalidate p)).1 a d → HasState s a d := by
    intro a d hx; rw [e] at hx; simp only [HasState, Cache.emit, hd.dynStates] at hx; exact hx
  have hk2 : ∀ a, Known (step Y 0 ord s (.invalidate p)).1 a → Known s a := by
    intro a hx; rw [e] at hx; simp only [Known, Cache.emit, hd.known] at hx; exact hx
  have hin : ∀ s' : St σ, (∀ a v, Cached (step Y 0 ord s (.invalidate p)).1 a v → Cached s' a v) →
      ∀ a v, Cached s a v → ¬ Cached s' a v → Hit (UsesNow s) p.id a := by
    intro s' hw a v hc hn
    by_contra hh
    rw [usesNow_eq, absDep_eq h.inv] at hh
    exact hn (hw a v ((h1 a v).2 ⟨hc, hh⟩))
  obtain ⟨⟨h3, _⟩ | ⟨_, _, h4⟩, h5, _⟩ := stepD_orBroke (Y := Y) D 0 ord s (.invalidate p)
  · simp only [Cached, HasState, Known] at hin hs1 hk1 hs2 hk2 ⊢
    rw [h3]
    exact ⟨hin _ fun a v hc => hc, fun a d => ⟨hs2 a d, hs1 a d⟩, fun a => ⟨hk2 a, hk1 a⟩⟩
  · exact ⟨hin _ h4.cached, fun a d => ⟨h5.state a d, fun hx => h4.state a d (hs1 a d hx)⟩,
      fun a => ⟨h5.known a, fun hx => h4.known a (hk1 a hx)⟩⟩

/-- **C60** is false in general.  If the destructor of the artifact of `p` panics in `invalidate(p)`, then all other
artifacts stay, also those of the builders that used `p`, and the record of these uses is lost: invalidating `p` again
does not drop them either. -/
theorem C60_stale (h : Reachable Y s) {p : Promise σ} (hl : s.live p = true) {v : σ.V} (hv : Cached s p.id v)
    {D : Destructors σ} (hS : D.Spares p) (hD : ∀ c, (D c s.mem (.inl v)).2 = true) (n : Nat) (ord ord' : HashOrder) :
    let s' := (stepD Y D ord s (.invalidate p)).1
    (stepD Y D ord s (.invalidate p)).2 = .panic .user ∧
    (∀ u, ¬ UsesNow s' u p.id) ∧
    (∀ a va, a ≠ p.id → Cached s a va → Cached s' a va) ∧
    (step Y n ord' s' (.invalidate p)).2 = .val .unit ∧
    ∀ a va, a ≠ p.id → Cached s a va → Cached (step Y n ord' s' (.invalidate p)).1 a va := by
  obtain ⟨c, c', e, h1, h2, h3⟩ := invalidateByIdD_first (ord := ord) h hv hD
  have hp : (D c' s.mem (.inl v)).1.heap[p.id]? = some p.b := hS _ _ _ (by simpa [St.live] using hl)
  generalize (D c' s.mem (.inl v)).1 = m at e hp
  have hx : stepD Y D ord s (.invalidate p) = (m.st c, .panic .user) := by
    simp only [stepD, Removal.op, Op.promise?, hl, if_true, invalidateD, e, LoopEnd.res]
  have hl' : (m.st c).live p = true := by simpa [St.live, Shared.st] using hp
  have key : ∀ a va, a ≠ p.id → s.c.artifacts[a]? = some va → (s.c.artifacts.erase p.id)[a]? = some va := by
    intro a va ha hc
    rw [ExtTreeMap.getElem?_erase, if_neg (by simpa using fun h => ha h.symm)]
    exact hc
  have hlast : invalidateById Y ord' p.id c = ({ c with leafs := c.leafs.insert p.id, artifacts := c.artifacts.erase p.id }, .done) := by
    unfold invalidateById
    rw [invLoop]
    simp only [popDependents, h2, popDependencies, h3]
    cases edgeCount c.dependents <;> rfl
  simp only
  rw [hx]
  refine ⟨rfl, ?_, fun a va ha hc => ?_, ?_, fun a va ha hc => ?_⟩
  · rintro u ⟨us, hu, _⟩
    simp only [Shared.st_c] at hu
    rw [h2] at hu; cases hu
  · simp only [Cached, Shared.st_c, h1]; exact key a va ha hc
  · simp only [step, Op.promise?, hl', if_true, exec, invalidate, Shared.st_c, hlast]; rfl
  · simp only [step, Op.promise?, hl', if_true, exec, invalidate, Shared.st_c, hlast]
    simp only [Cached, Cache.emit, h1]
    rw [ExtTreeMap.getElem?_erase, if_neg (by simpa using fun h => ha h.symm)]
    exact key a va ha hc

/-- **C60** A `clear_all` (in which no destructor panics) repairs the cache: it is then, but for what the doctor was told,
in a state that is reachable without any panic of destructors, and so answers. -/
theorem C60_clear_all_recovers_partial (h : Reachable Y s) {D D' : Destructors σ} (hP : D.Proper) (hP' : D'.Proper)
    (hD' : D'.Quiet) (ord ord' : HashOrder) (op : Removal σ) :
    let s' := (stepD Y D' ord' (stepD Y D ord s op).1 .clearAll).1
    ∃ r, Reachable Y r ∧ SameButLog s' r ∧ ∀ hist, (play Y hist s').2 = (play Y hist r).2 := by
  intro s'
  have h1 := (stepD_orBroke (Y := Y) D 0 ord s op).2.2.2 hP
  have h2 := C60_quiet_drops_partial (Y := Y) hP' hD' 0 ord' (stepD Y D ord s op).1 .clearAll
  have h3 : Moves (clearAll s.c) (stepD Y D ord s op).1.mem s'.mem := by
    refine Moves.anti (OwnSteps.moves (c := clearAll (stepD Y D ord s op).1.c) ?_) fun a ha => ?_
    · have e : s'.c = clearAll (stepD Y D ord s op).1.c := h2.2.cache
      have : OwnSteps ((stepD Y D ord s op).1.mem.st (clearAll (stepD Y D ord s op).1.c)) (s'.mem.st s'.c) := h2.2
      rw [e] at this
      exact this
    · simp [clearAll, Cache.emit] at ha
  have h4 : OwnSteps (s.mem.st (clearAll s.c)) (s'.mem.st (clearAll s.c)) :=
    ((h1.anti fun a ha => by simp [clearAll, Cache.emit] at ha).trans h3) _ fun _ h => h
  have h5 : Reachable Y (s.mem.st (clearAll s.c)) := .step 0 ord' .clearAll h trivial
  have h6 := h4.reachable h5
  have e : SameButLog s' (s'.mem.st (clearAll s.c)) := by
    have e : s'.c = clearAll (stepD Y D ord s op).1.c := h2.2.cache
    simp only [SameButLog, Shared.st, St.mem, e, clearAll, Cache.emit]
  exact ⟨_, h6, e, fun hist => (play_sameButLog e hist).1⟩

namespace Demo

/-- The destructor of artifact 5 (that of builder 0) panics. -/
def bomb : Destructors sig := .plain fun w x => (w, match x with | .inl v => v == 5 | .inr _ => false)

theorem bomb_proper : bomb.Proper := Destructors.plain_proper _

theorem bomb_spares (p : Promise sig) : bomb.Spares p := fun _ _ _ h => h

/-- The state after `invalidate(0)` panicked in that destructor (and the panic was caught). -/
def sBomb : St sig := (stepD Demo.Y bomb ord s1 (.invalidate (P 0))).1

/-- The hypotheses of `C60_stale` are met. -/
example : Reachable Demo.Y s1 ∧ s1.live (P 0) = true ∧ Cached s1 10 5 ∧ bomb.Spares (P 0) ∧
    (∀ c, (bomb c s1.mem (.inl (5 : Nat))).2 = true) ∧ UsesNow s1 11 10 ∧ Cached s1 11 105 :=
  ⟨reach1, by decide, rfl, bomb_spares _, fun _ => rfl, ⟨_, rfl, by decide⟩, rfl⟩

/-- What a user sees of it: after setting the dynamic state of builder 0 from 5 to 9 (which invalidates 0), builder 1,
which uses 0, still answers 105, though 0 answers 9. -/
example : let s := (step Demo.Y 9 ord sBomb (.dynStateMut (P 0) fun _ => 9)).1
    (step Demo.Y 9 ord s (.get .bin (P 0))).2 = .val (.art (.ok (9 : Nat))) ∧
    (step Demo.Y 9 ord s (.get .bin (P 1))).2 = .val (.art (.ok (105 : Nat))) := ⟨rfl, rfl⟩

/-- And invalidating 1 panics in the cache's own code. -/
example : (step Demo.Y 9 ord sBomb (.invalidate (P 1))).2 = .panic .noCounterpart := rfl

/-- Clearing repairs it. -/
example : (step Demo.Y 9 ord (stepD Demo.Y (.plain fun w _ => (w, false)) ord sBomb .clearAll).1 (.get .bin (P 1))).2 =
    .val (.art (.ok (100 : Nat))) := rfl

/-- Artifacts whose destructors act, but do not panic: they count, drop the builder 2, and the one of artifact 5 creates a new
builder at a free address. -/
def acting : Destructors sig := fun c m x =>
  let s := freeB 12 { m.st c with w := m.w + 1 }
  match x with
  | .inl v => if v == 5 then (match allocB ⟨77, (99 : Nat)⟩ s with | some s => (s.mem, false) | none => (s.mem, false)) else (s.mem, false)
  | .inr _ => (s.mem, false)

theorem acting_proper : acting.Proper := by
  intro c m x
  refine .world (fun w => w + 1) (.free 12 ?_)
  unfold acting
  simp only
  cases x with
  | inr d => exact .refl _
  | inl v =>
    simp only
    split
    · split
      · next s1 e =>
        have : s1.c = c := allocB_c e
        exact .alloc ⟨77, (99 : Nat)⟩ e (by subst this; exact .refl _)
      · exact .refl _
    · exact .refl _

theorem acting_quiet : acting.Quiet := by
  intro c m x
  unfold acting
  simp only
  cases x with
  | inr d => rfl
  | inl v =>
    simp only
    split
    · split <;> rfl
    · rfl

/-- With these, all is well: the state is the one of `invalidate`, after which the destructors acted. -/
example : (stepD Demo.Y acting ord s1 (.invalidate (P 0))).2 = .val .unit ∧
    OwnSteps (step Demo.Y 9 ord s1 (.invalidate (P 0))).1 (stepD Demo.Y acting ord s1 (.invalidate (P 0))).1 :=
  C60_quiet_drops_partial acting_proper acting_quiet 9 ord s1 (.invalidate (P 0))

/-- They did act: three artifacts were dropped, the builder 2 is dead, and there is a new one. -/
example : let s := (stepD Demo.Y acting ord s1 (.invalidate (P 0))).1
    s.w = (s1.w + 3 : Nat) ∧ s1.live (P 2) = true ∧ s.live (P 2) = false ∧ s.live ⟨77, (99 : Nat)⟩ = true := by decide

/-- A state in between: the destructor of the artifact of 0 panics in `clear_all`. -/
example : (stepD Demo.Y bomb ord s1 .clearAll).2 = .panic .user ∧
    Uncached (stepD Demo.Y bomb ord s1 .clearAll).1 12 ∧ HasState (stepD Demo.Y bomb ord s1 .clearAll).1 12 2 := ⟨rfl, rfl, rfl⟩

/-- The theorems, applied: `C60_between_partial`, `C60_invalidate_partial`, `C60_clear_all_recovers_partial`. -/
example := C60_between_partial (Y := Demo.Y) bomb_proper 9 ord s1 .clearAll

example := C60_invalidate_partial (Y := Demo.Y) reach1 (p := P 0) (by decide) bomb ord

example := C60_clear_all_recovers_partial (Y := Demo.Y) reach1 bomb_proper acting_proper acting_quiet ord ord (.invalidate (P 0))

end Demo

end Daab
