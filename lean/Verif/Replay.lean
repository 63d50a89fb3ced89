import Verif.Trace
import Verif.Stray
import Mathlib.Data.List.Induction

/-!
# C58: a doctor can keep a copy of the cache
-/

open Std

namespace Daab

variable {σ : Sig} {Y : Sys σ} {s : St σ}

/-! ## Vocabulary -/

/-- What somebody who only reads the reports thinks the cache holds: artifacts and uses. -/
structure Seen (σ : Sig) where
  art : Id → Option σ.V
  uses : Id → Id → Prop

open Classical in
/-- How a report changes that.  A use is added; an artifact is set; an invalidated builder and all who use it,
directly or indirectly, lose their artifacts and uses; clearing removes everything. -/
noncomputable def Seen.after (A : Seen σ) : Event σ → Seen σ
  | .resolve u d => { A with uses := fun x y => A.uses x y ∨ (x = u.id ∧ y = d.id) }
  | .built p v => { A with art := fun a => if a = p.id then some v else A.art a }
  | .invalidate p =>
    { art := fun a => if Relation.ReflTransGen A.uses a p.id then none else A.art a
      uses := fun x y => A.uses x y ∧ ¬ Relation.ReflTransGen A.uses x p.id }
  | .clear => ⟨fun _ => none, fun _ _ => False⟩
  | _ => A

/-- What one thinks after reading a list of reports, oldest first. -/
noncomputable def replay (l : List (Event σ)) : Seen σ := l.foldl Seen.after ⟨fun _ => none, fun _ _ => False⟩

/-- The report gives the doctor a handle of this builder. -/
def Event.mentions (p : Promise σ) : Event σ → Prop
  | .resolve u d => p = u ∨ p = d
  | .built q _ => p = q
  | .invalidate q => p = q
  | _ => False

/-- Histories without `clear_artifacts` and mutable access to artifacts, in which garbage is collected only
while all builders mentioned to the doctor so far are alive (as they are if the doctor keeps the handles). -/
inductive Watched (Y : Sys σ) : St σ → Prop
  | new (w : σ.W) : Watched Y (St.new w)
  | step {s : St σ} (n : Nat) (ord : HashOrder) (op : Op σ) : Watched Y s → (step Y n ord s op).2.goesOn →
      op ≠ .clearArtifacts → (∀ p f, op ≠ .lookupMut p f) → (∀ p f, op ≠ .getMut p f) →
      (op = .gc → ∀ e ∈ reports s, ∀ p, e.mentions p → s.live p = true) → Watched Y (Daab.step Y n ord s op).1

theorem Watched.reachable (h : Watched Y s) : Reachable Y s := by
  induction h with
  | new w => exact .new w
  | step n ord op _ hg _ _ _ _ ih => exact .step n ord op ih hg

/-! ## Proofs -/

/-- The reports tell the truth. -/
structure Truth (s : St σ) : Prop where
  art : ∀ a : Id, (replay (reports s)).art a = s.c.artifacts[a]?
  uses : ∀ u d, (replay (reports s)).uses u d ↔ Dep s.c u d

theorem replay_snoc (l : List (Event σ)) (e : Event σ) : replay (l ++ [e]) = (replay l).after e := by
  simp [replay, List.foldl_append]

theorem Truth.same {s' : St σ} (h : Truth s) (hr : reports s' = reports s)
    (ha : ∀ a : Id, s'.c.artifacts[a]? = s.c.artifacts[a]?) (hd : ∀ u d, Dep s'.c u d ↔ Dep s.c u d) : Truth s' :=
  ⟨fun a => by rw [hr, ha, h.art], fun u d => by rw [hr, hd, h.uses]⟩

theorem Truth.dropped {s' : St σ} {c' : Cache σ} {p : Promise σ} (h : Truth s)
    (hd : Dropped (Hit (Dep s.c) p.id) s.c c') (hr : reports s' = reports s ++ [.invalidate p])
    (h1 : s'.c.dependents = c'.dependents) (h2 : s'.c.artifacts = c'.artifacts) : Truth s' := by
  have hu : (replay (reports s)).uses = Dep s.c := by funext u d; exact propext (h.uses u d)
  constructor
  · intro a
    rw [hr, replay_snoc, h2]
    simp only [Seen.after, h.art]
    split
    · next hh => rw [hu] at hh; exact (hd.art_none a hh).symm
    · next hh => rw [hu] at hh; exact (hd.art_keep a hh).symm
  · intro u d
    rw [hr, replay_snoc]
    have : Dep s'.c u d ↔ Dep c' u d := by unfold Dep; rw [h1]
    rw [this, hd.dep]
    simp only [Seen.after, hu]
    rfl

theorem Truth.micro {s' : St σ} (h : Truth s) (hm : Micro Y s s') : Truth s' := by
  cases hm with
  | known p =>
    exact h.same (reports_congr (makeKnown_log _ _)) (fun a => by simp [St.onCache, makeKnown_artifacts])
      (fun u d => by simp [Dep, St.onCache, makeKnown_dependents])
  | track u q =>
    have hr : reports (s.onCache (addEdge u q)) = reports s ++ [.resolve u q] := reports_cons rfl (by rfl)
    constructor
    · intro a; rw [hr, replay_snoc]; simp only [Seen.after, h.art]; rfl
    · intro x y
      rw [hr, replay_snoc]
      simp only [Seen.after, h.uses]
      exact (addEdge_dep u q s.c x y).symm
  | init p w d => exact h.same (reports_ghost rfl (by rfl)) (fun _ => rfl) (fun _ _ => Iff.rfl)
  | initPanic p w => exact h.same (reports_ghost rfl (by rfl)) (fun _ => rfl) (fun _ _ => Iff.rfl)
  | setDyn p d => exact h.same (reports_ghost rfl (by rfl)) (fun _ => rfl) (fun _ _ => Iff.rfl)
  | world w => exact h.same rfl (fun _ => rfl) (fun _ _ => Iff.rfl)
  | alloc q ha =>
    have := allocB_c ha
    exact h.same (reports_congr (by rw [this])) (fun _ => by rw [this]) (fun _ _ => by rw [this])
  | free a => exact h.same rfl (fun _ => rfl) (fun _ _ => Iff.rfl)
  | call p => exact h.same (reports_ghost rfl (by rfl)) (fun _ => rfl) (fun _ _ => Iff.rfl)
  | built p v =>
    have hr : reports (s.onCache fun c => { c.emit (.built p v) with artifacts := c.artifacts.insert p.id v }) =
        reports s ++ [.built p v] := reports_cons rfl (by rfl)
    constructor
    · intro a
      rw [hr, replay_snoc]
      simp only [Seen.after, h.art, St.onCache, ExtTreeMap.getElem?_insert]
      grind
    · intro x y
      rw [hr, replay_snoc]
      simp only [Seen.after, h.uses]
      rfl

theorem Truth.micros {s' : St σ} (h : Truth s) (hm : Micros Y s s') : Truth s' := by
  induction hm with
  | refl => exact h
  | tail _ h1 ih => exact ih.micro h1

/-- All that one believes has been mentioned. -/
theorem replay_mentioned (l : List (Event σ)) :
    (∀ a v, (replay l).art a = some v → ∃ e ∈ l, ∃ p : Promise σ, p.id = a ∧ e.mentions p) ∧
    (∀ u d, (replay l).uses u d → ∃ e ∈ l, ∃ p : Promise σ, p.id = u ∧ e.mentions p) := by
  induction l using List.reverseRecOn with
  | nil => simp [replay]
  | append_singleton l e ih =>
    rw [replay_snoc]
    have up : ∀ a, (∃ e ∈ l, ∃ p : Promise σ, p.id = a ∧ e.mentions p) →
        ∃ e' ∈ l ++ [e], ∃ p : Promise σ, p.id = a ∧ e'.mentions p := by
      rintro a ⟨e', he, hp⟩; exact ⟨e', List.mem_append_left _ he, hp⟩
    constructor
    · intro a v hv
      cases e with
      | built p w =>
        simp only [Seen.after] at hv
        split at hv
        · next h => exact ⟨.built p w, by simp, p, h.symm, rfl⟩
        · exact up a (ih.1 a v hv)
      | invalidate p =>
        simp only [Seen.after] at hv
        split at hv
        · cases hv
        · exact up a (ih.1 a v hv)
      | clear => cases hv
      | _ => exact up a (ih.1 a v hv)
    · intro u d hd
      cases e with
      | resolve p q =>
        rcases hd with hd | ⟨rfl, _⟩
        · exact up u (ih.2 u d hd)
        · exact ⟨.resolve p q, by simp, p, rfl, Or.inl rfl⟩
      | invalidate p => exact up u (ih.2 u d hd.1)
      | clear => exact hd.elim
      | _ => exact up u (ih.2 u d hd)

theorem truth_of_watched (h : Watched Y s) : Truth s := by
  induction h with
  | new w => exact ⟨fun a => by simp [reports, replay, St.new], fun u d => by simp [reports, replay, St.new, Dep, setAt]⟩
  | @step s n ord op hw hg h1 h2 h3 h4 ih =>
    have hr := hw.reachable
    have hi := hr.inv
    have live : ∀ p, op.promise? = some p → s.live p = true := by
      intro p hp
      by_contra hl
      simp [step, hp, hl, Res.goesOn] at hg
    cases op with
    | get how p =>
      simp only [step, Op.promise?, live p rfl, if_true, exec]
      exact ih.micros ((getA_ok Y n).1.ran how p s hi).micros
    | getMut p f => exact absurd rfl (h3 p f)
    | lookup how p => simp only [step, Op.promise?, live p rfl, if_true, exec]; exact ih
    | lookupMut p f => exact absurd rfl (h2 p f)
    | dynState p =>
      simp only [step, Op.promise?, live p rfl, if_true, exec]
      exact ih.micros (ensureDyn_ran hi (live p rfl)).1.micros
    | getDynState p => simp only [step, Op.promise?, live p rfl, if_true, exec]; exact ih
    | dynStateMut p f =>
      obtain ⟨c', he, hd⟩ := invalidate_spec hi ord p
      have hinv := hi.invalidated hd
      have t1 : Truth { s with c := c'.emit (.invalidate p) } :=
        ih.dropped hd (reports_cons (by simp [Cache.emit, hd.log]) (by rfl)) rfl rfl
      have t2 := t1.micros (ensureDyn_ran hinv (p := p) (live p rfl)).1.micros
      simp only [step, Op.promise?, live p rfl, if_true, exec, dynStateMut, he]
      generalize ensureDyn Y p { s with c := c'.emit (.invalidate p) } = x at t2
      obtain ⟨s1, r⟩ := x
      cases r with
      | val d =>
        simp only
        split
        · exact t2.same (reports_ghost rfl (by rfl)) (fun _ => rfl) (fun _ _ => Iff.rfl)
        · exact t2
      | _ => exact t2
    | isKnown p => simp only [step, Op.promise?, live p rfl, if_true, exec]; exact ih
    | numKnown => exact ih
    | invalidate p =>
      obtain ⟨c', he, hd⟩ := invalidate_spec hi ord p
      simp only [step, Op.promise?, live p rfl, if_true, exec, he]
      exact ih.dropped hd (reports_cons (by simp [Cache.emit, hd.log]) (by rfl)) rfl rfl
    | purge p =>
      have hrep := (C40_other_reports hr n ord (.purge p) hg).1 p id (.inr (.inl rfl))
      obtain ⟨c', cF, he, hd, rfl⟩ := purge_spec hi ord p
      simp only [step, Op.promise?, live p rfl, if_true, exec, he] at hrep ⊢
      exact ih.dropped hd hrep rfl rfl
    | clearArtifacts => exact absurd rfl h1
    | clearAll =>
      have hrep := (C40_other_reports hr n ord .clearAll hg).2.1 rfl
      constructor
      · intro a
        rw [hrep, replay_snoc]
        simp [Seen.after, step, exec, Op.promise?, St.onCache, clearAll, Cache.emit]
      · intro u d
        rw [hrep, replay_snoc]
        simp [Seen.after, step, exec, Op.promise?, St.onCache, clearAll, Cache.emit, Dep, setAt]
    | gc =>
      have hrep := (C40_other_reports hr n ord .gc hg).2.2 trivial
      simp only [step, Op.promise?, exec] at hrep ⊢
      rcases gc_spec hi ord with ⟨h, _⟩ | ⟨_, c', h, hsw, _⟩
      · rw [h]; exact ih
      · rw [h] at hrep ⊢
        have dead : ∀ a, Garbage s a → ¬ ∃ e ∈ reports s, ∃ p : Promise σ, p.id = a ∧ e.mentions p := by
          rintro a ⟨b, hb1, hb2, _⟩ ⟨e, he, p, rfl, hm⟩
          have hl := h4 rfl e he p hm
          simp [St.live] at hl
          have := hi.heapKnown _ _ _ hb1 hl
          exact hb2 (by rw [hl, this])
        refine ih.same hrep ?_ ?_
        · intro a
          by_cases ha : Garbage s a
          · cases hs : s.c.artifacts[a]? with
            | none => exact hsw.art_none a ha
            | some v =>
              exact absurd ((replay_mentioned (reports s)).1 a v (by rw [ih.art, hs])) (dead a ha)
          · exact hsw.art_keep a ha
        · intro u d
          rw [hsw.dep]
          refine ⟨fun h => h.1, fun h => ⟨h, fun ha => ?_⟩⟩
          exact dead u ha ((replay_mentioned (reports s)).2 u d ((ih.uses u d).2 h))
    | alloc p =>
      simp only [step, Op.promise?, exec] at hg ⊢
      cases ha : allocB p s with
      | none => exact ih
      | some s' => exact ih.micro (Y := Y) (.alloc p ha)
    | free a => exact ih.micro (Y := Y) (.free a)
    | world f => exact ih.micro (Y := Y) (.world _)

/-! ## C40: `get_mut` -/

theorem writeArt_reports {p : Promise σ} {f : σ.V → σ.V} {v : σ.V} {c c' : Cache σ} (hw : writeArt Y p f v c = some c')
    (s : St σ) : reports { s with c := c' } = reports { s with c := c } := by
  unfold writeArt at hw
  split at hw
  · cases hw; exact reports_ghost rfl (by rfl)
  · cases hw

theorem invalidateDependents_reports (hi : Inv Y s) {ord : HashOrder} {a : Id} {c : Cache σ}
    (h : invalidateDependents Y ord a s.c = (c, .done)) : reports { s with c := c } = reports s := by
  rcases hi.invalidateDependents ord a with ⟨c', he, _⟩ | ⟨c', he, _, _, _, _, _, _, _, hlog, _⟩
  · rw [h] at he; cases he
  · rw [h] at he; cases he
    exact reports_ghost hlog (by rfl)

/-- **C40** What `get_mut(p)` reports, if it does not panic because of users of `p`: nothing, if the artifact is
cached; otherwise what a `get` would. -/
theorem C40_get_mut_reports (h : Reachable Y s) {p : Promise σ} (hl : s.live p = true) (f : σ.V → σ.V)
    (n : Nat) (ord : HashOrder) :
    let r := step Y n ord s (.getMut p f)
    r.2.goesOn →
    (reports r.1 = reports s ∧ ∃ v, Cached s p.id v ∧ r.2 = .val (.art (.ok v))) ∨
    (∃ m tail, WhileRunning p m ∧ reports r.1 = reports s ++ (m ++ tail) ∧
      (tail = [] ∧ (∀ v, r.2 ≠ .val (.art (.ok v))) ∨
        ∃ v, tail = [.built p v] ∧ r.2 = .val (.art (.ok v)))) := by
  intro r hg
  have hi := h.inv
  have hr : r = exec Y n ord s (.getMut p f) := by simp only [r, step, Op.promise?, hl, if_true]
  rw [hr] at hg ⊢
  clear hr r
  simp only [exec] at hg ⊢
  rcases getMut_spec hi n ord hl with ⟨c', he, _⟩ | ⟨c1, h1, ⟨c2, v, hart, h12, h2, hinv, he⟩ | ⟨h2, he⟩⟩
  · rw [he] at hg; exact absurd rfl hg
  · obtain ⟨i1, hv⟩ : Inv Y { s with c := c1 } ∧ s.c.artifacts[p.id]? = some v := by
      rcases hi.invalidateDependents ord p.id with ⟨c', e, _⟩ | ⟨c', e, _, hinv1, _, _, _, hart1, _⟩
      · rw [h1] at e; cases e
      · rw [h1] at e; cases e
        exact ⟨hinv1, ((hart1 p.id v).1 hart).1⟩
    have r1 := invalidateDependents_reports hi h1
    have r2 := invalidateDependents_reports i1 h12
    left
    rw [he] at hg ⊢
    simp only at hg ⊢
    cases hw : writeArt Y p f v c2 with
    | none => rw [hw] at hg; exact hg.elim
    | some c' =>
      refine ⟨?_, v, hv, rfl⟩
      simp only
      have r3 := writeArt_reports hw s
      rw [r3]
      exact r2.trans r1
  · have r1 := invalidateDependents_reports hi h1
    obtain ⟨m, tail, h3, h4, h5⟩ := (buildN_reports (Y := Y) n).1 p { s with c := c1 }
    rw [he] at hg ⊢
    right
    rw [r1] at h4
    generalize buildN Y n p { s with c := c1 } = x at *
    obtain ⟨s', r⟩ := x
    refine ⟨m, tail, h3, ?_, ?_⟩
    · rw [← h4]
      rcases r with (_ | v) | _ | _ | _ <;> try rfl
      simp only at hg ⊢
      cases hw : writeArt Y p f v s'.c with
      | none => simp [hw, Res.goesOn] at hg
      | some c' => exact writeArt_reports hw s'
    · rcases h5 with ⟨h5, h6⟩ | ⟨v, h5, h6⟩
      · left
        refine ⟨h5, ?_⟩
        rcases r with (_ | v) | _ | _ | _
        · simp
        · exact absurd rfl (h6 v)
        · simp
        · simp
        · simp
      · right
        simp only at h6
        subst h6
        simp only at hg ⊢
        cases hw : writeArt Y p f v s'.c with
        | none => rw [hw] at hg; exact hg.elim
        | some c' => exact ⟨v, h5, rfl⟩

/-- Both cases occur: builder 0 with and without artifact. -/
example :
    let s := Demo.after [.get .bin (Demo.P 0)]
    reports (step Demo.Y 9 Demo.ord s (.getMut (Demo.P 0) id)).1 = reports s ∧
    reports (step Demo.Y 9 Demo.ord s (.getMut (Demo.P 2) id)).1 = reports s ++
      [.resolve (Demo.P 2) (Demo.P 1), .resolve (Demo.P 1) (Demo.P 0), .built (Demo.P 1) (100 : Nat),
        .resolve (Demo.P 2) (Demo.P 0), .built (Demo.P 2) (100 : Nat)] := ⟨rfl, rfl⟩

/-! ## C58 -/

/-- **C58** Somebody who only reads the reports knows, after each operation, exactly which artifacts the cache
holds and which uses it has on record. -/
theorem C58_replay (h : Watched Y s) :
    (∀ a v, Cached s a v ↔ (replay (reports s)).art a = some v) ∧
    (∀ u d, UsesNow s u d ↔ (replay (reports s)).uses u d) := by
  refine ⟨fun a v => ?_, fun u d => ?_⟩
  · rw [(truth_of_watched h).art]; rfl
  · rw [(truth_of_watched h).uses, usesNow_iff]

/-- Neither a garbage collection nor one of the operations excluded. -/
def Op.plain : Op σ → Bool
  | .clearArtifacts | .lookupMut _ _ | .getMut _ _ | .gc => false
  | _ => true

theorem Watched.plain (n : Nat) (ord : HashOrder) (ops : List (Op σ)) {s : St σ} (h : Watched Y s)
    (hp : ops.all Op.plain = true) (hg : goOn Y n ord ops s = true) : Watched Y (runOps Y n ord ops s) := by
  induction ops generalizing s with
  | nil => exact h
  | cons op ops ih =>
    simp only [List.all_cons, Bool.and_eq_true] at hp
    rw [goOn] at hg
    simp only [Bool.and_eq_true, decide_eq_true_eq] at hg
    refine ih (.step n ord op h ?_ ?_ ?_ ?_ ?_) hp.2 hg.2
    · exact hg.1
    · rintro rfl; simp [Op.plain] at hp
    · rintro p f rfl; simp [Op.plain] at hp
    · rintro p f rfl; simp [Op.plain] at hp
    · rintro rfl; simp [Op.plain] at hp

/-- The hypothesis is met by a history with nested builds, a write to a dynamic state, a garbage collection and a
purge. -/
example : Watched Demo.Y (runOps Demo.Y 9 Demo.ord [.get .ref (Demo.P 2), .purge (Demo.P 2)]
    (step Demo.Y 9 Demo.ord (runOps Demo.Y 9 Demo.ord [.alloc (Demo.P 0), .alloc (Demo.P 1), .alloc (Demo.P 2),
      .get .bin (Demo.P 2), .dynStateMut (Demo.P 0) (fun _ => (7 : Nat))] (St.new (σ := Demo.sig) (0 : Nat)))
      .gc).1) := by
  refine Watched.plain 9 Demo.ord _ (.step 9 Demo.ord .gc (Watched.plain 9 Demo.ord _ (Watched.new (Y := Demo.Y) (0 : Nat)) rfl (by decide))
    trivial nofun nofun nofun ?_) rfl (by decide)
  intro _
  have hr : reports (runOps Demo.Y 9 Demo.ord [.alloc (Demo.P 0), .alloc (Demo.P 1), .alloc (Demo.P 2),
      .get .bin (Demo.P 2), .dynStateMut (Demo.P 0) (fun _ => (7 : Nat))] (St.new (σ := Demo.sig) (0 : Nat))) =
      [.resolve (Demo.P 2) (Demo.P 1), .resolve (Demo.P 1) (Demo.P 0), .built (Demo.P 0) (0 : Nat),
        .built (Demo.P 1) (100 : Nat), .resolve (Demo.P 2) (Demo.P 0), .built (Demo.P 2) (100 : Nat),
        .invalidate (Demo.P 0)] := rfl
  rw [hr]
  have l0 : ∀ p, p = Demo.P 0 ∨ p = Demo.P 1 ∨ p = Demo.P 2 → (runOps Demo.Y 9 Demo.ord [.alloc (Demo.P 0),
      .alloc (Demo.P 1), .alloc (Demo.P 2), .get .bin (Demo.P 2), .dynStateMut (Demo.P 0) (fun _ => (7 : Nat))]
      (St.new (σ := Demo.sig) (0 : Nat))).live p = true := by
    rintro p (rfl | rfl | rfl) <;> rfl
  intro e he p hp
  apply l0
  simp only [List.mem_cons, List.not_mem_nil, or_false] at he
  rcases he with rfl | rfl | rfl | rfl | rfl | rfl | rfl <;> simp only [Event.mentions] at hp <;> grind

/-- **C58** The limits: `clear_artifacts` removes everything, garbage collection may remove something, and mutable
access may change an artifact, without any report. -/
theorem C58_unreported :
    (∀ (σ : Sig) (Y : Sys σ) (s : St σ) (n : Nat) (ord : HashOrder),
      reports (step Y n ord s .clearArtifacts).1 = reports s ∧
      (∀ a, Uncached (step Y n ord s .clearArtifacts).1 a)) ∧
    (∃ (σ : Sig) (Y : Sys σ) (s : St σ) (n : Nat) (ord : HashOrder) (a : Id) (v : σ.V), Reachable Y s ∧
      Cached s a v ∧ Uncached (step Y n ord s .gc).1 a ∧ reports (step Y n ord s .gc).1 = reports s) ∧
    (∃ (σ : Sig) (Y : Sys σ) (s : St σ) (n : Nat) (ord : HashOrder) (p : Promise σ) (f : σ.V → σ.V) (v : σ.V),
      Reachable Y s ∧ Cached s p.id v ∧ ¬ Cached (step Y n ord s (.lookupMut p f)).1 p.id v ∧
      reports (step Y n ord s (.lookupMut p f)).1 = reports s) := by
  refine ⟨fun σ Y s n ord => ⟨reports_ghost rfl (by rfl), fun a => ?_⟩, ?_, ?_⟩
  · simp [Uncached, step, Op.promise?, exec, St.onCache, clearArtifacts, Cache.emit]
  · refine ⟨Demo.sig, Demo.Y, Demo.after [.get .bin (Demo.P 2), .free 12], 0, Demo.ord, 12, (100 : Nat),
      Demo.reach _ (by decide), ?_, ?_, rfl⟩
    · unfold Cached; decide
    · unfold Uncached; decide
  · refine ⟨Demo.sig, Demo.Y, Demo.after [.get .bin (Demo.P 2)], 0, Demo.ord, Demo.P 2, fun _ => (5 : Nat),
      (100 : Nat), Demo.reach _ (by decide), ?_, ?_, rfl⟩
    · unfold Cached; decide
    · unfold Cached; decide

end Daab
