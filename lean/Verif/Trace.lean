import Verif.Props12

/-!
# C40: what exactly is reported to the doctor, and when
-/

open Std

namespace Daab

variable {σ : Sig} {Y : Sys σ} {s : St σ}

/-! ## Vocabulary -/

/-- The doctor is told of this event (the others are ghost events of the model). -/
def Event.reported : Event σ → Bool
  | .resolve _ _ | .built _ _ | .invalidate _ | .clear => true
  | _ => false

/-- All that was reported to the doctor, oldest first. -/
def reports (s : St σ) : List (Event σ) := (s.c.log.filter Event.reported).reverse

/-- Nothing, or that `p` was built. -/
def BuiltOrNot (p : Promise σ) (l : List (Event σ)) : Prop := l = [] ∨ ∃ v, l = [.built p v]

/-- `l` can be reported while the code of `p` runs: a sequence of uses `p → q`, each followed by what
is reported while `q`'s code runs (if it runs), and then `built q` (if that succeeds). -/
inductive WhileRunning : Promise σ → List (Event σ) → Prop
  | done (p : Promise σ) : WhileRunning p []
  | uses {p q : Promise σ} {m tail l : List (Event σ)} : WhileRunning q m → BuiltOrNot q tail →
      WhileRunning p l → WhileRunning p (.resolve p q :: (m ++ (tail ++ l)))

/-! ## Proofs -/

theorem reports_congr {s s' : St σ} (h : s'.c.log = s.c.log) : reports s' = reports s := by
  unfold reports; rw [h]

theorem reports_ghost {s s' : St σ} {e : Event σ} (h : s'.c.log = e :: s.c.log)
    (he : e.reported = false) : reports s' = reports s := by
  unfold reports; rw [h]; simp [he]

theorem reports_cons {s s' : St σ} {e : Event σ} (h : s'.c.log = e :: s.c.log)
    (he : e.reported = true) : reports s' = reports s ++ [e] := by
  unfold reports; rw [h]; simp [he]

/-- What a getter reports. -/
def GetReports (g : Getter σ) : Prop :=
  ∀ how p s, ∃ m tail, WhileRunning p m ∧ BuiltOrNot p tail ∧
    reports (g how p s).1 = reports s ++ (m ++ tail)

/-- What a build reports. -/
def BuildReports (bld : BuildFn σ) : Prop :=
  ∀ p s, ∃ m tail, WhileRunning p m ∧ reports (bld p s).1 = reports s ++ (m ++ tail) ∧
    (tail = [] ∧ (∀ v, (bld p s).2 ≠ .val (.ok v)) ∨
      ∃ v, tail = [.built p v] ∧ (bld p s).2 = .val (.ok v))

theorem ensureDyn_reports (p : Promise σ) (s : St σ) : reports (ensureDyn Y p s).1 = reports s := by
  unfold ensureDyn
  have h0 : reports (s.onCache (makeKnown p)) = reports s := reports_congr (by simp [St.onCache, makeKnown_log])
  rw [← h0]
  generalize s.onCache (makeKnown p) = s1
  simp only
  cases s1.c.dynStates[p.id]? with
  | some d => rfl
  | none =>
    simp only
    generalize Y.init p.b s1.w = wd
    rcases wd with ⟨w, _ | d⟩
    · exact reports_ghost rfl (by rfl)
    · simp only
      split
      · exact reports_ghost rfl (by rfl)
      · rfl

theorem myState_reports (p : Promise σ) (f : σ.S → σ.S) (s : St σ) :
    reports (myState Y p f s).1 = reports s := by
  unfold myState
  split
  · rfl
  · split
    · rfl
    · split
      · split
        · exact reports_ghost rfl (by rfl)
        · rfl
      · rfl

theorem runProg_reports {g : Getter σ} (hg : GetReports g) (p : Promise σ) (prog : Prog σ) (s : St σ) :
    ∃ m, WhileRunning p m ∧ reports (runProg Y g p prog s).1 = reports s ++ m := by
  induction prog generalizing s with
  | ret r => cases r <;> exact ⟨[], .done p, by simp [runProg]⟩
  | panic => exact ⟨[], .done p, by simp [runProg]⟩
  | resolve how q k ih =>
    rw [runProg]
    split
    · unfold track
      simp only
      have h0 : reports (s.onCache (makeKnown q)) = reports s :=
        reports_congr (by simp [St.onCache, makeKnown_log])
      by_cases hd : (Y.debug && !isKnown p.id (makeKnown q s.c)) = true
      · simp only [hd, if_true]
        exact ⟨[], .done p, by rw [List.append_nil]; exact h0⟩
      · simp only [hd]
        have h1 : reports ((s.onCache (makeKnown q)).onCache (addEdge p q)) = reports s ++ [.resolve p q] := by
          rw [← h0]; exact reports_cons rfl (by rfl)
        change ∃ m, WhileRunning p m ∧
          reports (match g how q ((s.onCache (makeKnown q)).onCache (addEdge p q)) with
          | (s, .val r) => runProg Y g p (k r) s
          | (s, .panic pk) => (s, .panic pk)
          | (s, .stuck) => (s, .stuck)
          | (s, .overflow) => (s, .overflow)).1 = _
        obtain ⟨m, tail, h2, h3, h4⟩ := hg how q ((s.onCache (makeKnown q)).onCache (addEdge p q))
        generalize g how q ((s.onCache (makeKnown q)).onCache (addEdge p q)) = x at h4
        obtain ⟨s1, r⟩ := x
        simp only at h4
        have stop : ∃ m, WhileRunning p m ∧ reports s1 = reports s ++ m :=
          ⟨_, .uses h2 h3 (.done p), by rw [h4, h1]; simp⟩
        cases r with
        | val r =>
          obtain ⟨l, h5, h6⟩ := ih r s1
          exact ⟨_, .uses h2 h3 h5, by rw [h6, h4, h1]; simp⟩
        | panic _ => exact stop
        | stuck => exact stop
        | overflow => exact stop
    · exact ⟨[], .done p, by simp⟩
  | myState f k ih =>
    rw [runProg]
    have h1 := myState_reports (Y := Y) p f s
    generalize myState Y p f s = x at h1
    obtain ⟨s1, r⟩ := x
    simp only at h1
    cases r with
    | val d =>
      obtain ⟨l, h5, h6⟩ := ih d s1
      exact ⟨l, h5, by rw [h6, h1]⟩
    | _ => exact ⟨[], .done p, by simpa using h1⟩
  | world f k ih =>
    rw [runProg]
    exact ih s.w _
  | alloc q k ih =>
    rw [runProg]
    cases ha : allocB q s with
    | none => exact ⟨[], .done p, by simp⟩
    | some s1 =>
      obtain ⟨l, h5, h6⟩ := ih s1
      exact ⟨l, h5, by
        have h7 : reports s1 = reports s := reports_congr (by rw [allocB_c ha])
        simp only [h6, h7]⟩
  | free a k ih =>
    rw [runProg]
    exact ih _

theorem build_reports {g : Getter σ} (hg : GetReports g) : BuildReports (build Y g) := by
  intro p s
  unfold build
  split
  · exact ⟨[], [], .done p, by simp, Or.inl ⟨rfl, by simp⟩⟩
  · have h1 : reports (ensureDyn Y p (s.onCache (makeKnown p))).1 = reports s := by
      rw [ensureDyn_reports]
      exact reports_congr (by simp [St.onCache, makeKnown_log])
    simp only
    generalize ensureDyn Y p (s.onCache (makeKnown p)) = x at h1
    obtain ⟨s1, r⟩ := x
    simp only at h1
    cases r with
    | val d =>
      simp only
      have h2 : reports (s1.onCache (·.emit (.call p))) = reports s := by
        rw [← h1]; exact reports_ghost rfl (by rfl)
      obtain ⟨m, h3, h4⟩ := runProg_reports (Y := Y) hg p (Y.code p.b) (s1.onCache (·.emit (.call p)))
      generalize runProg Y g p (Y.code p.b) (s1.onCache (·.emit (.call p))) = y at h4
      obtain ⟨s2, r⟩ := y
      simp only at h4
      rcases r with (e | v) | k | _ | _
      · exact ⟨m, [], h3, by simp [h4, h2], Or.inl ⟨rfl, by simp⟩⟩
      · refine ⟨m, [.built p v], h3, ?_, Or.inr ⟨v, rfl, rfl⟩⟩
        simp only
        rw [← List.append_assoc, ← h2, ← h4]
        exact reports_cons rfl (by rfl)
      · exact ⟨m, [], h3, by simp [h4, h2], Or.inl ⟨rfl, by simp⟩⟩
      · exact ⟨m, [], h3, by simp [h4, h2], Or.inl ⟨rfl, by simp⟩⟩
      · exact ⟨m, [], h3, by simp [h4, h2], Or.inl ⟨rfl, by simp⟩⟩
    | _ => exact ⟨[], [], .done p, by simpa using h1, Or.inl ⟨rfl, by simp⟩⟩

theorem fresh_fst (p : Promise σ) (x : St σ × Res (Except σ.E σ.V)) : (fresh Y p x).1 = x.1 := by
  obtain ⟨s, r⟩ := x
  rcases r with (e | v) | k | _ | _ <;> rfl

theorem getRef_reports {bld : BuildFn σ} (hb : BuildReports bld) (p : Promise σ) (s : St σ) :
    ∃ m tail, WhileRunning p m ∧ BuiltOrNot p tail ∧
      reports (getRef Y bld p s).1 = reports s ++ (m ++ tail) := by
  have nothing : ∀ x : Res (Except σ.E σ.V), ∃ m tail, WhileRunning p m ∧ BuiltOrNot p tail ∧
      reports (s, x).1 = reports s ++ (m ++ tail) :=
    fun x => ⟨[], [], .done p, Or.inl rfl, by simp⟩
  unfold getRef
  cases hl : lookupRef Y p s.c with
  | val o =>
    cases o with
    | none =>
      simp only [fresh_fst]
      obtain ⟨m, tail, h1, h2, h3⟩ := hb p s
      refine ⟨m, tail, h1, ?_, h2⟩
      rcases h3 with ⟨h3, _⟩ | ⟨v, h3, _⟩
      · exact Or.inl h3
      · exact Or.inr ⟨v, h3⟩
    | some v => exact nothing _
  | _ => exact nothing _

theorem getBin_reports {bld : BuildFn σ} (hb : BuildReports bld) (p : Promise σ) (s : St σ) :
    ∃ m tail, WhileRunning p m ∧ BuiltOrNot p tail ∧
      reports (getBin Y bld p s).1 = reports s ++ (m ++ tail) := by
  have nothing : ∀ x : Res (Except σ.E σ.V), ∃ m tail, WhileRunning p m ∧ BuiltOrNot p tail ∧
      reports (s, x).1 = reports s ++ (m ++ tail) :=
    fun x => ⟨[], [], .done p, Or.inl rfl, by simp⟩
  unfold getBin
  cases hl : lookup Y p s.c with
  | val o =>
    cases o with
    | none =>
      simp only [fresh_fst]
      obtain ⟨m, tail, h1, h2, h3⟩ := hb p s
      refine ⟨m, tail, h1, ?_, h2⟩
      rcases h3 with ⟨h3, _⟩ | ⟨v, h3, _⟩
      · exact Or.inl h3
      · exact Or.inr ⟨v, h3⟩
    | some v => exact nothing _
  | _ => exact nothing _

theorem getCloned_fst (bld : BuildFn σ) (p : Promise σ) (s : St σ) :
    (getCloned Y bld p s).1 = (getRef Y bld p s).1 := by
  unfold getCloned
  generalize getRef Y bld p s = x
  obtain ⟨s, r⟩ := x
  rcases r with (e | v) | k | _ | _ <;> rfl

theorem getBy_reports {bld : BuildFn σ} (hb : BuildReports bld) : GetReports (getBy Y bld) := by
  intro how p s
  unfold getBy
  split
  · cases how with
    | bin => exact getBin_reports hb p s
    | ref => exact getRef_reports hb p s
    | cloned => simp only [getCloned_fst]; exact getRef_reports hb p s
  · exact ⟨[], [], .done p, Or.inl rfl, by simp⟩

theorem buildN_reports (n : Nat) : BuildReports (buildN Y n) ∧ GetReports (getA Y n) := by
  induction n with
  | zero =>
    have : BuildReports (buildN Y 0) :=
      fun p s => ⟨[], [], .done p, by simp [buildN], Or.inl ⟨rfl, by simp [buildN]⟩⟩
    exact ⟨this, by rw [getA_eq]; exact getBy_reports this⟩
  | succ n ih =>
    have : BuildReports (buildN Y (n + 1)) := build_reports ih.2
    exact ⟨this, by rw [getA_eq]; exact getBy_reports this⟩

/-! ## C40 -/

/-- **C40** What `get(p)`, `get_ref(p)`, `get_cloned(p)` report: nothing, if `p`'s artifact is cached.
Otherwise the tree of uses and builds that happen on the way, and at the end that `p` was built, with
the artifact returned, if and only if an artifact is returned. -/
theorem C40_get_reports (h : Reachable Y s) {p : Promise σ} (hl : s.live p = true) (how : Access)
    (n : Nat) (ord : HashOrder) :
    let r := step Y n ord s (.get how p)
    (∀ v, Cached s p.id v → reports r.1 = reports s) ∧
    (Uncached s p.id → ∃ m tail, WhileRunning p m ∧ reports r.1 = reports s ++ (m ++ tail) ∧
      (tail = [] ∧ (∀ v, r.2 ≠ .val (.art (.ok v))) ∨
        ∃ v, tail = [.built p v] ∧ r.2 = .val (.art (.ok (seen Y how v))))) := by
  intro r
  have hr : r = ((getA Y n how p s).1, (getA Y n how p s).2.map .art) := by
    simp only [r, step, Op.promise?, hl, if_true, exec]
  constructor
  · intro v hv
    have hlk : (step Y n ord s (.lookup .bin p)).2 = .val (.optArt (some v)) := by
      have hv' : s.c.artifacts[p.id]? = some v := hv
      rw [((C18_lookups_pure h hl n ord).1 .bin), hv']
      rfl
    have := C01_hit_is_free h hl (n' := n) (ord' := ord) hlk how
    simp only [r, this]
  · intro hu
    have hg : getA Y n how p s = match buildN Y n p s with
        | (s', .val (.ok v)) => (s', .val (.ok (seen Y how v)))
        | x => x := by
      rw [getA_eq]
      have hlk : lookup Y p s.c = .val none := by unfold lookup; rw [hu]
      have hlr : lookupRef Y p s.c = .val none := by unfold lookupRef; rw [hu]
      have hok := (getA_ok Y n).2.ok p s h.inv hl hu
      have hf : fresh Y p (buildN Y n p s) = buildN Y n p s := by
        generalize buildN Y n p s = x at hok
        obtain ⟨s', r⟩ := x
        rcases r with (_ | v) | _ | _ | _
        · rfl
        · simp [fresh, (hok v rfl).2]
        · rfl
        · rfl
        · rfl
      simp only [getBy, hl, if_true]
      cases how with
      | bin =>
        simp only [getBin, hlk, hf]
        generalize buildN Y n p s = x
        obtain ⟨s', r⟩ := x
        rcases r with (_ | v) | _ | _ | _ <;> rfl
      | ref =>
        simp only [getRef, hlr, hf]
        generalize buildN Y n p s = x
        obtain ⟨s', r⟩ := x
        rcases r with (_ | v) | _ | _ | _ <;> rfl
      | cloned =>
        simp only [getCloned, getRef, hlr, hf]
        generalize buildN Y n p s = x
        obtain ⟨s', r⟩ := x
        rcases r with (_ | v) | _ | _ | _ <;> rfl
    obtain ⟨m, tail, h1, h2, h3⟩ := (buildN_reports (Y := Y) n).1 p s
    refine ⟨m, tail, h1, ?_, ?_⟩
    · rw [← h2, hr, hg]
      generalize buildN Y n p s = x
      obtain ⟨s', r⟩ := x
      rcases r with (_ | v) | _ | _ | _ <;> rfl
    · rw [hr, hg]
      generalize buildN Y n p s = x at h3
      obtain ⟨s', r⟩ := x
      rcases h3 with ⟨h3, h4⟩ | ⟨v, h3, h4⟩
      · left
        refine ⟨h3, ?_⟩
        rcases r with (e | v) | _ | _ | _
        · simp [Res.map]
        · exact absurd rfl (h4 v)
        · simp [Res.map]
        · simp [Res.map]
        · simp [Res.map]
      · right
        simp only at h4
        subst h4
        exact ⟨v, h3, rfl⟩

/-- A case with a tree: getting builder 2 after invalidating 0 (2 uses 1, 1 uses 0, then 2 uses 0). -/
example : reports (step Demo.Y 9 Demo.ord Demo.s1 (.get .bin (Demo.P 2))).1 = reports Demo.s1 ∧
    let s := (step Demo.Y 9 Demo.ord Demo.s1 (.invalidate (Demo.P 0))).1
    reports (step Demo.Y 9 Demo.ord s (.get .cloned (Demo.P 2))).1 = reports s ++
      [.resolve (Demo.P 2) (Demo.P 1), .resolve (Demo.P 1) (Demo.P 0), .built (Demo.P 0) (5 : Nat),
        .built (Demo.P 1) (105 : Nat), .resolve (Demo.P 2) (Demo.P 0), .built (Demo.P 2) (110 : Nat)] :=
  ⟨rfl, rfl⟩

/-- The operation is neither a `get`, nor one of those that report an invalidation or clearing. -/
def Op.silent : Op σ → Prop
  | .get .. | .getMut .. | .invalidate _ | .purge _ | .dynStateMut .. | .clearAll => False
  | _ => True

/-- **C40** What the other operations report: `invalidate`, `purge` and `dyn_state_mut` exactly one
invalidation, of the given builder (not of its users); `clear_all` exactly one clearing; and all the
others, also `clear_artifacts`, `garbage_collection` and `lookup_mut`, nothing. -/
theorem C40_other_reports (h : Reachable Y s) (n : Nat) (ord : HashOrder) (op : Op σ)
    (hg : (step Y n ord s op).2.goesOn) :
    (∀ p f, op = .invalidate p ∨ op = .purge p ∨ op = .dynStateMut p f →
      reports (step Y n ord s op).1 = reports s ++ [.invalidate p]) ∧
    (op = .clearAll → reports (step Y n ord s op).1 = reports s ++ [.clear]) ∧
    (op.silent → reports (step Y n ord s op).1 = reports s) := by
  have live : ∀ p, op.promise? = some p → s.live p = true := by
    intro p hp
    by_contra hl
    simp [step, hp, hl, Res.goesOn] at hg
  refine ⟨?_, ?_, ?_⟩
  · rintro p f (rfl | rfl | rfl)
    · obtain ⟨c, e, d⟩ := invalidate_spec h.inv ord p
      simp only [step, Op.promise?, live p rfl, if_true, exec, e]
      exact reports_cons (by simp [Cache.emit, d.log]) (by rfl)
    · obtain ⟨c, cF, e, d, rfl⟩ := purge_spec h.inv ord p
      simp only [step, Op.promise?, live p rfl, if_true, exec, e]
      have e1 : (Event.invalidate p : Event σ).reported = true := rfl
      have e2 : (Event.purged p : Event σ).reported = false := rfl
      simp only [reports, List.filter_cons, e1, e2]
      simp
    · obtain ⟨c, e, d⟩ := invalidate_spec h.inv ord p
      have h1 : reports { s with c := c.emit (.invalidate p) } = reports s ++ [.invalidate p] :=
        reports_cons (by simp [Cache.emit, d.log]) (by rfl)
      have h2 := ensureDyn_reports (Y := Y) p { s with c := c.emit (.invalidate p) }
      rw [← h1, ← h2]
      simp only [step, Op.promise?, live p rfl, if_true, exec, dynStateMut, e]
      generalize ensureDyn Y p { s with c := c.emit (.invalidate p) } = x
      obtain ⟨s1, r⟩ := x
      cases r with
      | val d =>
        simp only
        split
        · exact reports_ghost rfl (by rfl)
        · rfl
      | _ => rfl
  · rintro rfl
    exact reports_cons rfl (by rfl)
  · intro hs
    cases op with
    | get _ _ | getMut _ _ | invalidate _ | purge _ | dynStateMut _ _ | clearAll => exact hs.elim
    | lookup how p => simp only [step, Op.promise?, live p rfl, if_true, exec]
    | getDynState p => simp only [step, Op.promise?, live p rfl, if_true, exec]
    | isKnown p => simp only [step, Op.promise?, live p rfl, if_true, exec]
    | numKnown => rfl
    | dynState p =>
      simp only [step, Op.promise?, live p rfl, if_true, exec]
      exact ensureDyn_reports p s
    | lookupMut p f =>
      simp only [step, Op.promise?, live p rfl, if_true, exec] at hg ⊢
      rcases lookupMut_spec h.inv ord (live p rfl) with ⟨c, e, _⟩ | ⟨c, e, hd⟩
      · rw [e] at hg; exact absurd rfl hg
      · have h1 : reports { s with c := c } = reports s := by
          rcases h.inv.invalidateDependents ord p.id with ⟨c', he, _⟩ | ⟨c', he, _, _, _, _, _, _, _, hlog, _⟩
          · rw [hd] at he; cases he
          · rw [hd] at he; cases he
            exact reports_ghost hlog (by rfl)
        rw [e] at hg ⊢
        rw [← h1]
        cases ha : c.artifacts[p.id]? with
        | none => rfl
        | some v =>
          simp only
          unfold writeArt
          split
          · next heq =>
            split at heq
            · cases heq; exact reports_ghost rfl (by rfl)
            · cases heq
          · rfl
    | clearArtifacts => exact reports_ghost rfl (by rfl)
    | gc =>
      simp only [step, Op.promise?, exec]
      rcases gc_spec h.inv ord with ⟨e, _⟩ | ⟨_, c, e, _, l, _, hlog⟩
      · rw [e]
      · rw [e]
        simp only [reports, hlog]
        have : (l.map (Event.collect (σ := σ))).filter Event.reported = [] := by
          rw [List.filter_eq_nil_iff]
          intro x hx
          obtain ⟨a, _, rfl⟩ := List.mem_map.1 hx
          simp [Event.reported]
        simp [this]
    | alloc p =>
      simp only [step, Op.promise?, exec]
      cases ha : allocB p s with
      | none => rfl
      | some s1 => exact reports_congr (by rw [allocB_c ha])
    | free a => rfl
    | world f => rfl

/-- A case of each kind; the invalidation of 0 drops three artifacts, but one invalidation is
reported. -/
example : reports (step Demo.Y 9 Demo.ord Demo.s1 (.invalidate (Demo.P 0))).1 =
      reports Demo.s1 ++ [.invalidate (Demo.P 0)] ∧
    reports (step Demo.Y 9 Demo.ord Demo.s1 .clearAll).1 = reports Demo.s1 ++ [.clear] ∧
    reports (step Demo.Y 9 Demo.ord Demo.s1 (.lookupMut (Demo.P 2) id)).1 = reports Demo.s1 :=
  ⟨rfl, rfl, rfl⟩

end Daab
