import Verif.Leaf

/-! # Lemmas for `RedeemingBuilder` -/

open Std

namespace Daab

variable {σ : Sig} {Y : Sys σ} {s : St σ}

/-- The artifact `p` was built to the last time since its state was dropped (newest event first);
`dflt` if there is none. -/
def lastGood (p : Promise σ) (dflt : Option σ.V) : List (Event σ) → Option σ.V
  | [] => dflt
  | .built q v :: l => if q.id = p.id ∧ q.b = p.b then some v else lastGood p dflt l
  | .purged q :: l => if q.id = p.id then dflt else lastGood p dflt l
  | .collect a :: l => if a = p.id then dflt else lastGood p dflt l
  | .clear :: _ => dflt
  | _ :: l => lastGood p dflt l

/-- The dynamic state held for the builder of `p` itself. -/
def held (p : Promise σ) (c : Cache σ) : Option σ.S :=
  if c.known[p.id]? = some p.b then c.dynStates[p.id]? else none

/-- The dynamic state of `p` is the artifact it was built to the last time. -/
structure Memo (Y : Sys σ) (dec : σ.S → Option σ.V) (dflt : Option σ.V) (p : Promise σ) (s : St σ) :
    Prop where
  some : ∀ d, held p s.c = some d → dec d = lastGood p dflt s.c.log ∧
    ∀ v, dec d = some v → Y.artTy v = Y.vty p.b
  none : held p s.c = none → lastGood p dflt s.c.log = dflt

theorem Memo.same {dec : σ.S → Option σ.V} {dflt : Option σ.V} {p : Promise σ} {s' : St σ}
    (h : Memo Y dec dflt p s) (hh : held p s'.c = held p s.c)
    (hl : lastGood p dflt s'.c.log = lastGood p dflt s.c.log) : Memo Y dec dflt p s' := by
  constructor
  · rw [hh, hl]; exact h.some
  · rw [hh, hl]; exact h.none

theorem Memo.reset {dec : σ.S → Option σ.V} {dflt : Option σ.V} {p : Promise σ} {s' : St σ}
    (hh : held p s'.c = .none) (hl : lastGood p dflt s'.c.log = dflt) : Memo Y dec dflt p s' := by
  constructor
  · intro d hd; rw [hh] at hd; cases hd
  · exact fun _ => hl

theorem held_makeKnown (hi : Inv Y s) (p q : Promise σ) : held p (makeKnown q s.c) = held p s.c := by
  unfold held
  rw [makeKnown_getElem, makeKnown_dynStates]
  by_cases hq : p.id = q.id
  · rw [if_pos hq]
    cases hk : s.c.known[p.id]? with
    | some b => rw [hq] at hk; simp [hk]
    | none =>
      have : s.c.dynStates[p.id]? = none := by
        cases hd : s.c.dynStates[p.id]? with
        | none => rfl
        | some d =>
          have := hi.dynKnown _ ((mem_getElem _ _).2 ⟨d, hd⟩)
          rw [mem_getElem, hk] at this
          simp at this
      simp [this]
  · rw [if_neg hq]

theorem held_other {p q : Promise σ} {c : Cache σ} (hk : c.known[q.id]? = some q.b)
    (hne : ¬ (q.id = p.id ∧ q.b = p.b)) (hid : q.id = p.id) : held p c = none := by
  unfold held
  rw [← hid, hk, if_neg]
  intro h
  exact hne ⟨hid, Option.some.inj h⟩

theorem held_self {p q : Promise σ} {c : Cache σ} (hk : c.known[q.id]? = some q.b)
    (h : q.id = p.id ∧ q.b = p.b) : held p c = c.dynStates[p.id]? := by
  unfold held
  rw [← h.1, hk, h.2, if_pos rfl]

theorem ensureDyn_memo {enc : Option σ.V → σ.S} {dec : σ.S → Option σ.V} {dflt : Option σ.V}
    {p0 q : Promise σ} (hr : Redeeming Y enc dec dflt p0 q) (p : Promise σ) (hi : Inv Y s)
    (hl : s.live p = true) (h : Memo Y dec dflt p0 s) : Memo Y dec dflt p0 (ensureDyn Y p s).1 := by
  have hk := hi.live_known hl
  have h1 : Memo Y dec dflt p0 (s.onCache (makeKnown p)) :=
    h.same (held_makeKnown hi p0 p) (by simp [St.onCache])
  have hi1 := hi.micro (.known p hl)
  replace hk : (s.onCache (makeKnown p)).c.known[p.id]? = some p.b := hk
  unfold ensureDyn
  generalize s.onCache (makeKnown p) = s1 at h1 hk hi1 ⊢
  simp only
  cases hd : s1.c.dynStates[p.id]? with
  | some d => exact h1
  | none =>
    simp only
    rcases hin : Y.init p.b s1.w with ⟨w, _ | d⟩
    · simp only
      exact h1.same rfl rfl
    · simp only
      split
      · by_cases hid : p.id = p0.id
        · by_cases hb : p.b = p0.b
          · have e : p = p0 := by cases p; cases p0; simp_all
            subst e
            have := hr.init.2 s1.w
            rw [hin] at this
            cases this
            have hn := h1.none (by rw [held_self hk ⟨rfl, rfl⟩]; exact hd)
            constructor
            · intro d hd'
              rw [held_self (q := p) (by exact hk) ⟨rfl, rfl⟩] at hd'
              simp only [Cache.emit] at hd'
              have : d = enc dflt := by grind
              subst this
              rw [hr.decEnc]
              exact ⟨hn.symm, hr.dfltTy⟩
            · intro _; exact hn
          · have hh := held_other (p := p0) hk (fun h => hb h.2) hid
            exact .reset (held_other (p := p0) (q := p) (by exact hk) (fun h => hb h.2) hid) (h1.none hh)
        · refine h1.same ?_ rfl
          unfold held
          simp only [Cache.emit]
          have : p.id ≠ p0.id := hid
          grind
      · exact h1

/-- What the code of a `RedeemingBuilder` does after its inner builder answered. -/
theorem redeem_rest {enc : Option σ.V → σ.S} {dec : σ.S → Option σ.V} {dflt : Option σ.V}
    {p q : Promise σ} (hr : Redeeming Y enc dec dflt p q) (hrun : Running Y p s)
    (h : Memo Y dec dflt p s) (g : Getter σ) (r : Except σ.E σ.V)
    (hty : ∀ v, r = .ok v → Y.artTy v = Y.vty q.b) :
    let x := finish p (runProg Y g p (redeemingRest enc dec r) s)
    Memo Y dec dflt p x.1 ∧
    match r with
    | .ok v => x.2 = .val (.ok v) ∧ x.1.c.dynStates[p.id]? = some (enc (some v))
    | .error _ =>
      match lastGood p dflt s.c.log with
      | some v => x.2 = .val (.ok v)
      | none => x.2 = .panic .user := by
  have hheld : held p s.c = s.c.dynStates[p.id]? := held_self hrun.known ⟨rfl, rfl⟩
  cases r with
  | ok v =>
    have ht : Y.artTy v = Y.vty p.b := by rw [hr.ty]; exact hty v rfl
    obtain ⟨d, hd, _, e⟩ := hrun.myState_eq fun _ => enc (some v)
    rw [if_pos (hr.encTy _)] at e
    simp only [redeemingRest, runProg_myState, e, andThen, runProg, ht, if_true, finish, true_and]
    refine ⟨?_, by simp [St.onCache, Cache.emit]⟩
    constructor
    · intro d' hd'
      rw [held_self (q := p) (by exact hrun.known) ⟨rfl, rfl⟩] at hd'
      have : d' = enc (some v) := by simpa [St.onCache, Cache.emit] using hd'.symm
      subst this
      rw [hr.decEnc]
      refine ⟨by simp [St.onCache, Cache.emit, lastGood], ?_⟩
      rintro v' ⟨⟩
      exact ht
    · intro hd'
      rw [held_self (q := p) (by exact hrun.known) ⟨rfl, rfl⟩] at hd'
      simp [St.onCache, Cache.emit] at hd'
  | error er =>
    obtain ⟨d, hd, hst, e⟩ := hrun.myState_eq id
    rw [if_pos (by exact hst)] at e
    obtain ⟨h1, h2⟩ := h.some d (by rw [hheld, hd])
    rw [← h1]
    simp only [redeemingRest, runProg_myState, e, andThen]
    cases hdec : dec d with
    | none =>
      simp only [runProg, finish, and_true]
      refine h.same ?_ rfl
      rw [held_self (q := p) (by exact hrun.known) ⟨rfl, rfl⟩, hheld, hd]
      simp [Cache.emit]
    | some v =>
      have ht := h2 v hdec
      simp only [runProg, ht, if_true, finish, and_true]
      constructor
      · intro d' hd'
        rw [held_self (q := p) (by exact hrun.known) ⟨rfl, rfl⟩] at hd'
        have : d' = d := by simpa [St.onCache, Cache.emit] using hd'.symm
        subst this
        exact ⟨by simp [St.onCache, Cache.emit, lastGood, hdec], h2⟩
      · intro hd'
        rw [held_self (q := p) (by exact hrun.known) ⟨rfl, rfl⟩] at hd'
        simp [St.onCache, Cache.emit] at hd'

/-- Everything but handing out the dynamic state of `p` for writing. -/
def NotSetting (p : Promise σ) (op : Op σ) : Prop := ∀ f, op ≠ .dynStateMut p f

theorem lastGood_collect (p : Promise σ) (dflt : Option σ.V) (l : List Id) (log : List (Event σ)) :
    lastGood p dflt (l.map Event.collect ++ log) = if p.id ∈ l then dflt else lastGood p dflt log := by
  induction l with
  | nil => simp
  | cons a l ih =>
    simp only [List.map_cons, List.cons_append, lastGood, ih, List.mem_cons]
    by_cases h1 : a = p.id
    · simp [h1]
    · simp [h1, Ne.symm h1]

theorem memo_wrote {dec : σ.S → Option σ.V} {dflt : Option σ.V} {p0 : Promise σ} : ∀ (p : Promise σ) s d, s.c.known[p.id]? = some p.b → ¬ (p.id = p0.id ∧ p.b = p0.b) →
    Memo Y dec dflt p0 s → Memo Y dec dflt p0 (wrote p d s) := by
  intro p s d hk hne h
  refine h.same ?_ rfl
  by_cases hid : p.id = p0.id
  · rw [held_other (p := p0) hk hne hid, held_other (p := p0) (q := p) (by exact hk) hne hid]
  · unfold held
    simp only [wrote, Cache.emit]
    grind

theorem memo_track {dec : σ.S → Option σ.V} {dflt : Option σ.V} {p0 : Promise σ} : ∀ p q s, Inv Y s → Memo Y dec dflt p0 s → Memo Y dec dflt p0 (tracked p q s) := by
  intro p q s hi h
  refine h.same ?_ ?_
  · rw [← held_makeKnown hi p0 q]
    rfl
  · simp [tracked, St.onCache, addEdge, Cache.emit, lastGood]

theorem memo_alloc {dec : σ.S → Option σ.V} {dflt : Option σ.V} {p0 : Promise σ} : ∀ (q : Promise σ) s s', allocB q s = some s' → Memo Y dec dflt p0 s → Memo Y dec dflt p0 s' := by
  intro q s s' ha h
  exact h.same (by rw [allocB_c ha]) (by rw [allocB_c ha])

theorem memo_own {dec : σ.S → Option σ.V} {dflt : Option σ.V} {p0 p : Promise σ}
    (hpp : ¬ (p.id = p0.id ∧ p.b = p0.b)) (L : Promise σ → Prop) :
    ∀ s s', Running Y p s → OwnStep Y L p s s' → Memo Y dec dflt p0 s → Memo Y dec dflt p0 s' := by
  intro s s' hr ho h
  cases ho with
  | track q _ hlq => exact memo_track p q s hr.inv h
  | wrote d _ => exact memo_wrote p s d hr.known hpp h
  | world w => exact h.same rfl rfl
  | alloc q ha => exact memo_alloc q s s' ha h
  | free a => exact h.same rfl rfl

theorem memo_ops {enc : Option σ.V → σ.S} {dec : σ.S → Option σ.V} {dflt : Option σ.V}
    {p0 q0 : Promise σ} (hr0 : Redeeming Y enc dec dflt p0 q0) :
    OpsPreserve Y (Memo Y dec dflt p0) (NotSetting p0) := by
  have hwrote := memo_wrote (Y := Y) (dec := dec) (dflt := dflt) (p0 := p0)
  have htrack := memo_track (Y := Y) (dec := dec) (dflt := dflt) (p0 := p0)
  have hallo := memo_alloc (Y := Y) (dec := dec) (dflt := dflt) (p0 := p0)
  constructor
  · intro n hp p s hi hj hl ha he
    by_cases hpp : p.id = p0.id ∧ p.b = p0.b
    · have e : p = p0 := by cases p; cases p0; simp_all
      subst e
      have hj1 := ensureDyn_memo hr0 p hi hl hj
      rcases build_cases (getA Y n) hi hl ha with ⟨s1, e1, e2⟩ | ⟨s1, e1, e2⟩ | ⟨s1, d, e1, e2⟩
      · rw [e2]; rw [e1] at hj1; exact hj1
      · rw [e2] at he; exact absurd rfl he.1
      · rw [e1] at hj1
        rw [e2] at he ⊢
        obtain ⟨hr, _, _, _⟩ := ensureDyn_running hi hl ha e1
        have hj2 : Memo Y dec dflt p (entered p s1) := hj1.same rfl rfl
        generalize entered p s1 = s2 at hr hj2 he
        rw [hr0.code, redeemingCode] at he ⊢
        cases hlq : s2.live q0 with
        | false => rw [runProg_resolve_dead hlq] at he; exact absurd rfl he.1
        | true =>
          rw [runProg_resolve hr hlq] at he ⊢
          have hr3 := hr.micros (hr.tracked hlq)
          have hj3 := htrack p q0 s2 hr.inv hj2
          have hj4 := hp .bin q0 _ hr3.inv hj3
          have m4 := ((getA_ok Y n).1.ran .bin q0 _ hr3.inv).micros
          have hty := fun v => getA_ty (v := v) (n := n) (how := .bin) (q := q0) hr3.inv
          generalize getA Y n .bin q0 (tracked p q0 s2) = x at he hj4 m4 hty
          obtain ⟨s4, r⟩ := x
          cases r with
          | val r =>
            exact (redeem_rest hr0 (hr3.micros m4) (hj4 (ended_val _)) (getA Y n) r (by
              rintro v rfl
              obtain ⟨v0, _, hv, ht⟩ := hty v rfl
              rw [hv]; exact ht)).1
          | panic k => exact hj4 (ended_panic _)
          | stuck => exact absurd rfl he.1
          | overflow => exact absurd rfl he.2
    · refine build_preserves (p := p) (Prog.only_true _) hp
        (fun s hi hl h _ => ensureDyn_memo hr0 p hi hl h) (fun s _ h => h.same rfl rfl) ?_ ?_ hi hj hl ha he
      · exact memo_own hpp _
      · intro s s' v hr hr' he h
        refine h.same rfl ?_
        simp only [finish, St.onCache, Cache.emit, lastGood, if_neg hpp]
  · intro p s hi hl h _
    exact ensureDyn_memo hr0 p hi hl h
  · intro s s' hi hr h
    cases hr with
    | inval p c' hd =>
      refine h.same ?_ ?_
      · simp only [held, Cache.emit, hd.known, hd.dynStates]
      · simp only [Cache.emit, lastGood, hd.log]
    | purge p c' hd =>
      by_cases hp : p.id = p0.id
      · exact .reset (by unfold held; grind) (by simp [lastGood, hp])
      · refine h.same ?_ ?_
        · unfold held; grind
        · simp [lastGood, hp]
    | gc c' l hl hlog hsw =>
      by_cases hg : Garbage s p0.id
      · refine .reset ?_ ?_
        · unfold held
          rw [hsw.known_none _ hg]
          simp
        · simp only [hlog, lastGood_collect, if_pos ((hl _).2 hg)]
      · refine h.same ?_ ?_
        · unfold held
          rw [hsw.known_keep _ hg, hsw.dyn_keep _ hg]
        · simp only [hlog, lastGood_collect]
          rw [if_neg fun h => hg ((hl _).1 h)]
    | mutDeps a c' _ h1 h2 h3 h4 h5 _ =>
      refine h.same ?_ ?_
      · simp only [held, h1, h2]
      · simp only [h5, lastGood]
    | write p v f _ _ hv => exact h.same rfl rfl
    | clearArtifacts => exact h.same rfl rfl
    | clearAll => exact .reset (by simp [held, St.onCache, clearAll, Cache.emit]) rfl
    | alloc q ha => exact hallo q s s' ha h
    | free a => exact h.same rfl rfl
    | world w => exact h.same rfl rfl
  · intro p f s d hA hi hk ha hd ht h
    refine hwrote p s (f d) hk ?_ h
    rintro ⟨h1, h2⟩
    have e : p = p0 := by cases p; cases p0; simp_all
    exact hA f (by rw [e])

/-- The hooks do not panic when they are told that `p` was built. -/
def Hears (p : Promise σ) (D : Hooks σ) : Prop := ∀ w v, (D w (.report (.built p v))).2 = false

/-- No hook is called after the inner builder answered. -/
theorem runProgH_rest {enc : Option σ.V → σ.S} {dec : σ.S → Option σ.V} (D : Hooks σ) (g g' : Getter σ)
    (p : Promise σ) (r : Except σ.E σ.V) (s : St σ) :
    runProgH Y D g p (redeemingRest enc dec r) s = runProg Y g' p (redeemingRest enc dec r) s := by
  cases r with
  | ok v =>
    simp only [redeemingRest, runProgH_myState, runProg_myState]
    generalize myState Y p _ s = x
    obtain ⟨s', y⟩ := x
    cases y <;> simp only [andThen, runProgH, runProg]
  | error e =>
    simp only [redeemingRest, runProgH_myState, runProg_myState]
    generalize myState Y p _ s = x
    obtain ⟨s', y⟩ := x
    cases y with
    | val d => simp only [andThen]; cases dec d <;> simp only [runProgH, runProg]
    | _ => rfl

/-- With hooks, `get` still answers artifacts of the right type. -/
theorem getAH_bin_ty (D : Hooks σ) (hi : Inv Y s) {n : Nat} {q : Promise σ} {v : σ.V}
    (h : (getAH Y D n .bin q s).2 = .val (.ok v)) : Y.artTy v = Y.vty q.b := by
  have e : ∀ bld, getByH Y D bld .bin q s = getBy Y bld .bin q s := fun bld => by simp only [getByH, getBy]
  cases n with
  | zero =>
    simp only [getAH, e] at h
    obtain ⟨v0, _, rfl, h2⟩ := (getBy_ok (getAH_ok Y D 0).2).ok .bin q s hi v h
    exact h2
  | succ n =>
    simp only [getAH, e] at h
    obtain ⟨v0, _, rfl, h2⟩ := (getBy_ok (getAH_ok Y D (n + 1)).2).ok .bin q s hi v h
    exact h2

theorem memo_hooks {enc : Option σ.V → σ.S} {dec : σ.S → Option σ.V} {dflt : Option σ.V}
    {p0 q0 : Promise σ} (hr0 : Redeeming Y enc dec dflt p0 q0) (D : Hooks σ) (hD : Hears p0 D) :
    HooksPreserve Y (Memo Y dec dflt p0) D := by
  have hw : ∀ (s : St σ) w, Memo Y dec dflt p0 s → Memo Y dec dflt p0 { s with w := w } := fun s w h => h.same rfl rfl
  refine ⟨?_, fun s h => hw s _⟩
  intro n hp p s hi hj hl ha he
  by_cases hpp : p.id = p0.id ∧ p.b = p0.b
  · have e : p = p0 := by cases p; cases p0; simp_all
    subst e
    have hj1 := ensureDyn_memo hr0 p hi hl hj
    rcases buildH_cases D (getAH Y D n) hi hl ha with ⟨s1, e1, e2⟩ | ⟨s1, e1, e2⟩ | ⟨s1, d, e1, e2⟩
    · rw [e2]; rw [e1] at hj1; exact hj1
    · rw [e2] at he; exact absurd rfl he.1
    · rw [e1] at hj1
      rw [e2] at he ⊢
      obtain ⟨hr, _, _, _⟩ := ensureDyn_running hi hl ha e1
      obtain ⟨w, e | e⟩ := callHook_cases D (.handle p) s1 fun s =>
        finishH D p (runProgH Y D (getAH Y D n) p (Y.code p.b) (entered p s))
      · rw [e]; exact hw _ w hj1
      rw [e] at he ⊢
      replace hr : Running Y p (entered p { s1 with w := w }) := hr.micro (.world w)
      have hj2 : Memo Y dec dflt p (entered p { s1 with w := w }) := hj1.same rfl rfl
      generalize entered p { s1 with w := w } = s2 at hr hj2 he
      rw [hr0.code, redeemingCode] at he ⊢
      cases hlq : s2.live q0 with
      | false => rw [runProgH_resolve_dead hlq] at he; exact absurd rfl he.1
      | true =>
        rw [runProgH_resolve hr hlq] at he ⊢
        have hr3 := hr.micros (hr.tracked hlq)
        have hj3 := memo_track p q0 s2 hr.inv hj2
        obtain ⟨w, e | e⟩ := callHook_cases D (.report (.resolve p q0)) (tracked p q0 s2) fun s =>
          andThen (getAH Y D n .bin q0 s) fun r s => runProgH Y D (getAH Y D n) p (redeemingRest enc dec r) s
        · rw [e]; exact hw _ w hj3
        rw [e] at he ⊢
        replace hr3 : Running Y p { tracked p q0 s2 with w := w } := hr3.micro (.world w)
        replace hj3 := hw _ w hj3
        have hj4 := hp .bin q0 _ hr3.inv hj3
        have m4 := ((getAH_ok Y D n).1 .bin q0 _ hr3.inv).micros
        have hty := fun v => getAH_bin_ty (v := v) (n := n) (q := q0) D hr3.inv
        generalize getAH Y D n .bin q0 { tracked p q0 s2 with w := w } = x at he hj4 m4 hty
        obtain ⟨s4, r⟩ := x
        cases r with
        | val r =>
          have := (redeem_rest hr0 (hr3.micros m4) (hj4 (ended_val _)) (getA Y n) r (by
            rintro v rfl
            exact hty v rfl)).1
          simp only [andThen] at he ⊢
          rw [runProgH_rest D (getAH Y D n) (getA Y n)] at he ⊢
          generalize runProg Y (getA Y n) p (redeemingRest enc dec r) s4 = y at this he
          obtain ⟨s5, y⟩ := y
          rcases y with (er | v) | k | _ | _
          · exact this
          · simp only [finishH]
            obtain ⟨w, e⟩ : ∃ w, callHook D (.report (.built p v)) s5 (storeH D p v) = storeH D p v { s5 with w := w } := by
              have h1 := hD s5.w v
              unfold callHook
              generalize D s5.w (.report (.built p v)) = z at h1
              obtain ⟨w, c⟩ := z
              simp only at h1
              subst h1
              exact ⟨w, rfl⟩
            obtain ⟨w2, _, e1, _⟩ := storeH_finish D p v { s5 with w := w }
            rw [e, e1]
            exact this.same rfl rfl
          · exact this
          · exact absurd rfl he.1
          · exact absurd rfl he.2
        | panic k => exact hj4 (ended_panic _)
        | stuck => exact absurd rfl he.1
        | overflow => exact absurd rfl he.2
  · refine buildH_preserves (p := p) (Prog.only_true _) hp hw
      (fun s hi hl h _ => ensureDyn_memo hr0 p hi hl h) (fun s _ h => h.same rfl rfl) (memo_own hpp _) ?_ hi hj hl ha he
    intro s s' v w hr hr' he h
    refine h.same rfl ?_
    simp only [finish, St.onCache, Cache.emit, lastGood, if_neg hpp]

theorem ReachableBy.memo {enc : Option σ.V → σ.S} {dec : σ.S → Option σ.V} {dflt : Option σ.V}
    {p q : Promise σ} (hr : Redeeming Y enc dec dflt p q) (h : ReachableBy Y (NotSetting p) (Hears p) s) :
    Memo Y dec dflt p s :=
  h.preserved (memo_ops hr) (memo_hooks hr) fun w => .reset (by simp [held, St.new]) rfl

/-- Building leaves the last good artifact alone unless `p` itself is built. -/
theorem Micros.lastGood {s' : St σ} (h : Micros Y s s') (p : Promise σ) (dflt : Option σ.V)
    (hn : ∀ v, ¬ Since s s' (.built p v)) : lastGood p dflt s'.c.log = lastGood p dflt s.c.log := by
  induction h with
  | refl => rfl
  | @tail b c h1 hm ih =>
    have hmono := hm.log_mono
    have ih := ih fun v hs => hn v (hs.of_suffix hmono)
    rw [← ih]
    cases hm with
    | built p' v _ _ _ _ =>
      simp only [St.onCache, Cache.emit, Daab.lastGood]
      rw [if_neg]
      rintro ⟨h2, h3⟩
      have e : p' = p := by cases p'; cases p; simp_all
      subst e
      apply hn v
      obtain ⟨new, hnew⟩ := Micros.log_mono h1
      exact ⟨.built p' v :: new, by simp [St.onCache, Cache.emit, ← hnew], by simp⟩
    | alloc q ha => rw [allocB_c ha]
    | known p hl => simp [St.onCache]
    | track => rfl
    | init => rfl
    | initPanic => rfl
    | setDyn => rfl
    | world => rfl
    | free => rfl
    | call => rfl

end Daab
