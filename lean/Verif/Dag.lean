import Verif.Run
import Verif.Props6

/-!
# Properties C26, C27 (acyclic builders), C32 (cyclic builders)
-/

open Std

namespace Daab

variable {σ : Sig} {Y : Sys σ} {s : St σ}

/-- Whatever the resolved artifacts and states are, the code only resolves promises in `P`. -/
def Prog.only (P : Promise σ → Prop) : Prog σ → Prop
  | .ret _ => True
  | .panic => True
  | .resolve _ q k => P q ∧ ∀ r, (k r).only P
  | .myState _ k => ∀ d, (k d).only P
  | .world _ k => ∀ w, (k w).only P
  | .alloc _ k => k.only P
  | .free _ k => k.only P

/-- The builders form a directed acyclic graph, `rk b` being the height of the builder `b`: the length
of the longest chain of builders below it. -/
def Ranked (Y : Sys σ) (rk : σ.B → Nat) : Prop := ∀ b, (Y.code b).only fun q => rk q.b < rk b

/-! ## C26 -/

theorem runProg_no_overflow {g : Getter σ} (hg : GetOk Y g) {P : Promise σ → Prop}
    (hno : ∀ how q s, Inv Y s → P q → (g how q s).2 ≠ .overflow) {p : Promise σ} (prog : Prog σ)
    (hP : prog.only P) (hr : Running Y p s) : (runProg Y g p prog s).2 ≠ .overflow := by
  induction prog generalizing s with
  | ret r =>
    cases r with
    | error e => simp [runProg]
    | ok v => simp only [runProg]; split <;> simp
  | panic => simp [runProg]
  | resolve how q k ih =>
    cases hl : s.live q with
    | false => rw [runProg_resolve_dead hl]; simp
    | true =>
      rw [runProg_resolve hr hl]
      have r2 := hr.micros (hr.tracked hl)
      have h1 := hno how q _ r2.inv hP.1
      have h2 := (hg.ran how q _ r2.inv).micros
      generalize g how q (tracked p q s) = x at h1 h2
      obtain ⟨s', r⟩ := x
      cases r with
      | val r => exact ih r (hP.2 r) (r2.micros h2)
      | overflow => exact absurd rfl h1
      | _ => simp [andThen]
  | myState f k ih =>
    obtain ⟨d, _, ⟨_, e⟩ | ⟨hm, e⟩⟩ := runProg_myState_cases hr g f k
    · rw [e]; simp
    · rw [e]; exact ih d (hP d) (hr.micro hm)
  | world f k ih => exact ih _ (hP _) (hr.micro (.world _))
  | alloc q k ih =>
    rw [runProg]
    cases ha : allocB q s with
    | none => simp
    | some s' => exact ih hP (hr.micro (.alloc q ha))
  | free a k ih => exact ih hP (hr.micro (.free a))

theorem getA_no_overflow {rk : σ.B → Nat} (hrk : Ranked Y rk) (n : Nat) (how : Access) (p : Promise σ)
    (hi : Inv Y s) (hn : rk p.b < n) : (getA Y n how p s).2 ≠ .overflow := by
  induction n generalizing s how p with
  | zero => omega
  | succ n ih =>
    cases hl : s.live p with
    | false => rw [getA_dead _ _ hl]; simp
    | true =>
      cases ha : s.c.artifacts[p.id]? with
      | some v => rw [getA_hit _ _ hi hl ha]; simp
      | none =>
        rw [getA_miss _ _ hi hl ha]
        have : (buildN Y (n + 1) p s).2 ≠ .overflow := by
          simp only [buildN]
          rcases build_cases (getA Y n) hi hl ha with ⟨s1, _, e⟩ | ⟨s1, _, e⟩ | ⟨s1, d, e1, e2⟩
          · rw [e]; simp
          · rw [e]; simp
          · rw [e2, finish_res]
            refine runProg_no_overflow (getA_ok Y n).1 (P := fun q => rk q.b < rk p.b) ?_ _ (hrk p.b)
              (ensureDyn_running hi hl ha e1).1
            intro how q s hi hq
            exact ih how q hi (by omega)
        generalize (buildN Y (n + 1) p s).2 = r at this ⊢
        rcases r with (_ | _) | _ | _ | _ <;> simp_all [seenRes]

/-! More stack space does not change anything. -/

/-- `g'` agrees with `g` wherever `g` does not overflow. -/
def Extends (g g' : Getter σ) : Prop := ∀ how q s, (g how q s).2 ≠ .overflow → g' how q s = g how q s

theorem runProg_extends {g g' : Getter σ} (hg : Extends g g') {p : Promise σ} (prog : Prog σ)
    (hno : (runProg Y g p prog s).2 ≠ .overflow) : runProg Y g' p prog s = runProg Y g p prog s := by
  induction prog generalizing s with
  | ret r => cases r <;> rfl
  | panic => rfl
  | resolve how q k ih =>
    simp only [runProg] at hno ⊢
    split
    · next hl =>
      rw [if_pos hl] at hno
      generalize track Y p q s.c = t at hno
      obtain ⟨c, o⟩ := t
      cases o with
      | some pk => rfl
      | none =>
        simp only at hno ⊢
        have h1 := hg how q { s with c := c }
        generalize g how q { s with c := c } = x at hno h1
        obtain ⟨s', r⟩ := x
        cases r with
        | overflow => exact absurd rfl hno
        | val r => rw [h1 (by simp)]; exact ih r hno
        | panic k => rw [h1 (by simp)]
        | stuck => rw [h1 (by simp)]
    · rfl
  | myState f k ih =>
    rw [runProg_myState] at hno ⊢
    rw [runProg_myState]
    generalize myState Y p f s = x at hno
    obtain ⟨s', r⟩ := x
    cases r with
    | val r => exact ih r hno
    | _ => rfl
  | world f k ih => exact ih _ hno
  | alloc q k ih =>
    simp only [runProg] at hno ⊢
    cases ha : allocB q s with
    | none => rfl
    | some s' => rw [ha] at hno; exact ih hno
  | free a k ih => exact ih hno

theorem build_extends {g g' : Getter σ} (hg : Extends g g') {p : Promise σ}
    (hno : (build Y g p s).2 ≠ .overflow) : build Y g' p s = build Y g p s := by
  simp only [build] at hno ⊢
  split
  · rfl
  · next hc =>
    rw [if_neg hc] at hno
    generalize ensureDyn Y p (s.onCache (makeKnown p)) = x at hno
    obtain ⟨s1, r⟩ := x
    cases r with
    | val d =>
      simp only at hno ⊢
      have h1 := runProg_extends (Y := Y) (s := s1.onCache (·.emit (.call p))) hg (p := p) (Y.code p.b)
      generalize runProg Y g p (Y.code p.b) (s1.onCache (·.emit (.call p))) = y at hno h1
      obtain ⟨s2, r⟩ := y
      rw [h1 (by rcases r with (_ | _) | _ | _ | _ <;> simp_all)]
    | _ => rfl

theorem getBy_extends {b b' : BuildFn σ}
    (hb : ∀ p s, (b p s).2 ≠ .overflow → b' p s = b p s) : Extends (getBy Y b) (getBy Y b') := by
  intro how p s hno
  have hf : ∀ x : St σ × Res (Except σ.E σ.V), (fresh Y p x).2 ≠ .overflow → x.2 ≠ .overflow := by
    rintro ⟨s, r⟩ h
    rcases r with (_ | _) | _ | _ | _ <;> simp_all [fresh]
  have hB : (getBin Y b p s).2 ≠ .overflow → getBin Y b' p s = getBin Y b p s := by
    intro h
    unfold getBin at h ⊢
    cases hx : lookup Y p s.c with
    | val o =>
      cases o with
      | some v => rfl
      | none =>
        simp only [hx] at h ⊢
        rw [hb p s (hf _ h)]
    | _ => rfl
  have hR : (getRef Y b p s).2 ≠ .overflow → getRef Y b' p s = getRef Y b p s := by
    intro h
    unfold getRef at h ⊢
    cases hx : lookupRef Y p s.c with
    | val o =>
      cases o with
      | some v => rfl
      | none =>
        simp only [hx] at h ⊢
        rw [hb p s (hf _ h)]
    | _ => rfl
  unfold getBy at hno ⊢
  split
  · next hl =>
    rw [if_pos hl] at hno
    cases how with
    | bin => exact hB hno
    | ref => exact hR hno
    | cloned =>
      simp only [getCloned] at hno ⊢
      rw [hR]
      intro h
      apply hno
      generalize getRef Y b p s = x at h
      obtain ⟨s', r⟩ := x
      rcases r with (_ | _) | _ | _ | _ <;> simp_all
  · rfl

theorem getA_extends (n : Nat) : Extends (getA Y n) (getA Y (n + 1)) := by
  induction n with
  | zero => exact getBy_extends fun p s h => absurd rfl h
  | succ n ih => exact getBy_extends fun p s h => build_extends ih h

theorem getA_mono {n m : Nat} (h : n ≤ m) : Extends (getA Y n) (getA Y m) := by
  induction h with
  | refl => exact fun _ _ _ _ => rfl
  | step h ih =>
    intro how q s hno
    have h1 := ih how q s hno
    rw [← h1]
    exact getA_extends _ how q s (by rw [h1]; exact hno)

/-- **C26** If the builders form a directed acyclic graph, then `get(p)` from any reachable state needs
at most as much stack as the height of `p` in the graph (plus one, for `p` itself) requires: it
never overflows.  (Builder code terminates by construction of `Prog`.) -/
theorem C26_dag_bounded_depth {rk : σ.B → Nat} (hrk : Ranked Y rk) (h : Reachable Y s)
    (p : Promise σ) (how : Access) (n : Nat) (ord : HashOrder) (hn : rk p.b < n) :
    (step Y n ord s (.get how p)).2 ≠ .overflow := by
  cases hl : s.live p with
  | false => simp [step, Op.promise?, hl]
  | true =>
    rw [step_live rfl hl]
    simp only [exec]
    have := getA_no_overflow hrk n how p h.inv hn
    generalize (getA Y n how p s).2 = r at this ⊢
    cases r <;> simp_all [Res.map]

/-- **C26** The stack space beyond that is irrelevant: effect and result of `get(p)` are the same. -/
theorem C26_stack_irrelevant {rk : σ.B → Nat} (hrk : Ranked Y rk) (h : Reachable Y s)
    (p : Promise σ) (how : Access) (n n' : Nat) (ord ord' : HashOrder) (hn : rk p.b < n)
    (hn' : rk p.b < n') :
    step Y n ord s (.get how p) = step Y n' ord' s (.get how p) := by
  have key : ∀ m, rk p.b < m → getA Y m how p s = getA Y (rk p.b + 1) how p s := fun m hm =>
    getA_mono (show rk p.b + 1 ≤ m from hm) how p s
      (getA_no_overflow hrk _ how p h.inv (Nat.lt_succ_self _))
  unfold step
  simp only [Op.promise?]
  split
  · simp only [exec]
    rw [key n hn, key n' hn']
  · rfl

/-- **C26**, without the assumption of acyclicity: if `get(p)` does not overflow the stack, then more
stack space changes neither its effect nor its result. -/
theorem C26_more_stack (p : Promise σ) (how : Access) {n n' : Nat} (ord : HashOrder) (hn : n ≤ n')
    (hno : (step Y n ord s (.get how p)).2 ≠ .overflow) :
    step Y n' ord s (.get how p) = step Y n ord s (.get how p) := by
  unfold step at hno ⊢
  simp only [Op.promise?] at hno ⊢
  split
  · next hl =>
    rw [if_pos hl] at hno
    simp only [exec] at hno ⊢
    rw [getA_mono hn how p s]
    intro h
    rw [h] at hno
    exact hno rfl
  · rfl

/-! ## C27 for acyclic builders -/

/-- `l` extends `l0`, and on the way artifacts were only inserted where there was none. -/
inductive FreshTo (l0 : List (Event σ)) : List (Event σ) → Prop
  | refl : FreshTo l0 l0
  | cons {l : List (Event σ)} {e : Event σ} : FreshTo l0 l →
      (∀ q v, e = .built q v → (Abs.of l).art q.id = none) → FreshTo l0 (e :: l)

theorem FreshTo.trans {l0 l1 l2 : List (Event σ)} (h1 : FreshTo l0 l1) (h2 : FreshTo l1 l2) :
    FreshTo l0 l2 := by
  induction h2 with
  | refl => exact h1
  | cons _ he ih => exact ih.cons he

theorem ensureDyn_log (p : Promise σ) (s : St σ) : FreshTo s.c.log (ensureDyn Y p s).1.c.log := by
  unfold ensureDyn
  simp only
  split
  · simp only [St.onCache, makeKnown_log]; exact .refl
  · split
    · simp only [St.onCache, makeKnown_log, Cache.emit]; exact FreshTo.refl.cons (by simp)
    · split
      · simp only [St.onCache, makeKnown_log, Cache.emit]; exact FreshTo.refl.cons (by simp)
      · simp only [St.onCache, makeKnown_log]; exact .refl

/-- What a run does if only builders with `rk < R` are involved. -/
structure Low (rk : σ.B → Nat) (R : Nat) (s s' : St σ) : Prop where
  fresh : FreshTo s.c.log s'.c.log
  low : ∀ a : Id, s'.c.artifacts[a]? = s.c.artifacts[a]? ∨ ∃ b, s'.c.known[a]? = some b ∧ rk b < R

theorem Low.refl {rk : σ.B → Nat} {R : Nat} (s : St σ) : Low rk R s s := ⟨.refl, fun _ => Or.inl rfl⟩

theorem Low.trans {rk : σ.B → Nat} {R : Nat} {s s1 s2 : St σ} (h1 : Low rk R s s1) (hm : Micros Y s1 s2)
    (h2 : Low rk R s1 s2) : Low rk R s s2 := by
  refine ⟨h1.fresh.trans h2.fresh, fun a => ?_⟩
  rcases h2.low a with e | h
  · rcases h1.low a with e' | ⟨b, hb, hR⟩
    · exact Or.inl (e.trans e')
    · exact Or.inr ⟨b, hm.known_mono _ _ hb, hR⟩
  · exact Or.inr h

theorem Low.of_log {rk : σ.B → Nat} {R : Nat} {s s' : St σ} (hl : FreshTo s.c.log s'.c.log)
    (ha : s'.c.artifacts = s.c.artifacts) : Low rk R s s' := ⟨hl, fun a => Or.inl (by rw [ha])⟩

theorem Low.weaken {rk : σ.B → Nat} {R R' : Nat} {s s' : St σ} (h : Low rk R s s') (hR : R ≤ R') :
    Low rk R' s s' :=
  ⟨h.fresh, fun a => (h.low a).imp id fun ⟨b, h1, h2⟩ => ⟨b, h1, by omega⟩⟩

theorem runProg_low {g : Getter σ} (hg : GetOk Y g) {rk : σ.B → Nat} {R : Nat}
    (hlow : ∀ how q s, Inv Y s → rk q.b < R → Low rk R s (g how q s).1) {p : Promise σ} (prog : Prog σ)
    (hP : prog.only fun q => rk q.b < R) (hr : Running Y p s) :
    Low rk R s (runProg Y g p prog s).1 := by
  induction prog generalizing s with
  | ret r => cases r <;> exact .refl s
  | panic => exact .refl s
  | resolve how q k ih =>
    cases hl : s.live q with
    | false => rw [runProg_resolve_dead hl]; exact .refl s
    | true =>
      rw [runProg_resolve hr hl]
      have r2 := hr.micros (hr.tracked hl)
      have l1 : Low rk R s (tracked p q s) := by
        refine .of_log ?_ ?_
        · simp only [tracked, St.onCache, addEdge, Cache.emit, makeKnown_log]
          exact FreshTo.refl.cons (by simp)
        · simp only [tracked, St.onCache, addEdge, Cache.emit, makeKnown_artifacts]
      have h1 := hlow how q _ r2.inv hP.1
      have h2 := (hg.ran how q _ r2.inv).micros
      generalize g how q (tracked p q s) = x at h1 h2
      obtain ⟨s', r⟩ := x
      have l2 := l1.trans h2 h1
      cases r with
      | val r =>
        have r3 := r2.micros h2
        exact l2.trans (r3.run hg (k r)).micros (ih r (hP.2 r) r3)
      | _ => exact l2
  | myState f k ih =>
    obtain ⟨d, _, ⟨_, e⟩ | ⟨hm, e⟩⟩ := runProg_myState_cases hr g f k
    · rw [e]; exact .refl s
    · rw [e]
      have r2 := hr.micro hm
      exact (Low.of_log (FreshTo.refl.cons (by simp)) rfl : Low rk R s (wrote p (f d) s)).trans
        (r2.run hg (k d)).micros (ih d (hP d) r2)
  | world f k ih =>
    have h := ih s.w (hP _) (hr.micro (.world (f s.w)))
    exact ⟨h.fresh, h.low⟩
  | alloc q k ih =>
    rw [runProg]
    cases ha : allocB q s with
    | none => exact .refl s
    | some s' =>
      have r2 := hr.micro (.alloc q ha)
      have hc := allocB_c ha
      exact (Low.of_log (by rw [hc]; exact .refl) (by rw [hc])).trans (r2.run hg k).micros (ih hP r2)
  | free a k ih =>
    have h := ih hP (hr.micro (.free a))
    exact ⟨h.fresh, h.low⟩

theorem getA_low {rk : σ.B → Nat} (hrk : Ranked Y rk) (n : Nat) (how : Access) (p : Promise σ)
    (hi : Inv Y s) : Low rk (rk p.b + 1) s (getA Y n how p s).1 := by
  induction n generalizing s how p with
  | zero =>
    cases hl : s.live p with
    | false => rw [getA_dead _ _ hl]; exact .refl s
    | true =>
      cases ha : s.c.artifacts[p.id]? with
      | some v => rw [getA_hit _ _ hi hl ha]; exact .refl s
      | none => rw [getA_miss _ _ hi hl ha]; exact .refl s
  | succ n ih =>
    cases hl : s.live p with
    | false => rw [getA_dead _ _ hl]; exact .refl s
    | true =>
      cases ha : s.c.artifacts[p.id]? with
      | some v => rw [getA_hit _ _ hi hl ha]; exact .refl s
      | none =>
        rw [getA_miss _ _ hi hl ha]
        simp only [buildN]
        have hed := ensureDyn_log (Y := Y) p s
        have hea := (ensureDyn_ran hi hl (Y := Y)).2.2.1
        rcases build_cases (getA Y n) hi hl ha with ⟨s1, e1, e⟩ | ⟨s1, e1, e⟩ | ⟨s1, d, e1, e2⟩
        · rw [e]; rw [e1] at hed hea; exact .of_log hed hea
        · rw [e]; rw [e1] at hed hea; exact .of_log hed hea
        · rw [e2]
          rw [e1] at hed hea
          obtain ⟨r1, m1, a1, d1⟩ := ensureDyn_running hi hl ha e1
          have l1 : Low rk (rk p.b) s (entered p s1) := by
            refine .of_log (hed.cons (by simp)) ?_
            exact a1
          have l2 := runProg_low (getA_ok Y n).1 (R := rk p.b)
            (fun how q s hi hq => (ih how q hi).weaken hq) (Y.code p.b) (hrk p.b) r1
          have hm := (r1.run (getA_ok Y n).1 (Y.code p.b)).micros
          have l3 := l1.trans hm l2
          have i3 := r1.micros hm
          generalize runProg Y (getA Y n) p (Y.code p.b) (entered p s1) = x at l3 i3
          obtain ⟨s2, r⟩ := x
          have l4 := l3.weaken (Nat.le_succ (rk p.b))
          have hnone : s2.c.artifacts[p.id]? = none := by
            rcases l3.low p.id with e | ⟨b, hb, hR⟩
            · rw [e]; exact ha
            · have := i3.known
              rw [hb] at this
              cases this
              omega
          rcases r with (_ | v) | _ | _ | _
          · exact l4
          · refine ⟨l4.fresh.cons ?_, fun a => ?_⟩
            · rintro q w ⟨⟩
              exact art_none_abs i3.inv hnone
            · by_cases hap : a = p.id
              · subst hap
                exact Or.inr ⟨p.b, i3.known, Nat.lt_succ_self _⟩
              · rw [finish_artifacts hap]
                exact l4.low a
          · exact l4
          · exact l4
          · exact l4

/-- While building, nothing is dropped. -/
theorem Micros.no_drop {s' : St σ} (h : Micros Y s s') :
    ∃ new, s'.c.log = new ++ s.c.log ∧ ∀ e ∈ new, ¬ e.mayDrop := by
  induction h with
  | refl => exact ⟨[], rfl, by simp⟩
  | tail _ hm ih =>
    obtain ⟨new, h1, h2⟩ := ih
    have hc : ∀ (e : Event σ) (l : List (Event σ)), l = e :: (new ++ s.c.log) → ¬ e.mayDrop →
        ∃ new, l = new ++ s.c.log ∧ ∀ e ∈ new, ¬ e.mayDrop := by
      intro e l hl he
      refine ⟨e :: new, hl, ?_⟩
      intro x hx
      rcases List.mem_cons.1 hx with h | h
      · rw [h]; exact he
      · exact h2 x h
    cases hm with
    | known p hl => exact ⟨new, by simp [St.onCache, h1], h2⟩
    | track p q => exact hc (.resolve p q) _ (by simp [St.onCache, addEdge, Cache.emit, h1]) id
    | init p w d => exact hc (.initDyn p (some d)) _ (by simp [Cache.emit, h1]) id
    | initPanic p w => exact hc (.initDyn p none) _ (by simp [Cache.emit, h1]) id
    | setDyn p d => exact hc (.setDyn p d) _ (by simp [Cache.emit, h1]) id
    | world w => exact ⟨new, h1, h2⟩
    | alloc q ha => exact ⟨new, by rw [allocB_c ha]; exact h1, h2⟩
    | free a => exact ⟨new, h1, h2⟩
    | call p => exact hc (.call p) _ (by simp [St.onCache, Cache.emit, h1]) id
    | built p v => exact hc (.built p v) _ (by simp [St.onCache, Cache.emit, h1]) id

theorem FreshTo.split {l0 l : List (Event σ)} (h : FreshTo l0 l) {post pre : List (Event σ)}
    {q : Promise σ} {v : σ.V} (hl : l = post ++ .built q v :: (pre ++ l0)) :
    (Abs.of (pre ++ l0)).art q.id = none := by
  induction h generalizing post with
  | refl =>
    have := congrArg List.length hl
    simp at this
    omega
  | cons h he ih =>
    cases post with
    | nil => cases hl; exact he q v rfl
    | cons e post => cases hl; exact ih rfl

/-- **C27** If the builders form a directed acyclic graph, then in one `get`, however many paths lead to
a builder, an artifact of it is built at most once: no two events `built` in the log of one `get`
are of the same builder. -/
theorem C27_dag_builds_once {rk : σ.B → Nat} (hrk : Ranked Y rk) (h : Reachable Y s) {p : Promise σ}
    {how : Access} {n : Nat} {ord : HashOrder} {new post mid pre : List (Event σ)} {q r : Promise σ}
    {v w : σ.V} (hnew : (step Y n ord s (.get how p)).1.c.log = new ++ s.c.log)
    (hl : new = post ++ .built q v :: (mid ++ .built r w :: pre)) : q.id ≠ r.id := by
  intro hqr
  have hfresh : FreshTo s.c.log (step Y n ord s (.get how p)).1.c.log ∧
      Micros Y s (step Y n ord s (.get how p)).1 := by
    cases hlive : s.live p with
    | false => simp only [step, Op.promise?, hlive]; exact ⟨.refl, .refl⟩
    | true =>
      rw [step_live rfl hlive]
      exact ⟨(getA_low hrk n how p h.inv).fresh, ((getA_ok Y n).1.ran how p s h.inv).micros⟩
  obtain ⟨new', h1, h2⟩ := hfresh.2.no_drop
  rw [hnew] at h1
  have := List.append_cancel_right h1
  subst this
  subst hl
  have h3 := hfresh.1.split (post := post) (pre := mid ++ .built r w :: pre) (q := q) (v := v)
    (by rw [hnew]; simp)
  refine Abs.art_stays (l := .built r w :: (pre ++ s.c.log)) (mid := mid) (a := q.id) ?_ ?_ ?_
  · simp [Abs.of, Abs.apply, hqr]
  · intro e he
    exact h2 e (by simp [he])
  · simpa using h3

/-- **C27** ... and only if it was not cached before. -/
theorem C27_dag_builds_uncached {rk : σ.B → Nat} (hrk : Ranked Y rk) (h : Reachable Y s) {p : Promise σ}
    {how : Access} {n : Nat} {ord : HashOrder} {q : Promise σ} {v : σ.V}
    (hb : Since s (step Y n ord s (.get how p)).1 (.built q v)) : Uncached s q.id := by
  cases hlive : s.live p with
  | false =>
    simp only [step, Op.promise?, hlive] at hb
    exact absurd hb since_refl
  | true =>
    rw [step_live rfl hlive] at hb
    obtain ⟨new, h1, h2⟩ := hb
    obtain ⟨post, pre, rfl⟩ := List.append_of_mem h2
    have hf := (getA_low hrk n how p h.inv).fresh
    have hm := ((getA_ok Y n).1.ran how p s h.inv).micros.no_drop
    obtain ⟨new', h3, h4⟩ := hm
    simp only [exec] at h1
    rw [h1] at h3
    have := List.append_cancel_right h3
    subst this
    have h5 := hf.split (post := post) (pre := pre) (q := q) (v := v) (by rw [h1]; simp)
    cases hc : s.c.artifacts[q.id]? with
    | none => exact hc
    | some x =>
      refine absurd h5 (Abs.art_stays ?_ ?_)
      · intro hn
        have := h.inv.absArt q.id
        rw [hn, hc] at this
        cases this
      · intro e he; exact h4 e (by simp [he])

namespace Demo

/-- Builder 0 returns its dynamic state + 1, builder `b + 1` resolves `b` twice and returns the sum. -/
def dagCode : Nat → Prog sig
  | 0 => .myState id fun d => .ret (.ok (d + 1))
  | b + 1 => .resolve .bin (P b) fun r => match r with
    | .ok v => .resolve .cloned (P b) fun r => match r with
      | .ok w => .ret (.ok (v + w))
      | .error e => .ret (.error e)
    | .error e => .ret (.error e)

/-- An acyclic system. -/
def dagY : Sys sig := { Demo.Y with code := dagCode }

theorem dagY_ranked : Ranked dagY id := by
  intro b
  cases b with
  | zero => intro d; trivial
  | succ b =>
    refine ⟨Nat.lt_succ_self b, fun r => ?_⟩
    cases r with
    | error e => trivial
    | ok v =>
      refine ⟨Nat.lt_succ_self b, fun r => ?_⟩
      cases r <;> trivial

/-- The hypotheses of C26 and C27 are met: a chain of doubled edges, partly invalidated; the next `get`
of builder 2 builds builders 1 and 2 again, each once, with stack space 3; stack space 1 does not
suffice. -/
example :
    let s := runOps dagY 3 ord ([0, 1, 2].map (.alloc <| P ·) ++ [.get .bin (P 2), .invalidate (P 1)]) (St.new 0)
    Ranked dagY id ∧ Reachable dagY s ∧
    (step dagY 3 ord s (.get .bin (P 2))).2 = .val (.art (.ok 4)) ∧
    (step dagY 1 ord s (.get .bin (P 2))).2 = .overflow ∧
    (step dagY 3 ord s (.get .bin (P 2))).1.c.log =
      [.built (P 2) 4, .resolve (P 2) (P 1), .built (P 1) 2, .resolve (P 1) (P 0),
        .resolve (P 1) (P 0), .call (P 1), .resolve (P 2) (P 1), .call (P 2)] ++ s.c.log :=
  ⟨dagY_ranked, Reachable.runOps _ (Reachable.new (Y := dagY) (0 : Nat)) (by decide), rfl, rfl, rfl⟩

/-- That state. -/
def dagS : St sig :=
  runOps dagY 3 ord ([0, 1, 2].map (.alloc <| P ·) ++ [.get .bin (P 2), .invalidate (P 1)]) (St.new 0)

theorem dagS_reachable : Reachable dagY dagS := Reachable.runOps _ (Reachable.new (Y := dagY) (0 : Nat)) (by decide)

/-- `C26_dag_bounded_depth`, `C26_stack_irrelevant` and `C26_more_stack` in this state. -/
example : (step dagY 3 ord' dagS (.get .bin (P 2))).2 ≠ .overflow ∧
    step dagY 3 ord dagS (.get .bin (P 2)) = step dagY 77 ord' dagS (.get .bin (P 2)) ∧
    step dagY 77 ord dagS (.get .bin (P 2)) = step dagY 2 ord dagS (.get .bin (P 2)) := by
  have e : (step dagY 2 ord dagS (.get .bin (P 2))).2 = .val (.art (.ok (4 : Nat))) := rfl
  exact ⟨C26_dag_bounded_depth dagY_ranked dagS_reachable (P 2) .bin 3 ord' (by decide),
    C26_stack_irrelevant dagY_ranked dagS_reachable (P 2) .bin 3 77 ord ord' (by decide) (by decide),
    C26_more_stack (P 2) .bin ord (by decide) (by rw [e]; simp)⟩

/-- `C27_dag_builds_uncached` and `C27_dag_builds_once` in this state. -/
example : Uncached dagS 11 ∧ (P 2).id ≠ (P 1).id := by
  have hl : (step dagY 3 ord dagS (.get .bin (P 2))).1.c.log =
      [.built (P 2) 4, .resolve (P 2) (P 1), .built (P 1) 2, .resolve (P 1) (P 0),
        .resolve (P 1) (P 0), .call (P 1), .resolve (P 2) (P 1), .call (P 2)] ++ dagS.c.log := rfl
  refine ⟨C27_dag_builds_uncached dagY_ranked dagS_reachable (p := P 2) (how := .bin) (n := 3) (ord := ord) (q := P 1)
    (v := (2 : Nat)) ⟨_, hl, by simp⟩, ?_⟩
  refine C27_dag_builds_once dagY_ranked dagS_reachable hl (q := P 2) (v := (4 : Nat)) (r := P 1) (w := (2 : Nat))
    (post := []) (mid := [.resolve (P 2) (P 1)])
    (pre := [.resolve (P 1) (P 0), .resolve (P 1) (P 0), .call (P 1), .resolve (P 2) (P 1), .call (P 2)]) rfl

end Demo

/-! ## C32 -/

/-- On every path that returns, the code resolves a promise in `C` before. -/
def Prog.demands (C : Promise σ → Prop) : Prog σ → Prop
  | .ret _ => False
  | .panic => True
  | .resolve _ q k => C q ∨ ∀ r, (k r).demands C
  | .myState _ k => ∀ d, (k d).demands C
  | .world _ k => ∀ w, (k w).demands C
  | .alloc _ k => k.demands C
  | .free _ k => k.demands C

/-- The live builders of `C` have no artifact. -/
def NoneCached (C : Promise σ → Prop) (s : St σ) : Prop :=
  ∀ p, C p → s.live p = true → Uncached s p.id

theorem NoneCached.micro {C : Promise σ → Prop} {s' : St σ} (h : NoneCached C s) (hi : Inv Y s)
    (hm : Micro Y s s') (hart : s'.c.artifacts = s.c.artifacts) : NoneCached C s' := by
  intro p hp hl
  unfold Uncached
  rw [hart]
  cases hs : s.live p with
  | true => exact h p hp hs
  | false =>
    have hlive : s'.heap = s.heap → False := by
      intro e
      rw [St.live, e] at hl
      rw [St.live] at hs
      rw [hs] at hl
      cases hl
    cases hm with
    | alloc q ha =>
      unfold allocB at ha
      split at ha
      · cases ha
      · next hc =>
        cases ha
        simp only [Bool.or_eq_true, decide_eq_true_eq, not_or, Bool.not_eq_true] at hc
        have h1 := live_iff.1 hl
        simp only at h1
        by_cases hq : q.id = p.id
        · rw [hq] at hc
          cases hx : s.c.artifacts[p.id]? with
          | none => rfl
          | some v =>
            have := hi.dynKnown _ (hi.artDyn _ ((mem_getElem _ _).2 ⟨v, hx⟩))
            have h2 := hc.1.2
            grind
        · exfalso
          have : s.heap[p.id]? = some p.b := by grind
          rw [live_iff.2 this] at hs
          cases hs
    | free a =>
      exfalso
      have h1 := live_iff.1 hl
      have : s.heap[p.id]? = some p.b := by
        simp only [freeB] at h1
        grind
      rw [live_iff.2 this] at hs
      cases hs
    | _ => exact (hlive rfl).elim

/-- Going on after `x`, if it returned, stays `NoneCached`. -/
def KeepsNone (C : Promise σ → Prop) {α : Type} (x : St σ × Res α) : Prop :=
  ∀ r, x.2 = .val r → NoneCached C x.1

theorem runProg_none {g : Getter σ} (hg : GetOk Y g) {C : Promise σ → Prop}
    (hC : ∀ how q s, Inv Y s → NoneCached C s → C q → ∀ r, (g how q s).2 ≠ .val r)
    (hk : ∀ how q s, Inv Y s → NoneCached C s → KeepsNone C (g how q s)) {p : Promise σ} (prog : Prog σ)
    (hr : Running Y p s) (hn : NoneCached C s) :
    KeepsNone C (runProg Y g p prog s) ∧
    (prog.demands C → ∀ r, (runProg Y g p prog s).2 ≠ .val r) := by
  induction prog generalizing s with
  | ret r =>
    refine ⟨?_, fun h => h.elim⟩
    intro r' _
    cases r <;> exact hn
  | panic => exact ⟨fun r h => (by cases h), fun _ r h => by cases h⟩
  | resolve how q k ih =>
    cases hl : s.live q with
    | false =>
      rw [runProg_resolve_dead hl]
      exact ⟨fun r h => (by cases h), fun _ r h => by cases h⟩
    | true =>
      rw [runProg_resolve hr hl]
      have m1 : Micro Y s (s.onCache (makeKnown q)) := .known q hl
      have r1 := hr.micro m1
      have n1 := hn.micro hr.inv m1 (makeKnown_artifacts _ _)
      have m2 : Micro Y _ (tracked p q s) := .track p q r1.known (hr.inv.live_known hl) r1.pend
      have r2 := r1.micro m2
      have n2 := n1.micro r1.inv m2 rfl
      have h1 := hC how q _ r2.inv n2
      have h2 := hk how q _ r2.inv n2
      have h3 := (hg.ran how q _ r2.inv).micros
      generalize g how q (tracked p q s) = x at h1 h2 h3
      obtain ⟨s', r⟩ := x
      cases r with
      | val r =>
        obtain ⟨h4, h5⟩ := ih r (r2.micros h3) (h2 r rfl)
        refine ⟨h4, fun hd => ?_⟩
        rcases hd with hd | hd
        · exact absurd rfl (h1 hd r)
        · exact h5 (hd r)
      | _ => exact ⟨fun r h => (by cases h), fun _ r h => by cases h⟩
  | myState f k ih =>
    obtain ⟨d, _, ⟨_, e⟩ | ⟨hm, e⟩⟩ := runProg_myState_cases hr g f k
    · rw [e]; exact ⟨fun r h => (by cases h), fun _ r h => by cases h⟩
    · rw [e]
      obtain ⟨h4, h5⟩ := ih d (hr.micro hm) (hn.micro hr.inv hm rfl)
      exact ⟨h4, fun hd => h5 (hd d)⟩
  | world f k ih =>
    have m : Micro Y s { s with w := f s.w } := .world _
    obtain ⟨h4, h5⟩ := ih s.w (hr.micro m) (hn.micro hr.inv m rfl)
    exact ⟨h4, fun hd => h5 (hd _)⟩
  | alloc q k ih =>
    rw [runProg]
    cases ha : allocB q s with
    | none => exact ⟨fun r h => (by cases h), fun _ r h => by cases h⟩
    | some s' =>
      have m : Micro Y s s' := .alloc q ha
      obtain ⟨h4, h5⟩ := ih (hr.micro m) (hn.micro hr.inv m (by rw [allocB_c ha]))
      exact ⟨h4, fun hd => h5 hd⟩
  | free a k ih =>
    have m : Micro Y s (freeB a s) := .free a
    obtain ⟨h4, h5⟩ := ih (hr.micro m) (hn.micro hr.inv m rfl)
    exact ⟨h4, fun hd => h5 hd⟩

theorem ensureDyn_heap (p : Promise σ) (s : St σ) : (ensureDyn Y p s).1.heap = s.heap := by
  unfold ensureDyn
  simp only
  split
  · rfl
  · split
    · rfl
    · split <;> rfl

theorem NoneCached.same {C : Promise σ → Prop} {s' : St σ} (h : NoneCached C s)
    (hh : s'.heap = s.heap) (ha : s'.c.artifacts = s.c.artifacts) : NoneCached C s' := by
  intro p hp hl
  unfold Uncached
  rw [ha]
  refine h p hp ?_
  rw [St.live, hh] at hl
  exact hl

theorem getA_none {C : Promise σ → Prop} (hC : ∀ p, C p → (Y.code p.b).demands C) (n : Nat)
    (how : Access) (p : Promise σ) (hi : Inv Y s) (hn : NoneCached C s) :
    KeepsNone C (getA Y n how p s) ∧ (C p → ∀ r, (getA Y n how p s).2 ≠ .val r) := by
  induction n generalizing s how p with
  | zero =>
    cases hl : s.live p with
    | false => rw [getA_dead _ _ hl]; exact ⟨fun _ _ => hn, fun _ r h => by cases h⟩
    | true =>
      cases ha : s.c.artifacts[p.id]? with
      | some v =>
        rw [getA_hit _ _ hi hl ha]
        refine ⟨fun _ _ => hn, fun hp => ?_⟩
        have := hn p hp hl
        rw [Uncached, ha] at this
        cases this
      | none => rw [getA_miss _ _ hi hl ha]; exact ⟨fun _ _ => hn, fun _ r h => by cases h⟩
  | succ n ih =>
    cases hl : s.live p with
    | false => rw [getA_dead _ _ hl]; exact ⟨fun _ _ => hn, fun _ r h => by cases h⟩
    | true =>
      cases ha : s.c.artifacts[p.id]? with
      | some v =>
        rw [getA_hit _ _ hi hl ha]
        refine ⟨fun _ _ => hn, fun hp => ?_⟩
        have := hn p hp hl
        rw [Uncached, ha] at this
        cases this
      | none =>
        rw [getA_miss _ _ hi hl ha]
        simp only [buildN]
        rcases build_cases (getA Y n) hi hl ha with ⟨s1, e1, e⟩ | ⟨s1, e1, e⟩ | ⟨s1, d, e1, e2⟩
        · rw [e]; exact ⟨fun r h => (by cases h), fun _ r h => by cases h⟩
        · rw [e]; exact ⟨fun r h => (by cases h), fun _ r h => by cases h⟩
        · rw [e2]
          have heh := ensureDyn_heap (Y := Y) p s
          rw [e1] at heh
          obtain ⟨r1, m1, a1, d1⟩ := ensureDyn_running hi hl ha e1
          have n1 : NoneCached C (entered p s1) := hn.same heh a1
          obtain ⟨h1, h2⟩ := runProg_none (getA_ok Y n).1
            (fun how q s hi hn hq => (ih how q hi hn).2 hq) (fun how q s hi hn => (ih how q hi hn).1)
            (Y.code p.b) r1 n1
          have r2 := r1.micros (r1.run (getA_ok Y n).1 (Y.code p.b)).micros
          have hnot : C p → ∀ r, (runProg Y (getA Y n) p (Y.code p.b) (entered p s1)).2 ≠ .val r :=
            fun hp => h2 (hC p hp)
          generalize runProg Y (getA Y n) p (Y.code p.b) (entered p s1) = x at h1 hnot r2
          obtain ⟨s2, r⟩ := x
          rcases r with (e | v) | _ | _ | _
          · exact ⟨h1, fun hp => absurd rfl (hnot hp _)⟩
          · refine ⟨fun _ _ => ?_, fun hp => absurd rfl (hnot hp _)⟩
            have h3 := h1 _ rfl
            intro q hq hql
            by_cases hqp : q.id = p.id
            · have h4 := r2.inv.heapKnown _ _ _ r2.known (hqp ▸ live_iff.1 hql)
              have : q = p := by cases q; cases p; cases hqp; cases h4; rfl
              subst this
              exact absurd rfl (hnot hq _)
            · unfold Uncached
              rw [finish_artifacts hqp]
              exact h3 q hq hql
          · exact ⟨fun r h => (by cases h), fun _ r h => by cases h⟩
          · exact ⟨fun r h => (by cases h), fun _ r h => by cases h⟩
          · exact ⟨fun r h => (by cases h), fun _ r h => by cases h⟩

/-- **C32** Let `C` be a set of builders each of which, on every path that returns, resolves some builder
of the set (e.g. a cycle of unconditional dependencies), and none of which is cached.  Then no `get`
of one of them ever returns, neither an artifact nor an error, however large the stack is. -/
theorem C32_cycle_never_returns {C : Promise σ → Prop} (hC : ∀ p, C p → (Y.code p.b).demands C)
    (h : Reachable Y s) (hn : ∀ p, C p → s.live p = true → Uncached s p.id) {p : Promise σ} (hp : C p)
    (how : Access) (n : Nat) (ord : HashOrder) (r : Ans σ) :
    (step Y n ord s (.get how p)).2 ≠ .val r := by
  cases hl : s.live p with
  | false => simp [step, Op.promise?, hl]
  | true =>
    rw [step_live rfl hl]
    simp only [exec]
    have := (getA_none hC n how p h.inv hn).2 hp
    generalize (getA Y n how p s).2 = x at this ⊢
    cases x with
    | val r => exact absurd rfl (this r)
    | _ => simp [Res.map]

/-- The hypotheses are met by builders 7 and 8 of the demo system, which resolve each other, in a state
with other artifacts. -/
example :
    (∀ p : Promise Demo.sig, (p = Demo.P 7 ∨ p = Demo.P 8) →
      (Demo.Y.code p.b).demands fun p => p = Demo.P 7 ∨ p = Demo.P 8) ∧
    Reachable Demo.Y (Demo.after [.get .bin (Demo.P 2)]) ∧
    (∀ p : Promise Demo.sig, (p = Demo.P 7 ∨ p = Demo.P 8) →
      (Demo.after [.get .bin (Demo.P 2)]).live p = true →
      Uncached (Demo.after [.get .bin (Demo.P 2)]) p.id) := by
  refine ⟨?_, Demo.reach _ (by decide), ?_⟩
  · rintro p (rfl | rfl)
    · exact Or.inl (Or.inr rfl)
    · exact Or.inl (Or.inl rfl)
  · rintro p (rfl | rfl) _
    · rfl
    · rfl

end Daab
