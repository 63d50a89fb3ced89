import Verif.Props31
import Verif.Coherent

/-!
# C72: groundwork

What the log tells about a run of a getter, with any hooks: which builders are called, and that in a DAG nothing is built
twice.
-/

open Std

namespace Daab

variable {σ : Sig} {Y : Sys σ} {s s' : St σ}

/-! ## Only what is used is called -/

/-- `u` resolved `d`, according to the events in `l`. -/
def ResolvedIn (l : List (Event σ)) (u d : Id) : Prop := ∃ U D : Promise σ, U.id = u ∧ D.id = d ∧ .resolve U D ∈ l

theorem ResolvedIn.mono {l l' : List (Event σ)} (h : ∀ e ∈ l, e ∈ l') {u d : Id} (hr : ResolvedIn l u d) : ResolvedIn l' u d := by
  obtain ⟨U, D, h1, h2, h3⟩ := hr
  exact ⟨U, D, h1, h2, h _ h3⟩

theorem Hit.mono' {r r' : Id → Id → Prop} {a x : Id} (h : Hit r a x) (hm : ∀ u d, r u d → r' u d) : Hit r' a x :=
  Relation.ReflTransGen.mono hm _ _ h

/-- From `s` to `s'` only builders were called, or built, that `a` resolved on the way, directly or through others. -/
def Needed (a : Id) (s s' : St σ) : Prop := ∃ new, s'.c.log = new ++ s.c.log ∧
  ∀ q : Promise σ, (.call q ∈ new ∨ ∃ v, .built q v ∈ new) → Hit (ResolvedIn new) q.id a

theorem Needed.refl (a : Id) (s : St σ) : Needed a s s := ⟨[], rfl, by simp⟩

theorem Needed.of_log {a : Id} (h : s'.c.log = s.c.log) : Needed a s s' := ⟨[], h, by simp⟩

theorem Needed.trans {a : Id} {s s1 s2 : St σ} (h : Needed a s s1) (h' : Needed a s1 s2) : Needed a s s2 := by
  obtain ⟨n1, e1, h1⟩ := h
  obtain ⟨n2, e2, h2⟩ := h'
  refine ⟨n2 ++ n1, by rw [e2, e1, List.append_assoc], fun q hq => ?_⟩
  have m1 : ∀ u d, ResolvedIn n1 u d → ResolvedIn (n2 ++ n1) u d := fun u d h => h.mono fun e he => by simp [he]
  have m2 : ∀ u d, ResolvedIn n2 u d → ResolvedIn (n2 ++ n1) u d := fun u d h => h.mono fun e he => by simp [he]
  simp only [List.mem_append] at hq
  rcases hq with (hq | hq) | ⟨v, hq | hq⟩
  · exact (h2 q (.inl hq)).mono' m2
  · exact (h1 q (.inl hq)).mono' m1
  · exact (h2 q (.inr ⟨v, hq⟩)).mono' m2
  · exact (h1 q (.inr ⟨v, hq⟩)).mono' m1

/-- One event that is neither a call nor a build. -/
theorem Needed.one {a : Id} {e : Event σ} (h : s'.c.log = e :: s.c.log)
    (hq : ∀ q : Promise σ, (e = .call q ∨ ∃ v, e = .built q v) → q.id = a) : Needed a s s' := by
  refine ⟨[e], h, fun q hc => ?_⟩
  have : q.id = a := hq q (by simpa [eq_comm] using hc)
  rw [this]; exact .refl

/-- `p` resolves `q`. -/
theorem Needed.resolved {p q : Promise σ} {s s1 s2 : St σ} (h : s1.c.log = .resolve p q :: s.c.log) (h' : Needed q.id s1 s2) :
    Needed p.id s s2 := by
  obtain ⟨n2, e2, h2⟩ := h'
  refine ⟨n2 ++ [.resolve p q], by rw [e2, h]; simp, fun x hx => ?_⟩
  have hx' : .call x ∈ n2 ∨ ∃ v, .built x v ∈ n2 := by simpa using hx
  refine .head ⟨p, q, rfl, rfl, by simp⟩ ((h2 x hx').mono' fun u d h => h.mono fun e he => by simp [he])

theorem callHook_needed {α : Type} {a : Id} (D : Hooks σ) (h : Hook σ) {s0 s : St σ} {k : St σ → St σ × Res α}
    (h0 : Needed a s0 s) (hk : ∀ w, Needed a { s with w := w } (k { s with w := w }).1) : Needed a s0 (callHook D h s k).1 := by
  obtain ⟨w, e | e⟩ := callHook_cases D h s k
  · rw [e]; exact h0.trans (.of_log rfl)
  · rw [e]; exact (h0.trans (.of_log rfl)).trans (hk w)

theorem ensureDyn_needed (p : Promise σ) (s : St σ) : Needed p.id s (ensureDyn Y p s).1 := by
  have h0 : (makeKnown p s.c).log = s.c.log := makeKnown_log p s.c
  unfold ensureDyn
  simp only [St.onCache]
  repeat' split
  all_goals first
    | exact .of_log h0
    | exact .one (by simp only [Cache.emit, h0]; rfl) (by rintro q (h | ⟨v, h⟩) <;> cases h)

theorem myState_needed (p : Promise σ) (f : σ.S → σ.S) (s : St σ) : Needed p.id s (myState Y p f s).1 := by
  unfold myState
  repeat' split
  all_goals first
    | exact .refl _ _
    | exact .one rfl (by rintro q (h | ⟨v, h⟩) <;> cases h)

theorem andThen_needed {α β : Type} {a : Id} {s : St σ} {x : St σ × Res α} {k : α → St σ → St σ × Res β}
    (hx : Needed a s x.1) (hk : ∀ r s, Needed a s (k r s).1) : Needed a s (andThen x k).1 := by
  obtain ⟨s1, r⟩ := x
  cases r with
  | val r => exact Needed.trans hx (hk r s1)
  | _ => exact hx

theorem runProgH_needed (D : Hooks σ) {g : Getter σ} (hg : ∀ how q s, Needed q.id s (g how q s).1) (p : Promise σ)
    (prog : Prog σ) (s : St σ) : Needed p.id s (runProgH Y D g p prog s).1 := by
  induction prog generalizing s with
  | ret r => cases r <;> exact .refl _ _
  | panic => exact .refl _ _
  | resolve how q k ih =>
    rw [runProgH]
    split
    · have ht : track Y p q s.c = (makeKnown q s.c, some .trackUnknown) ∨ track Y p q s.c = (addEdge p q (makeKnown q s.c), none) := by
        unfold track
        simp only
        split
        · exact .inl rfl
        · exact .inr rfl
      rcases ht with ht | ht
      · rw [ht]; exact .of_log (makeKnown_log q s.c)
      · rw [ht]
        simp only
        have hlog : ({ s with c := addEdge p q (makeKnown q s.c) } : St σ).c.log = .resolve p q :: s.c.log := by
          simp only [addEdge, Cache.emit, makeKnown_log]
        generalize ({ s with c := addEdge p q (makeKnown q s.c) } : St σ) = s1 at hlog
        have h1 : ∀ w, Needed p.id s { s1 with w := w } := fun w =>
          .one (e := .resolve p q) hlog (by rintro q (h | ⟨v, h⟩) <;> cases h)
        unfold callHook
        split
        · exact h1 _
        · next w _ =>
          simp only
          have h2 : Needed p.id s (g how q { s1 with w := w }).1 := .resolved (s1 := { s1 with w := w }) hlog (hg how q _)
          generalize g how q { s1 with w := w } = x at h2
          obtain ⟨s2, r⟩ := x
          cases r with
          | val r => exact h2.trans (ih r s2)
          | _ => exact h2
    · exact .refl _ _
  | myState f k ih =>
    rw [runProgH_myState]
    exact andThen_needed (myState_needed p f s) ih
  | world f k ih => exact (Needed.of_log rfl).trans (ih s.w { s with w := f s.w })
  | alloc q k ih =>
    rw [runProgH]
    cases ha : allocB q s with
    | none => exact .refl _ _
    | some s1 => exact (Needed.of_log (by rw [allocB_c ha])).trans (ih s1)
  | free a k ih => exact (Needed.of_log rfl).trans (ih (freeB a s))

theorem storeH_needed (D : Hooks σ) (p : Promise σ) (v : σ.V) (s : St σ) : Needed p.id s (storeH D p v s).1 := by
  obtain ⟨w, _, e, _⟩ := storeH_finish D p v s
  rw [e]
  exact .one (e := .built p v) rfl (by rintro q (h | ⟨v, h⟩) <;> cases h; rfl)

theorem buildH_needed (D : Hooks σ) {g : Getter σ} (hg : ∀ how q s, Needed q.id s (g how q s).1) (p : Promise σ) (s : St σ) :
    Needed p.id s (buildH Y D g p s).1 := by
  unfold buildH
  split
  · exact .refl _ _
  · simp only [ensureDyn_known]
    have h1 := ensureDyn_needed (Y := Y) p s
    generalize ensureDyn Y p s = x at h1
    obtain ⟨s1, r⟩ := x
    cases r with
    | val d =>
      refine callHook_needed D _ h1 fun w => ?_
      have h2 := runProgH_needed (Y := Y) D hg p (Y.code p.b) (({ s1 with w := w } : St σ).onCache (·.emit (.call p)))
      have h3 : Needed p.id { s1 with w := w } (({ s1 with w := w } : St σ).onCache (·.emit (.call p))) :=
        .one (e := .call p) rfl (by rintro q (h | ⟨v, h⟩) <;> cases h; rfl)
      generalize runProgH Y D g p (Y.code p.b) (({ s1 with w := w } : St σ).onCache (·.emit (.call p))) = y at h2
      obtain ⟨s2, r2⟩ := y
      have h4 := h3.trans h2
      rcases r2 with (_ | v) | _ | _ | _
      · exact h4
      · exact callHook_needed D _ h4 fun w => storeH_needed D p v _
      all_goals exact h4
    | _ => exact h1

theorem fresh_fst (p : Promise σ) (x : St σ × Res (Except σ.E σ.V)) : (fresh Y p x).1 = x.1 := by
  obtain ⟨s, r⟩ := x
  rcases r with (_ | v) | _ | _ | _
  · rfl
  · rfl
  all_goals rfl

/-- A getter leaves the state as it was, or as the build left it, but for what a `Clone` implementation does. -/
theorem getByH_fst (D : Hooks σ) (bld : BuildFn σ) (how : Access) (p : Promise σ) (s : St σ) :
    ∃ w, (getByH Y D bld how p s).1 = { s with w := w } ∨ (getByH Y D bld how p s).1 = { (bld p s).1 with w := w } := by
  have href : (getRef Y bld p s).1 = s ∨ (getRef Y bld p s).1 = (bld p s).1 := by
    unfold getRef
    repeat' split
    all_goals first
      | exact .inl rfl
      | exact .inr (fresh_fst ..)
  unfold getByH
  split
  · split
    · unfold getBin
      repeat' split
      all_goals first
        | exact ⟨s.w, .inl rfl⟩
        | exact ⟨_, .inr (fresh_fst ..)⟩
    · rcases href with e | e <;> rw [e]
      · exact ⟨s.w, .inl rfl⟩
      · exact ⟨_, .inr rfl⟩
    · unfold getClonedH
      generalize getRef Y bld p s = x at href
      obtain ⟨s1, r⟩ := x
      simp only at href
      have h0 : ∃ w, s1 = { s with w := w } ∨ s1 = { (bld p s).1 with w := w } := by
        rcases href with e | e
        · exact ⟨s.w, .inl e⟩
        · exact ⟨_, .inr e⟩
      split
      · next s2 v he =>
        cases he
        obtain ⟨w, e | e⟩ := callHook_cases D (.clone v) s1 (fun s => (s, .val (.ok (Y.clone v))) : St σ → St σ × Res (Except σ.E σ.V))
        all_goals
          rw [e]
          rcases href with rfl | rfl
          · exact ⟨w, .inl rfl⟩
          · exact ⟨w, .inr rfl⟩
      · exact h0
  · exact ⟨s.w, .inl rfl⟩

theorem getAH_needed (D : Hooks σ) (n : Nat) (how : Access) (p : Promise σ) (s : St σ) : Needed p.id s (getAH Y D n how p s).1 := by
  induction n generalizing how p s with
  | zero =>
    obtain ⟨w, e | e⟩ := getByH_fst (Y := Y) D (fun _ s => (s, .overflow)) how p s
    all_goals
      simp only [getAH]
      rw [e]
      exact .of_log rfl
  | succ n ih =>
    obtain ⟨w, e | e⟩ := getByH_fst (Y := Y) D (buildH Y D (getAH Y D n)) how p s
    all_goals
      simp only [getAH]
      rw [e]
    · exact .of_log rfl
    · exact (buildH_needed D ih p s).trans (.of_log rfl)

/-! ## Nothing is built twice -/

theorem Low.world {rk : σ.B → Nat} {R : Nat} (s : St σ) (w : σ.W) : Low rk R s { s with w := w } :=
  .of_log .refl rfl

theorem runProgH_low (D : Hooks σ) {g : Getter σ} (hg : GetRan Y g) {rk : σ.B → Nat} {R : Nat}
    (hlow : ∀ how q s, Inv Y s → rk q.b < R → Low rk R s (g how q s).1) {p : Promise σ} (prog : Prog σ)
    (hP : prog.only fun q => rk q.b < R) (hr : Running Y p s) : Low rk R s (runProgH Y D g p prog s).1 := by
  have mic : ∀ {s : St σ} (prog : Prog σ), Running Y p s → Micros Y s (runProgH Y D g p prog s).1 := fun prog hr =>
    (runProgH_ran D hg prog hr.inv hr.known hr.dyn hr.pend).1.micros
  induction prog generalizing s with
  | ret r => cases r <;> exact .refl s
  | panic => exact .refl s
  | resolve how q k ih =>
    cases hl : s.live q with
    | false => rw [runProgH_resolve_dead hl]; exact .refl s
    | true =>
      rw [runProgH_resolve hr hl]
      have r2 := hr.micros (hr.tracked hl)
      have l1 : Low rk R s (tracked p q s) := by
        refine .of_log ?_ ?_
        · simp only [tracked, St.onCache, addEdge, Cache.emit, makeKnown_log]
          exact FreshTo.refl.cons (by simp)
        · simp only [tracked, St.onCache, addEdge, Cache.emit, makeKnown_artifacts]
      obtain ⟨w, e | e⟩ := callHook_cases D (.report (.resolve p q)) (tracked p q s)
        (fun s => andThen (g how q s) fun r s => runProgH Y D g p (k r) s)
      · rw [e]; exact ⟨l1.fresh, l1.low⟩
      · rw [e]
        replace r2 : Running Y p { tracked p q s with w := w } := r2.micro (.world w)
        replace l1 : Low rk R s { tracked p q s with w := w } := ⟨l1.fresh, l1.low⟩
        have h1 := hlow how q _ r2.inv hP.1
        have h2 := (hg how q _ r2.inv).micros
        generalize g how q { tracked p q s with w := w } = x at h1 h2
        obtain ⟨s', r⟩ := x
        have l2 := l1.trans h2 h1
        cases r with
        | val r =>
          have r3 := r2.micros h2
          exact l2.trans (mic (k r) r3) (ih r (hP.2 r) r3)
        | _ => exact l2
  | myState f k ih =>
    obtain ⟨d, hd, hst, e⟩ := hr.myState_eq f
    rw [runProgH_myState, e]
    split
    · next ht =>
      have r2 := hr.micro (.setDyn p (f d) hr.known hr.dyn ht)
      exact (Low.of_log (FreshTo.refl.cons (by simp)) rfl : Low rk R s (wrote p (f d) s)).trans
        (mic (k d) r2) (ih d (hP d) r2)
    · exact .refl s
  | world f k ih =>
    have h := ih s.w (hP _) (hr.micro (.world (f s.w)))
    exact ⟨h.fresh, h.low⟩
  | alloc q k ih =>
    rw [runProgH]
    cases ha : allocB q s with
    | none => exact .refl s
    | some s' =>
      have r2 := hr.micro (.alloc q ha)
      have hc := allocB_c ha
      exact (Low.of_log (by rw [hc]; exact .refl) (by rw [hc])).trans (mic k r2) (ih hP r2)
  | free a k ih =>
    have h := ih hP (hr.micro (.free a))
    exact ⟨h.fresh, h.low⟩

theorem getAH_low {rk : σ.B → Nat} (hrk : Ranked Y rk) (D : Hooks σ) (n : Nat) (how : Access) (p : Promise σ)
    (hi : Inv Y s) : Low rk (rk p.b + 1) s (getAH Y D n how p s).1 := by
  induction n generalizing s how p with
  | zero =>
    obtain ⟨w, e | e⟩ := getByH_fst (Y := Y) D (fun _ s => (s, .overflow)) how p s
    all_goals
      simp only [getAH]
      rw [e]
      exact .world _ w
  | succ n ih =>
    simp only [getAH]
    by_cases hb : s.live p = true ∧ s.c.artifacts[p.id]? = none
    · obtain ⟨hl, ha⟩ := hb
      suffices h : Low rk (rk p.b + 1) s (buildH Y D (getAH Y D n) p s).1 by
        obtain ⟨w, e | e⟩ := getByH_fst (Y := Y) D (buildH Y D (getAH Y D n)) how p s
        · rw [e]; exact .world _ w
        · rw [e]; exact ⟨h.fresh, h.low⟩
      have hed := ensureDyn_log (Y := Y) p s
      have hea := (ensureDyn_ran hi hl (Y := Y)).2.2.1
      rcases buildH_cases D (getAH Y D n) hi hl ha with ⟨s1, e1, e⟩ | ⟨s1, e1, e⟩ | ⟨s1, d, e1, e2⟩
      · rw [e]; rw [e1] at hed hea; exact .of_log hed hea
      · rw [e]; rw [e1] at hed hea; exact .of_log hed hea
      · rw [e2]
        rw [e1] at hed hea
        obtain ⟨r1, m1, a1, d1⟩ := ensureDyn_running hi hl ha e1
        obtain ⟨w, e | e⟩ := callHook_cases D (.handle p) s1 fun s =>
          finishH D p (runProgH Y D (getAH Y D n) p (Y.code p.b) (entered p s))
        · rw [e]; exact .of_log hed hea
        · rw [e]
          have l1 : Low rk (rk p.b) s (entered p { s1 with w := w }) := .of_log (hed.cons (by simp)) a1
          replace r1 : Running Y p (entered p { s1 with w := w }) := r1.micro (.world w)
          have hgr := (getAH_ok Y D n).1
          have l2 := runProgH_low D hgr (R := rk p.b)
            (fun how q s hi hq => (ih how q hi).weaken hq) (Y.code p.b) (hrk p.b) r1
          have hm := (runProgH_ran D hgr (Y.code p.b) r1.inv r1.known r1.dyn r1.pend).1.micros
          have l3 := l1.trans hm l2
          have i3 := r1.micros hm
          generalize runProgH Y D (getAH Y D n) p (Y.code p.b) (entered p { s1 with w := w }) = x at l3 i3
          obtain ⟨s2, r⟩ := x
          have l4 := l3.weaken (Nat.le_succ (rk p.b))
          have hnone : s2.c.artifacts[p.id]? = none := by
            rcases l3.low p.id with e | ⟨b, hb, hR⟩
            · rw [e]; exact ha
            · have := i3.known
              rw [hb] at this
              cases this
              omega
          rcases r with (_ | v) | _ | _ | _
          · exact l4
          · simp only [finishH]
            obtain ⟨w2, e | e⟩ := callHook_cases D (.report (.built p v)) s2 (storeH D p v)
            · rw [e]; exact ⟨l4.fresh, l4.low⟩
            · rw [e]
              obtain ⟨w3, _, e3, _⟩ := storeH_finish D p v { s2 with w := w2 }
              rw [e3]
              refine ⟨l4.fresh.cons ?_, fun a => ?_⟩
              · rintro q w ⟨⟩
                exact art_none_abs i3.inv hnone
              · by_cases hap : a = p.id
                · subst hap
                  exact Or.inr ⟨p.b, i3.known, Nat.lt_succ_self _⟩
                · rw [finish_artifacts hap]
                  exact l4.low a
          all_goals exact l4
    · have hs : ∃ w, (getByH Y D (buildH Y D (getAH Y D n)) how p s).1 = { s with w := w } := by
        cases hl : s.live p with
        | false => simp only [getByH, hl]; exact ⟨s.w, rfl⟩
        | true =>
          cases ha : s.c.artifacts[p.id]? with
          | none => exact absurd ⟨hl, ha⟩ hb
          | some v =>
            have h1 := getBy_hit hi (buildH Y D (getAH Y D n)) how hl ha
            cases how with
            | cloned =>
              have h2 := getBy_hit hi (buildH Y D (getAH Y D n)) .ref hl ha
              simp only [getBy, hl, if_true] at h2
              simp only [getByH, hl, if_true, getClonedH, h2, seen]
              obtain ⟨w, e | e⟩ := callHook_cases D (.clone v) s
                (fun s => (s, .val (.ok (Y.clone v))) : St σ → St σ × Res (Except σ.E σ.V))
              · rw [e]; exact ⟨w, rfl⟩
              · rw [e]; exact ⟨w, rfl⟩
            | _ =>
              simp only [getBy, hl, if_true] at h1
              simp only [getByH, hl, if_true, h1]
              exact ⟨s.w, rfl⟩
      obtain ⟨w, e⟩ := hs
      rw [e]; exact .world _ w

end Daab
