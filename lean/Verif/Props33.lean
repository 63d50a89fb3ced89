import Verif.Update
import Verif.Props22

/-!
# Properties: after a change only what it affects is rebuilt (C72)

What one uses a cache like this for: the dynamic states of some builders are changed (or they are invalidated, or purged), then
artifacts are got again, in any order, and whatever fails, panics or misbehaves on the way.  Everything affected by a change is
rebuilt before it is handed out; nothing else is rebuilt; nothing is built that is not asked for; and, in a directed acyclic
graph, nothing is built twice.
-/

open Std

namespace Daab

section
variable {σ : Sig} {Y : Sys σ} {s s1 s2 s' : St σ}

/-- `op` is a change of the builder `p`: its dynamic state may be changed, or it is invalidated, or purged. -/
def Op.changes (p : Promise σ) : Op σ → Prop
  | .dynStateMut q _ | .invalidate q | .purge q => q = p
  | _ => False

/-- From `s` the program gets to `s'` by changes of the builders in the list, one after the other, with any doctor, `Debug` and
`Clone`; panics are caught. -/
inductive Changing (Y : Sys σ) : St σ → List (Promise σ) → St σ → Prop
  | nil (s : St σ) : Changing Y s [] s
  | cons {s s1 s' : St σ} {op : Op σ} {p : Promise σ} {l : List (Promise σ)} {r : Res (Ans σ)} :
      op.changes p → Went Y s op s1 r → r.goesOn → Changing Y s1 l s' → Changing Y s (p :: l) s'

/-- `op` reads or builds, or happens outside of the cache. -/
def Op.reads : Op σ → Prop
  | .alloc _ | .free _ | .world _ => True
  | op => op.readsOrBuilds

/-- From `s` the program gets to `s'` by any number of operations that read or build, and whatever happens outside of the cache. -/
inductive Reading (Y : Sys σ) (s : St σ) : St σ → Prop
  | refl : Reading Y s s
  | step {s1 s2 : St σ} {op : Op σ} {r : Res (Ans σ)} : Reading Y s s1 → op.reads → Went Y s1 op s2 r → r.goesOn → Reading Y s s2

/-- The builder at `a` is one of the changed ones in `l`, or has used one of them, directly or through others. -/
def Affected (s : St σ) (l : List (Promise σ)) (a : Id) : Prop := ∃ p ∈ l, Hit (UsesNow s) p.id a

/-! ## What a change removes -/

theorem went_plain (hw : Went Y s op s' r) : ∃ D n ord, s' = (stepH Y D n ord s op).1 ∧ r = (stepH Y D n ord s op).2 := by
  cases hw with
  | plain n ord =>
    have := C59_quiet_hooks (Y := Y) (D := fun w _ => (w, false)) (fun _ _ => rfl) n ord s op
    exact ⟨_, n, ord, by rw [this], by rw [this]⟩
  | hooked D n ord => exact ⟨D, n, ord, rfl, rfl⟩

theorem ensureDyn_untouched (p : Promise σ) (s : St σ) :
    (ensureDyn Y p s).1.c.artifacts = s.c.artifacts ∧ (ensureDyn Y p s).1.c.dependents = s.c.dependents := by
  unfold ensureDyn
  simp only [St.onCache]
  repeat' split
  all_goals simp [Cache.emit]

/-- One change. -/
theorem change_spec (hi : Inv Y s) {op : Op σ} {p : Promise σ} (ho : op.changes p) {r : Res (Ans σ)} (hw : Went Y s op s' r)
    (hg : r.goesOn) : ∃ c', Dropped (Hit (Dep s.c) p.id) s.c c' ∧ s'.c.artifacts = c'.artifacts ∧ s'.c.dependents = c'.dependents := by
  have hop : op.promise? = some p := by
    cases op <;> simp only [Op.changes] at ho <;> (subst ho; rfl)
  have hl := hw.live hg hop
  obtain ⟨D, n, ord, rfl, rfl⟩ := went_plain hw
  clear hw
  rw [stepH_live hop hl] at hg ⊢
  cases op with
  | invalidate q =>
    cases ho
    obtain ⟨c', he, hd⟩ := invalidate_spec hi ord p
    obtain ⟨w, h1, _⟩ := execH_shallow (Y := Y) (s := s) D n ord (.invalidate p) rfl
    refine ⟨c', hd, ?_⟩
    rw [h1]
    simp only [exec, he]
    exact ⟨rfl, rfl⟩
  | purge q =>
    cases ho
    obtain ⟨c', cF, he, hd, rfl⟩ := purge_spec hi ord p
    obtain ⟨w, h1, _⟩ := execH_shallow (Y := Y) (s := s) D n ord (.purge p) rfl
    refine ⟨c', hd, ?_⟩
    rw [h1]
    simp only [exec, he]
    trivial
  | dynStateMut q f =>
    cases ho
    obtain ⟨c', he, hd⟩ := invalidate_spec hi ord p
    refine ⟨c', hd, ?_⟩
    simp only [execH, dynStateMutH, he]
    unfold callHook
    split
    · exact ⟨rfl, rfl⟩
    · next w _ =>
      have h1 := ensureDyn_untouched (Y := Y) p { s with c := c'.emit (.invalidate p), w := w }
      simp only
      generalize ensureDyn Y p { s with c := c'.emit (.invalidate p), w := w } = x at h1
      obtain ⟨s2, r⟩ := x
      cases r with
      | val d =>
        simp only
        split <;> exact h1
      | _ => exact h1
  | _ => exact ho.elim

theorem Changing.reachable (h : Reachable Y s) {l : List (Promise σ)} (hc : Changing Y s l s') : Reachable Y s' := by
  induction hc with
  | nil => exact h
  | cons _ hw hg _ ih => exact ih (h.went hw hg)

theorem usesNow_eq' (s : St σ) : UsesNow s = Dep s.c := by
  funext u d; exact propext (usesNow_iff s u d)

/-- What is hit after `P` was cut off, was hit; and what was hit, was in `P` or is still hit. -/
theorem hit_cut {dep dep' : Id → Id → Prop} {P : Id → Prop} (hd : ∀ u d, dep' u d ↔ dep u d ∧ ¬ P u)
    (hP : ∀ u d, dep u d → P d → P u) (b a : Id) : P a ∨ Hit dep' b a ↔ P a ∨ Hit dep b a := by
  constructor
  · rintro (h | h)
    · exact .inl h
    · exact .inr (h.mono' fun u d h => ((hd u d).1 h).1)
  · rintro (h | h)
    · exact .inl h
    · induction h using Relation.ReflTransGen.head_induction_on with
      | refl => exact .inr .refl
      | @head x y hxy _ ih =>
        by_cases hx : P x
        · exact .inl hx
        · rcases ih with h | h
          · exact absurd (hP _ _ hxy h) hx
          · exact .inr (.head ((hd _ _).2 ⟨hxy, hx⟩) h)

/-- **C72** A batch of changes removes exactly the artifacts that it affects, and forgets exactly what their builders used. -/
theorem C72_changes_exact (h : Reachable Y s) {l : List (Promise σ)} (hc : Changing Y s l s') :
    (∀ a v, Cached s' a v ↔ Cached s a v ∧ ¬ Affected s l a) ∧
    ∀ u d, UsesNow s' u d ↔ UsesNow s u d ∧ ¬ Affected s l u := by
  induction hc with
  | nil s => simp [Affected]
  | @cons s s1 s' op p l r ho hw hg _ ih =>
    obtain ⟨ih1, ih2⟩ := ih (h.went hw hg)
    obtain ⟨c', hd, e1, e2⟩ := change_spec h.inv ho hw hg
    have hdep : ∀ u d, UsesNow s1 u d ↔ UsesNow s u d ∧ ¬ Hit (UsesNow s) p.id u := by
      intro u d
      rw [usesNow_eq', usesNow_eq']
      have : Dep s1.c = Dep c' := by funext x y; simp only [Dep, e2]
      rw [this]
      exact hd.dep u d
    have hart : ∀ a v, Cached s1 a v ↔ Cached s a v ∧ ¬ Hit (UsesNow s) p.id a := by
      intro a v
      rw [usesNow_eq']
      simp only [Cached, e1]
      exact hd.art_iff a v
    have hcut := hit_cut hdep fun u d h h' => Relation.ReflTransGen.head h h'
    have key : ∀ a, ¬ Affected s (p :: l) a ↔ ¬ Hit (UsesNow s) p.id a ∧ ¬ Affected s1 l a := by
      intro a
      rw [← not_or, not_iff_not]
      simp only [Affected, List.mem_cons, exists_eq_or_imp]
      constructor
      · rintro (h | ⟨q, hq, h⟩)
        · exact .inl h
        · exact ((hcut q.id a).2 (.inr h)).imp id fun h => ⟨q, hq, h⟩
      · rintro (h | ⟨q, hq, h⟩)
        · exact .inl h
        · exact ((hcut q.id a).1 (.inr h)).imp id fun h => ⟨q, hq, h⟩
    refine ⟨fun a v => ?_, fun u d => ?_⟩
    · rw [ih1, hart, key, and_assoc]
    · rw [ih2, hdep, key, and_assoc]

/-! ## What is rebuilt -/

theorem Op.reads_cases {op : Op σ} (h : op.reads) : op.readsOrBuilds ∨ (∃ q, op = .alloc q) ∨ (∃ a, op = .free a) ∨ ∃ f, op = .world f := by
  cases op with
  | alloc q => exact .inr (.inl ⟨_, rfl⟩)
  | free a => exact .inr (.inr (.inl ⟨_, rfl⟩))
  | world f => exact .inr (.inr (.inr ⟨_, rfl⟩))
  | _ => exact .inl h

/-- What an operation outside of the cache does. -/
theorem outside_spec {op : Op σ} (ho : (∃ q, op = .alloc q) ∨ (∃ a, op = .free a) ∨ ∃ f, op = .world f) {r : Res (Ans σ)}
    (hw : Went Y s op s' r) : Micros Y s s' ∧ s'.c = s.c := by
  obtain ⟨D, n, ord, rfl, _⟩ := went_plain hw
  have hp : op.promise? = none := by rcases ho with ⟨_, rfl⟩ | ⟨_, rfl⟩ | ⟨_, rfl⟩ <;> rfl
  have hd : op.deep = false := by rcases ho with ⟨_, rfl⟩ | ⟨_, rfl⟩ | ⟨_, rfl⟩ <;> rfl
  rcases stepH_cases (Y := Y) (s := s) D n ord op with ⟨_, e⟩ | e
  · obtain ⟨w, h1, _⟩ := execH_shallow (Y := Y) (s := s) D n ord op hd
    rw [e, h1]
    suffices h : Micros Y s (exec Y n ord s op).1 ∧ (exec Y n ord s op).1.c = s.c from ⟨h.1.tail (.world w), h.2⟩
    rcases ho with ⟨q, rfl⟩ | ⟨a, rfl⟩ | ⟨f, rfl⟩
    · simp only [exec]
      split
      · next s1 ha => exact ⟨.single (.alloc q ha), allocB_c ha⟩
      · exact ⟨.refl, rfl⟩
    · exact ⟨.single (.free a), rfl⟩
    · exact ⟨.single (.world _), rfl⟩
  · rw [e]; exact ⟨.refl, rfl⟩

theorem Reading.reachable (h : Reachable Y s) (hr : Reading Y s s') : Reachable Y s' := by
  induction hr with
  | refl => exact h
  | step _ _ hw hg ih => exact ih.went hw hg

theorem Reading.micros (h : Reachable Y s) (hr : Reading Y s s') :
    Micros Y s s' ∧ (∀ a v, Cached s a v → Cached s' a v) ∧
    ∀ a v, Cached s' a v → Cached s a v ∨ ∃ q : Promise σ, q.id = a ∧ Since s s' (.call q) := by
  induction hr with
  | refl => exact ⟨.refl, fun _ _ h => h, fun _ _ h => .inl h⟩
  | @step s1 s2 op r hr ho hw hg ih =>
    rcases Op.reads_cases ho with ho | ho
    · have := (C65_reachable (hr.reachable h)).safe.reads ho hw
      refine ⟨ih.1.trans this.micros, fun a v h => this.keep a v (ih.2.1 a v h), fun a v hv => ?_⟩
      rcases this.artLocal a with e | ⟨q, hq, hs⟩
      · rcases ih.2.2 a v (e.symm.trans hv) with h | ⟨q, hq, hs⟩
        · exact .inl h
        · exact .inr ⟨q, hq, hs.of_suffix (Micros.log_mono this.micros)⟩
      · exact .inr ⟨q, hq, hs.of_prefix (Micros.log_mono ih.1)⟩
    · obtain ⟨h1, h2⟩ := outside_spec ho hw
      refine ⟨ih.1.trans h1, fun a v h => by simpa only [Cached, h2] using ih.2.1 a v h, fun a v hv => ?_⟩
      simp only [Cached, Since, h2] at hv ih ⊢
      exact ih.2.2 a v hv

theorem micros_call_uncached (hm : Micros Y s s') {q : Promise σ} (hq : Since s s' (.call q)) : Uncached s q.id := by
  induction hm with
  | refl => exact absurd hq since_refl
  | @tail s1 s2 h1 hm ih =>
    by_cases hs : Since s s1 (.call q)
    · exact ih hs
    · have hart : s1.c.artifacts[q.id]? = none → Uncached s q.id := by
        intro hn
        obtain ⟨_, _, _, _, _, _, h6⟩ := micros_origin h1
        by_contra hc
        have : q.id ∈ s.c.artifacts := by
          cases ha : s.c.artifacts[q.id]? with
          | none => exact absurd ha hc
          | some v => exact (mem_getElem _ _).2 ⟨v, ha⟩
        obtain ⟨v, hv⟩ := (mem_getElem _ _).1 (h6 _ this)
        rw [hn] at hv; cases hv
      have go : ∀ e, e ≠ .call q → s2.c.log = e :: s1.c.log → False := by
        rintro e he hlog
        obtain ⟨new, e1⟩ := Micros.log_mono h1
        obtain ⟨new2, e2, hm2⟩ := hq
        rw [hlog, ← e1] at e2
        have : e :: new = new2 := List.append_cancel_right (by simpa using e2)
        rw [← this] at hm2
        rcases List.mem_cons.1 hm2 with h | h
        · exact he h.symm
        · exact hs ⟨new, e1.symm, h⟩
      have same : s2.c.log = s1.c.log → False := fun hlog => hs (Since.same hlog hq)
      cases hm with
      | known p hl => exact (same (makeKnown_log _ _)).elim
      | track u d => exact (go (.resolve u d) (by simp) rfl).elim
      | init p w d => exact (go (.initDyn p (some d)) (by simp) rfl).elim
      | initPanic p w => exact (go (.initDyn p none) (by simp) rfl).elim
      | setDyn p d => exact (go (.setDyn p d) (by simp) rfl).elim
      | world w => exact (same rfl).elim
      | alloc q ha => exact (same (by rw [allocB_c ha])).elim
      | free a => exact (same rfl).elim
      | call p _ _ hn =>
        by_cases hpq : p = q
        · subst hpq; exact hart hn
        · exact (go (.call p) (by simpa using hpq) rfl).elim
      | built p v => exact (go (.built p v) (by simp) rfl).elim

/-- **C72** While reading after a batch of changes, `Builder::build` is only called of builders that are affected by the changes or
had no artifact before. -/
theorem C72_only_affected_rebuilt (h : Reachable Y s) {l : List (Promise σ)} (hc : Changing Y s l s1) (hr : Reading Y s1 s2)
    {q : Promise σ} (hq : Since s1 s2 (.call q)) : Affected s l q.id ∨ Uncached s q.id := by
  have hn := micros_call_uncached (hr.micros (hc.reachable h)).1 hq
  by_cases ha : Affected s l q.id
  · exact .inl ha
  · right
    cases hv : s.c.artifacts[q.id]? with
    | none => exact hv
    | some v =>
      have := ((C72_changes_exact h hc).1 q.id v).2 ⟨hv, ha⟩
      unfold Cached Uncached at *
      rw [hn] at this; cases this

/-- **C72** An artifact that is not affected by the changes is there all the time, unchanged, and its builder is not called. -/
theorem C72_unaffected_kept (h : Reachable Y s) {l : List (Promise σ)} (hc : Changing Y s l s1) (hr : Reading Y s1 s2)
    {a : Id} {v : σ.V} (hv : Cached s a v) (ha : ¬ Affected s l a) :
    Cached s1 a v ∧ Cached s2 a v ∧ ∀ q : Promise σ, q.id = a → ¬ Since s1 s2 (.call q) := by
  have h1 := ((C72_changes_exact h hc).1 a v).2 ⟨hv, ha⟩
  refine ⟨h1, (hr.micros (hc.reachable h)).2.1 a v h1, ?_⟩
  rintro q rfl hq
  rcases C72_only_affected_rebuilt h hc hr hq with h | h
  · exact ha h
  · unfold Cached Uncached at *
    rw [h] at hv; cases hv

/-- **C72** An artifact that is affected by the changes is gone, and if there is one again, it was built after the changes. -/
theorem C72_affected_fresh (h : Reachable Y s) {l : List (Promise σ)} (hc : Changing Y s l s1) (hr : Reading Y s1 s2)
    {a : Id} (ha : Affected s l a) :
    Uncached s1 a ∧ ∀ v, Cached s2 a v → (∃ q : Promise σ, q.id = a ∧ Since s1 s2 (.call q)) ∧
      ∃ q : Promise σ, q.id = a ∧ Since s1 s2 (.built q v) := by
  have hn : Uncached s1 a := by
    cases hv : s1.c.artifacts[a]? with
    | none => exact hv
    | some v => exact absurd ha (((C72_changes_exact h hc).1 a v).1 hv).2
  refine ⟨hn, fun v hv => ?_⟩
  have none : ∀ v, ¬ Cached s1 a v := fun v hv => by unfold Uncached Cached at *; rw [hn] at hv; cases hv
  have hm := hr.micros (hc.reachable h)
  refine ⟨(hm.2.2 a v hv).resolve_left (none v), ?_⟩
  obtain ⟨new, e, h2, _⟩ := micros_origin hm.1
  obtain ⟨q, hq, hx⟩ := (h2 a v hv).resolve_left (none v)
  exact ⟨q, hq, new, e, hx⟩

/-- **C72** One `get`, in any state and with any doctor: only builders are called, or built, that the wanted builder uses
afterwards, directly or through others (or is). -/
theorem C72_only_needed (h : Reachable Y s) {r q : Promise σ} {how : Access} {res : Res (Ans σ)}
    (hw : Went Y s (.get how r) s' res) (hq : Since s s' (.call q) ∨ ∃ v, Since s s' (.built q v)) :
    Hit (UsesNow s') q.id r.id := by
  have hm := ((C65_reachable h).safe.reads (op := .get how r) trivial hw).micros
  obtain ⟨D, n, ord, rfl, _⟩ := went_plain hw
  have hn : Needed r.id s (stepH Y D n ord s (.get how r)).1 := by
    rcases stepH_cases (Y := Y) (s := s) D n ord (.get how r) with ⟨_, e⟩ | e
    · rw [e]; exact getAH_needed D n how r s
    · rw [e]; exact .refl _ _
  obtain ⟨new, e, h1⟩ := hn
  obtain ⟨_, new', e', h2⟩ := micros_resolved hm
  have hnew : new' = new := List.append_cancel_right (e'.symm.trans e)
  subst hnew
  refine (h1 q ?_).mono' ?_
  · refine hq.imp ?_ fun ⟨v, h⟩ => ⟨v, ?_⟩
    · rintro ⟨n2, e2, hm2⟩
      rwa [List.append_cancel_right (e2.symm.trans e)] at hm2
    · obtain ⟨n2, e2, hm2⟩ := h
      rwa [List.append_cancel_right (e2.symm.trans e)] at hm2
  · rintro u d ⟨U, V, rfl, rfl, hx⟩
    exact (usesNow_iff ..).2 (h2 U V hx)

/-! ## Nothing twice -/

theorem Reading.fresh {rk : σ.B → Nat} (hrk : Ranked Y rk) (h : Reachable Y s) (hr : Reading Y s s') : FreshTo s.c.log s'.c.log := by
  induction hr with
  | refl => exact .refl
  | @step s1 s2 op r hr ho hw hg ih =>
    refine ih.trans ?_
    rcases Op.reads_cases ho with ho | ho
    · obtain ⟨D, n, ord, rfl, _⟩ := went_plain hw
      rcases stepH_cases (Y := Y) (s := s1) D n ord op with ⟨_, e⟩ | e
      · rw [e]
        by_cases hd : op.deep = false
        · obtain ⟨w, h1, _⟩ := execH_shallow (Y := Y) (s := s1) D n ord op hd
          rw [h1]
          cases op with
          | dynState p => exact ensureDyn_log p s1
          | get | getMut | dynStateMut => cases hd
          | lookup | getDynState | isKnown | numKnown => exact .refl
          | _ => exact ho.elim
        · cases op with
          | get how p => exact (getAH_low hrk D n how p (hr.reachable h).inv).fresh
          | getMut | dynStateMut => exact ho.elim
          | _ => exact absurd rfl hd
      · rw [e]; exact .refl
    · rw [(outside_spec ho hw).2]; exact .refl

/-- **C72** If the builders form a directed acyclic graph, then while reading, however often and on however many paths a builder is
asked for, an artifact of it is built at most once. -/
theorem C72_each_once {rk : σ.B → Nat} (hrk : Ranked Y rk) (h : Reachable Y s) {l : List (Promise σ)} (hc : Changing Y s l s1)
    (hr : Reading Y s1 s2) {new post mid pre : List (Event σ)} {q r : Promise σ} {v w : σ.V}
    (hnew : s2.c.log = new ++ s1.c.log) (hl : new = post ++ .built q v :: (mid ++ .built r w :: pre)) : q.id ≠ r.id := by
  intro hqr
  have h1 := hc.reachable h
  obtain ⟨new', e, h2⟩ := (hr.micros h1).1.no_drop
  rw [hnew] at e
  have := List.append_cancel_right e
  subst this
  subst hl
  have h3 := (hr.fresh hrk h1).split (post := post) (pre := mid ++ .built r w :: pre) (q := q) (v := v)
    (by rw [hnew]; simp)
  refine Abs.art_stays (l := .built r w :: (pre ++ s1.c.log)) (mid := mid) (a := q.id) ?_ ?_ ?_
  · simp [Abs.of, Abs.apply, hqr]
  · intro e he
    exact h2 e (by simp [he])
  · simpa using h3

end

namespace Demo

/-- In `s1` 0, 1 and 2 are cached; builder 1 is changed (its state is set, then it is invalidated), ... -/
def changed33 : St sig := (step Y 9 ord (step Y 9 ord s1 (.dynStateMut (P 1) fun _ => 8)).1 (.invalidate (P 1))).1

/-- ... and 0 and 2 are got again. -/
def read33 : St sig := (step Y 9 ord (step Y 9 ord changed33 (.get .bin (P 0))).1 (.get .ref (P 2))).1

theorem changes33 : Changing Y s1 [P 1, P 1] changed33 :=
  .cons (op := .dynStateMut (P 1) fun _ => 8) rfl (.plain 9 ord) (by decide +kernel)
    (.cons (op := .invalidate (P 1)) rfl (.plain 9 ord) (by decide +kernel) (.nil _))

theorem reads33 : Reading Y changed33 read33 :=
  ((Reading.refl.step (op := .get .bin (P 0)) trivial (.plain 9 ord) (by decide +kernel)).step (op := .get .ref (P 2)) trivial
    (.plain 9 ord) (by decide +kernel))

theorem affected33 : Affected s1 [P 1, P 1] 12 ∧ Affected s1 [P 1, P 1] 11 :=
  ⟨⟨P 1, by simp, .single ((usesNow_iff ..).2 (by unfold Dep; decide +kernel))⟩, ⟨P 1, by simp, .refl⟩⟩

/-- 0 is not affected: it is still cached. -/
theorem unaffected33 : ¬ Affected s1 [P 1, P 1] 10 :=
  (((C72_changes_exact reach1 changes33).1 10 (5 : Nat)).1 (by unfold Cached; decide +kernel)).2

/-- 0 is not rebuilt. -/
example : Cached read33 10 (5 : Nat) ∧ ∀ q : Promise sig, q.id = 10 → ¬ Since changed33 read33 (.call q) :=
  (C72_unaffected_kept reach1 changes33 reads33 (by unfold Cached; decide +kernel) unaffected33).2

/-- 2 is rebuilt. -/
example : ∃ q : Promise sig, q.id = 12 ∧ Since changed33 read33 (.built q (110 : Nat)) :=
  ((C72_affected_fresh reach1 changes33 reads33 affected33.1).2 (110 : Nat) (by unfold Cached; decide +kernel)).2

/-- What is called, 1 and 2, is affected. -/
example : Affected s1 [P 1, P 1] 11 ∨ Uncached s1 11 :=
  C72_only_affected_rebuilt reach1 changes33 reads33 (q := P 1)
    ⟨[.built (P 2) 110, .resolve (P 2) (P 0), .built (P 1) 105, .resolve (P 1) (P 0), .call (P 1), .resolve (P 2) (P 1), .call (P 2)],
      rfl, by simp⟩

/-- Getting 2 calls 1, which it uses. -/
example : Hit (UsesNow (step Y 9 ord changed33 (.get .ref (P 2))).1) 11 12 :=
  C72_only_needed (r := P 2) (q := P 1) (changes33.reachable reach1) (.plain 9 ord) (.inl
    ⟨[.built (P 2) 110, .resolve (P 2) (P 0), .built (P 1) 105, .resolve (P 1) (P 0), .call (P 1), .resolve (P 2) (P 1), .call (P 2)],
      rfl, by simp⟩)

/-- In a chain of doubled edges, after a change of 0, all three are built again, each once. -/
example : (P 2).id ≠ (P 0).id :=
  C72_each_once (Y := dagY) (l := [P 0]) (s := dagS) (s1 := (step dagY 3 ord dagS (.invalidate (P 0))).1)
    (s2 := (step dagY 3 ord (step dagY 3 ord dagS (.invalidate (P 0))).1 (.get .bin (P 2))).1) dagY_ranked dagS_reachable
    (.cons (op := .invalidate (P 0)) rfl (.plain 3 ord) (by decide +kernel) (.nil _))
    (Reading.refl.step (op := .get .bin (P 2)) trivial (.plain 3 ord) (by decide +kernel))
    (q := P 2) (v := (4 : Nat)) (r := P 0) (w := (1 : Nat))
    (post := []) (mid := [.resolve (P 2) (P 1), .built (P 1) 2, .resolve (P 1) (P 0)])
    (pre := [.setDyn (P 0) 0, .call (P 0), .resolve (P 1) (P 0), .call (P 1), .resolve (P 2) (P 1), .call (P 2)]) rfl rfl

end Demo

end Daab
