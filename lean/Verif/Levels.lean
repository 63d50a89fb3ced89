import Verif.Props19
import Verif.Props3

/-!
# C62: builders as artifacts, caches in several levels

`canning.rs` 648-719 `BuilderArtifact`: the artifacts of a cache may be (blueprints of) builders, "super builders", which
are then given to the next cache (`multi_level_test.rs` 190-250, which is not compiled at this commit, as `lib.rs` 546 is
commented out): `cache.get(&cache_ap1.get(&cache_ap2.get(&sb).unpack()).unpack())`.
-/

open Std

namespace Daab

set_option linter.unusedSectionVars false

variable {σ : Sig} {ι : Type} [DecidableEq ι] {Y : ι → Sys σ} {S S' : MSt ι σ}

/-! ## Vocabulary -/

/-- The expression `cN.get(&..c2.get(&c1.get(&q).unpack()).unpack())` takes the program from `S` to `S'` and its value
is `x`; `c1, c2, ..` are the caches of the list (the same cache may occur several times).  `unpack v`: the builder that
the artifact `v` is a blueprint of, if it is one (`canning.rs` 666-690, `blueprint.rs` 136-160). -/
inductive Chain (Y : ι → Sys σ) (unpack : σ.V → Option (Promise σ)) :
    List ι → Promise σ → MSt ι σ → σ.V → MSt ι σ → Prop
  | last {S : MSt ι σ} {i : ι} {q : Promise σ} {x : σ.V} (n : Nat) (ord : HashOrder) :
      (S.step Y i n ord (.get .bin q)).2 = .val (.art (.ok x)) → NoClash S (S.step Y i n ord (.get .bin q)).1 i →
      Chain Y unpack [i] q S x (S.step Y i n ord (.get .bin q)).1
  | next {S S' : MSt ι σ} {i : ι} {L : List ι} {q p : Promise σ} {v x : σ.V} (n : Nat) (ord : HashOrder) :
      (S.step Y i n ord (.get .bin q)).2 = .val (.art (.ok v)) → NoClash S (S.step Y i n ord (.get .bin q)).1 i →
      unpack v = some p → Chain Y unpack L p (S.step Y i n ord (.get .bin q)).1 x S' →
      Chain Y unpack (i :: L) q S x S'

/-- An artifact that is a blueprint keeps its builder alive (it contains an `Rc`/`Arc` of it, `canning.rs` 658). -/
def ArtifactsHold (unpack : σ.V → Option (Promise σ)) (S : MSt ι σ) : Prop :=
  ∀ i a v p, Cached (S.view i) a v → unpack v = some p → S.heap[p.id]? = some p.b

/-- The operation cannot drop the artifact of a builder that is alive: it reads, builds, collects garbage, or concerns no
cache. -/
def Op.gentle (op : Op σ) : Prop := op.readsOrBuilds ∨ op = .gc ∨ op.own = false

/-- The program goes on, doing only gentle operations on the caches `L`, and anything with the others. -/
inductive Gently (Y : ι → Sys σ) (unpack : σ.V → Option (Promise σ)) (q : Promise σ) (L : List ι) :
    MSt ι σ → MSt ι σ → Prop
  | refl (S : MSt ι σ) : Gently Y unpack q L S S
  | op {S S' : MSt ι σ} (i : ι) (n : Nat) (ord : HashOrder) (op : Op σ) : Gently Y unpack q L S S' →
      (S'.step Y i n ord op).2.ended → NoClash S' (S'.step Y i n ord op).1 i → (i ∈ L → op.gentle) →
      ArtifactsHold unpack S' → S'.heap[q.id]? = some q.b →
      Gently Y unpack q L S (S'.step Y i n ord op).1
  | renew {S S' : MSt ι σ} (i : ι) : Gently Y unpack q L S S' → i ∉ L → Gently Y unpack q L S (S'.renew i)

/-- Nothing but the ghost record of operations differs. -/
def SameProgram (S S' : MSt ι σ) : Prop :=
  S'.caches = S.caches ∧ S'.w = S.w ∧ S'.heap = S.heap ∧ S'.born = S.born

/-! ## Proofs -/

/-- What the caches of the levels have: the artifact of `q`; of the builder it is a blueprint of; and so on, up to `x`. -/
def Stacked (unpack : σ.V → Option (Promise σ)) (S : MSt ι σ) : List ι → Promise σ → σ.V → Prop
  | [], _, _ => False
  | [i], q, x => Cached (S.view i) q.id x
  | i :: l, q, x => ∃ v p, Cached (S.view i) q.id v ∧ unpack v = some p ∧ Stacked unpack S l p x

theorem Stacked.cons {unpack : σ.V → Option (Promise σ)} {i j : ι} {l : List ι} {q : Promise σ} {x : σ.V} :
    Stacked unpack S (i :: j :: l) q x ↔
      ∃ v p, Cached (S.view i) q.id v ∧ unpack v = some p ∧ Stacked unpack S (j :: l) p x := Iff.rfl

theorem Stacked.mono {unpack : σ.V → Option (Promise σ)} {L : List ι} (q : Promise σ) {x : σ.V}
    (hq : S.heap[q.id]? = some q.b) (ha : ArtifactsHold unpack S)
    (h : ∀ i ∈ L, ∀ (p : Promise σ) v, S.heap[p.id]? = some p.b → Cached (S.view i) p.id v → Cached (S'.view i) p.id v)
    (hl : Stacked unpack S L q x) : Stacked unpack S' L q x := by
  induction L generalizing q with
  | nil => exact hl
  | cons i l ih =>
    cases l with
    | nil => exact h i (by simp) q x hq hl
    | cons j l =>
      obtain ⟨v, p, h1, h2, h3⟩ := Stacked.cons.1 hl
      exact Stacked.cons.2 ⟨v, p, h i (by simp) q v hq h1, h2,
        ih p (ha i _ v p h1 h2) (fun i hi => h i (List.mem_cons_of_mem _ hi)) h3⟩

theorem Gently.reach {unpack : σ.V → Option (Promise σ)} {q : Promise σ} {L : List ι} (h : MReach Y S)
    (hr : Gently Y unpack q L S S') : MReach Y S' := by
  induction hr with
  | refl => exact h
  | op i n ord op _ h1 h2 _ _ _ ih => exact ih.op i n ord op h1 h2
  | renew i _ _ ih => exact ih.renew i

theorem step_view_other {i j : ι} (hij : j ≠ i) (n : Nat) (ord : HashOrder) (op : Op σ) :
    ((S.step Y i n ord op).1.view j).c = (S.view j).c := by
  simp [MSt.step, MSt.view, Function.update_of_ne hij]

theorem step_view_self (i : ι) (n : Nat) (ord : HashOrder) (op : Op σ) :
    (S.step Y i n ord op).1.view i = (step (Y i) n ord (S.view i) op).1 := by
  simp [MSt.step, MSt.view]

/-- A gentle operation keeps the artifact of a live builder. -/
theorem gentle_keeps {Y : Sys σ} {s : St σ} (h : Reachable Y s) {op : Op σ} (ho : op.gentle) (n : Nat) (ord : HashOrder)
    {p : Promise σ} {v : σ.V} (hl : s.live p = true) (hv : Cached s p.id v) : Cached (step Y n ord s op).1 p.id v := by
  rcases ho with ho | rfl | ho
  · exact C04_artifacts_kept h ho n ord hv
  · exact (((C19_gc_keeps_live h n ord).1 p hl).2.1 v).2 hv
  · have : (step Y n ord s op).1.c = s.c := by
      cases op <;> first | (cases ho; done) | skip
      · simp only [step, Op.promise?, exec]
        rename_i q
        cases ha : allocB q s with
        | none => rfl
        | some s1 => exact allocB_c ha
      · rfl
      · rfl
    unfold Cached; rw [this]; exact hv

/-- The operations that were done before, are done. -/
theorem done_prefix {i j : ι} {n : Nat} {ord : HashOrder} {op : Op σ} {e : Entry σ} (h : e ∈ S.done j) :
    e ∈ (S.step Y i n ord op).1.done j := by
  simp only [MSt.step]
  split
  · by_cases hij : j = i
    · subst hij; rw [Function.update_self]; exact List.mem_append_left _ h
    · rw [Function.update_of_ne hij]; exact h
  · exact h

theorem Gently.done {unpack : σ.V → Option (Promise σ)} {q : Promise σ} {L : List ι}
    (hr : Gently Y unpack q L S S') {i : ι} (hi : i ∈ L) {e : Entry σ} (he : e ∈ S.done i) : e ∈ S'.done i := by
  induction hr with
  | refl => exact he
  | op i n ord op _ _ _ _ _ _ ih => exact done_prefix ih
  | renew j _ hj ih =>
    have : i ≠ j := fun h => hj (h ▸ hi)
    simp only [MSt.renew, Function.update_of_ne this]; exact ih

theorem Gently.stacked {unpack : σ.V → Option (Promise σ)} {q : Promise σ} {L : List ι} {x : σ.V} (h : MReach Y S)
    (hr : Gently Y unpack q L S S') (hd : ∀ i ∈ L, ∀ e ∈ S'.done i, e.ans.goesOn)
    (hl : Stacked unpack S L q x) : Stacked unpack S' L q x := by
  induction hr with
  | refl => exact hl
  | @op S1 i n ord op hr _ _ ho ha hq ih =>
    have hd' : ∀ i ∈ L, ∀ e ∈ S1.done i, e.ans.goesOn := fun j hj e he => hd j hj e (done_prefix he)
    refine (ih hd').mono q hq ha fun j hj p v hp hv => ?_
    by_cases hij : j = i
    · subst hij
      rw [step_view_self]
      exact gentle_keeps (C55_sound_on_its_own (hr.reach h) j (hd' j hj)) (ho hj) n ord
        (by simpa [St.live, MSt.view] using hp) hv
    · unfold Cached; rw [step_view_other hij]; exact hv
  | @renew S1 i hr hi ih =>
    have e : ∀ j ∈ L, (S1.renew i).done j = S1.done j ∧ ((S1.renew i).view j).c = (S1.view j).c := by
      intro j hj
      have : j ≠ i := fun h => hi (h ▸ hj)
      simp [MSt.renew, MSt.view, Function.update_of_ne this]
    have h1 := ih fun j hj e' he => hd j hj e' (by rw [(e j hj).1]; exact he)
    clear ih hd hr hl
    induction L generalizing q with
    | nil => exact h1
    | cons j l ihl =>
      cases l with
      | nil =>
        show Cached _ _ _
        unfold Cached
        rw [(e j (by simp)).2]; exact h1
      | cons k l =>
        obtain ⟨v, p, a1, a2, a3⟩ := Stacked.cons.1 h1
        refine Stacked.cons.2 ⟨v, p, ?_, a2, ihl (fun h => hi (List.mem_cons_of_mem _ h))
          (fun j hj => e j (List.mem_cons_of_mem _ hj)) a3⟩
        unfold Cached
        rw [(e j (by simp)).2]; exact a1

theorem ended_ok {α : Type} {x : α} {r : Res α} (h : r = .val x) : r.ended := by rw [h]; exact ⟨nofun, nofun⟩

/-- A hit changes nothing. -/
theorem hit_same (h : MReach Y S) {i : ι} (hd : ∀ e ∈ S.done i, e.ans.goesOn) {q : Promise σ} {v : σ.V}
    (hq : S.heap[q.id]? = some q.b) (hv : Cached (S.view i) q.id v) (n : Nat) (ord : HashOrder) :
    SameProgram S (S.step Y i n ord (.get .bin q)).1 ∧ (S.step Y i n ord (.get .bin q)).2 = .val (.art (.ok v)) := by
  have hr := C55_sound_on_its_own h i hd
  have hl : (S.view i).live q = true := by simpa [St.live, MSt.view] using hq
  have h2 : (step (Y i) n ord (S.view i) (.lookup .bin q)).2 = .val (.optArt (some v)) := by
    rw [step_live rfl hl]
    simp only [exec, lookupBy_eq hr.inv _ hl, Res.map]
    rw [show (S.view i).c.artifacts[q.id]? = some v from hv]
    rfl
  have h3 := C01_hit_is_free hr hl h2 (n' := n) (ord' := ord) .bin
  simp only [MSt.step, h3, SameProgram]
  exact ⟨⟨by simp [MSt.view], rfl, rfl, rfl⟩, rfl⟩

theorem SameProgram.view (h : SameProgram S S') (i : ι) : S'.view i = S.view i := by
  obtain ⟨h1, h2, h3, h4⟩ := h
  simp [MSt.view, h1, h2, h3, h4]

theorem SameProgram.trans {S'' : MSt ι σ} (h : SameProgram S S') (h' : SameProgram S' S'') : SameProgram S S'' :=
  ⟨h'.1.trans h.1, h'.2.1.trans h.2.1, h'.2.2.1.trans h.2.2.1, h'.2.2.2.trans h.2.2.2⟩

theorem SameProgram.stacked {unpack : σ.V → Option (Promise σ)} (h : SameProgram S S') {L : List ι} {q : Promise σ}
    {x : σ.V} (hl : Stacked unpack S L q x) : Stacked unpack S' L q x := by
  induction L generalizing q with
  | nil => exact hl
  | cons i l ih =>
    cases l with
    | nil => show Cached _ _ _; rw [h.view]; exact hl
    | cons j l =>
      obtain ⟨v, p, a1, a2, a3⟩ := Stacked.cons.1 hl
      exact Stacked.cons.2 ⟨v, p, by rw [h.view]; exact a1, a2, ih a3⟩

theorem SameProgram.holds {unpack : σ.V → Option (Promise σ)} (h : SameProgram S S') (ha : ArtifactsHold unpack S) :
    ArtifactsHold unpack S' := by
  intro i a v p h1 h2
  rw [h.view] at h1
  rw [h.2.2.1]; exact ha i a v p h1 h2

theorem hit_clash {i : ι} {n : Nat} {ord : HashOrder} {q : Promise σ}
    (h : SameProgram S (S.step Y i n ord (.get .bin q)).1) : NoClash S (S.step Y i n ord (.get .bin q)).1 i := by
  intro j _ a b h1 h2
  rw [h.2.2.1] at h1
  exact absurd h1 h2

theorem done_get {i j : ι} {n : Nat} {ord : HashOrder} {q : Promise σ} {v : σ.V}
    (ho : (S.step Y i n ord (.get .bin q)).2 = .val (.art (.ok v))) (hd : ∀ e ∈ S.done j, e.ans.goesOn) :
    ∀ e ∈ (S.step Y i n ord (.get .bin q)).1.done j, e.ans.goesOn := by
  intro e he
  simp only [MSt.step, Op.own, if_true] at he
  by_cases hij : j = i
  · subst hij
    rw [Function.update_self] at he
    rcases List.mem_append.1 he with he | he
    · exact hd e he
    · rw [List.mem_singleton.1 he]
      simp only [MSt.step] at ho
      simp only [ho]
      trivial
  · rw [Function.update_of_ne hij] at he; exact hd e he

theorem Stacked.chain {unpack : σ.V → Option (Promise σ)} {L : List ι} {q : Promise σ} {x : σ.V} (h : MReach Y S)
    (hd : ∀ i ∈ L, ∀ e ∈ S.done i, e.ans.goesOn) (hq : S.heap[q.id]? = some q.b) (ha : ArtifactsHold unpack S)
    (hl : Stacked unpack S L q x) (n : Nat) (ord : HashOrder) :
    (∃ S', Chain Y unpack L q S x S') ∧ ∀ y S', Chain Y unpack L q S y S' → y = x ∧ SameProgram S S' := by
  induction L generalizing q S with
  | nil => exact hl.elim
  | cons i l ih =>
    cases l with
    | nil =>
      have hit := fun n ord => hit_same h (hd i (by simp)) hq hl n ord
      refine ⟨⟨_, .last n ord (hit n ord).2 (hit_clash (hit n ord).1)⟩, fun y S' hc => ?_⟩
      cases hc with
      | last m o h1 h2 =>
        rw [(hit m o).2] at h1
        cases h1
        exact ⟨rfl, (hit m o).1⟩
      | next m o h1 h2 h3 h4 => cases h4
    | cons j l =>
      obtain ⟨v, p, a1, a2, a3⟩ := Stacked.cons.1 hl
      have hit := fun n ord => hit_same h (hd i (by simp)) hq a1 n ord
      have again := fun n ord => ih (S := (S.step Y i n ord (.get .bin q)).1)
        (h.op i n ord _ (ended_ok (hit n ord).2) (hit_clash (hit n ord).1))
        (fun k hk => done_get (hit n ord).2 (hd k (List.mem_cons_of_mem _ hk)))
        (by rw [(hit n ord).1.2.2.1]; exact ha i _ v p a1 a2) ((hit n ord).1.holds ha) ((hit n ord).1.stacked a3)
      refine ⟨?_, fun y S' hc => ?_⟩
      · obtain ⟨S', hc⟩ := (again n ord).1
        exact ⟨S', .next n ord (hit n ord).2 (hit_clash (hit n ord).1) a2 hc⟩
      · cases hc with
        | next m o h1 h2 h3 h4 =>
          rw [(hit m o).2] at h1
          cases h1
          rw [a2] at h3
          cases h3
          obtain ⟨e, hs⟩ := (again m o).2 y S' h4
          exact ⟨e, (hit m o).1.trans hs⟩

/-- A chain keeps all artifacts of the caches it goes through, and they stay sound. -/
theorem Chain.keeps {unpack : σ.V → Option (Promise σ)} {L : List ι} {q : Promise σ} {x : σ.V}
    (hc : Chain Y unpack L q S x S') (h : MReach Y S) :
    MReach Y S' ∧ (∀ j, (∀ e ∈ S.done j, e.ans.goesOn) →
      (∀ e ∈ S'.done j, e.ans.goesOn) ∧ ∀ a v, Cached (S.view j) a v → Cached (S'.view j) a v) := by
  have one : ∀ {S : MSt ι σ} {i : ι} {n : Nat} {ord : HashOrder} {q : Promise σ} {v : σ.V}, MReach Y S →
      (S.step Y i n ord (.get .bin q)).2 = .val (.art (.ok v)) → ∀ j, (∀ e ∈ S.done j, e.ans.goesOn) →
      ∀ a v, Cached (S.view j) a v → Cached ((S.step Y i n ord (.get .bin q)).1.view j) a v := by
    intro S i n ord q v hm h1 j hd a v' hv
    by_cases hij : j = i
    · subst hij
      rw [step_view_self]
      exact C04_artifacts_kept (C55_sound_on_its_own hm j hd) (by simp [Op.readsOrBuilds]) n ord hv
    · unfold Cached; rw [step_view_other hij]; exact hv
  induction hc with
  | last n ord h1 h2 =>
    exact ⟨h.op _ n ord _ (ended_ok h1) h2, fun j hd => ⟨done_get h1 hd, one h h1 j hd⟩⟩
  | next n ord h1 h2 _ _ ih =>
    obtain ⟨g, k⟩ := ih (h.op _ n ord _ (ended_ok h1) h2)
    refine ⟨g, fun j hd => ⟨(k j (done_get h1 hd)).1, fun a v hv => (k j (done_get h1 hd)).2 a v (one h h1 j hd a v hv)⟩⟩

theorem Chain.stacked {unpack : σ.V → Option (Promise σ)} {L : List ι} {q : Promise σ} {x : σ.V}
    (hc : Chain Y unpack L q S x S') (h : MReach Y S) (hd : ∀ i ∈ L, ∀ e ∈ S.done i, e.ans.goesOn) :
    Stacked unpack S' L q x := by
  induction hc with
  | last n ord h1 h2 =>
    show Cached _ _ _
    rw [step_view_self]
    exact (C02_get_memoizes (C55_sound_on_its_own h _ (hd _ (by simp))) h1).1
  | @next S S' i l q p v x n ord h1 h2 h3 h4 ih =>
    have hm := h.op _ n ord _ (ended_ok h1) h2
    have hl := ih hm fun j hj => done_get h1 (hd j (List.mem_cons_of_mem _ hj))
    cases l with
    | nil => exact hl.elim
    | cons j l =>
      refine Stacked.cons.2 ⟨v, p, ?_, h3, hl⟩
      refine ((h4.keeps hm).2 i (done_get h1 (hd i (by simp)))).2 _ _ ?_
      rw [step_view_self]
      exact (C02_get_memoizes (C55_sound_on_its_own h _ (hd _ (by simp))) h1).1

/-! ## Theorems -/

/-- **C62** Caches in levels.  The value of `cN.get(&..c1.get(&q).unpack()..)` is found at once -- no builder is
run, nothing in memory, in the world or in any cache changes -- whenever it is asked for again, and is the same one,
as long as the levels only did gentle things in between, whatever happened to other caches; how big the stack is and
whatever the hash order. -/
theorem C62_same {unpack : σ.V → Option (Promise σ)} {S1 S2 : MSt ι σ} {L : List ι} {q : Promise σ} {x : σ.V}
    (h : MReach Y S) (hd : ∀ i ∈ L, ∀ e ∈ S2.done i, e.ans.goesOn) (hc : Chain Y unpack L q S x S1)
    (hg : Gently Y unpack q L S1 S2) (ha : ArtifactsHold unpack S2) (hq : S2.heap[q.id]? = some q.b) :
    (∃ S3, Chain Y unpack L q S2 x S3) ∧ ∀ y S3, Chain Y unpack L q S2 y S3 → y = x ∧ SameProgram S2 S3 := by
  have hd1 : ∀ i ∈ L, ∀ e ∈ S1.done i, e.ans.goesOn := fun i hi e he => hd i hi e (hg.done hi he)
  have hd0 : ∀ i ∈ L, ∀ e ∈ S.done i, e.ans.goesOn := by
    intro i hi e he
    refine hd1 i hi e ?_
    clear hg hd hd1 ha hq h hi
    induction hc with
    | last => exact done_prefix he
    | next _ _ _ _ _ _ ih => exact ih (done_prefix he)
  have hm := (hc.keeps h).1
  exact ((hg.stacked hm hd (hc.stacked h hd0)).chain (hg.reach hm) hd hq ha 0 ⟨fun _ l => l, fun _ _ => List.Perm.refl _⟩)

/-- **C62** A builder that was made while the cache `i` was at work -- as part of its artifact, say -- is new to every
other cache, whatever builders lived at its address before: it is not known there, it has no artifact, and no dynamic
state. -/
theorem C62_new_builder (h : MReach Y S) {i j : ι} (hij : j ≠ i) (hd : ∀ e ∈ S.done j, e.ans.goesOn) {n : Nat}
    {ord : HashOrder} {op : Op σ} (he : (S.step Y i n ord op).2.ended) (hn : NoClash S (S.step Y i n ord op).1 i)
    {p : Promise σ} (hp : p.b ∉ S.born) (hl : (S.step Y i n ord op).1.heap[p.id]? = some p.b) (m : Nat)
    (ord' : HashOrder) :
    ((S.step Y i n ord op).1.step Y j m ord' (.isKnown p)).2 = .val (.bool false) ∧
    ((S.step Y i n ord op).1.step Y j m ord' (.lookup .bin p)).2 = .val (.optArt none) ∧
    ((S.step Y i n ord op).1.step Y j m ord' (.getDynState p)).2 = .val (.optState none) := by
  have hm := h.op i n ord op he hn
  have hs : ((S.step Y i n ord op).1.view j).c = S.caches j := step_view_other hij n ord op
  have hd' : ∀ e ∈ (S.step Y i n ord op).1.done j, e.ans.goesOn := by
    intro e he
    simp only [MSt.step] at he
    split at he
    · rw [Function.update_of_ne hij] at he; exact hd e he
    · exact hd e he
  have hr := C55_sound_on_its_own hm j hd'
  have hk : (S.caches j).known[p.id]? = none := by
    refine hn j hij p.id p.b hl fun hx => hp ?_
    exact (h.good.2.1 i).born _ _ hx
  have hl' : ((S.step Y i n ord op).1.view j).live p = true := by simpa [St.live, MSt.view] using hl
  have hk' : ((S.step Y i n ord op).1.view j).c.known[p.id]? = none := by rw [hs]; exact hk
  simp only [show ∀ o, (MSt.step Y (S.step Y i n ord op).1 j m ord' o).2 =
    (step (Y j) m ord' ((S.step Y i n ord op).1.view j) o).2 from fun _ => rfl]
  clear hm hs hd' hl hk
  generalize (S.step Y i n ord op).1.view j = s at *
  have hnd : p.id ∉ s.c.dynStates := fun hx => by
    have := hr.inv.dynKnown _ hx
    rw [ExtTreeMap.mem_iff_isSome_getElem?, hk'] at this
    cases this
  have hna : p.id ∉ s.c.artifacts := fun hx => hnd (hr.inv.artDyn _ hx)
  have e1 : s.c.artifacts[p.id]? = none := ExtTreeMap.getElem?_eq_none hna
  have e2 : s.c.dynStates[p.id]? = none := ExtTreeMap.getElem?_eq_none hnd
  have e3 : s.c.known.contains p.id = false := by
    rw [ExtTreeMap.contains_eq_isSome_getElem?, hk']; rfl
  refine ⟨?_, ?_, ?_⟩ <;> rw [step_live rfl hl']
  · simp [exec, isKnown, e3]
  · simp [exec, lookupBy_eq hr.inv _ hl', e1, Res.map]
  · simp [exec, getDynState, e2, Res.map]

namespace Demo

/-- Builder 20 makes builder 30 and returns it as its artifact (the number 30).  In the other cache, all is as usual. -/
def levels : Bool → Sys sig := fun i =>
  if i then { Demo.Y with code := fun b => if b = 20 then .alloc (P 30) (.ret (.ok 30)) else .ret (.ok 0) } else Demo.Y

def unpackD : sig.V → Option (Promise sig) := fun v => if v = (30 : Nat) then some (P 30) else none

theorem holdsD {S : MSt Bool sig} (h : S.heap[(40 : Nat)]? = some (30 : Nat)) : ArtifactsHold unpackD S := by
  intro i a v p _ hp
  unfold unpackD at hp
  split at hp
  · cases hp; exact h
  · cases hp

/-- Builder 20 is made. -/
def L0 : MSt Bool sig := (MSt.step levels ⟨fun _ => {}, (0 : Nat), ∅, [], fun _ => []⟩ true 9 ord (.alloc (P 20))).1
/-- `c_true.get(&P 20)`: makes builder 30. -/
def L1 : MSt Bool sig := (L0.step levels true 9 ord (.get .bin (P 20))).1
/-- `c_false.get(&.. .unpack())`. -/
def L2 : MSt Bool sig := (L1.step levels false 9 ord (.get .bin (P 30))).1
/-- Garbage collection in the first level, then a lookup in the second. -/
def L3 : MSt Bool sig := (L2.step levels true 9 ord .gc).1
def L4 : MSt Bool sig := (L3.step levels false 9 ord (.lookup .bin (P 30))).1

theorem reachL0 : MReach levels L0 :=
  (MReach.new (Y := levels) (0 : Nat)).op true 9 ord (.alloc (P 20)) (by decide) (noClash_ok (by decide))

theorem chainL : Chain levels unpackD [true, false] (P 20) L0 (30 : Nat) L2 :=
  .next (p := P 30) 9 ord (v := (30 : Nat)) (by rfl) (noClash_ok (by decide)) (by rfl)
    (.last 9 ord (by rfl) (noClash_ok (by decide)))

theorem gentlyL : Gently levels unpackD (P 20) [true, false] L2 L4 :=
  .op false 9 ord (.lookup .bin (P 30))
    (.op true 9 ord .gc (.refl L2) (by decide) (noClash_ok (by decide)) (fun _ => .inr (.inl rfl))
      (holdsD (by decide)) (by decide))
    (by decide) (noClash_ok (by decide)) (fun _ => .inl (by simp [Op.readsOrBuilds])) (holdsD (by decide)) (by decide)

/-- Two levels: asking again gives the same. -/
example : ∀ y S3, Chain levels unpackD [true, false] (P 20) L4 y S3 → y = (30 : Nat) ∧ SameProgram L4 S3 :=
  (C62_same reachL0 (by
    intro i _ e he
    have : (L4.done i).all (fun e => decide e.ans.goesOn) = true := by cases i <;> decide
    simpa using List.all_eq_true.1 this e he) chainL gentlyL (holdsD (by decide)) (by decide)).2

/-- Builder 30 is new to the second level. -/
example : (L1.step levels false 9 ord (.isKnown (P 30))).2 = .val (.bool false) :=
  (C62_new_builder (Y := levels) reachL0 (i := true) (j := false) nofun (by
    have : (L0.done false).all (fun e => decide e.ans.goesOn) = true := by decide
    intro e he
    simpa using List.all_eq_true.1 this e he) (n := 9) (ord := ord) (op := .get .bin (P 20)) (by decide)
    (noClash_ok (by decide)) (p := P 30) (by decide) (by decide) 9 ord).1

end Demo

end Daab
