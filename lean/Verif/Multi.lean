import Verif.KnownDyn

/-!
# Several caches in one program

A program may have any number of caches (`cache.rs` 205-330, `CacheOwned::new`) that share builders: every cache
is an object of its own, all work on the same memory and the same outside world.  There are no statics in the
crate.  `Op`s on one cache do not run during an operation of another one; for that (threads, or builder code that
uses another cache itself) see `Threads.lean`.
-/

open Std

namespace Daab

variable {σ : Sig}

/-! ## What an operation can do to the memory -/

/-- Memory of a real program: no builder is at two places, and all have been created. -/
structure HeapOk (s : St σ) : Prop where
  inj : ∀ (a a' : Id) b, s.heap[a]? = some b → s.heap[a']? = some b → a = a'
  born : ∀ (a : Id) b, s.heap[a]? = some b → b ∈ s.born

/-- From `s` to `s'` new builders (`l`) were created and some builders were dropped. -/
def Grow (s s' : St σ) : Prop :=
  ∃ l, s'.born = l ++ s.born ∧ l.Nodup ∧ (∀ b ∈ l, b ∉ s.born) ∧
    (∀ (a : Id) b, s'.heap[a]? = some b → s.heap[a]? = some b ∨ b ∈ l) ∧ (HeapOk s → HeapOk s')

theorem Grow.same {s s' : St σ} (hh : s'.heap = s.heap) (hb : s'.born = s.born) : Grow s s' := by
  refine ⟨[], hb, List.nodup_nil, by simp, ?_, ?_⟩
  · intro a b h; rw [hh] at h; exact .inl h
  · intro h
    exact ⟨by rw [hh]; exact h.inj, by rw [hh, hb]; exact h.born⟩

theorem Grow.refl (s : St σ) : Grow s s := Grow.same rfl rfl

theorem Grow.trans {s s' s'' : St σ} (h : Grow s s') (h' : Grow s' s'') : Grow s s'' := by
  obtain ⟨l, h1, h2, h3, h4, h5⟩ := h
  obtain ⟨m, g1, g2, g3, g4, g5⟩ := h'
  refine ⟨m ++ l, by rw [g1, h1, List.append_assoc], ?_, ?_, ?_, g5 ∘ h5⟩
  · rw [List.nodup_append]
    refine ⟨g2, h2, ?_⟩
    rintro b hb c hc rfl
    exact g3 b hb (by rw [h1]; exact List.mem_append_left _ hc)
  · intro b hb hs
    rcases List.mem_append.1 hb with hb | hb
    · exact g3 b hb (by rw [h1]; exact List.mem_append_right _ hs)
    · exact h3 b hb hs
  · intro a b hb
    rcases g4 a b hb with hb | hb
    · rcases h4 a b hb with hb | hb
      · exact .inl hb
      · exact .inr (List.mem_append_right _ hb)
    · exact .inr (List.mem_append_left _ hb)

theorem Grow.from {s s0 s' : St σ} (h : Grow s0 s') (hh : s0.heap = s.heap) (hb : s0.born = s.born) : Grow s s' :=
  (Grow.same hh hb).trans h

theorem Grow.free (a : Id) (s : St σ) : Grow s (freeB a s) := by
  have key : ∀ (x : Id) b, (freeB a s).heap[x]? = some b → s.heap[x]? = some b := by
    intro x b h
    simp only [freeB, ExtTreeMap.getElem?_erase] at h
    split at h
    · cases h
    · exact h
  refine ⟨[], rfl, List.nodup_nil, by simp, fun x b h => .inl (key x b h), fun h => ⟨?_, ?_⟩⟩
  · intro x y b hx hy; exact h.inj x y b (key x b hx) (key y b hy)
  · intro x b hx; exact h.born x b (key x b hx)

theorem Grow.alloc {q : Promise σ} {s s' : St σ} (h : allocB q s = some s') : Grow s s' := by
  unfold allocB at h
  split at h
  · cases h
  rename_i hn
  have hb : q.b ∉ s.born := by intro hx; apply hn; simp [hx]
  cases h
  have key : ∀ (x : Id) b, (s.heap.insert q.id q.b)[x]? = some b → s.heap[x]? = some b ∨ (q.id = x ∧ b = q.b) := by
    intro x b h
    rw [ExtTreeMap.getElem?_insert] at h
    split at h
    · rename_i he
      exact .inr ⟨by simpa using he, (Option.some.inj h).symm⟩
    · exact .inl h
  refine ⟨[q.b], rfl, by simp, by simpa using hb, fun x b h => ?_, fun h => ⟨?_, ?_⟩⟩
  · rcases key x b h with h | ⟨_, h⟩
    · exact .inl h
    · exact .inr (by simp [h])
  · intro x y b hx hy
    rcases key x b hx with hx | ⟨rfl, rfl⟩ <;> rcases key y _ hy with hy | ⟨rfl, h0⟩
    · exact h.inj x y b hx hy
    · subst h0; exact absurd (h.born _ _ hx) hb
    · exact absurd (h.born _ _ hy) hb
    · rfl
  · intro x b hx
    rcases key x b hx with hx | ⟨rfl, rfl⟩
    · exact List.mem_cons_of_mem _ (h.born x b hx)
    · exact List.mem_cons_self ..

theorem ensureDyn_grow (Y : Sys σ) (p : Promise σ) (s : St σ) : Grow s (ensureDyn Y p s).1 := by
  unfold ensureDyn
  simp only
  split
  · exact Grow.same rfl rfl
  · split
    · exact Grow.same rfl rfl
    · split <;> exact Grow.same rfl rfl

theorem myState_grow (Y : Sys σ) (p : Promise σ) (f : σ.S → σ.S) (s : St σ) : Grow s (myState Y p f s).1 := by
  unfold myState
  repeat' split
  all_goals exact Grow.same rfl rfl

def GrowG (g : Getter σ) : Prop := ∀ how p s, Grow s (g how p s).1
def GrowB (g : BuildFn σ) : Prop := ∀ p s, Grow s (g p s).1

theorem runProg_grow (Y : Sys σ) {g : Getter σ} (hg : GrowG g) (p : Promise σ) (prog : Prog σ) (s : St σ) :
    Grow s (runProg Y g p prog s).1 := by
  induction prog generalizing s with
  | ret r => cases r <;> exact Grow.refl _
  | panic => exact Grow.refl _
  | resolve how q k ih =>
    simp only [runProg]
    split
    · split
      · exact Grow.same rfl rfl
      · rename_i c hc
        have h0 : Grow s { s with c := c } := Grow.same rfl rfl
        have h1 := hg how q { s with c := c }
        split <;> rename_i h2 <;> rw [h2] at h1
        · exact h0.trans (h1.trans (ih _ _))
        all_goals exact h0.trans h1
    · exact Grow.refl _
  | myState f k ih =>
    simp only [runProg]
    have h1 := myState_grow Y p f s
    split <;> rename_i h2 <;> rw [h2] at h1
    · exact h1.trans (ih _ _)
    all_goals exact h1
  | world f k ih =>
    simp only [runProg]
    exact (ih s.w { s with w := f s.w }).from rfl rfl
  | alloc q k ih =>
    simp only [runProg]
    split
    · rename_i h; exact (Grow.alloc h).trans (ih _)
    · exact Grow.refl _
  | free a k ih =>
    simp only [runProg]
    exact (Grow.free a s).trans (ih _)

theorem build_grow (Y : Sys σ) {g : Getter σ} (hg : GrowG g) : GrowB (build Y g) := by
  intro p s
  unfold build
  split
  · exact Grow.refl _
  simp only
  have h0 : Grow s (s.onCache (makeKnown p)) := Grow.same rfl rfl
  have h1 := h0.trans (ensureDyn_grow Y p (s.onCache (makeKnown p)))
  split <;> rename_i h2 <;> rw [h2] at h1
  iterate 3 exact h1
  rename_i s1 _
  have h3 := h1.trans ((runProg_grow Y hg p (Y.code p.b) (s1.onCache (·.emit (.call p)))).from rfl rfl)
  split <;> rename_i h4 <;> rw [h4] at h3
  · exact h3.trans (Grow.same rfl rfl)
  all_goals exact h3

theorem fresh_grow (Y : Sys σ) (p : Promise σ) {s : St σ} {r : St σ × Res (Except σ.E σ.V)} (h : Grow s r.1) :
    Grow s (fresh Y p r).1 := by
  unfold fresh
  split <;> exact h

theorem getBy_grow (Y : Sys σ) {b : BuildFn σ} (hb : GrowB b) : GrowG (getBy Y b) := by
  intro how p s
  have hr : Grow s (getRef Y b p s).1 := by
    unfold getRef
    split
    · split <;> exact Grow.refl _
    · exact fresh_grow Y p (hb p s)
    all_goals exact Grow.refl _
  unfold getBy
  split
  · cases how with
    | bin =>
      simp only
      unfold getBin
      split
      · exact Grow.refl _
      · exact fresh_grow Y p (hb p s)
      all_goals exact Grow.refl _
    | ref => exact hr
    | cloned =>
      simp only
      unfold getCloned
      split
      · rename_i h; rw [h] at hr; exact hr
      · exact hr
  · exact Grow.refl _

theorem getA_grow (Y : Sys σ) (n : Nat) : GrowG (getA Y n) := by
  induction n with
  | zero => exact getBy_grow Y fun p s => Grow.refl _
  | succ n ih => exact getBy_grow Y (build_grow Y ih)

theorem buildN_grow (Y : Sys σ) (n : Nat) : GrowB (buildN Y n) := by
  cases n with
  | zero => exact fun p s => Grow.refl _
  | succ n => exact build_grow Y (getA_grow Y n)

theorem getMut_grow (Y : Sys σ) (ord : HashOrder) {b : BuildFn σ} (hb : GrowB b) (p : Promise σ) (s : St σ) :
    Grow s (getMut Y ord b p s).1 := by
  unfold getMut
  split
  · split <;> exact Grow.same rfl rfl
  · rename_i c _
    exact (fresh_grow Y p (hb p { s with c := c })).from rfl rfl
  all_goals exact Grow.same rfl rfl

theorem exec_grow (Y : Sys σ) (n : Nat) (ord : HashOrder) (s : St σ) (op : Op σ) : Grow s (exec Y n ord s op).1 := by
  cases op with
  | get how p => exact getA_grow Y n how p s
  | getMut p f =>
    simp only [exec]
    have h := getMut_grow Y ord (buildN_grow Y n) p s
    split <;> rename_i h1 <;> rw [h1] at h
    · split
      · exact h.trans (Grow.same rfl rfl)
      · exact h
    all_goals exact h
  | lookup how p => exact Grow.refl _
  | lookupMut p f =>
    simp only [exec]
    repeat' split
    all_goals exact Grow.same rfl rfl
  | dynState p => exact ensureDyn_grow Y p s
  | getDynState p => exact Grow.refl _
  | dynStateMut p f =>
    simp only [exec, dynStateMut]
    split
    · rename_i c _
      have h : Grow s _ := (ensureDyn_grow Y p { s with c := c }).from rfl rfl
      split
      · rename_i h1
        rw [h1] at h
        split
        · exact h.trans (Grow.same rfl rfl)
        · exact h
      · exact h
    all_goals exact Grow.same rfl rfl
  | isKnown p => exact Grow.refl _
  | numKnown => exact Grow.refl _
  | invalidate p => exact Grow.same rfl rfl
  | purge p => exact Grow.same rfl rfl
  | clearArtifacts => exact Grow.same rfl rfl
  | clearAll => exact Grow.same rfl rfl
  | gc => exact Grow.same rfl rfl
  | alloc p =>
    simp only [exec]
    split
    · rename_i h; exact Grow.alloc h
    · exact Grow.refl _
  | free a => exact Grow.free a s
  | world f => exact Grow.same rfl rfl

theorem step_grow (Y : Sys σ) (n : Nat) (ord : HashOrder) (s : St σ) (op : Op σ) : Grow s (step Y n ord s op).1 := by
  unfold step
  split
  · split
    · exact exec_grow ..
    · exact Grow.refl _
  · exact exec_grow ..

/-! ## A cache used alone -/

/-- The operations that concern the cache (not: creating or dropping a builder, changing the world). -/
def Op.own : Op σ → Bool
  | .alloc _ | .free _ | .world _ => false
  | _ => true

/-- One operation of a cache as the program sees it: with which stack space and hash order, what was
called, and what it answered. -/
structure Entry (σ : Sig) where
  n : Nat
  ord : HashOrder
  op : Op σ
  ans : Res (Ans σ)

/-- A program that has only this cache did the operations `d` on it (first operation first), and anything
outside of it (creating and dropping builders, changing the world), and is in the state `s` now. -/
inductive Alone (Y : Sys σ) : List (Entry σ) → St σ → Prop
  | new (w : σ.W) : Alone Y [] (St.new w)
  | own {d : List (Entry σ)} {s : St σ} (n : Nat) (ord : HashOrder) (op : Op σ) : Alone Y d s →
      op.own = true → (step Y n ord s op).2.ended →
      Alone Y (d ++ [⟨n, ord, op, (step Y n ord s op).2⟩]) (step Y n ord s op).1
  | outside {d : List (Entry σ)} {s : St σ} (n : Nat) (ord : HashOrder) (op : Op σ) : Alone Y d s →
      op.own = false → (step Y n ord s op).2.ended → Alone Y d (step Y n ord s op).1

/-! ## What the others do, seen by one cache -/

/-- What stays true whatever happens outside of the caches. -/
structure External (Q : St σ → Prop) : Prop where
  world : ∀ s w, Q s → Q { s with w := w }
  alloc : ∀ s q s', Q s → allocB q s = some s' → Q s'
  free : ∀ s a, Q s → Q (freeB a s)

theorem External.freeTo {Q : St σ → Prop} (hQ : External Q) {s : St σ} (h : Q s) {heap' : AMap σ.B}
    (hh : ∀ (a : Id) b, heap'[a]? = some b → s.heap[a]? = some b) : Q { s with heap := heap' } := by
  have key : ∀ (l : List Id) (s : St σ), Q s → Q { s with heap := l.foldl (fun m a => m.erase a) s.heap } := by
    intro l
    induction l with
    | nil => intro s h; exact h
    | cons a l ih =>
      intro s h
      exact ih _ (hQ.free s a h)
  have hget : ∀ (l : List Id) (m : AMap σ.B) (x : Id),
      (l.foldl (fun m a => m.erase a) m)[x]? = if x ∈ l then none else m[x]? := by
    intro l
    induction l with
    | nil => intro m x; simp
    | cons a l ih =>
      intro m x
      rw [List.foldl_cons, ih, ExtTreeMap.getElem?_erase]
      by_cases hx : x ∈ l
      · simp [hx]
      · by_cases hxa : a = x
        · subst hxa; simp
        · have : x ≠ a := fun h => hxa h.symm
          simp [hx, hxa, this]
  have := key (s.heap.keys.filter fun a => !(heap'.contains a)) s h
  have e : List.foldl (fun m a => m.erase a) s.heap (s.heap.keys.filter fun a => !(heap'.contains a)) = heap' := by
    apply ExtTreeMap.ext_getElem?
    intro x
    rw [hget]
    cases hx : heap'[x]? with
    | some b =>
      have hc : x ∈ heap' := by
        rw [ExtTreeMap.mem_iff_isSome_getElem?, hx]; rfl
      rw [if_neg (by simp [hc]), hh x b hx]
    | none =>
      have hc : x ∉ heap' := by
        rw [ExtTreeMap.mem_iff_isSome_getElem?, hx]; simp
      cases hs : s.heap[x]? with
      | none => split <;> rfl
      | some b =>
        have hm : x ∈ s.heap := by rw [ExtTreeMap.mem_iff_isSome_getElem?, hs]; rfl
        rw [if_pos (List.mem_filter.2 ⟨ExtTreeMap.mem_keys.2 hm, by
          rw [ExtTreeMap.contains_eq_isSome_getElem?, hx]; rfl⟩)]
  rw [e] at this
  exact this

theorem exists_fresh (l : List Id) : ∃ a : Id, a ∉ l := by
  refine ⟨l.sum + 1, fun h => ?_⟩
  have : ∀ (l : List Nat) x, x ∈ l → x ≤ l.sum := by
    intro l
    induction l with
    | nil => simp
    | cons y l ih =>
      intro x hx
      rcases List.mem_cons.1 hx with rfl | hx
      · simp
      · have := ih x hx
        rw [List.sum_cons]
        omega
  have := this l _ h
  omega

theorem External.to {Q : St σ → Prop} (hQ : External Q) {s : St σ} (h : Q s) (hi : HeapOk s) (w : σ.W) {heap' : AMap σ.B} {l : List σ.B}
    (hl : l.Nodup) (hnew : ∀ b ∈ l, b ∉ s.born)
    (hh : ∀ (a : Id) b, heap'[a]? = some b → s.heap[a]? = some b ∨ b ∈ l)
    (hinj : ∀ (a a' : Id) b, heap'[a]? = some b → heap'[a']? = some b → a = a')
    (hk : ∀ (a : Id) b, heap'[a]? = some b → s.heap[a]? ≠ some b → s.c.known[a]? = none) :
    Q { c := s.c, w := w, heap := heap', born := l ++ s.born } := by
  let part (l : List σ.B) : AMap σ.B :=
    heap'.filterMap fun a b => if s.heap[a]? = some b ∨ b ∈ l then some b else none
  have hpart : ∀ l (x : Id) b, (part l)[x]? = some b ↔ heap'[x]? = some b ∧ (s.heap[x]? = some b ∨ b ∈ l) := by
    intro l x b
    simp only [part]
    rw [ExtTreeMap.getElem?_filterMap']
    cases hx : heap'[x]? with
    | none => simp
    | some c =>
      simp only [Option.bind_some, Option.some.injEq]
      constructor
      · intro h
        split at h
        · cases h
          exact ⟨rfl, by assumption⟩
        · cases h
      · rintro ⟨rfl, h⟩
        rw [if_pos h]
  have main : ∀ m : List σ.B, m.Nodup → (∀ b ∈ m, b ∉ s.born) →
      Q { c := s.c, w := w, heap := part m, born := m ++ s.born } := by
    intro m
    induction m with
    | nil =>
      intro _ _
      have h1 : Q { s with w := w } := hQ.world s w h
      exact hQ.freeTo h1 (heap' := part []) fun a b hb => by
        rcases ((hpart _ _ _).1 hb).2 with h | h
        · exact h
        · cases h
    | cons b m ih =>
      intro hn hb
      have hr := ih (List.nodup_cons.1 hn).2 fun x hx => hb x (List.mem_cons_of_mem _ hx)
      have hbm : b ∉ m := (List.nodup_cons.1 hn).1
      have hbs : b ∉ s.born := hb b (List.mem_cons_self ..)
      have hbb : b ∉ m ++ s.born := by simp [hbm, hbs]
      by_cases hex : ∃ a : Id, heap'[a]? = some b
      · obtain ⟨a, ha⟩ := hex
        have hsa : s.heap[a]? ≠ some b := fun hx => hbs (hi.born _ _ hx)
        have hna : (part m)[a]? = none := by
          cases hx : (part m)[a]? with
          | none => rfl
          | some c =>
            obtain ⟨h1, h2⟩ := (hpart _ _ _).1 hx
            rw [ha] at h1
            cases h1
            rcases h2 with h2 | h2
            · exact absurd h2 hsa
            · exact absurd h2 hbm
        have hka := hk a b ha hsa
        have hal : allocB ⟨a, b⟩ { c := s.c, w := w, heap := part m, born := m ++ s.born } =
            some { c := s.c, w := w, heap := (part m).insert a b, born := b :: (m ++ s.born) } := by
          unfold allocB
          rw [if_neg]
          have e1 : (part m).contains a = false := by
            rw [ExtTreeMap.contains_eq_isSome_getElem?, hna]; rfl
          have e2 : s.c.known.contains a = false := by
            rw [ExtTreeMap.contains_eq_isSome_getElem?, hka]; rfl
          simp [e1, e2, hbb]
        have h2 := hQ.alloc _ _ _ hr hal
        have e : (part m).insert a b = part (b :: m) := by
          apply ExtTreeMap.ext_getElem?
          intro x
          ext c
          rw [ExtTreeMap.getElem?_insert]
          constructor
          · intro hx
            split at hx
            · rename_i he
              have he : a = x := by simpa using he
              subst he
              cases hx
              exact (hpart _ _ _).2 ⟨ha, .inr (by simp)⟩
            · obtain ⟨g1, g2⟩ := (hpart _ _ _).1 hx
              exact (hpart _ _ _).2 ⟨g1, g2.imp id (List.mem_cons_of_mem _)⟩
          · intro hx
            obtain ⟨g1, g2⟩ := (hpart _ _ _).1 hx
            by_cases hax : a = x
            · subst hax
              rw [ha] at g1
              cases g1
              simp
            · rw [if_neg (by simpa using hax)]
              refine (hpart _ _ _).2 ⟨g1, g2.imp id fun h => ?_⟩
              rcases List.mem_cons.1 h with rfl | h
              · exact absurd (hinj _ _ _ ha g1) hax
              · exact h
        rw [e] at h2
        exact h2
      · obtain ⟨a, ha⟩ := exists_fresh ((part m).keys ++ s.c.known.keys)
        simp only [List.mem_append, not_or, ExtTreeMap.mem_keys] at ha
        have hal : allocB ⟨a, b⟩ { c := s.c, w := w, heap := part m, born := m ++ s.born } =
            some { c := s.c, w := w, heap := (part m).insert a b, born := b :: (m ++ s.born) } := by
          unfold allocB
          rw [if_neg]
          have e1 : (part m).contains a = false := by
            rw [← Bool.not_eq_true, ExtTreeMap.contains_iff_mem]; exact ha.1
          have e2 : s.c.known.contains a = false := by
            rw [← Bool.not_eq_true, ExtTreeMap.contains_iff_mem]; exact ha.2
          simp [e1, e2, hbb]
        have h3 := hQ.alloc _ _ _ hr hal
        refine hQ.freeTo h3 (heap' := part (b :: m)) fun x c hx => ?_
        obtain ⟨g1, g2⟩ := (hpart _ _ _).1 hx
        have hc : c ≠ b := by rintro rfl; exact hex ⟨x, g1⟩
        have hx' : (part m)[x]? = some c := (hpart _ _ _).2 ⟨g1, g2.imp id fun h => by
          rcases List.mem_cons.1 h with h | h
          · exact absurd h hc
          · exact h⟩
        simp only
        rw [ExtTreeMap.getElem?_insert]
        split
        · rename_i he
          have he : a = x := by simpa using he
          subst he
          exact absurd (by rw [ExtTreeMap.mem_iff_isSome_getElem?, hx']; rfl) ha.1
        · exact hx'
  have := main l hl hnew
  have e : part l = heap' := by
    apply ExtTreeMap.ext_getElem?
    intro x
    ext b
    rw [hpart]
    exact ⟨fun h => h.1, fun h => ⟨h, hh x b h⟩⟩
  rw [e] at this
  exact this

theorem Alone.isExternal (Y : Sys σ) (d : List (Entry σ)) : External (Alone Y d) := by
  have ord : HashOrder := ⟨fun _ l => l, fun _ _ => List.Perm.refl _⟩
  refine ⟨fun s w h => h.outside 0 ord (.world fun _ => w) rfl ⟨nofun, nofun⟩, fun s q s' h hal => ?_,
    fun s a h => h.outside 0 ord (.free a) rfl ⟨nofun, nofun⟩⟩
  have h2 := h.outside 0 ord (.alloc q) rfl
  simp only [Daab.step, Op.promise?, exec, hal] at h2
  exact h2 ⟨nofun, nofun⟩

/-- Whatever happens outside of a cache -- builders are created and dropped, the world changes --, the cache
has a history of its own that leads to the same state. -/
theorem Alone.external {Y : Sys σ} {d : List (Entry σ)} {s : St σ} (h : Alone Y d s) (hi : HeapOk s) (w : σ.W) {heap' : AMap σ.B} {l : List σ.B}
    (hl : l.Nodup) (hnew : ∀ b ∈ l, b ∉ s.born)
    (hh : ∀ (a : Id) b, heap'[a]? = some b → s.heap[a]? = some b ∨ b ∈ l)
    (hinj : ∀ (a a' : Id) b, heap'[a]? = some b → heap'[a']? = some b → a = a')
    (hk : ∀ (a : Id) b, heap'[a]? = some b → s.heap[a]? ≠ some b → s.c.known[a]? = none) :
    Alone Y d { c := s.c, w := w, heap := heap', born := l ++ s.born } :=
  (Alone.isExternal Y d).to h hi w hl hnew hh hinj hk

/-! ## Programs with several caches -/

/-- The state of a program with a cache for each `i : ι`, over one memory and world.  `done i` (ghost): the
operations done on the cache `i` since it was made. -/
structure MSt (ι : Type) (σ : Sig) where
  caches : ι → Cache σ
  w : σ.W
  heap : AMap σ.B
  born : List σ.B
  done : ι → List (Entry σ)

variable {ι : Type} [DecidableEq ι]

/-- The program as the cache `i` sees it. -/
def MSt.view (S : MSt ι σ) (i : ι) : St σ := { c := S.caches i, w := S.w, heap := S.heap, born := S.born }

/-- The program does an operation on the cache `i` (or, if it is not an operation of caches, anywhere). -/
def MSt.step (Y : ι → Sys σ) (S : MSt ι σ) (i : ι) (n : Nat) (ord : HashOrder) (op : Op σ) :
    MSt ι σ × Res (Ans σ) :=
  let r := Daab.step (Y i) n ord (S.view i) op
  ({ caches := Function.update S.caches i r.1.c
     w := r.1.w
     heap := r.1.heap
     born := r.1.born
     done := if op.own then Function.update S.done i (S.done i ++ [⟨n, ord, op, r.2⟩]) else S.done }, r.2)

/-- The program drops the cache `i` and makes a new one in its place. -/
def MSt.renew (S : MSt ι σ) (i : ι) : MSt ι σ :=
  { S with caches := Function.update S.caches i {}, done := Function.update S.done i [] }

/-- The allocator does not hand out an address that is kept by a weak reference in another cache
(`internal.rs` 139, `known_builders`; a `Weak` keeps the allocation, as in `allocB`): what is new in memory is at
an address the other caches do not know. -/
def NoClash (S S' : MSt ι σ) (i : ι) : Prop :=
  ∀ j, j ≠ i → ∀ (a : Id) b, S'.heap[a]? = some b → S.heap[a]? ≠ some b → (S.caches j).known[a]? = none

/-- What a program with several caches can get to: it uses the caches in any order, drops some and makes
new ones.  Each cache has its own artifact and state types, hence its own `Sys`.  A cache may be used
further after any panic. -/
inductive MReach (Y : ι → Sys σ) : MSt ι σ → Prop
  | new (w : σ.W) : MReach Y ⟨fun _ => {}, w, ∅, [], fun _ => []⟩
  | op {S : MSt ι σ} (i : ι) (n : Nat) (ord : HashOrder) (op : Op σ) : MReach Y S →
      (S.step Y i n ord op).2.ended → NoClash S (S.step Y i n ord op).1 i → MReach Y (S.step Y i n ord op).1
  | renew {S : MSt ι σ} (i : ι) : MReach Y S → MReach Y (S.renew i)

/-- What holds of the memory, and each cache has a history of its own. -/
theorem MReach.good {Y : ι → Sys σ} {S : MSt ι σ} (h : MReach Y S) :
    S.born.Nodup ∧ (∀ i, HeapOk (S.view i)) ∧ ∀ i, Alone (Y i) (S.done i) (S.view i) := by
  induction h with
  | new w =>
    refine ⟨List.nodup_nil, fun i => ⟨?_, ?_⟩, fun i => Alone.new w⟩
    · intro a a' b h; simp [MSt.view] at h
    · intro a b h; simp [MSt.view] at h
  | @op S i n ord op _ he hc ih =>
    obtain ⟨h1, h2, h3⟩ := ih
    have hg := step_grow (Y i) n ord (S.view i) op
    have hown : Alone (Y i) (if op.own then S.done i ++ [⟨n, ord, op, (step (Y i) n ord (S.view i) op).2⟩] else S.done i)
        (step (Y i) n ord (S.view i) op).1 := by
      split
      · rename_i ho; exact (h3 i).own n ord op ho he
      · rename_i ho; exact (h3 i).outside n ord op (by simpa using ho) he
    simp only [MSt.step] at he hc ⊢
    simp only [NoClash] at hc
    generalize step (Y i) n ord (S.view i) op = r at he hc hg hown ⊢
    obtain ⟨s', r⟩ := r
    obtain ⟨l, g1, g2, g3, g4, g5⟩ := hg
    have hok : HeapOk s' := g5 (h2 i)
    refine ⟨?_, fun j => ⟨hok.inj, hok.born⟩, fun j => ?_⟩
    · show s'.born.Nodup
      rw [g1, List.nodup_append]
      refine ⟨g2, h1, ?_⟩
      rintro a ha b hb rfl
      exact g3 a ha hb
    · by_cases hji : j = i
      · subst hji
        simp only [MSt.view, Function.update_self]
        split at hown <;> rename_i ho
        · rw [if_pos ho, Function.update_self]; exact hown
        · rw [if_neg ho]; exact hown
      · have e : (if op.own then Function.update S.done i (S.done i ++ [⟨n, ord, op, r⟩]) else S.done) j = S.done j := by
          split
          · rw [Function.update_of_ne hji]
          · rfl
        simp only [MSt.view, e, Function.update_of_ne hji]
        have := (h3 j).external (h2 j) s'.w g2 g3 g4 hok.inj (hc j hji)
        rw [show l ++ (S.view j).born = s'.born from g1.symm] at this
        exact this
  | @renew S i _ ih =>
    obtain ⟨h1, h2, h3⟩ := ih
    refine ⟨h1, fun j => ⟨(h2 j).inj, (h2 j).born⟩, fun j => ?_⟩
    by_cases hji : j = i
    · subst hji
      have h0 := (Alone.new (Y := Y j) S.w).external ⟨by simp [St.new], by simp [St.new]⟩ S.w (heap' := S.heap)
        (l := S.born) h1
        (by simp [St.new]) (fun a b hb => .inr ((h2 j).born a b hb)) (h2 j).inj (by simp [St.new])
      simp only [St.new, List.append_nil] at h0
      simp only [MSt.view, MSt.renew, Function.update_self]
      exact h0
    · simp only [MSt.view, MSt.renew, Function.update_of_ne hji]
      exact h3 j

end Daab
