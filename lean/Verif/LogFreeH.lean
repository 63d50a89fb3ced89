import Verif.HashIndep
import Verif.Props22

/-! # With hooks: the ghost log influences nothing, and neither does the hash order -/

open Std

namespace Daab

variable {σ : Sig} {Y : Sys σ} {s : St σ}

theorem callHook_logFree {α : Type} (D : Hooks σ) (h : Hook σ) {k : St σ → St σ × Res α} (hk : LogFree k) :
    LogFree (fun s => callHook D h s k) := by
  intro s
  have hw : ∀ l, (s.withLog l).w = s.w := fun _ => rfl
  simp only [callHook, hw]
  rcases D s.w h with ⟨w, _ | _⟩
  · obtain ⟨n, hn⟩ := hk { s with w := w }
    exact ⟨n, fun l => hn l⟩
  · exact ⟨[], fun l => rfl⟩

/-- The form in which a hook is called after something has been logged. -/
theorem callHook_after {α : Type} (D : Hooks σ) (h : Hook σ) {k : St σ → St σ × Res α} (hk : LogFree k) (s : St σ)
    (pre : List (Event σ)) : ∃ n, ∀ l, callHook D h (s.withLog (pre ++ l)) k =
      ((callHook D h s k).1.withLog (n ++ l), (callHook D h s k).2) := by
  obtain ⟨n, hn⟩ := callHook_logFree D h hk s
  exact ⟨n ++ pre, fun l => by rw [List.append_assoc]; exact hn (pre ++ l)⟩

theorem runProgH_logFree (Y : Sys σ) (D : Hooks σ) (g : Getter σ) (hg : ∀ how q, LogFree (g how q)) (p : Promise σ)
    (prog : Prog σ) : LogFree (runProgH Y D g p prog) := by
  induction prog with
  | ret r => cases r <;> exact fun s => ⟨[], fun l => rfl⟩
  | panic => exact fun s => ⟨[], fun l => rfl⟩
  | resolve how q k ih =>
    intro s
    obtain ⟨n1, h1⟩ := track_logFree Y p q s.c
    have hl : ∀ l, (s.withLog l).live q = s.live q := fun _ => rfl
    have hc : ∀ l, (s.withLog l).c = s.c.withLog l := fun _ => rfl
    simp only [runProgH, hl, hc, h1]
    split
    · rcases hx : track Y p q s.c with ⟨c1, _ | pk⟩
      · simp only
        refine callHook_after D _ (k := fun s =>
          match g how q s with
          | (s, .val r) => runProgH Y D g p (k r) s
          | (s, .panic pk) => (s, .panic pk)
          | (s, .stuck) => (s, .stuck)
          | (s, .overflow) => (s, .overflow)) ?_ { s with c := c1 } n1
        intro s1
        obtain ⟨n2, h2⟩ := hg how q s1
        simp only [h2]
        rcases g how q s1 with ⟨s2, r | pk | _ | _⟩
        · obtain ⟨n3, h3⟩ := ih r s2
          refine ⟨n3 ++ n2, fun l => ?_⟩
          simp only [h3, List.append_assoc]
        · exact ⟨n2, fun l => rfl⟩
        · exact ⟨n2, fun l => rfl⟩
        · exact ⟨n2, fun l => rfl⟩
      · exact ⟨n1, fun l => rfl⟩
    · exact ⟨[], fun l => rfl⟩
  | myState f k ih =>
    intro s
    obtain ⟨n1, h1⟩ := myState_logFree Y p f s
    simp only [runProgH, h1]
    rcases myState Y p f s with ⟨s2, r | pk | _ | _⟩
    · obtain ⟨n3, h3⟩ := ih r s2
      exact ⟨n3 ++ n1, fun l => by simp only [h3, List.append_assoc]⟩
    · exact ⟨n1, fun l => rfl⟩
    · exact ⟨n1, fun l => rfl⟩
    · exact ⟨n1, fun l => rfl⟩
  | world f k ih =>
    intro s
    obtain ⟨n1, h1⟩ := ih s.w { s with w := f s.w }
    exact ⟨n1, fun l => h1 l⟩
  | alloc q k ih =>
    intro s
    have ha : ∀ l, allocB q (s.withLog l) = (allocB q s).map (·.withLog l) := by
      intro l
      unfold allocB
      have h2 : (s.withLog l).heap = s.heap := rfl
      have h3 : (s.withLog l).c.known = s.c.known := rfl
      have h4 : (s.withLog l).born = s.born := rfl
      rw [h2, h3, h4]
      split <;> rfl
    simp only [runProgH, ha]
    cases allocB q s with
    | none => exact ⟨[], fun l => rfl⟩
    | some s1 => exact ih s1
  | free a k ih =>
    intro s
    obtain ⟨n1, h1⟩ := ih (freeB a s)
    exact ⟨n1, fun l => h1 l⟩

theorem storeH_logFree (D : Hooks σ) (p : Promise σ) (v : σ.V) : LogFree (storeH D p v) := by
  intro s
  unfold storeH
  have h1 : ∀ l, (s.withLog l).c.artifacts = s.c.artifacts := fun _ => rfl
  simp only [h1]
  cases s.c.artifacts[p.id]? with
  | none => exact ⟨[.built p v], fun l => rfl⟩
  | some old =>
    exact callHook_after (α := Except σ.E σ.V) D _ (k := fun s => (s, .val (.ok v))) (fun s => ⟨[], fun l => rfl⟩)
      (s.onCache fun c => { c.emit (.built p v) with artifacts := c.artifacts.insert p.id v }) [.built p v]

theorem buildH_logFree (Y : Sys σ) (D : Hooks σ) (g : Getter σ) (hg : ∀ how q, LogFree (g how q)) (p : Promise σ) :
    LogFree (buildH Y D g p) := by
  intro s
  unfold buildH
  have h1 : ∀ l, (s.withLog l).onCache (makeKnown p) = (s.onCache (makeKnown p)).withLog l := by
    intro l; simp only [St.onCache, St.withLog, makeKnown_withLog]
  have h0 : ∀ l, containsArtifact p.id (s.withLog l).c = containsArtifact p.id s.c := fun _ => rfl
  simp only [h1, h0]
  generalize s.onCache (makeKnown p) = s1
  split
  · exact ⟨[], fun l => rfl⟩
  · obtain ⟨n1, h2⟩ := ensureDyn_logFree Y p s1
    simp only [h2]
    rcases ensureDyn Y p s1 with ⟨s2, d | pk | _ | _⟩
    · simp only
      refine callHook_after D _ (k := fun s =>
        match runProgH Y D g p (Y.code p.b) (s.onCache (·.emit (.call p))) with
        | (s, .val (.ok v)) => callHook D (.report (.built p v)) s (storeH D p v)
        | (s, .val (.error e)) => (s, .val (.error e))
        | (s, .panic k) => (s, .panic k)
        | (s, .stuck) => (s, .stuck)
        | (s, .overflow) => (s, .overflow)) ?_ s2 n1
      intro s2
      obtain ⟨n2, h3⟩ := runProgH_logFree Y D g hg p (Y.code p.b) (s2.onCache (·.emit (.call p)))
      have he : ∀ l, (s2.withLog l).onCache (·.emit (.call p)) =
        (s2.onCache (·.emit (.call p))).withLog (.call p :: l) := fun _ => rfl
      simp only [he, h3]
      rcases runProgH Y D g p (Y.code p.b) (s2.onCache (·.emit (.call p))) with ⟨s3, (e | v) | pk | _ | _⟩
      · exact ⟨n2 ++ [.call p], fun l => by simp⟩
      · simp only
        obtain ⟨n3, h4⟩ := callHook_after D (.report (.built p v)) (storeH_logFree D p v) s3 (n2 ++ [.call p])
        exact ⟨n3, fun l => by rw [← h4 l]; simp⟩
      · exact ⟨n2 ++ [.call p], fun l => by simp⟩
      · exact ⟨n2 ++ [.call p], fun l => by simp⟩
      · exact ⟨n2 ++ [.call p], fun l => by simp⟩
    · exact ⟨n1, fun l => rfl⟩
    · exact ⟨n1, fun l => rfl⟩
    · exact ⟨n1, fun l => rfl⟩

theorem getByH_logFree (Y : Sys σ) (D : Hooks σ) (bld : BuildFn σ) (hb : ∀ p, LogFree (bld p)) (how : Access)
    (p : Promise σ) : LogFree (getByH Y D bld how p) := by
  intro s
  unfold getByH
  have h2 : ∀ l, (s.withLog l).live p = s.live p := fun _ => rfl
  simp only [h2]
  split
  · cases how with
    | bin => exact getBin_logFree Y bld hb p s
    | ref => exact getRef_logFree Y bld hb p s
    | cloned =>
      obtain ⟨n1, h1⟩ := getRef_logFree Y bld hb p s
      unfold getClonedH
      simp only [h1]
      rcases getRef Y bld p s with ⟨s', (e | v) | pk | _ | _⟩
      · exact ⟨n1, fun l => rfl⟩
      · exact callHook_after (α := Except σ.E σ.V) D _ (k := fun s => (s, .val (.ok (Y.clone v)))) (fun s => ⟨[], fun l => rfl⟩) s' n1
      all_goals exact ⟨n1, fun l => rfl⟩
  · exact ⟨[], fun l => rfl⟩

theorem getAH_logFree (Y : Sys σ) (D : Hooks σ) (n : Nat) :
    (∀ how p, LogFree (getAH Y D n how p)) ∧ ∀ p, LogFree (buildNH Y D n p) := by
  induction n with
  | zero =>
    have h : ∀ p, LogFree (buildNH Y D 0 p) := fun p s => ⟨[], fun l => rfl⟩
    exact ⟨fun how p => getByH_logFree Y D _ h how p, h⟩
  | succ n ih =>
    have h : ∀ p, LogFree (buildNH Y D (n + 1) p) := fun p => buildH_logFree Y D _ ih.1 p
    exact ⟨fun how p => getByH_logFree Y D _ h how p, h⟩

theorem dynStateMutH_logFree (Y : Sys σ) (D : Hooks σ) (ord : HashOrder) (p : Promise σ) (f : σ.S → σ.S) :
    LogFree (dynStateMutH Y D ord p f) := by
  intro s
  obtain ⟨n, h⟩ := invalidate_logFree Y ord p s.c
  have hc : ∀ l, (s.withLog l).c = s.c.withLog l := fun _ => rfl
  unfold dynStateMutH
  simp only [hc, h]
  rcases invalidate Y ord p s.c with ⟨c1, _ | k | _⟩
  · simp only
    refine callHook_after D _ (k := fun s =>
      match ensureDyn Y p s with
      | (s, .val d) =>
        if Y.stTy (f d) = Y.sty p.b then
          (s.onCache fun c =>
            { c with dynStates := c.dynStates.insert p.id (f d) }.emit (.setDyn p (f d)), .val d)
        else (s, .stuck)
      | r => r) ?_ { s with c := c1 } n
    intro s1
    obtain ⟨n2, h2⟩ := ensureDyn_logFree Y p s1
    simp only [h2]
    rcases ensureDyn Y p s1 with ⟨s2, d | pk | _ | _⟩
    · simp only
      split
      · exact ⟨.setDyn p (f d) :: n2, fun l => by simp [St.onCache, St.withLog, Cache.withLog, Cache.emit]⟩
      · exact ⟨n2, fun l => rfl⟩
    all_goals exact ⟨n2, fun l => rfl⟩
  · exact ⟨n, fun l => rfl⟩
  · exact ⟨n, fun l => rfl⟩

theorem thenTell_logFree (D : Hooks σ) (p : Promise σ) {f : Cache σ → Cache σ × LoopEnd} (hf : LogFreeC f) :
    LogFree (fun s => thenTell D p s (f s.c)) := by
  intro s
  obtain ⟨n, h⟩ := hf s.c
  have hc : ∀ l, (s.withLog l).c = s.c.withLog l := fun _ => rfl
  simp only [hc, h]
  rcases f s.c with ⟨c1, _ | k | _⟩
  · exact callHook_after (α := Ans σ) D _ (k := fun s => (s, .val .unit)) (fun s => ⟨[], fun l => rfl⟩) { s with c := c1 } n
  · exact ⟨n, fun l => rfl⟩
  · exact ⟨n, fun l => rfl⟩

/-- One operation. -/
theorem stepH_logFree (Y : Sys σ) (D : Hooks σ) (n : Nat) (ord : HashOrder) (op : Op σ) :
    LogFree (fun s => stepH Y D n ord s op) := by
  have hexec : LogFree (fun s => execH Y D n ord s op) := by
    have plain : (∀ s, execH Y D n ord s op = step Y n ord s op) → LogFree (fun s => execH Y D n ord s op) := by
      intro he
      simp only [he]
      exact step_logFree Y n ord op
    intro s
    cases op with
    | get how p =>
      obtain ⟨m, h⟩ := (getAH_logFree Y D n).1 how p s
      exact ⟨m, fun l => by simp only [execH, h]⟩
    | getMut p f =>
      obtain ⟨m, h⟩ := getMut_logFree Y ord _ (getAH_logFree Y D n).2 p s
      simp only [execH, h]
      rcases getMut Y ord (buildNH Y D n) p s with ⟨s1, (e | v) | k | _ | _⟩
      · exact ⟨m, fun l => rfl⟩
      · simp only [writeArt]
        split
        · exact ⟨.write p.id (f v) :: m, fun l => rfl⟩
        · exact ⟨m, fun l => rfl⟩
      · exact ⟨m, fun l => rfl⟩
      · exact ⟨m, fun l => rfl⟩
      · exact ⟨m, fun l => rfl⟩
    | lookup how p =>
      simp only [execH, lookupByH]
      cases how with
      | cloned =>
        have hc : ∀ l, lookupRef Y p (s.withLog l).c = lookupRef Y p s.c := fun _ => rfl
        simp only [hc]
        rcases lookupRef Y p s.c with (_ | v) | _ | _ | _
        · exact ⟨[], fun l => rfl⟩
        · obtain ⟨m, h⟩ := callHook_logFree D (.clone v) (k := fun s => (s, .val (some (Y.clone v)))) (fun s => ⟨[], fun l => rfl⟩) s
          have h' := fun l => h l
          simp only at h'
          exact ⟨m, fun l => by simp only [h']⟩
        all_goals exact ⟨[], fun l => rfl⟩
      | _ => exact ⟨[], fun l => rfl⟩
    | dynStateMut p f =>
      obtain ⟨m, h⟩ := dynStateMutH_logFree Y D ord p f s
      exact ⟨m, fun l => by simp only [execH, h]⟩
    | invalidate p => exact thenTell_logFree D p (invalidate_logFree Y ord p) s
    | purge p => exact thenTell_logFree D p (purge_logFree Y ord p) s
    | clearAll =>
      exact callHook_after (α := Ans σ) D _ (k := fun s => (s, .val .unit)) (fun s => ⟨[], fun l => rfl⟩) (s.onCache clearAll) [.clear]
    | numKnown | clearArtifacts | gc | alloc | free | world => exact plain (fun s => rfl) s
    | lookupMut p f =>
      have hc : ∀ l, (s.withLog l).c = s.c.withLog l := fun _ => rfl
      obtain ⟨m, h⟩ := lookupMut_logFree Y ord p s.c
      simp only [execH, exec, hc, h]
      rcases lookupMut Y ord p s.c with ⟨s1, (e | v) | k | _ | _⟩
      · exact ⟨m, fun l => rfl⟩
      · simp only [writeArt]
        split
        · exact ⟨.write p.id (f v) :: m, fun l => rfl⟩
        · exact ⟨m, fun l => rfl⟩
      · exact ⟨m, fun l => rfl⟩
      · exact ⟨m, fun l => rfl⟩
      · exact ⟨m, fun l => rfl⟩
    | dynState p =>
      obtain ⟨m, h⟩ := ensureDyn_logFree Y p s
      exact ⟨m, fun l => by simp only [execH, exec, h]⟩
    | getDynState p => exact ⟨[], fun l => rfl⟩
    | isKnown p => exact ⟨[], fun l => rfl⟩
  intro s
  unfold stepH
  have h2 : ∀ l p, (s.withLog l).live p = s.live p := fun _ _ => rfl
  simp only [h2]
  cases op.promise? with
  | none => exact hexec s
  | some p =>
    simp only
    split
    · exact hexec s
    · exact ⟨[], fun l => rfl⟩

end Daab
