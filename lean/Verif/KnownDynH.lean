import Verif.KnownDyn
import Verif.Run

/-! # Known builders have a dynamic state, or its initialisation panicked, with hooks -/

open Std

namespace Daab

variable {σ : Sig} {Y : Sys σ} {s : St σ}

/-- The hooks do not panic when they are told about a use. -/
abbrev TellUses (D : Hooks σ) : Prop := ∀ w p q, (D w (.report (.resolve p q))).2 = false

theorem KD.world {ex : Id → Prop} (h : KD ex s) (w : σ.W) : KD ex { s with w := w } := h

theorem runProgH_KD {D : Hooks σ} (hD : TellUses D) {g : Getter σ} (hg : GetRan Y g) (hk : GetKD Y g) {p : Promise σ}
    (prog : Prog σ) (hr : Running Y p s) (h : KD noEx s) (he : (runProgH Y D g p prog s).2.ended) :
    KD noEx (runProgH Y D g p prog s).1 := by
  induction prog generalizing s with
  | ret r => cases r <;> exact h
  | panic => exact h
  | resolve how q k ih =>
    cases hl : s.live q with
    | false => rw [runProgH_resolve_dead hl]; exact h
    | true =>
      rw [runProgH_resolve hr hl] at he ⊢
      have hr1 := hr.micros (hr.tracked hl)
      have h1 : KD (· = q.id) (tracked p q s) := by
        intro a ha hne
        exact (h.makeKnown q a ha hne).mono id (List.suffix_cons _ _)
      obtain ⟨w, e⟩ : ∃ w, callHook D (.report (.resolve p q)) (tracked p q s) (fun s =>
          andThen (g how q s) fun r s => runProgH Y D g p (k r) s) =
          andThen (g how q { tracked p q s with w := w }) fun r s => runProgH Y D g p (k r) s := by
        have h1 := hD (tracked p q s).w p q
        unfold callHook
        generalize D (tracked p q s).w (.report (.resolve p q)) = z at h1
        obtain ⟨w, c⟩ := z
        simp only at h1
        subst h1
        exact ⟨w, rfl⟩
      rw [e] at he ⊢
      replace hr1 : Running Y p { tracked p q s with w := w } := hr1.micro (.world w)
      have h2 := hk how q _ hr1.inv (h1.world w)
      have m2 := (hg how q _ hr1.inv).micros
      generalize g how q { tracked p q s with w := w } = x at he h2 m2
      obtain ⟨s2, r⟩ := x
      cases r with
      | val r => exact ih r (hr1.micros m2) (h2 ⟨by simp, by simp⟩) he
      | panic k => exact h2 ⟨by simp, by simp⟩
      | stuck => exact absurd rfl he.1
      | overflow => exact absurd rfl he.2
  | myState f k ih =>
    obtain ⟨d, hd0, hst, e⟩ := hr.myState_eq f
    rw [runProgH_myState, e] at he ⊢
    split at he
    · next ht =>
      rw [if_pos ht]
      have m := Micro.setDyn (Y := Y) p (f d) hr.known hr.dyn ht
      exact ih d (hr.micro m) (h.of_same rfl (fun a => m.dyn_mono a) m.log_mono) he
    · exact absurd rfl he.1
  | world f k ih => exact ih s.w (hr.micro (.world _)) (h.world _) he
  | alloc q k ih =>
    simp only [runProgH] at he ⊢
    cases ha : allocB q s with
    | none => exact h
    | some s1 =>
      rw [ha] at he
      have hc := allocB_c ha
      exact ih (hr.micro (.alloc q ha))
        (h.of_same (by rw [hc]) (by rw [hc]; exact fun _ h => h) (by rw [hc]; exact List.suffix_refl _)) he
  | free a k ih => exact ih (hr.micro (.free a)) h he

theorem buildH_KD {D : Hooks σ} (hD : TellUses D) {g : Getter σ} (hg : GetRan Y g) (hk : GetKD Y g) :
    BuildKD Y (buildH Y D g) := by
  intro p s hi h hl ha he
  have h2 := ensureDyn_KD (Y := Y) h
  rcases buildH_cases D g hi hl ha with ⟨s1, e1, e2⟩ | ⟨s1, e1, e2⟩ | ⟨s1, d, e1, e2⟩
  · rw [e2]; rw [e1] at h2; exact h2 ⟨by simp, by simp⟩
  · rw [e2] at he; exact absurd rfl he.1
  · rw [e1] at h2
    have h2 := h2 ⟨by simp, by simp⟩
    rw [e2] at he ⊢
    obtain ⟨hr, _, _, _⟩ := ensureDyn_running hi hl ha e1
    obtain ⟨w, e | e⟩ := callHook_cases D (.handle p) s1 fun s =>
      finishH D p (runProgH Y D g p (Y.code p.b) (entered p s))
    · rw [e]; exact h2.world w
    rw [e] at he ⊢
    replace hr : Running Y p (entered p { s1 with w := w }) := hr.micro (.world w)
    have h3 : KD noEx (entered p { s1 with w := w }) := h2.of_same rfl (fun _ h => h) (List.suffix_cons _ _)
    have h4 := runProgH_KD hD hg hk (Y.code p.b) hr h3
    generalize runProgH Y D g p (Y.code p.b) (entered p { s1 with w := w }) = x at he h4
    obtain ⟨s4, r⟩ := x
    rcases r with (_ | v) | _ | _ | _
    · exact h4 ⟨by simp, by simp⟩
    · have h4 := h4 ⟨by simp, by simp⟩
      simp only [finishH]
      obtain ⟨w', e | e⟩ := callHook_cases D (.report (.built p v)) s4 (storeH D p v)
      · rw [e]; exact h4.world w'
      · obtain ⟨w2, _, e1, _⟩ := storeH_finish D p v { s4 with w := w' }
        rw [e, e1]
        exact h4.of_same rfl (fun _ h => h) (List.suffix_cons _ _)
    · exact h4 ⟨by simp, by simp⟩
    · exact absurd rfl he.1
    · exact absurd rfl he.2

theorem getByH_KD {D : Hooks σ} {bld : BuildFn σ} (hb : BuildOk Y bld) (hk : BuildKD Y bld) :
    GetKD Y (getByH Y D bld) := by
  intro how p s hi h hr
  have hby := getBy_KD hb hk
  cases hl : s.live p with
  | false => simp [getByH, hl, Res.ended] at hr
  | true =>
    have href := hby .ref p s hi h
    cases how with
    | ref =>
      simp only [getBy, getByH, hl, if_true] at href hr ⊢
      exact href hr
    | bin =>
      have := hby .bin p s hi h
      simp only [getBy, getByH, hl, if_true] at this hr ⊢
      exact this hr
    | cloned =>
      simp only [getBy, getByH, hl, if_true, getClonedH] at href hr ⊢
      generalize getRef Y bld p s = x at href hr
      obtain ⟨s1, r⟩ := x
      rcases r with (_ | v) | _ | _ | _
      · exact href ⟨by simp, by simp⟩
      · have h1 := href ⟨by simp, by simp⟩
        obtain ⟨w, e | e⟩ := callHook_cases D (.clone v) s1 fun s => (s, (.val (.ok (Y.clone v)) : Res (Except σ.E σ.V)))
        · simp only [e]; exact h1.world w
        · simp only [e]; exact h1.world w
      · exact href ⟨by simp, by simp⟩
      · exact absurd rfl hr.1
      · exact absurd rfl hr.2

theorem getAH_KD {D : Hooks σ} (hD : TellUses D) (n : Nat) : GetKD Y (getAH Y D n) ∧ BuildKD Y (buildNH Y D n) := by
  induction n with
  | zero =>
    have h : BuildKD Y (buildNH Y D 0) := fun p s _ _ _ _ hr => absurd rfl hr.2
    exact ⟨getByH_KD (getAH_ok Y D 0).2 h, h⟩
  | succ n ih =>
    have h : BuildKD Y (buildNH Y D (n + 1)) := buildH_KD hD (getAH_ok Y D n).1 ih.1
    exact ⟨getByH_KD (getAH_ok Y D (n + 1)).2 h, h⟩

theorem execH_KD {D : Hooks σ} (hD : TellUses D) (hi : Inv Y s) (n : Nat) (ord : HashOrder) (op : Op σ)
    (hl : ∀ p, op.promise? = some p → s.live p = true)
    (hg : (execH Y D n ord s op).2.goesOn) (h : KD noEx s) : KD noEx (execH Y D n ord s op).1 := by
  cases hdeep : op.deep with
  | false =>
    obtain ⟨w, h1, h2⟩ := execH_shallow (Y := Y) (s := s) D n ord op hdeep
    have hg' : (exec Y n ord s op).2.goesOn := by
      rcases h2 with h2 | ⟨_, a, h2⟩
      · rw [← h2]; exact hg
      · rw [h2]; trivial
    rw [h1]
    exact (exec_KD hi n ord op hl hg' h).world w
  | true =>
    cases op with
    | get how p =>
      refine (getAH_KD hD n).1 how p s hi (h.weaken _) ?_
      simp only [execH] at hg
      generalize (getAH Y D n how p s).2 = r at hg
      cases r with
      | val | panic => exact ⟨by simp, by simp⟩
      | _ => exact absurd hg id
    | getMut p f => exact getMutWrite_KD hi (getAH_ok Y D n).2 (getAH_KD hD n).2 ord (hl p rfl) hg h
    | dynStateMut p f =>
      have hl := hl p rfl
      obtain ⟨c', he, hd⟩ := invalidate_spec hi ord p
      have k1 : KD noEx { s with c := c'.emit (.invalidate p) } :=
        h.of_same hd.known (by simp [Cache.emit, hd.dynStates])
          (by simp only [Cache.emit, hd.log]; exact List.suffix_cons _ _)
      simp only [execH, dynStateMutH, he, callHook] at hg ⊢
      split
      · exact k1.world _
      · next w hw =>
        rw [hw] at hg
        simp only at hg ⊢
        have k2 := ensureDyn_KD (Y := Y) ((k1.world w).weaken (· = p.id))
        simp only at k2
        generalize ensureDyn Y p { s with c := c'.emit (.invalidate p), w := w } = x at hg k2 ⊢
        obtain ⟨s1, r⟩ := x
        cases r with
        | val d =>
          have k2 := k2 ⟨by simp, by simp⟩
          simp only at k2 ⊢
          split
          · refine k2.of_same rfl ?_ (List.suffix_cons _ _)
            simp only [St.onCache, Cache.emit]
            grind
          · exact k2
        | panic k => exact k2 ⟨by simp, by simp⟩
        | stuck => exact absurd hg id
        | overflow => exact absurd hg id
    | _ => cases hdeep

theorem Undisturbed.reachable {Y : Sys σ} {s : St σ} (h : Undisturbed Y s) : Reachable Y s := by
  induction h with
  | new w => exact .new w
  | step n ord op _ hg ih => exact .step n ord op ih hg
  | hooked D n ord op _ _ hg ih => exact .hooked D n ord op ih hg

theorem Undisturbed.knownDyn {Y : Sys σ} {s : St σ} (h : Undisturbed Y s) : KD noEx s := by
  induction h with
  | new w => intro a ha; simp [St.new] at ha
  | @step s n ord op hr hg ih =>
    have hi := hr.reachable.inv
    unfold Daab.step at hg ⊢
    cases hp : op.promise? with
    | none =>
      simp only [hp] at hg ⊢
      exact exec_KD hi n ord op (by intro p h; rw [hp] at h; cases h) hg ih
    | some p =>
      simp only [hp] at hg ⊢
      split
      · next hl =>
        simp only [hl, if_true] at hg
        exact exec_KD hi n ord op (by intro q h; rw [hp] at h; cases h; exact hl) hg ih
      · exact ih
  | @hooked s D n ord op hD hr hg ih =>
    have hi := hr.reachable.inv
    rcases stepH_cases (Y := Y) (s := s) D n ord op with ⟨hl, e⟩ | e
    · rw [e] at hg ⊢; exact execH_KD hD hi n ord op hl hg ih
    · rw [e]; exact ih

end Daab
