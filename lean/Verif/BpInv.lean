import Verif.Bp

/-! # What holds of every world of blueprints -/

open Std

namespace Daab.Mem

variable {T D : Type}

theorem roundUp_ge (n a : Nat) (ha : 0 < a) : n ≤ roundUp n a := by
  unfold roundUp
  have h1 := Nat.div_add_mod (n + (a - 1)) a
  have h2 := Nat.mod_lt (n + (a - 1)) ha
  have h3 : a * ((n + (a - 1)) / a) = (n + (a - 1)) / a * a := Nat.mul_comm _ _
  omega

theorem valuePtr_ne {w : Nat} (hw : 0 < w) {a b : Nat} {l m : Layout} (hl : 0 < l.align)
    (hm : 0 < m.align) (hd : Disjoint a (boxSize w l) b (boxSize w m)) :
    a + valueOffset w l ≠ b + valueOffset w m := by
  have h1 := roundUp_ge (2 * w) l.align hl
  have h2 := roundUp_ge (2 * w) m.align hm
  simp only [Disjoint, boxSize, valueOffset] at hd ⊢
  omega

/-- All strong references of the blueprints. -/
def strongs (bps : List Bp) : List Addr := bps.flatMap Bp.refs

/-- All strong references of the handles. -/
def hstrongs (hs : List Handle) : List Addr := hs.map fun h => h.can.addr

/-- A blueprint is well formed: its can and its bin are the same box, which belongs to its origin. -/
def BpOk (mem : Memory T D) (b : Bp) : Prop :=
  (∀ c, b.canned = some c → c = b.builder) ∧ (b.kind = .sized ↔ b.canned = none) ∧
    ∃ x, mem[b.builder]? = some x ∧ x.origin = b.origin

structure WInv (w : Nat) (W : World T D) : Prop where
  rc : RcOk W.mem (strongs W.bps ++ hstrongs W.handles) (W.known.map Known.weak)
  bp : ∀ b ∈ W.bps, BpOk W.mem b
  kn : ∀ k ∈ W.known, ∃ x, W.mem[k.weak]? = some x ∧ x.origin = k.origin ∧
    k.key = k.weak + valueOffset w x.layout
  hd : ∀ k ∈ W.handles, ∃ x, W.mem[k.can.addr]? = some x ∧ x.origin = k.origin ∧
    k.id = k.can.addr + valueOffset w x.layout
  box : ∀ (a : Addr) x, W.mem[a]? = some x → 0 < x.layout.align ∧ ∃ d, W.born[x.origin]? = some (x.ty, d) ∧
    (x.val = none ∨ x.val = some d)
  sep : ∀ (a b : Addr) x y, W.mem[a]? = some x → W.mem[b]? = some y → a ≠ b →
    x.origin ≠ y.origin ∧ Disjoint a (boxSize w x.layout) b (boxSize w y.layout)

/-- What a step that creates no box has to preserve. -/
theorem WInv.of_sub {w : Nat} {W : World T D} (h : WInv w W) {mem' : Memory T D} {bps' : List Bp}
    {known' : List Known} {handles' : List Handle} (hs : Sub W.mem mem')
    (hrc : RcOk mem' (strongs bps' ++ hstrongs handles') (known'.map Known.weak))
    (hb : ∀ b' ∈ bps', ∃ b ∈ W.bps, (∀ c, b'.canned = some c → c = b'.builder) ∧
      (b'.kind = .sized ↔ b'.canned = none) ∧ b'.builder = b.builder ∧ b'.origin = b.origin)
    (hk : ∀ k ∈ known', ∃ x, W.mem[k.weak]? = some x ∧ x.origin = k.origin ∧
      k.key = k.weak + valueOffset w x.layout)
    (hh : ∀ k ∈ handles', ∃ x, W.mem[k.can.addr]? = some x ∧ x.origin = k.origin ∧
      k.id = k.can.addr + valueOffset w x.layout) :
    WInv w { W with mem := mem', bps := bps', known := known', handles := handles' } where
  rc := hrc
  bp := by
    intro b' hb'
    obtain ⟨b, hbm, h1, h2, h3, h4⟩ := hb b' hb'
    refine ⟨h1, h2, ?_⟩
    obtain ⟨x, hx, -⟩ := hrc.mem_strong (a := b'.builder)
      (List.mem_append_left _ (List.mem_flatMap.2 ⟨b', hb', by simp [Bp.refs]⟩))
    obtain ⟨y, hy, -, -, ho, -⟩ := hs _ x hx
    obtain ⟨-, -, z, hz, hzo⟩ := h.bp b hbm
    rw [h3, hz] at hy
    cases hy
    exact ⟨x, hx, by rw [ho, hzo, h4]⟩
  kn := by
    intro k hkm
    obtain ⟨x, hx, ho, hkey⟩ := hk k hkm
    obtain ⟨y, hy⟩ := hrc.mem_weak (a := k.weak) (List.mem_map.2 ⟨k, hkm, rfl⟩)
    obtain ⟨z, hz, hl, -, ho', -⟩ := hs _ y hy
    rw [hx] at hz
    cases hz
    exact ⟨y, hy, by rw [ho', ho], by rw [hl, hkey]⟩
  hd := by
    intro k hkm
    obtain ⟨x, hx, ho, hkey⟩ := hh k hkm
    obtain ⟨y, hy, -⟩ := hrc.mem_strong (a := k.can.addr)
      (List.mem_append_right _ (List.mem_map.2 ⟨k, hkm, rfl⟩))
    obtain ⟨z, hz, hl, -, ho', -⟩ := hs _ y hy
    rw [hx] at hz
    cases hz
    exact ⟨y, hy, by rw [ho', ho], by rw [hl, hkey]⟩
  box := by
    intro a x hx
    obtain ⟨y, hy, hl, ht, ho, hv⟩ := hs a x hx
    obtain ⟨h1, d, h2, h3⟩ := h.box a y hy
    refine ⟨by rw [hl]; exact h1, d, by rw [ho, ht]; exact h2, ?_⟩
    rcases hv with hv | hv
    · rw [hv]; exact h3
    · exact .inl hv
  sep := by
    intro a b x y hx hy hab
    obtain ⟨x', hx', hl, -, ho, -⟩ := hs a x hx
    obtain ⟨y', hy', hl', -, ho', -⟩ := hs b y hy
    rw [hl, hl', ho, ho']
    exact h.sep a b x' y' hx' hy' hab

/-- The result of an operation on a blueprint `b` consumed by it. -/
theorem bpConvert_spec {c : Conv} {b b' : Bp} {mem mem' : Memory T D} {S K : List Addr}
    (hrc : RcOk mem (b.refs ++ S) K) (hcan : ∀ c, b.canned = some c → c = b.builder)
    (h : bpConvert c b mem = some (mem', b')) :
    RcOk mem' (b'.refs ++ S) K ∧ Sub mem mem' ∧ b'.canned = some b'.builder ∧ b'.kind ≠ .sized ∧
      b'.builder = b.builder ∧ b'.origin = b.origin := by
  obtain ⟨kind, a, can, o⟩ := b
  have key : can = none → RcOk (rcClone a mem) (a :: a :: S) K ∧ Sub mem (rcClone a mem) := by
    intro hc
    subst hc
    exact hrc.clone (by simp [Bp.refs])
  have key2 : ∀ d, can = some d → (RcOk mem (a :: a :: S) K ∧ d = a) ∧
      RcOk (rcDrop d (rcClone a mem)) (a :: a :: S) K ∧ Sub mem (rcDrop d (rcClone a mem)) := by
    intro d hd
    subst hd
    obtain rfl := hcan d rfl
    have h1 := hrc.clone (a := d) (by simp [Bp.refs])
    have h2 := RcOk.drop (S := d :: d :: S) h1.1
    exact ⟨⟨hrc, rfl⟩, h2.1, h1.2.trans h2.2⟩
  cases c <;> cases kind <;> cases can <;> simp only [bpConvert, canUnsized] at h <;>
    first | (cases h; done) | skip
  all_goals
    obtain ⟨h1, h2⟩ := Prod.mk.inj (Option.some.inj h)
    subst h1 h2
    first
    | exact ⟨(key rfl).1, (key rfl).2, rfl, by simp, rfl, rfl⟩
    | (obtain ⟨⟨k1, rfl⟩, k2, k3⟩ := key2 _ rfl
       first
       | exact ⟨k1, Sub.refl _, rfl, by simp, rfl, rfl⟩
       | exact ⟨k2, k3, rfl, by simp, rfl, rfl⟩)

theorem bpDrop_spec {b : Bp} {mem : Memory T D} {S K : List Addr} (hrc : RcOk mem (b.refs ++ S) K) :
    RcOk (bpDrop b mem) S K ∧ Sub mem (bpDrop b mem) := by
  obtain ⟨kind, a, can, o⟩ := b
  cases can with
  | none => exact RcOk.drop (S := S) hrc
  | some d =>
    have h1 := RcOk.drop (S := d :: S) (a := a) hrc
    have h2 := RcOk.drop (S := S) h1.1
    exact ⟨h2.1, h1.2.trans h2.2⟩

theorem bpClone_spec {b : Bp} {mem : Memory T D} {S K : List Addr} (hrc : RcOk mem S K)
    (hb : ∀ a ∈ b.refs, a ∈ S) :
    RcOk (bpClone b mem).1 (b.refs ++ S) K ∧ Sub mem (bpClone b mem).1 ∧ (bpClone b mem).2 = b := by
  obtain ⟨kind, a, can, o⟩ := b
  cases can with
  | none =>
    have h1 := hrc.clone (hb a (by simp [Bp.refs]))
    exact ⟨h1.1, h1.2, rfl⟩
  | some d =>
    have h1 := hrc.clone (hb a (by simp [Bp.refs]))
    have h2 := h1.1.clone (a := d) (List.mem_cons_of_mem _ (hb d (by simp [Bp.refs])))
    refine ⟨h2.1.congr (fun x => ?_) (fun _ => rfl), h1.2.trans h2.2, rfl⟩
    simp only [Bp.refs, Option.toList, List.cons_append, List.nil_append, List.count_cons]
    omega

theorem bpKnow_spec {w : Nat} {b : Bp} {mem : Memory T D} {S K : List Addr} (hrc : RcOk mem S K)
    (hb : ∀ a ∈ b.refs, a ∈ S) (hcan : ∀ c, b.canned = some c → c = b.builder) :
    RcOk (bpKnow w b mem).1 S (b.builder :: K) ∧ Sub mem (bpKnow w b mem).1 ∧
      (bpKnow w b mem).2 = (valuePtr w b.builder mem).map fun i => ⟨i, b.builder, b.origin⟩ := by
  obtain ⟨kind, a, can, o⟩ := b
  have h1 := hrc.clone (hb a (by simp [Bp.refs]))
  have h2 := h1.1.downgrade (a := a) (by simp)
  have h3 := RcOk.drop (S := S) h2.1
  cases can with
  | none => exact ⟨h3.1, h1.2.trans (h2.2.trans h3.2), rfl⟩
  | some d =>
    obtain rfl := hcan d rfl
    exact ⟨h3.1, h1.2.trans (h2.2.trans h3.2), rfl⟩

theorem strongs_count (p q : List Bp) (b : Bp) (H : List Addr) (x : Addr) :
    (strongs (p ++ b :: q) ++ H).count x = (b.refs ++ (strongs (p ++ q) ++ H)).count x := by
  simp only [strongs, List.flatMap_append, List.flatMap_cons, List.count_append]
  omega

theorem strongs_cons (b : Bp) (l : List Bp) (H : List Addr) :
    strongs (b :: l) ++ H = b.refs ++ (strongs l ++ H) := by
  simp [strongs]

theorem bpNew_spec (k : Kind) {a : Addr} {mem : Memory T D} {S K : List Addr} (hrc : RcOk mem S K)
    (ha : mem[a]? = none) (l : Layout) (ty : T) (v : D) (o : Nat) :
    RcOk (bpNew k a l ty v o mem).1 ((bpNew k a l ty v o mem).2.refs ++ S) K ∧
      Sub (rcNew a l ty v o mem) (bpNew k a l ty v o mem).1 ∧
      (∀ c, (bpNew k a l ty v o mem).2.canned = some c → c = a) ∧
      ((bpNew k a l ty v o mem).2.kind = .sized ↔ (bpNew k a l ty v o mem).2.canned = none) ∧
      (bpNew k a l ty v o mem).2.builder = a ∧ (bpNew k a l ty v o mem).2.origin = o := by
  have h1 := hrc.new ha l ty v o
  have h2 := h1.clone (a := a) (by simp)
  cases k with
  | sized => exact ⟨h1, Sub.refl _, by simp [bpNew], by simp [bpNew], rfl, rfl⟩
  | uns => exact ⟨h2.1, h2.2, by simp [bpNew], by simp [bpNew], rfl, rfl⟩
  | dyn => exact ⟨h2.1, h2.2, by simp [bpNew, canUnsized], by simp [bpNew, canUnsized], rfl, rfl⟩

theorem free_none {w : Nat} (hw : 0 < w) {mem : Memory T D} {a : Addr} {l : Layout} (hl : 0 < l.align)
    (hm : ∀ (b : Addr) x, mem[b]? = some x → 0 < x.layout.align) (hf : Free w mem a l) :
    mem[a]? = none := by
  cases h : mem[a]? with
  | none => rfl
  | some x =>
    have := hf a x h
    have h1 := roundUp_ge (2 * w) l.align hl
    have h2 := roundUp_ge (2 * w) x.layout.align (hm a x h)
    simp only [Disjoint, boxSize, valueOffset] at this
    omega

theorem WInv.bps_self {w : Nat} {W : World T D} (h : WInv w W) : ∀ b' ∈ W.bps, ∃ b ∈ W.bps,
    (∀ c, b'.canned = some c → c = b'.builder) ∧
      (b'.kind = .sized ↔ b'.canned = none) ∧ b'.builder = b.builder ∧ b'.origin = b.origin := by
  intro b' hb'
  obtain ⟨h1, h2, -⟩ := h.bp b' hb'
  exact ⟨b', hb', h1, h2, rfl, rfl⟩

theorem bhNew_eq {w : Nat} {b : Bp} {mem : Memory T D} {x : RcBox T D}
    (hcan : ∀ c, b.canned = some c → c = b.builder) (hx : mem[b.builder]? = some x) :
    (bhNew w b mem).1 = rcClone b.builder mem ∧
      (bhNew w b mem).2 = some ⟨⟨b.builder⟩, b.builder + valueOffset w x.layout, b.origin⟩ := by
  unfold bhNew bpCanned bpId canAsPtr valuePtr
  cases hc : b.canned with
  | none => simp [hx, fromBin]
  | some c => obtain rfl := hcan c hc; simp [hx]

theorem WInv.step {w : Nat} (hw : 0 < w) {W W' : World T D} (h : WInv w W) (hs : WStep w W W') :
    WInv w W' := by
  cases hs with
  | new k a l ty v hl hf =>
    have ha := free_none hw hl (fun b x hx => (h.box b x hx).1) hf
    have hb := bpNew_spec k h.rc ha l ty v W.born.length
    generalize hm' : (bpNew k a l ty v W.born.length W.mem).1 = mem' at hb
    generalize hb' : (bpNew k a l ty v W.born.length W.mem).2 = b' at hb
    obtain ⟨hrc, hsub, hc1, hc2, hc3, hc4⟩ := hb
    have horg : ∀ (b : Addr) x, W.mem[b]? = some x → x.origin < W.born.length := by
      intro b x hx
      obtain ⟨-, d, h2, -⟩ := h.box b x hx
      exact (List.getElem?_eq_some_iff.1 h2).1
    -- the invariant right after the box was created
    have h0 : WInv w { W with mem := rcNew a l ty v W.born.length W.mem,
                              bps := ⟨.sized, a, none, W.born.length⟩ :: W.bps,
                              born := W.born ++ [(ty, v)] } := by
      have hget : ∀ b : Addr, (rcNew a l ty v W.born.length W.mem)[b]? =
          if a = b then some ⟨l, ty, some v, 1, 1, W.born.length⟩ else W.mem[b]? := by
        intro b
        unfold rcNew
        rw [ExtTreeMap.getElem?_insert]
        by_cases hab : a = b <;> simp [hab]
      have hne : ∀ (b : Addr) x, W.mem[b]? = some x → a ≠ b := by
        rintro b x hx rfl
        rw [ha] at hx
        cases hx
      constructor
      · exact h.rc.new ha l ty v _
      · intro b hb
        simp only [List.mem_cons] at hb
        rcases hb with rfl | hb
        · exact ⟨by simp, by simp, _, by rw [hget, if_pos rfl], rfl⟩
        · obtain ⟨h1, h2, x, hx, ho⟩ := h.bp b hb
          exact ⟨h1, h2, x, by rw [hget, if_neg (hne _ _ hx)]; exact hx, ho⟩
      · intro k hk
        obtain ⟨x, hx, ho, hkey⟩ := h.kn k hk
        exact ⟨x, by rw [hget, if_neg (hne _ _ hx)]; exact hx, ho, hkey⟩
      · intro k hk
        obtain ⟨x, hx, ho, hkey⟩ := h.hd k hk
        exact ⟨x, by rw [hget, if_neg (hne _ _ hx)]; exact hx, ho, hkey⟩
      · intro b x hx
        simp only at hx ⊢
        rw [hget] at hx
        split at hx
        · cases hx
          refine ⟨hl, v, by simp, .inr rfl⟩
        · obtain ⟨h1, d, h2, h3⟩ := h.box b x hx
          refine ⟨h1, d, ?_, h3⟩
          rw [List.getElem?_append_left (horg b x hx)]
          exact h2
      · intro b c x y hx hy hbc
        simp only at hx hy
        rw [hget] at hx hy
        split at hx
        · cases hx
          rw [if_neg (by subst_vars; exact hbc)] at hy
          subst_vars
          refine ⟨?_, hf c y hy⟩
          have := horg c y hy
          simp only
          omega
        · split at hy
          · cases hy
            subst_vars
            have h1 := horg b x hx
            refine ⟨by simp only; omega, ?_⟩
            have := hf b x hx
            unfold Disjoint at this ⊢
            simp only
            omega
          · exact h.sep b c x y hx hy hbc
    refine h0.of_sub (bps' := b' :: W.bps) (known' := W.known) (handles' := W.handles) hsub
      (by rw [strongs_cons]; exact hrc) ?_ ?_ h0.hd
    · intro b hb
      simp only [List.mem_cons] at hb
      rcases hb with rfl | hb
      · exact ⟨_, List.mem_cons_self .., by rw [hc3]; exact hc1, hc2, hc3, hc4⟩
      · obtain ⟨h1, h2, -⟩ := h.bp b hb
        exact ⟨b, List.mem_cons_of_mem _ hb, h1, h2, rfl, rfl⟩
    · exact h0.kn
  | clone b hb =>
    have hrefs : ∀ a ∈ b.refs, a ∈ strongs W.bps ++ hstrongs W.handles :=
      fun a ha => List.mem_append_left _ (List.mem_flatMap.2 ⟨b, hb, ha⟩)
    obtain ⟨h1, h2, h3⟩ := bpClone_spec h.rc hrefs
    rw [h3]
    refine h.of_sub (known' := W.known) (handles' := W.handles) h2 (by rw [strongs_cons]; exact h1) ?_ h.kn h.hd
    intro b' hb'
    simp only [List.mem_cons] at hb'
    have hb'' : b' ∈ W.bps := by
      rcases hb' with rfl | hb'
      · exact hb
      · exact hb'
    obtain ⟨h1, h2, -⟩ := h.bp b' hb''
    exact ⟨b', hb'', h1, h2, rfl, rfl⟩
  | convert p q b hb c mem' b' hc =>
    have hbm : b ∈ W.bps := by rw [hb]; simp
    obtain ⟨hcan, hkind, -⟩ := h.bp b hbm
    have hrc := h.rc
    rw [hb] at hrc
    have hrc := hrc.congr (strongs_count p q b _) (fun _ => rfl)
    obtain ⟨h1, h2, h3, h4, h5, h6⟩ := bpConvert_spec hrc hcan hc
    refine h.of_sub (known' := W.known) (handles' := W.handles) h2 (h1.congr (fun x => (strongs_count p q b' _ x).symm)
      (fun _ => rfl)) ?_ h.kn h.hd
    intro b'' hb''
    simp only [List.mem_append, List.mem_cons] at hb''
    have hold : b'' ∈ p ∨ b'' ∈ q → ∃ b ∈ W.bps, (∀ c, b''.canned = some c → c = b''.builder) ∧
        (b''.kind = .sized ↔ b''.canned = none) ∧ b''.builder = b.builder ∧ b''.origin = b.origin := by
      intro hpq
      have hm : b'' ∈ W.bps := by rw [hb]; simp only [List.mem_append, List.mem_cons]; tauto
      obtain ⟨h1, h2, -⟩ := h.bp b'' hm
      exact ⟨b'', hm, h1, h2, rfl, rfl⟩
    rcases hb'' with hp | rfl | hq
    · exact hold (.inl hp)
    · refine ⟨b, hbm, ?_, ?_, h5, h6⟩
      · intro c hc'
        rw [h3] at hc'
        exact (Option.some.inj hc').symm
      · rw [h3]
        simp [h4]
    · exact hold (.inr hq)
  | drop p q b hb =>
    have hrc := h.rc
    rw [hb] at hrc
    obtain ⟨h1, h2⟩ := bpDrop_spec (hrc.congr (strongs_count p q b _) (fun _ => rfl))
    refine h.of_sub (known' := W.known) (handles' := W.handles) h2 h1 ?_ h.kn h.hd
    intro b' hb'
    have hm : b' ∈ W.bps := by
      rw [hb]
      simp only [List.mem_append, List.mem_cons] at hb' ⊢
      tauto
    obtain ⟨h1, h2, -⟩ := h.bp b' hm
    exact ⟨b', hm, h1, h2, rfl, rfl⟩
  | know b hb k hk =>
    have hrefs : ∀ a ∈ b.refs, a ∈ strongs W.bps ++ hstrongs W.handles :=
      fun a ha => List.mem_append_left _ (List.mem_flatMap.2 ⟨b, hb, ha⟩)
    obtain ⟨hcan, -, x, hx, ho⟩ := h.bp b hb
    obtain ⟨h1, h2, h3⟩ := bpKnow_spec (w := w) h.rc hrefs hcan
    rw [h3] at hk
    simp only [valuePtr, hx, Option.map_some, Option.some.injEq] at hk
    subst hk
    refine h.of_sub (bps' := W.bps) (handles' := W.handles) h2 h1 ?_ ?_ h.hd
    · intro b' hb'
      obtain ⟨h1, h2, -⟩ := h.bp b' hb'
      exact ⟨b', hb', h1, h2, rfl, rfl⟩
    · intro k' hk'
      simp only [List.mem_cons] at hk'
      rcases hk' with rfl | hk'
      · exact ⟨x, hx, ho, rfl⟩
      · exact h.kn k' hk'
  | forget p q k hk =>
    have hrc := h.rc
    rw [hk] at hrc
    have hrc : RcOk W.mem (strongs W.bps ++ hstrongs W.handles) (k.weak :: (p ++ q).map Known.weak) := by
      refine hrc.congr (fun _ => rfl) fun x => ?_
      simp only [List.map_append, List.map_cons, List.count_append, List.count_cons]
      omega
    obtain ⟨h1, h2⟩ := hrc.weakDrop
    refine h.of_sub (bps' := W.bps) (handles' := W.handles) h2 h1 ?_ ?_ h.hd
    · intro b' hb'
      obtain ⟨h1, h2, -⟩ := h.bp b' hb'
      exact ⟨b', hb', h1, h2, rfl, rfl⟩
    · intro k' hk'
      refine h.kn k' ?_
      rw [hk]
      simp only [List.mem_append, List.mem_cons] at hk' ⊢
      tauto

  | handle b hb k hk =>
    obtain ⟨hcan, -, x, hx, ho⟩ := h.bp b hb
    have hc := h.rc.clone (a := b.builder)
      (List.mem_append_left _ (List.mem_flatMap.2 ⟨b, hb, by simp [Bp.refs]⟩))
    obtain ⟨e1, e2⟩ := bhNew_eq hcan hx (w := w)
    rw [e2] at hk
    cases hk
    rw [e1]
    refine h.of_sub (bps' := W.bps) (known' := W.known) hc.2
      (hc.1.congr (fun a => by simp only [hstrongs, List.map_cons, List.count_append, List.count_cons]; omega)
        (fun _ => rfl)) (h.bps_self) h.kn ?_
    intro k hk
    simp only [List.mem_cons] at hk
    rcases hk with rfl | hk
    · exact ⟨x, hx, ho, rfl⟩
    · exact h.hd k hk
  | cloneHandle k hk =>
    have hc := h.rc.clone (a := k.can.addr) (List.mem_append_right _ (List.mem_map.2 ⟨k, hk, rfl⟩))
    refine h.of_sub (bps' := W.bps) (known' := W.known) hc.2
      (hc.1.congr (fun a => by
        simp only [hstrongs, bhClone, List.map_cons, List.count_append, List.count_cons]; omega)
        (fun _ => rfl)) (h.bps_self) h.kn ?_
    intro k' hk'
    simp only [bhClone, List.mem_cons] at hk'
    rcases hk' with rfl | hk'
    · exact h.hd _ hk
    · exact h.hd _ hk'
  | dropHandle p q k hk =>
    have hrc : RcOk W.mem (k.can.addr :: (strongs W.bps ++ hstrongs (p ++ q))) (W.known.map Known.weak) := by
      refine h.rc.congr (fun x => ?_) fun _ => rfl
      simp only [hstrongs, hk, List.map_append, List.map_cons, List.count_append, List.count_cons]
      omega
    refine h.of_sub (bps' := W.bps) (known' := W.known) hrc.drop.2 hrc.drop.1 (h.bps_self) h.kn ?_
    intro k' hk'
    refine h.hd k' ?_
    rw [hk]
    simp only [List.mem_append, List.mem_cons] at hk' ⊢
    tauto

theorem WReach.inv {w : Nat} (hw : 0 < w) {W : World T D} (h : WReach w W) : WInv w W := by
  induction h with
  | start =>
    constructor
    · exact RcOk.empty
    all_goals simp
  | step W W' _ hs ih => exact ih.step hw hs

end Daab.Mem
