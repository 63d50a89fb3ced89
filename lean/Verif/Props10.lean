import Verif.Canning

/-! # Properties C36 (blueprint identity), C37 (canning laws), C38 (distinct ids) -/

open Std

namespace Daab.Mem

variable {T D : Type}

/-! ## C38 -/

/-- **C38 (layout)** Reference counted boxes that do not overlap have different value addresses, whatever
the sizes (also zero) and alignments of the values. -/
theorem C38_layout {w : Nat} (hw : 0 < w) {a b : Nat} {l m : Layout} (hl : 0 < l.align) (hm : 0 < m.align)
    (hd : Disjoint a (boxSize w l) b (boxSize w m)) : a + valueOffset w l ≠ b + valueOffset w m :=
  valuePtr_ne hw hl hm hd

/-- The reason for using a counted box: values of size zero alone may share their address. -/
example : Disjoint 16 0 16 0 ∧ (16 : Nat) = 16 := ⟨.inl (by decide), rfl⟩

/-- Two builders of size zero, one with alignment 16, in boxes that touch. -/
example : Disjoint 0 (boxSize 8 ⟨0, 1⟩) 16 (boxSize 8 ⟨0, 16⟩) ∧
    (0 + valueOffset 8 ⟨0, 1⟩ = 16 ∧ 16 + valueOffset 8 ⟨0, 16⟩ = 32) := by
  simp [Disjoint, boxSize, valueOffset, roundUp]

/-- The ids in use: those of the blueprints, those the caches' entries are filed under, and those of the
doctors' handles, with the number of the builder each was created for. -/
def IdOf (w : Nat) (W : World T D) (i : Addr) (origin : Nat) : Prop :=
  (∃ b ∈ W.bps, bpId w b W.mem = some i ∧ b.origin = origin) ∨
    (∃ k ∈ W.known, k.key = i ∧ k.origin = origin) ∨ ∃ h ∈ W.handles, bhId h = i ∧ h.origin = origin

theorem WInv.id_eq {w : Nat} {W : World T D} (h : WInv w W) {b : Bp} (hb : b ∈ W.bps) :
    ∃ x, W.mem[b.builder]? = some x ∧ x.origin = b.origin ∧ x.strong ≠ 0 ∧
      bpId w b W.mem = some (b.builder + valueOffset w x.layout) := by
  obtain ⟨h1, -, x, hx, ho⟩ := h.bp b hb
  have hs := (h.rc.strong_iff hx).2 (List.mem_append_left _ (List.mem_flatMap.2 ⟨b, hb, by simp [Bp.refs]⟩))
  refine ⟨x, hx, ho, hs, ?_⟩
  unfold bpId canAsPtr valuePtr
  cases hc : b.canned with
  | none => simp [hx]
  | some c => obtain rfl := h1 c hc; simp [hx]

theorem WInv.idOf {w : Nat} {W : World T D} (h : WInv w W) {i : Addr} {o : Nat} (hi : IdOf w W i o) :
    ∃ (a : Addr) (x : RcBox T D), W.mem[a]? = some x ∧ x.origin = o ∧ i = a + valueOffset w x.layout := by
  rcases hi with ⟨b, hb, h1, h2⟩ | ⟨k, hk, h1, h2⟩ | ⟨k, hk, h1, h2⟩
  · obtain ⟨x, hx, ho, -, hid⟩ := h.id_eq hb
    rw [hid] at h1
    exact ⟨_, x, hx, ho.trans h2, (Option.some.inj h1).symm⟩
  · obtain ⟨x, hx, ho, hkey⟩ := h.kn k hk
    exact ⟨_, x, hx, ho.trans h2, by rw [← h1, hkey]⟩
  · obtain ⟨x, hx, ho, hkey⟩ := h.hd k hk
    exact ⟨_, x, hx, ho.trans h2, by rw [← h1, bhId, hkey]⟩

/-- **C38** Two builders for which blueprints, entries in a cache, or handles, exist at the same time have
different ids; and each builder has one id only.  For all programs and whatever places the allocator
picks. -/
theorem C38_distinct_ids {w : Nat} (hw : 0 < w) {W : World T D} (h : WReach w W) {i j : Addr} {o p : Nat}
    (hi : IdOf w W i o) (hj : IdOf w W j p) : i = j ↔ o = p := by
  have hv := h.inv hw
  obtain ⟨a, x, hx, ho, rfl⟩ := hv.idOf hi
  obtain ⟨b, y, hy, hp, rfl⟩ := hv.idOf hj
  subst ho hp
  by_cases hab : a = b
  · subst hab
    rw [hx] at hy
    cases hy
    simp
  · obtain ⟨h1, h2⟩ := hv.sep a b x y hx hy hab
    have h3 := C38_layout hw (hv.box a x hx).1 (hv.box b y hy).1 h2
    exact ⟨fun he => absurd he h3, fun he => absurd he h1⟩

/-! ## C36 -/

/-- **C36** Blueprints are equal iff they were created for the same builder; each gives access to the
builder it was created for; and the can the cache gets from it has the blueprint's id as its address and
can be downcast to that builder. -/
theorem C36_identity [DecidableEq T] {w : Nat} (hw : 0 < w) {W : World T D} (h : WReach w W) {b b' : Bp}
    (hb : b ∈ W.bps) (hb' : b' ∈ W.bps) :
    (bpEq w b b' W.mem ↔ b.origin = b'.origin) ∧
      (∃ td, W.born[b.origin]? = some td ∧ bpBuilder b W.mem = some td ∧
        downcastRef td.1 (bpCanned b W.mem).2 (bpCanned b W.mem).1 = some td.2) ∧
      ∃ i, bpId w b W.mem = some i ∧ canAsPtr w (bpCanned b W.mem).2 (bpCanned b W.mem).1 = some i := by
  have hv := h.inv hw
  obtain ⟨x, hx, ho, hs, hid⟩ := hv.id_eq hb
  obtain ⟨x', hx', ho', hs', hid'⟩ := hv.id_eq hb'
  have hcan : (bpCanned b W.mem) = (rcClone b.builder W.mem, ⟨b.builder⟩) := by
    unfold bpCanned
    cases hc : b.canned with
    | none => rfl
    | some c => obtain rfl := (hv.bp b hb).1 c hc; rfl
  obtain ⟨-, d, hd, hval⟩ := hv.box _ x hx
  have hval : x.val = some d := by
    rcases hval with h0 | h0
    · have := hv.rc b.builder
      rw [hx] at this
      simp only [h0] at this
      simp [hs] at this
    · exact h0
  refine ⟨?_, ⟨(x.ty, d), by rw [← ho]; exact hd, ?_, ?_⟩, _, hid, ?_⟩
  · unfold bpEq
    rw [hid, hid']
    have := C38_distinct_ids hw h (i := b.builder + valueOffset w x.layout)
      (j := b'.builder + valueOffset w x'.layout) (.inl ⟨b, hb, hid, rfl⟩) (.inl ⟨b', hb', hid', rfl⟩)
    rw [← this]
    simp
  · simp [bpBuilder, hx, hval]
  · rw [hcan]
    unfold downcastRef
    rw [getElem_clone]
    simp [hx, hval]
  · rw [hcan]
    unfold canAsPtr valuePtr
    rw [getElem_clone]
    simp [hx]

theorem same_of_sub {w : Nat} {W W' : World T D} (hv : WInv w W) (hv' : WInv w W') (hsub : Sub W.mem W'.mem)
    {b b' : Bp} (hb : b ∈ W.bps) (hb' : b' ∈ W'.bps) (he : b'.builder = b.builder) :
    bpId w b' W'.mem = bpId w b W.mem ∧ bpBuilder b' W'.mem = bpBuilder b W.mem := by
  obtain ⟨x, hx, -, hx2, hid⟩ := hv.id_eq hb
  obtain ⟨y, hy, -, hy2, hid'⟩ := hv'.id_eq hb'
  rw [he] at hy hid'
  obtain ⟨z, hz, hl, ht, ho, hval⟩ := hsub _ y hy
  rw [hx] at hz
  cases hz
  refine ⟨by rw [hid, hid', hl], ?_⟩
  unfold bpBuilder
  rw [he, hx, hy]
  simp only
  have h1 := hv'.rc b.builder
  rw [hy] at h1
  simp only at h1
  rcases hval with h0 | h0
  · rw [h0, ht]
  · rw [h0] at h1
    simp [hy2] at h1

/-- **C36 (conversions)** Cloning and every conversion keep the id and the builder. -/
theorem C36_convert {w : Nat} (hw : 0 < w) {W : World T D} (h : WReach w W) {b : Bp} (hb : b ∈ W.bps) :
    (∀ (c : Conv) mem' b', bpConvert c b W.mem = some (mem', b') →
      bpId w b' mem' = bpId w b W.mem ∧ bpBuilder b' mem' = bpBuilder b W.mem) ∧
    (bpId w (bpClone b W.mem).2 (bpClone b W.mem).1 = bpId w b W.mem ∧
      bpBuilder (bpClone b W.mem).2 (bpClone b W.mem).1 = bpBuilder b W.mem) := by
  have hv := h.inv hw
  refine ⟨?_, ?_⟩
  · intro c mem' b' hc
    obtain ⟨p, q, hpq⟩ := List.append_of_mem hb
    have hrc := hv.rc
    rw [hpq] at hrc
    have hsp := bpConvert_spec (hrc.congr (strongs_count p q b _) (fun _ => rfl)) (hv.bp b hb).1 hc
    exact same_of_sub hv (hv.step hw (WStep.convert W p q b hpq c mem' b' hc)) hsp.2.1 hb (by simp)
      hsp.2.2.2.2.1
  · have hsp := bpClone_spec hv.rc (b := b) (fun a ha => List.mem_append_left _ (List.mem_flatMap.2 ⟨b, hb, ha⟩))
    exact same_of_sub hv (hv.step hw (WStep.clone W b hb)) hsp.2.1 hb (by simp) (by rw [hsp.2.2])

/-- **C36, C24 (memory level)** What a cache's entry for a builder is worth: its weak reference can
be upgraded iff a blueprint for that very builder, or a doctor's handle of it, still exists; while the entry exists, its id is the id
of a blueprint iff that blueprint is for the entry's builder (the address is not given to a new
builder). -/
theorem C36_weak {w : Nat} (hw : 0 < w) {W : World T D} (h : WReach w W) {k : Known} (hk : k ∈ W.known) :
    ((rcUpgrade k.weak W.mem).2 = true ↔
        (∃ b ∈ W.bps, b.origin = k.origin) ∨ ∃ g ∈ W.handles, g.origin = k.origin) ∧
      ∀ b ∈ W.bps, bpId w b W.mem = some k.key ↔ b.origin = k.origin := by
  have hv := h.inv hw
  obtain ⟨x, hx, ho, hkey⟩ := hv.kn k hk
  constructor
  · rw [rcUpgrade_iff hv.rc (List.mem_map.2 ⟨k, hk, rfl⟩)]
    constructor
    · intro hm
      rcases List.mem_append.1 hm with hm | hm
      swap
      · obtain ⟨g, hg, he⟩ := List.mem_map.1 hm
        obtain ⟨y, hy, hyo, -⟩ := hv.hd g hg
        rw [he, hx] at hy
        cases hy
        exact .inr ⟨g, hg, by rw [← hyo, ho]⟩
      obtain ⟨b, hb, hr⟩ := List.mem_flatMap.1 hm
      have he : k.weak = b.builder := by
        simp only [Bp.refs, List.mem_cons, Option.mem_toList] at hr
        rcases hr with hr | hr
        · exact hr
        · exact (hv.bp b hb).1 _ hr
      obtain ⟨-, -, y, hy, hyo⟩ := hv.bp b hb
      rw [← he, hx] at hy
      cases hy
      exact .inl ⟨b, hb, by rw [← hyo, ho]⟩
    · rintro (⟨b, hb, hbo⟩ | ⟨b, hb, hbo⟩)
      swap
      · obtain ⟨y, hy, hyo, -⟩ := hv.hd b hb
        by_cases he : k.weak = b.can.addr
        · rw [he]
          exact List.mem_append_right _ (List.mem_map.2 ⟨b, hb, rfl⟩)
        · exact absurd (by rw [ho, hyo, hbo]) (hv.sep _ _ x y hx hy he).1
      obtain ⟨-, -, y, hy, hyo⟩ := hv.bp b hb
      by_cases he : k.weak = b.builder
      · rw [he]
        exact List.mem_append_left _ (List.mem_flatMap.2 ⟨b, hb, by simp [Bp.refs]⟩)
      · exact absurd (by rw [ho, hyo, hbo]) (hv.sep _ _ x y hx hy he).1
  · intro b hb
    obtain ⟨y, hy, -, -, hid⟩ := hv.id_eq hb
    have := C38_distinct_ids hw h (i := b.builder + valueOffset w y.layout) (j := k.key)
      (.inl ⟨b, hb, hid, rfl⟩) (.inr (.inl ⟨k, hk, rfl, rfl⟩))
    rw [← this, hid]
    simp

/-! A program that creates two builders of size zero, clones and converts the first's blueprint, lets
a cache know it, and drops the original. -/

section Example

def exW : World String Nat :=
  let W1 : World String Nat := ⟨(bpNew .sized 0 ⟨0, 1⟩ "A" 1 0 ∅).1, [⟨.sized, 0, none, 0⟩], [], [], [("A", 1)]⟩
  let W2 : World String Nat := { W1 with
    mem := (bpNew .dyn 16 ⟨0, 16⟩ "B" 2 1 W1.mem).1, bps := ⟨.dyn, 16, some 16, 1⟩ :: W1.bps,
    born := [("A", 1), ("B", 2)] }
  let W3 : World String Nat := { W2 with mem := rcClone 0 W2.mem, bps := ⟨.sized, 0, none, 0⟩ :: W2.bps }
  let W4 : World String Nat := { W3 with
    mem := rcClone 0 W3.mem, bps := [⟨.dyn, 0, some 0, 0⟩, ⟨.dyn, 16, some 16, 1⟩, ⟨.sized, 0, none, 0⟩] }
  let W5 : World String Nat := { W4 with
    mem := (bpKnow 8 ⟨.sized, 0, none, 0⟩ W4.mem).1, known := [⟨16, 0, 0⟩] }
  { W5 with mem := bpDrop ⟨.sized, 0, none, 0⟩ W5.mem, bps := [⟨.dyn, 0, some 0, 0⟩, ⟨.dyn, 16, some 16, 1⟩] }

/-- The hypotheses of the theorems above are met. -/
theorem exW_reach : WReach 8 exW := by
  refine .step _ _ (.step _ _ (.step _ _ (.step _ _ (.step _ _ (.step _ _ .start
    (.new _ .sized 0 ⟨0, 1⟩ "A" 1 (by decide) ?_)) (.new _ .dyn 16 ⟨0, 16⟩ "B" 2 (by decide) ?_))
    (.clone _ ⟨.sized, 0, none, 0⟩ (by simp [bpNew]))) (.convert _ [] [⟨.dyn, 16, some 16, 1⟩,
      ⟨.sized, 0, none, 0⟩] ⟨.sized, 0, none, 0⟩ rfl .dynFromBp _ _ rfl))
    (.know _ ⟨.sized, 0, none, 0⟩ (by simp) ⟨16, 0, 0⟩ ?_))
    (.drop _ [⟨.dyn, 0, some 0, 0⟩, ⟨.dyn, 16, some 16, 1⟩] [] ⟨.sized, 0, none, 0⟩ rfl)
  · intro b x hx
    simp at hx
  · intro b x hx
    simp only [bpNew, rcNew, ExtTreeMap.getElem?_insert] at hx
    split at hx
    · rename_i h0
      have h0 : (0 : Addr) = b := by simpa using h0
      subst h0
      cases hx
      simp [Disjoint, boxSize, valueOffset, roundUp]
    · simp at hx
  · rfl

end Example

/-! ## C37 -/

variable [DecidableEq T]

/-- **C37 (round trip)** A bin dereferences to a value of its type.  Turning it into a can and downcasting
that at the bin's type gives the bin back, without any effect; the reference downcast gives the same
value; at any other type both fail, and the can's reference is given back; bin and can have the same
pointer. -/
theorem C37_round_trip {w : Nat} (hw : 0 < w) {W : CWorld T D} (h : CReach w W) {b : Bin T}
    (hb : b ∈ W.bins) :
    ∃ v, binDeref b W.mem = some (b.ty, v) ∧
      downcastCan b.ty (fromBin b) W.mem = (W.mem, some b) ∧
      downcastRef b.ty (fromBin b) W.mem = some v ∧
      (∀ t, t ≠ b.ty → downcastCan t (fromBin b) W.mem = (rcDrop b.addr W.mem, none) ∧
        downcastRef t (fromBin b) W.mem = none) ∧
      (∃ i, binAsPtr w b W.mem = some i ∧ canAsPtr w (fromBin b) W.mem = some i) := by
  have hv := h.inv hw
  obtain ⟨x, hx, ht⟩ := hv.bin b hb
  have hs := (hv.rc.strong_iff hx).2 (List.mem_append_left _ (List.mem_map.2 ⟨b, hb, rfl⟩))
  have h1 := hv.rc b.addr
  rw [hx] at h1
  simp only [decide_eq_true hs] at h1
  obtain ⟨v, hval⟩ := Option.isSome_iff_exists.1 h1.2.2.2
  refine ⟨v, ?_, ?_, ?_, ?_, ?_⟩
  · simp [binDeref, hx, hval, ht]
  · simp [downcastCan, fromBin, hx, ht]
  · simp [downcastRef, fromBin, hx, ht, hval]
  · intro t hne
    have : x.ty ≠ t := by rw [ht]; exact fun h => hne h.symm
    simp [downcastCan, downcastRef, fromBin, hx, this]
  · exact ⟨b.addr + valueOffset w x.layout, by simp [binAsPtr, valuePtr, hx],
      by simp [canAsPtr, valuePtr, fromBin, hx]⟩

/-- **C37 (any can)** A can holds a value of exactly one type: it can be downcast, by value as well as by
reference, at this type and no other. -/
theorem C37_downcast {w : Nat} (hw : 0 < w) {W : CWorld T D} (h : CReach w W) {c : Can}
    (hc : c ∈ W.cans) : ∃ ty v, ∀ t,
      (downcastCan t c W.mem).2 = (if t = ty then some ⟨c.addr, ty⟩ else none) ∧
      downcastRef t c W.mem = (if t = ty then some v else none) := by
  have hv := h.inv hw
  have hm : c.addr ∈ cstrongs W := List.mem_append_right _ (List.mem_map.2 ⟨c, hc, rfl⟩)
  obtain ⟨x, hx, hs⟩ := hv.rc.mem_strong hm
  have h1 := hv.rc c.addr
  rw [hx] at h1
  simp only [decide_eq_true hs] at h1
  obtain ⟨v, hval⟩ := Option.isSome_iff_exists.1 h1.2.2.2
  refine ⟨x.ty, v, fun t => ?_⟩
  by_cases ht : t = x.ty
  · subst ht
    simp [downcastCan, downcastRef, hx, hval]
  · have : x.ty ≠ t := fun h => ht h.symm
    simp [downcastCan, downcastRef, hx, ht, this]

/-- **C37 (value)** While a strong reference to a box is held before and after a step, the box keeps its
value, type and address. -/
theorem C37_value_kept {w : Nat} (hw : 0 < w) {W W' : CWorld T D} (h : CReach w W) (hs : CStep w W W')
    {a : Addr} (ha : a ∈ cstrongs W) (ha' : a ∈ cstrongs W') :
    ∃ x x', W.mem[a]? = some x ∧ W'.mem[a]? = some x' ∧ x'.val = x.val ∧ x'.val.isSome ∧ x'.ty = x.ty ∧
      valuePtr w a W'.mem = valuePtr w a W.mem := by
  have hv := h.inv hw
  have hv' := hv.step hw hs
  obtain ⟨x, hx, hne⟩ := hv.rc.mem_strong ha
  obtain ⟨x', hx', hne'⟩ := hv'.rc.mem_strong ha'
  have hsome : x'.val.isSome := by
    have := hv'.rc a
    rw [hx'] at this
    simp only [decide_eq_true hne'] at this
    exact this.2.2.2
  have key : Sub W.mem W'.mem → ∃ x x', W.mem[a]? = some x ∧ W'.mem[a]? = some x' ∧ x'.val = x.val ∧
      x'.val.isSome ∧ x'.ty = x.ty ∧ valuePtr w a W'.mem = valuePtr w a W.mem := by
    intro hsub
    obtain ⟨z, hz, hl, ht, -, hval⟩ := hsub a x' hx'
    rw [hx] at hz
    cases hz
    refine ⟨x, x', hx, hx', ?_, hsome, ht, by simp [valuePtr, hx, hx', hl]⟩
    rcases hval with h0 | h0
    · exact h0
    · rw [h0] at hsome; cases hsome
  by_cases hn : Sub W.mem W'.mem
  · exact key hn
  -- only `into_bin` creates a box
  cases hs with
  | intoBin b l ty v n hl hf =>
    have hb := free_none hw hl hv.box hf
    have hab : b ≠ a := by rintro rfl; rw [hb] at hx; cases hx
    simp only [rcNew] at hx' ⊢
    rw [ExtTreeMap.getElem?_insert, if_neg (by simpa using hab), hx] at hx'
    cases hx'
    refine ⟨x, x, hx, ?_, rfl, hsome, rfl, ?_⟩
    · rw [ExtTreeMap.getElem?_insert, if_neg (by simpa using hab), hx]
    · simp [valuePtr, ExtTreeMap.getElem?_insert, hab, hx]
  | fromBin p q b hb => exact absurd (Sub.refl _) hn
  | downcast p q c hc t =>
    refine absurd ?_ hn
    have hrc : RcOk W.mem (c.addr :: (W.bins.map Bin.addr ++ (p ++ q).map Can.addr)) W.weaks := by
      refine hv.rc.congr (fun x => ?_) (fun _ => rfl)
      simp only [cstrongs, hc, List.map_append, List.map_cons, List.count_append, List.count_cons]
      omega
    unfold downcastCan
    split
    · exact Sub.refl _
    · split
      · exact Sub.refl _
      · exact hrc.drop.2
  | cloneBin b hb =>
    exact absurd (hv.rc.clone (a := b.addr) (List.mem_append_left _ (List.mem_map.2 ⟨b, hb, rfl⟩))).2 hn
  | cloneCan c hc =>
    exact absurd (hv.rc.clone (a := c.addr) (List.mem_append_right _ (List.mem_map.2 ⟨c, hc, rfl⟩))).2 hn
  | downgrade c hc =>
    exact absurd (hv.rc.downgrade (a := c.addr)
      (List.mem_append_right _ (List.mem_map.2 ⟨c, hc, rfl⟩))).2 hn
  | upgrade b hb =>
    refine absurd ?_ hn
    have hu := rcUpgrade_iff hv.rc hb
    obtain ⟨y, hy⟩ := hv.rc.mem_weak hb
    unfold rcUpgrade at hu ⊢
    rw [hy] at hu ⊢
    simp only at hu ⊢
    split
    · exact Sub.refl _
    · rename_i h0
      rw [if_neg h0] at hu
      exact (hv.rc.clone (hu.1 rfl)).2
  | dropBin p q b hb =>
    refine absurd ?_ hn
    have hrc : RcOk W.mem (b.addr :: ((p ++ q).map Bin.addr ++ W.cans.map Can.addr)) W.weaks := by
      refine hv.rc.congr (fun x => ?_) (fun _ => rfl)
      simp only [cstrongs, hb, List.map_append, List.map_cons, List.count_append, List.count_cons]
      omega
    exact hrc.drop.2
  | dropCan p q c hc =>
    refine absurd ?_ hn
    have hrc : RcOk W.mem (c.addr :: (W.bins.map Bin.addr ++ (p ++ q).map Can.addr)) W.weaks := by
      refine hv.rc.congr (fun x => ?_) (fun _ => rfl)
      simp only [cstrongs, hc, List.map_append, List.map_cons, List.count_append, List.count_cons]
      omega
    exact hrc.drop.2
  | dropWeak p q b hb =>
    refine absurd ?_ hn
    have hrc : RcOk W.mem (cstrongs W) (b :: (p ++ q)) := by
      refine hv.rc.congr (fun _ => rfl) (fun x => ?_)
      simp only [hb, List.count_append, List.count_cons]
      omega
    exact hrc.weakDrop.2

/-- **C37 (weak)** Upgrading a weak can succeeds iff a bin or a can of the same box is left. -/
theorem C37_upgrade {w : Nat} (hw : 0 < w) {W : CWorld T D} (h : CReach w W) {a : Addr}
    (ha : a ∈ W.weaks) :
    (rcUpgrade a W.mem).2 = true ↔ (∃ b ∈ W.bins, b.addr = a) ∨ ∃ c ∈ W.cans, c.addr = a := by
  rw [rcUpgrade_iff (h.inv hw).rc ha]
  simp [cstrongs, List.mem_append, List.mem_map]

/-- **C37 (no leak, no reuse)** A box exists exactly as long as some reference to it; so the memory behind
a weak can is not handed out again. -/
theorem C37_lifetime {w : Nat} (hw : 0 < w) {W : CWorld T D} (h : CReach w W) (a : Addr) :
    (W.mem[a]?).isSome ↔ a ∈ cstrongs W ∨ a ∈ W.weaks := by
  have h1 := (h.inv hw).rc a
  cases hx : W.mem[a]? with
  | none =>
    rw [hx] at h1
    simp only [List.count_eq_zero] at h1
    simp [h1]
  | some x =>
    rw [hx] at h1
    simp only at h1
    simp only [Option.isSome_some, true_iff]
    by_cases hs : x.strong = 0
    · right
      rw [← List.count_pos_iff]
      rw [if_pos hs] at h1
      omega
    · left
      rw [← List.count_pos_iff]
      omega

omit [DecidableEq T] in
/-- **C37 (`Box`)** The same laws for `Box<dyn Any>`, which has also mutable downcasts. -/
theorem C37_box [DecidableEq T] (b : BoxBin T D) (t : T) (f : D → D) :
    boxDowncast b.ty (boxFromBin b) = some b ∧
      boxDowncastRef b.ty (boxFromBin b) = some b.val ∧
      boxDowncastMut b.ty f (boxFromBin b) = (boxFromBin { b with val := f b.val }, some b.val) ∧
      (t ≠ b.ty → boxDowncast t (boxFromBin b) = none ∧ boxDowncastRef t (boxFromBin b) = none ∧
        boxDowncastMut t f (boxFromBin b) = (boxFromBin b, none)) ∧
      boxCanPtr (boxFromBin b) = boxBinPtr b := by
  refine ⟨by simp [boxDowncast, boxFromBin], by simp [boxDowncastRef, boxFromBin],
    by simp [boxDowncastMut, boxFromBin], fun h => ?_, rfl⟩
  have : b.ty ≠ t := fun e => h e.symm
  simp [boxDowncast, boxDowncastRef, boxDowncastMut, boxFromBin, this]

/-- **C37 (`BuilderArtifact`)** A blueprint canned as an artifact and downcast again at its type is the
same blueprint (same id, same builder); at another builder type the downcast fails.  Either way no other
blueprint notices. -/
theorem C37_builder_artifact {w : Nat} (hw : 0 < w) {W : World T D} (h : WReach w W) {p q : List Bp} {b : Bp}
    (hpq : W.bps = p ++ b :: q) (hk : b.kind ≠ .dyn) :
    ∃ ty, (W.born[b.origin]?).map Prod.fst = some ty ∧ ∀ t m1 c m2 r, baFromBin b W.mem = (m1, c) →
      baDowncast b.kind t b.origin c m1 = (m2, r) →
      canAsPtr w c m1 = bpId w b W.mem ∧
      r = (if t = ty then some b else none) ∧
      ∀ b2, b2 ∈ p ++ r.toList ++ q →
        bpId w b2 m2 = bpId w b2 W.mem ∧ bpBuilder b2 m2 = bpBuilder b2 W.mem := by
  have hv := h.inv hw
  have hb : b ∈ W.bps := by rw [hpq]; simp
  obtain ⟨hcan, hkind, x, hx, ho⟩ := hv.bp b hb
  obtain ⟨-, d, hd, -⟩ := hv.box _ x hx
  refine ⟨x.ty, by rw [← ho, hd]; rfl, ?_⟩
  intro t m1 c m2 r h1 h2
  have hrc := hv.rc
  rw [hpq] at hrc
  have hrc := hrc.congr (strongs_count p q b _) (fun _ => rfl)
  -- canning
  have hcanned : bpCanned b W.mem = (rcClone b.builder W.mem, ⟨b.builder⟩) := by
    unfold bpCanned
    cases hc : b.canned with
    | none => rfl
    | some c => obtain rfl := hcan c hc; rfl
  have hc1 := hrc.clone (a := b.builder) (by simp [Bp.refs])
  have hd1 := bpDrop_spec (b := b) (S := b.builder :: (strongs (p ++ q) ++ hstrongs W.handles)) (hc1.1.congr (fun a => by
    simp only [List.count_cons, List.count_append]; omega) (fun _ => rfl))
  unfold baFromBin at h1
  rw [hcanned] at h1
  simp only [Prod.mk.injEq] at h1
  obtain ⟨e1, rfl⟩ := h1
  rw [e1] at hd1
  have hs1 : Sub W.mem m1 := hc1.2.trans hd1.2
  obtain ⟨y, hy, -⟩ := hd1.1.mem_strong (a := b.builder) (by simp)
  obtain ⟨z, hz, hyl, hyt, -, -⟩ := hs1 _ y hy
  rw [hx] at hz
  cases hz
  have hbps : ∀ b' ∈ W.bps, ∃ b ∈ W.bps, (∀ c, b'.canned = some c → c = b'.builder) ∧
      (b'.kind = .sized ↔ b'.canned = none) ∧ b'.builder = b.builder ∧ b'.origin = b.origin := by
    intro b' hb'
    obtain ⟨h1, h2, -⟩ := hv.bp b' hb'
    exact ⟨b', hb', h1, h2, rfl, rfl⟩
  refine ⟨?_, ?_⟩
  · obtain ⟨x', hx', -, -, hid⟩ := hv.id_eq hb
    rw [hx] at hx'
    cases hx'
    rw [hid]
    simp [canAsPtr, valuePtr, hy, hyl]
  unfold baDowncast downcastCan at h2
  simp only [hy] at h2
  by_cases ht : t = x.ty
  · subst ht
    rw [if_pos hyt] at h2
    rw [if_pos rfl]
    obtain ⟨kind, a, can, o⟩ := b
    simp only at *
    have hfin : ∀ m2, RcOk m2 ((Bp.mk kind a can o).refs ++ (strongs (p ++ q) ++ hstrongs W.handles)) (W.known.map Known.weak) →
        Sub m1 m2 → ∀ b2, b2 ∈ p ++ [Bp.mk kind a can o] ++ q →
        bpId w b2 m2 = bpId w b2 W.mem ∧ bpBuilder b2 m2 = bpBuilder b2 W.mem := by
      intro m2 hr hs2 b2 hb2
      have hb2 : b2 ∈ W.bps := by
        rw [hpq]
        simpa using hb2
      have hr' := hr.congr (fun a => (strongs_count p q _ _ a).symm) (fun _ => rfl)
      rw [← hpq] at hr'
      exact same_of_sub hv (hv.of_sub (bps' := W.bps) (known' := W.known) (hs1.trans hs2) hr' hbps hv.kn hv.hd)
        (hs1.trans hs2) hb2 hb2 rfl
    cases kind with
    | sized =>
      obtain rfl := hkind.1 rfl
      simp only [Prod.mk.injEq] at h2
      obtain ⟨rfl, rfl⟩ := h2
      exact ⟨rfl, hfin _ hd1.1 (Sub.refl _)⟩
    | uns =>
      cases can with
      | none => exact absurd (hkind.2 rfl) (by simp)
      | some can =>
        obtain rfl := hcan can rfl
        simp only [Prod.mk.injEq] at h2
        obtain ⟨rfl, rfl⟩ := h2
        have hc2 := hd1.1.clone (a := can) (by simp)
        exact ⟨rfl, hfin _ hc2.1 hc2.2⟩
    | dyn => exact absurd rfl hk
  · rw [if_neg (by rw [hyt]; exact fun h => ht h.symm)] at h2
    rw [if_neg ht]
    simp only [Prod.mk.injEq] at h2
    obtain ⟨rfl, rfl⟩ := h2
    refine ⟨rfl, ?_⟩
    intro b2 hb2
    have hb2 : b2 ∈ p ++ q := by simpa using hb2
    have hd2 := hd1.1.drop
    have hb2' : b2 ∈ W.bps := by
      rw [hpq]
      simp only [List.mem_append, List.mem_cons] at hb2 ⊢
      tauto
    have hv' := hv.of_sub (bps' := p ++ q) (known' := W.known) (hs1.trans hd2.2) hd2.1 (by
      intro b' hb'
      refine hbps b' ?_
      rw [hpq]
      simp only [List.mem_append, List.mem_cons] at hb' ⊢
      tauto) hv.kn hv.hd
    exact same_of_sub hv hv' (hs1.trans hd2.2) hb2' hb2 rfl

/-- The hypotheses are met: a bin, a can and a weak can of one box. -/
theorem exC : ∃ W : CWorld String Nat, CReach 8 W ∧ (⟨0, "A"⟩ : Bin String) ∈ W.bins ∧ (⟨0⟩ : Can) ∈ W.cans ∧
    (0 : Addr) ∈ W.weaks := by
  refine ⟨_, .step _ _ (.step _ _ (.step _ _ (.step _ _ .start
    (.intoBin _ 0 ⟨0, 1⟩ "A" 1 0 (by decide) ?_)) (.cloneBin _ ⟨0, "A"⟩ (by simp)))
    (.fromBin _ [] [⟨0, "A"⟩] ⟨0, "A"⟩ rfl)) (.downgrade _ ⟨0⟩ (by simp [fromBin])), ?_, ?_, ?_⟩
  · intro b x hx
    simp at hx
  all_goals simp [fromBin]

/-- `C37_round_trip`, `C37_downcast`, `C37_upgrade`, `C37_lifetime` there. -/
example : ∃ W : CWorld String Nat, CReach 8 W ∧
    (∃ v, binDeref ⟨0, "A"⟩ W.mem = some ("A", v) ∧ downcastCan "A" (fromBin ⟨0, "A"⟩) W.mem = (W.mem, some ⟨0, "A"⟩) ∧
      downcastRef "B" (fromBin ⟨0, "A"⟩) W.mem = none) ∧
    (∃ ty v, ∀ t, downcastRef t ⟨0⟩ W.mem = (if t = ty then some v else none)) ∧
    (rcUpgrade 0 W.mem).2 = true ∧ (W.mem[(0 : Addr)]?).isSome := by
  obtain ⟨W, h, hb, hc, hw⟩ := exC
  refine ⟨W, h, ?_, ?_, (C37_upgrade (by decide) h hw).2 (.inl ⟨_, hb, rfl⟩),
    (C37_lifetime (by decide) h 0).2 (.inr hw)⟩
  · obtain ⟨v, h1, h2, _, h4, _⟩ := C37_round_trip (by decide) h hb
    exact ⟨v, h1, h2, (h4 "B" (by decide)).2⟩
  · obtain ⟨ty, v, h1⟩ := C37_downcast (by decide) h hc
    exact ⟨ty, v, fun t => (h1 t).2⟩

/-- `C37_value_kept`: cloning the bin keeps the value. -/
example : ∃ W W' : CWorld String Nat, CReach 8 W ∧ CStep 8 W W' ∧ ∃ x x', W.mem[(0 : Addr)]? = some x ∧
    W'.mem[(0 : Addr)]? = some x' ∧ x'.val = x.val := by
  obtain ⟨W, h, hb, _⟩ := exC
  refine ⟨W, _, h, .cloneBin W _ hb, ?_⟩
  obtain ⟨x, x', h1, h2, h3, _⟩ := C37_value_kept (by decide) h (.cloneBin W _ hb) (a := 0)
    (List.mem_append_left _ (List.mem_map.2 ⟨_, hb, rfl⟩)) (List.mem_append_left _ (List.mem_map.2 ⟨_, List.mem_cons_self, rfl⟩))
  exact ⟨x, x', h1, h2, h3⟩

end Daab.Mem
