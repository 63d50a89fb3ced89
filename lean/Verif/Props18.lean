import Verif.Props10

/-! # C54: the handles given to doctors -/

open Std

namespace Daab.Mem

variable {T D : Type}

theorem WInv.live {w : Nat} {W : World T D} (h : WInv w W) {a : Addr} (ha : a ∈ strongs W.bps ++ hstrongs W.handles)
    {x : RcBox T D} (hx : W.mem[a]? = some x) : ∃ d, W.born[x.origin]? = some (x.ty, d) ∧ x.val = some d := by
  obtain ⟨-, d, hd, hval⟩ := h.box _ x hx
  refine ⟨d, hd, ?_⟩
  rcases hval with h0 | h0
  · have hs := (h.rc.strong_iff hx).2 ha
    have := h.rc a
    rw [hx] at this
    simp only [h0] at this
    simp [hs] at this
  · exact h0

/-- **C54** Handles that exist at the same time are equal (and are hashed alike) iff they are handles of the
same builder; a handle has the id of every blueprint for its builder, of no other blueprint, and
likewise for the caches' entries; and as long as a handle exists, so does its builder. -/
theorem C54_handles [DecidableEq T] {w : Nat} (hw : 0 < w) {W : World T D} (h : WReach w W) {g : Handle}
    (hg : g ∈ W.handles) :
    (∀ g' ∈ W.handles, (bhEq g g' ↔ g.origin = g'.origin) ∧ (bhHash g = bhHash g' ↔ bhEq g g')) ∧
      (∀ b ∈ W.bps, bpId w b W.mem = some (bhId g) ↔ b.origin = g.origin) ∧
      (∀ k ∈ W.known, k.key = bhId g ↔ k.origin = g.origin) ∧
      ∃ td, W.born[g.origin]? = some td ∧ downcastRef td.1 g.can W.mem = some td.2 := by
  have hi : IdOf w W (bhId g) g.origin := .inr (.inr ⟨g, hg, rfl, rfl⟩)
  refine ⟨fun g' hg' => ⟨?_, Iff.rfl⟩, ?_, ?_, ?_⟩
  · exact C38_distinct_ids hw h hi (.inr (.inr ⟨g', hg', rfl, rfl⟩))
  · intro b hb
    obtain ⟨x, hx, ho, -, hid⟩ := (h.inv hw).id_eq hb
    rw [hid, Option.some.injEq]
    exact C38_distinct_ids hw h (.inl ⟨b, hb, hid, rfl⟩) hi
  · intro k hk
    exact C38_distinct_ids hw h (.inr (.inl ⟨k, hk, rfl, rfl⟩)) hi
  · have hv := h.inv hw
    obtain ⟨x, hx, ho, -⟩ := hv.hd g hg
    obtain ⟨d, hd, hval⟩ := hv.live (List.mem_append_right _ (List.mem_map.2 ⟨g, hg, rfl⟩)) hx
    refine ⟨(x.ty, d), by rw [← ho]; exact hd, ?_⟩
    simp [downcastRef, hx, hval]

/-- **C54** Making a handle of a blueprint always works; the handle has the blueprint's id and is for its
builder. -/
theorem C54_new {w : Nat} (hw : 0 < w) {W : World T D} (h : WReach w W) {b : Bp} (hb : b ∈ W.bps) :
    ∃ g, (bhNew w b W.mem).2 = some g ∧ bpId w b W.mem = some (bhId g) ∧ g.origin = b.origin := by
  have hv := h.inv hw
  obtain ⟨hcan, -, x, hx, ho⟩ := hv.bp b hb
  obtain ⟨y, hy, -, -, hid⟩ := hv.id_eq hb
  rw [hx] at hy
  cases hy
  exact ⟨_, (bhNew_eq hcan hx).2, hid, rfl⟩

/-- **C54** What a doctor can do to garbage collection: a cache's entry for a builder counts as alive
(its weak reference can be upgraded) as long as the program has a blueprint for it or a doctor has kept a
handle of it, and no longer. -/
theorem C54_keeps_alive {w : Nat} (hw : 0 < w) {W : World T D} (h : WReach w W) {k : Known} (hk : k ∈ W.known)
    (hn : ∀ b ∈ W.bps, b.origin ≠ k.origin) :
    (rcUpgrade k.weak W.mem).2 = true ↔ ∃ g ∈ W.handles, g.origin = k.origin := by
  rw [(C36_weak hw h hk).1]
  constructor
  · rintro (⟨b, hb, e⟩ | h)
    · exact absurd e (hn b hb)
    · exact h
  · exact .inr

/-- A handle is made of the first of two builders of size zero and then the only blueprint of that
builder is dropped. -/
def exH : World String Nat :=
  let W1 : World String Nat := ⟨(bpNew .sized 0 ⟨0, 1⟩ "A" 1 0 ∅).1, [⟨.sized, 0, none, 0⟩], [], [], [("A", 1)]⟩
  let W2 : World String Nat := { W1 with
    mem := (bpNew .dyn 16 ⟨0, 16⟩ "B" 2 1 W1.mem).1, bps := ⟨.dyn, 16, some 16, 1⟩ :: W1.bps,
    born := [("A", 1), ("B", 2)] }
  let W3 : World String Nat := { W2 with
    mem := (bhNew 8 ⟨.sized, 0, none, 0⟩ W2.mem).1, handles := [⟨⟨0⟩, 16, 0⟩] }
  let W4 : World String Nat := { W3 with
    mem := (bhNew 8 ⟨.dyn, 16, some 16, 1⟩ W3.mem).1, handles := [⟨⟨16⟩, 32, 1⟩, ⟨⟨0⟩, 16, 0⟩] }
  let W5 : World String Nat := { W4 with
    mem := (bpKnow 8 ⟨.sized, 0, none, 0⟩ W4.mem).1, known := [⟨16, 0, 0⟩] }
  { W5 with mem := bpDrop ⟨.sized, 0, none, 0⟩ W5.mem, bps := [⟨.dyn, 16, some 16, 1⟩] }

/-- The hypotheses of the theorems above are met. -/
theorem exH_reach : WReach 8 exH ∧ (∀ b ∈ exH.bps, b.origin ≠ 0) := by
  refine ⟨.step _ _ (.step _ _ (.step _ _ (.step _ _ (.step _ _ (.step _ _ .start
    (.new _ .sized 0 ⟨0, 1⟩ "A" 1 (by decide) ?_)) (.new _ .dyn 16 ⟨0, 16⟩ "B" 2 (by decide) ?_))
    (.handle _ ⟨.sized, 0, none, 0⟩ (by simp [bpNew]) ⟨⟨0⟩, 16, 0⟩ ?_))
    (.handle _ ⟨.dyn, 16, some 16, 1⟩ (by simp [bpNew, canUnsized]) ⟨⟨16⟩, 32, 1⟩ ?_))
    (.know _ ⟨.sized, 0, none, 0⟩ (by simp [bpNew, canUnsized]) ⟨16, 0, 0⟩ ?_))
    (.drop _ [⟨.dyn, 16, some 16, 1⟩] [] ⟨.sized, 0, none, 0⟩ rfl), by simp [exH]⟩
  · intro b x hx
    simp at hx
  · intro b x hx
    simp only [bpNew, rcNew, ExtTreeMap.getElem?_insert] at hx
    split at hx
    · rename_i h0
      have h0 : (0 : Addr) = b := by simpa using h0
      subst h0
      cases hx
      simp [Disjoint, boxSize, valueOffset, roundUp]
    · simp at hx
  all_goals rfl

/-- `C54_handles` and `C54_keeps_alive`: the two handles are different, and the one of the first builder keeps it
alive for the cache's entry. -/
example : ¬ bhEq ⟨⟨0⟩, 16, 0⟩ ⟨⟨16⟩, 32, 1⟩ ∧ (rcUpgrade 0 exH.mem).2 = true := by
  constructor
  · intro h
    exact absurd (((C54_handles (by decide) exH_reach.1 (g := ⟨⟨0⟩, 16, 0⟩) (by simp [exH])).1 ⟨⟨16⟩, 32, 1⟩
      (by simp [exH])).1.1 h) (by decide)
  · exact (C54_keeps_alive (by decide) exH_reach.1 (k := ⟨16, 0, 0⟩) (by simp [exH]) exH_reach.2).2
      ⟨⟨⟨0⟩, 16, 0⟩, by simp [exH], rfl⟩

/-- `C54_new`, and from `Verif.Props10` `C38_distinct_ids`, `C36_identity`, `C36_convert` and `C36_weak`. -/
example : (∃ g, (bhNew 8 ⟨.dyn, 16, some 16, 1⟩ exH.mem).2 = some g ∧ g.origin = 1) ∧
    (16 : Addr) ≠ 32 ∧ bpEq 8 ⟨.dyn, 16, some 16, 1⟩ ⟨.dyn, 16, some 16, 1⟩ exH.mem ∧
    bpBuilder (bpClone ⟨.dyn, 16, some 16, 1⟩ exH.mem).2 (bpClone ⟨.dyn, 16, some 16, 1⟩ exH.mem).1 =
      bpBuilder ⟨.dyn, 16, some 16, 1⟩ exH.mem ∧
    (rcUpgrade 0 exH.mem).2 = true := by
  have hb : (⟨.dyn, 16, some 16, 1⟩ : Bp) ∈ exH.bps := by simp [exH]
  refine ⟨?_, ?_, (C36_identity (by decide) exH_reach.1 hb hb).1.2 rfl, (C36_convert (by decide) exH_reach.1 hb).2.2,
    (C36_weak (by decide) exH_reach.1 (k := ⟨16, 0, 0⟩) (by simp [exH])).1.2 (.inr ⟨⟨⟨0⟩, 16, 0⟩, by simp [exH], rfl⟩)⟩
  · obtain ⟨g, h1, _, h2⟩ := C54_new (by decide) exH_reach.1 hb
    exact ⟨g, h1, h2⟩
  · intro h
    exact absurd ((C38_distinct_ids (by decide) exH_reach.1 (i := 16) (j := 32) (o := 0) (p := 1)
      (.inr (.inl ⟨⟨16, 0, 0⟩, by simp [exH], rfl, rfl⟩))
      (.inr (.inr ⟨⟨⟨16⟩, 32, 1⟩, by simp [exH], rfl, rfl⟩))).1 h) (by decide)

/-- `C37_builder_artifact`: a blueprint as an artifact. -/
example : ∃ W : World String Nat, WReach 8 W ∧ ∃ b, W.bps = [] ++ b :: [] ∧ b.kind ≠ .dyn ∧
    ∃ ty, (W.born[b.origin]?).map Prod.fst = some ty := by
  have h : WReach 8 _ := .step _ _ (.start (T := String) (D := Nat)) (.new _ .sized 0 ⟨0, 1⟩ "A" 1 (by decide) (by
    intro b x hx
    simp at hx))
  refine ⟨_, h, ⟨.sized, 0, none, 0⟩, rfl, by decide, ?_⟩
  obtain ⟨ty, h1, _⟩ := C37_builder_artifact (by decide) h (b := ⟨.sized, 0, none, 0⟩) (p := []) (q := []) rfl (by decide)
  exact ⟨ty, h1⟩

/-! ## Handles of artifacts -/

/-- `src/diagnostics/mod.rs` 122-132 `ArtifactHandle` for the cans `Rc<dyn Any>` and `Arc<dyn Any + ..>` (the
texts are in `Verif.Doctors`).  `vtable`: the second word of the can's pointer, chosen by the compiler
where the bin is coerced (the compiler may have several equivalent ones for a type). -/
structure ArtHandle where
  value : Can
  vtable : Nat

/-- `src/diagnostics/mod.rs` 167-172 `PartialEq::eq` compares `*const dyn Any`, that is address and
vtable; 161-165 `Hash::hash` feeds the same to the hasher. -/
def ahEq (w : Nat) (g g' : ArtHandle) (mem : Memory T D) : Prop :=
  canAsPtr w g.value mem = canAsPtr w g'.value mem ∧ g.vtable = g'.vtable

/-- `src/diagnostics/mod.rs` 121 `derive(Clone)`. -/
def ahClone (g : ArtHandle) (mem : Memory T D) : Memory T D × ArtHandle := (rcClone g.value.addr mem, g)

/-- **C54 (artifacts)** Handles of artifacts that exist at the same time: equal ones are handles of the same
artifact (the same box, hence the same value); handles of the same artifact are equal if they have been
made by the same coercion, in particular clones. -/
theorem C54_artifacts {w : Nat} (hw : 0 < w) [DecidableEq T] {W : CWorld T D} (h : CReach w W) {g g' : ArtHandle}
    (hg : g.value ∈ W.cans) (hg' : g'.value ∈ W.cans) :
    (ahEq w g g' W.mem ↔ g.value.addr = g'.value.addr ∧ g.vtable = g'.vtable) ∧
      ahEq w g (ahClone g W.mem).2 (ahClone g W.mem).1 := by
  have hv := h.inv hw
  obtain ⟨x, hx, -⟩ := hv.rc.mem_strong (a := g.value.addr) (List.mem_append_right _ (List.mem_map.2 ⟨_, hg, rfl⟩))
  obtain ⟨y, hy, -⟩ := hv.rc.mem_strong (a := g'.value.addr) (List.mem_append_right _ (List.mem_map.2 ⟨_, hg', rfl⟩))
  refine ⟨?_, rfl, rfl⟩
  unfold ahEq canAsPtr valuePtr
  rw [hx, hy]
  simp only [Option.map_some, Option.some.injEq]
  refine and_congr_left fun _ => ⟨fun he => ?_, fun he => ?_⟩
  · by_contra hne
    exact C38_layout hw (hv.box _ x hx) (hv.box _ y hy) (hv.sep _ _ x y hx hy hne) he
  · rw [he, hy] at hx
    cases hx
    rw [he]

/-- `src/diagnostics/mod.rs` 137-148 `ArtifactHandle::new`: takes over the reference of the bin. -/
def ahNew (vtable : Nat) (b : Bin T) : ArtHandle := ⟨fromBin b, vtable⟩

/-- `src/diagnostics/mod.rs` 155-157 `ArtifactHandle::into_inner`. -/
def ahIntoInner (g : ArtHandle) : Can := g.value

/-- The drop glue of a handle of an artifact. -/
def ahDrop (g : ArtHandle) (mem : Memory T D) : Memory T D := rcDrop g.value.addr mem

/-- **C54 (artifacts)** A handle made of an artifact gives the artifact back, at its type (and at no other), and points to
where the artifact is.  A copy of a handle is worth as much as the handle: with the one in place of the other, all is as
before. -/
theorem C54_artifact_kept {w : Nat} (hw : 0 < w) [DecidableEq T] {W : CWorld T D} (h : CReach w W) :
    (∀ b ∈ W.bins, ∀ vtable, downcastCan b.ty (ahIntoInner (ahNew vtable b)) W.mem = (W.mem, some b) ∧
      (∀ t, t ≠ b.ty → (downcastCan t (ahIntoInner (ahNew vtable b)) W.mem).2 = none) ∧
      canAsPtr w (ahNew vtable b).value W.mem = binAsPtr w b W.mem) ∧
    ∀ g : ArtHandle, g.value ∈ W.cans → (ahClone g W.mem).2 = g ∧ ahDrop g (ahClone g W.mem).1 = W.mem ∧
      CStep w W { W with mem := (ahClone g W.mem).1, cans := (ahClone g W.mem).2.value :: W.cans } := by
  constructor
  · intro b hb vtable
    obtain ⟨v, -, h1, -, h2, i, h3, h4⟩ := C37_round_trip hw h hb
    exact ⟨h1, fun t ht => by rw [show ahIntoInner (ahNew vtable b) = fromBin b from rfl, (h2 t ht).1], by rw [h3]; exact h4⟩
  · intro g hg
    obtain ⟨x, hx, hs⟩ := (h.inv hw).rc.mem_strong (a := g.value.addr)
      (List.mem_append_right _ (List.mem_map.2 ⟨_, hg, rfl⟩))
    refine ⟨rfl, ?_, .cloneCan W _ hg⟩
    apply ExtTreeMap.ext_getElem?
    intro a
    have hs' : ¬ x.strong + 1 ≤ 1 := by omega
    simp only [ahDrop, ahClone, rcDrop, rcClone, ExtTreeMap.getElem?_modify, compare_self, if_true, hx, Option.map_some,
      if_neg hs', ExtTreeMap.getElem?_insert]
    by_cases ha : compare g.value.addr a = .eq
    · have ha' : g.value.addr = a := by simpa using ha
      subst ha'
      simp [hx]
    · simp [ha]

/-- `Box::new`: the address of a boxed value.  A value without size gets no memory: the address is the
dangling one, which is the alignment. -/
def boxPlace (l : Layout) (a : Addr) : Prop := if l.size = 0 then a = l.align else 0 < a

/-- For boxed artifacts (`Box<dyn Any>`) the same does not hold, contrary to the documentation
(`src/diagnostics/mod.rs` 118-119): any two boxed values of size zero and the same alignment have the
same address. -/
theorem C54_box_counterexample (ty : T) (v v' : D) (align : Nat) (a a' : Addr)
    (ha : boxPlace ⟨0, align⟩ a) (ha' : boxPlace ⟨0, align⟩ a') :
    boxCanPtr (boxFromBin ⟨a, ty, v⟩) = boxCanPtr (boxFromBin ⟨a', ty, v'⟩) := by
  simp only [boxPlace, if_true] at ha ha'
  simp [boxCanPtr, boxFromBin, ha, ha']

example : boxPlace ⟨0, 4⟩ 4 := rfl

/-- `C54_artifacts`: two handles of one artifact, made at places where the compiler used different vtables. -/
example : ∃ W : CWorld String Nat, CReach 8 W ∧ ahEq 8 ⟨⟨0⟩, 0⟩ ⟨⟨0⟩, 0⟩ W.mem ∧ ¬ ahEq 8 ⟨⟨0⟩, 0⟩ ⟨⟨0⟩, 1⟩ W.mem := by
  obtain ⟨W, h, _, hc, _⟩ := exC
  exact ⟨W, h, (C54_artifacts (by decide) h (g := ⟨⟨0⟩, 0⟩) (g' := ⟨⟨0⟩, 0⟩) hc hc).1.2 ⟨rfl, rfl⟩,
    fun he => absurd ((C54_artifacts (by decide) h (g := ⟨⟨0⟩, 0⟩) (g' := ⟨⟨0⟩, 1⟩) hc hc).1.1 he).2 (by decide)⟩


/-- `C54_artifact_kept`, there. -/
example : ∃ W : CWorld String Nat, CReach 8 W ∧ ahDrop ⟨⟨0⟩, 0⟩ (ahClone ⟨⟨0⟩, 0⟩ W.mem).1 = W.mem ∧
    downcastCan "A" (ahIntoInner (ahNew 0 ⟨0, "A"⟩)) W.mem = (W.mem, some ⟨0, "A"⟩) := by
  obtain ⟨W, h, hb, hc, _⟩ := exC
  obtain ⟨h1, h2⟩ := C54_artifact_kept (by decide) h
  exact ⟨W, h, (h2 ⟨⟨0⟩, 0⟩ hc).2.1, (h1 _ hb 0).1⟩

end Daab.Mem
