import Verif.Props10
import Verif.Props1

/-!
# The two models of memory fit together

`Model` treats a builder as a pair of an address and a builder, has a map `heap` of the builders that are alive, and
lets the allocator pick any address that is neither in `heap` nor in the cache's table.  `Bp` has boxes with
reference counts.  Here: every action in the second model is one of the first.
-/

open Std

namespace Daab.Mem

variable {T D : Type} {σ : Sig}

/-- Somebody (a blueprint or a doctor's handle) holds the builder number `o`, and its id is `i`. -/
def HeldAt (w : Nat) (W : World T D) (i : Addr) (o : Nat) : Prop :=
  (∃ b ∈ W.bps, bpId w b W.mem = some i ∧ b.origin = o) ∨ ∃ g ∈ W.handles, bhId g = i ∧ g.origin = o

/-- A cache has an entry for the builder number `o`, filed under `i`. -/
def EntryAt (W : World T D) (i : Addr) (o : Nat) : Prop := ∃ k ∈ W.known, k.key = i ∧ k.origin = o

/-- The state of the cache model fits the memory: `heap` has the builders somebody holds, under their ids; the
table of known builders has the entries; `born` are the builders created so far.  `name` is what the cache model
calls the `n`-th builder. -/
structure Fits (name : Nat → σ.B) (w : Nat) (s : St σ) (W : World T D) : Prop where
  heap : ∀ (i : Addr) b, s.heap[i]? = some b ↔ ∃ o, name o = b ∧ HeldAt w W i o
  known : ∀ (i : Addr) b, s.c.known[i]? = some b ↔ ∃ o, name o = b ∧ EntryAt W i o
  born : ∀ b, b ∈ s.born ↔ ∃ o, o < W.born.length ∧ name o = b

/-- What the cache model can do to its heap and its table of known builders: `Blueprint::new`, dropping a builder,
`make_builder_known` of a builder that is alive, forgetting an entry, or nothing. -/
inductive MemStep (s : St σ) : St σ → Prop
  | alloc (p : Promise σ) (s' : St σ) (h : allocB p s = some s') : MemStep s s'
  | free (a : Id) : MemStep s (freeB a s)
  | know (p : Promise σ) (h : s.live p = true) : MemStep s (s.onCache (makeKnown p))
  | forget (a : Id) : MemStep s (s.onCache fun c => { c with known := c.known.erase a })
  | idle : MemStep s s

/-- Several of them. -/
inductive MemReach (w : σ.W) : St σ → Prop
  | start : MemReach w (St.new w)
  | step (s s' : St σ) (h : MemReach w s) (hs : MemStep s s') : MemReach w s'

/-! ## Ids in terms of boxes -/

/-- Somebody holds the builder. -/
def Holder (W : World T D) (o : Nat) : Prop := (∃ b ∈ W.bps, b.origin = o) ∨ ∃ g ∈ W.handles, g.origin = o

/-- There is an entry for the builder. -/
def HasEntry (W : World T D) (o : Nat) : Prop := ∃ k ∈ W.known, k.origin = o

/-- There is a box of the builder, and its value is at `i`. -/
def IdFor (w : Nat) (W : World T D) (i : Addr) (o : Nat) : Prop :=
  ∃ (a : Addr) (x : RcBox T D), W.mem[a]? = some x ∧ x.origin = o ∧ i = a + valueOffset w x.layout

theorem IdFor.unique {w : Nat} {W : World T D} (hv : WInv w W) {i j : Addr} {o : Nat} (hi : IdFor w W i o)
    (hj : IdFor w W j o) : i = j := by
  obtain ⟨a, x, hx, ho, rfl⟩ := hi
  obtain ⟨b, y, hy, hp, rfl⟩ := hj
  by_cases hab : a = b
  · subst hab; rw [hx] at hy; cases hy; rfl
  · exact absurd (ho.trans hp.symm) (hv.sep a b x y hx hy hab).1

theorem IdFor.lt {w : Nat} {W : World T D} (hv : WInv w W) {i : Addr} {o : Nat} (hi : IdFor w W i o) :
    o < W.born.length := by
  obtain ⟨a, x, hx, rfl, _⟩ := hi
  obtain ⟨-, d, h2, -⟩ := hv.box a x hx
  exact (List.getElem?_eq_some_iff.1 h2).1

theorem held_iff {w : Nat} {W : World T D} (hv : WInv w W) (i : Addr) (o : Nat) :
    HeldAt w W i o ↔ Holder W o ∧ IdFor w W i o := by
  constructor
  · intro h
    refine ⟨?_, ?_⟩
    · rcases h with ⟨b, hb, _, ho⟩ | ⟨g, hg, _, ho⟩
      · exact .inl ⟨b, hb, ho⟩
      · exact .inr ⟨g, hg, ho⟩
    · refine hv.idOf ?_
      rcases h with h | h
      · exact .inl h
      · exact .inr (.inr h)
  · rintro ⟨⟨b, hb, rfl⟩ | ⟨g, hg, rfl⟩, hi⟩
    · obtain ⟨x, hx, ho, _, hid⟩ := hv.id_eq hb
      refine .inl ⟨b, hb, ?_, rfl⟩
      rw [hid, hi.unique hv ⟨_, x, hx, ho, rfl⟩]
    · obtain ⟨x, hx, ho, hid⟩ := hv.hd g hg
      refine .inr ⟨g, hg, ?_, rfl⟩
      rw [bhId, hid, hi.unique hv ⟨_, x, hx, ho, rfl⟩]

theorem entry_iff {w : Nat} {W : World T D} (hv : WInv w W) (i : Addr) (o : Nat) :
    EntryAt W i o ↔ HasEntry W o ∧ IdFor w W i o := by
  constructor
  · rintro ⟨k, hk, h1, h2⟩
    exact ⟨⟨k, hk, h2⟩, hv.idOf (.inr (.inl ⟨k, hk, h1, h2⟩))⟩
  · rintro ⟨⟨k, hk, rfl⟩, hi⟩
    obtain ⟨x, hx, ho, hid⟩ := hv.kn k hk
    exact ⟨k, hk, by rw [hid, hi.unique hv ⟨_, x, hx, ho, rfl⟩], rfl⟩

theorem id_exists {w : Nat} {W : World T D} (hv : WInv w W) {o : Nat} (h : Holder W o ∨ HasEntry W o) :
    ∃ i, IdFor w W i o := by
  rcases h with (⟨b, hb, rfl⟩ | ⟨g, hg, rfl⟩) | ⟨k, hk, rfl⟩
  · obtain ⟨x, hx, ho, _⟩ := hv.id_eq hb
    exact ⟨_, _, x, hx, ho, rfl⟩
  · obtain ⟨x, hx, ho, _⟩ := hv.hd g hg
    exact ⟨_, _, x, hx, ho, rfl⟩
  · obtain ⟨x, hx, ho, _⟩ := hv.kn k hk
    exact ⟨_, _, x, hx, ho, rfl⟩

/-- No box moves, and a new box is for a new builder. -/
def Stays (w : Nat) (W W' : World T D) : Prop :=
  ∀ i o, o < W.born.length → IdFor w W' i o → IdFor w W i o

theorem Stays.of_sub {w : Nat} {W W' : World T D} (h : Sub W.mem W'.mem) : Stays w W W' := by
  rintro i o _ ⟨a, x, hx, ho, rfl⟩
  obtain ⟨y, hy, hl, _, hyo, _⟩ := h a x hx
  exact ⟨a, y, hy, hyo.symm.trans ho, by rw [hl]⟩

theorem Stays.iff {w : Nat} {W W' : World T D} (hv : WInv w W) (hv' : WInv w W') (hst : Stays w W W') {o : Nat}
    (h : Holder W o ∨ HasEntry W o) (h' : Holder W' o ∨ HasEntry W' o) (i : Addr) :
    IdFor w W' i o ↔ IdFor w W i o := by
  obtain ⟨j, hj⟩ := id_exists hv h
  obtain ⟨j', hj'⟩ := id_exists hv' h'
  have := hst j' o (hj.lt hv) hj'
  obtain rfl := hj.unique hv this
  exact ⟨fun hi => by rw [hi.unique hv' hj']; exact hj, fun hi => by rw [hi.unique hv hj]; exact hj'⟩

theorem step_stays {w : Nat} (hw : 0 < w) {W W' : World T D} (h : WInv w W) (hs : WStep w W W') : Stays w W W' := by
  cases hs with
  | new k a l ty v hl hf =>
    have ha := free_none hw hl (fun b x hx => (h.box b x hx).1) hf
    obtain ⟨_, hsub, _⟩ := bpNew_spec k h.rc ha l ty v W.born.length
    rintro i o hlt ⟨b, x, hx, ho, rfl⟩
    obtain ⟨y, hy, hyl, _, hyo, _⟩ := hsub b x hx
    unfold rcNew at hy
    rw [ExtTreeMap.getElem?_insert] at hy
    split at hy
    · cases hy
      simp only at hyo
      omega
    · exact ⟨b, y, hy, hyo.symm.trans ho, by rw [hyl]⟩
  | clone b hb =>
    have hrefs : ∀ a ∈ b.refs, a ∈ strongs W.bps ++ hstrongs W.handles :=
      fun a ha => List.mem_append_left _ (List.mem_flatMap.2 ⟨b, hb, ha⟩)
    exact .of_sub (bpClone_spec h.rc hrefs).2.1
  | convert p q b hb c mem' b' hc =>
    have hbm : b ∈ W.bps := by rw [hb]; simp
    have hrc := h.rc
    rw [hb] at hrc
    exact .of_sub (bpConvert_spec (hrc.congr (strongs_count p q b _) (fun _ => rfl)) (h.bp b hbm).1 hc).2.1
  | drop p q b hb =>
    have hrc := h.rc
    rw [hb] at hrc
    exact .of_sub (bpDrop_spec (hrc.congr (strongs_count p q b _) (fun _ => rfl))).2
  | know b hb k hk =>
    have hrefs : ∀ a ∈ b.refs, a ∈ strongs W.bps ++ hstrongs W.handles :=
      fun a ha => List.mem_append_left _ (List.mem_flatMap.2 ⟨b, hb, ha⟩)
    exact .of_sub (bpKnow_spec (w := w) h.rc hrefs (h.bp b hb).1).2.1
  | forget p q k hk =>
    have hrc := h.rc
    rw [hk] at hrc
    have hrc : RcOk W.mem (strongs W.bps ++ hstrongs W.handles) (k.weak :: (p ++ q).map Known.weak) := by
      refine hrc.congr (fun _ => rfl) fun x => ?_
      simp only [List.map_append, List.map_cons, List.count_append, List.count_cons]
      omega
    exact .of_sub hrc.weakDrop.2
  | handle b hb k hk =>
    obtain ⟨hcan, -, x, hx, ho⟩ := h.bp b hb
    have hc := h.rc.clone (a := b.builder)
      (List.mem_append_left _ (List.mem_flatMap.2 ⟨b, hb, by simp [Bp.refs]⟩))
    obtain ⟨e1, e2⟩ := bhNew_eq hcan hx (w := w)
    refine .of_sub ?_
    simp only [e1]
    exact hc.2
  | cloneHandle k hk =>
    exact .of_sub (h.rc.clone (a := k.can.addr) (List.mem_append_right _ (List.mem_map.2 ⟨k, hk, rfl⟩))).2
  | dropHandle p q k hk =>
    have hrc : RcOk W.mem (k.can.addr :: (strongs W.bps ++ hstrongs (p ++ q))) (W.known.map Known.weak) := by
      refine h.rc.congr (fun x => ?_) fun _ => rfl
      simp only [hstrongs, hk, List.map_append, List.map_cons, List.count_append, List.count_cons]
      omega
    exact .of_sub hrc.drop.2

/-! ## Simulation -/

variable {name : Nat → σ.B} {w : Nat} {s : St σ} {W W' : World T D}

theorem held_same (hv : WInv w W) (hv' : WInv w W') (hst : Stays w W W') {o : Nat} (h : Holder W' o ↔ Holder W o)
    (i : Addr) : HeldAt w W' i o ↔ HeldAt w W i o := by
  rw [held_iff hv, held_iff hv', h]
  refine and_congr_right fun h' => ?_
  exact hst.iff hv hv' (.inl h') (.inl (h.2 h')) i

theorem entry_same (hv : WInv w W) (hv' : WInv w W') (hst : Stays w W W') {o : Nat} (h : HasEntry W' o ↔ HasEntry W o)
    (i : Addr) : EntryAt W' i o ↔ EntryAt W i o := by
  rw [entry_iff hv, entry_iff hv', h]
  refine and_congr_right fun h' => ?_
  exact hst.iff hv hv' (.inr h') (.inr (h.2 h')) i

/-- Who is held and who has an entry does not change. -/
theorem Fits.same (hv : WInv w W) (hv' : WInv w W') (hst : Stays w W W') (hf : Fits name w s W)
    (h1 : ∀ o, Holder W' o ↔ Holder W o) (h2 : ∀ o, HasEntry W' o ↔ HasEntry W o)
    (h3 : W'.born.length = W.born.length) : Fits name w s W' where
  heap i b := by
    rw [hf.heap]
    exact exists_congr fun o => and_congr_right fun _ => (held_same hv hv' hst (h1 o) i).symm
  known i b := by
    rw [hf.known]
    exact exists_congr fun o => and_congr_right fun _ => (entry_same hv hv' hst (h2 o) i).symm
  born b := by rw [hf.born, h3]

/-- The last one who held the builder number `o` lets it go (or somebody else still holds it). -/
theorem Fits.release (hw : 0 < w) (hr : WReach w W) (hv' : WInv w W') (hst : Stays w W W') (hf : Fits name w s W) {o : Nat}
    (ho : Holder W o) (h0 : ∀ p, Holder W' p → Holder W p)
    (h1 : ∀ p, p ≠ o → (Holder W' p ↔ Holder W p)) (h2 : ∀ p, HasEntry W' p ↔ HasEntry W p)
    (h3 : W'.born.length = W.born.length) : ∃ s', MemStep s s' ∧ Fits name w s' W' := by
  have hv := hr.inv hw
  by_cases hh : Holder W' o
  · refine ⟨s, .idle, hf.same hv hv' hst (fun p => ?_) h2 h3⟩
    by_cases hp : p = o
    · subst hp; exact ⟨fun _ => ho, fun _ => hh⟩
    · exact h1 p hp
  · obtain ⟨i, hi⟩ := id_exists hv (.inl ho)
    have hheld : HeldAt w W i o := (held_iff hv i o).2 ⟨ho, hi⟩
    refine ⟨_, .free i, ?_, ?_, ?_⟩
    · intro j b
      simp only [freeB, ExtTreeMap.getElem?_erase]
      have hij : ∀ p, HeldAt w W j p → (i = j ↔ o = p) := fun p hp =>
        C38_distinct_ids hw hr (hheld.imp_right .inr) (hp.imp_right .inr)
      split
      · next he =>
        have he : i = j := by simpa using he
        refine ⟨nofun, ?_⟩
        rintro ⟨p, _, hp⟩
        exfalso
        rw [held_iff hv'] at hp
        have hpw : HeldAt w W j p := by
          rw [held_iff hv]
          have h := h0 p hp.1
          exact ⟨h, (hst.iff hv hv' (.inl h) (.inl hp.1) j).1 hp.2⟩
        have := (hij p hpw).1 he
        subst this
        exact hh hp.1
      · next he =>
        have he : i ≠ j := by simpa using he
        rw [hf.heap]
        refine exists_congr fun p => and_congr_right fun _ => ?_
        constructor
        · intro hp
          have hpo : p ≠ o := by rintro rfl; exact he ((hij _ hp).2 rfl)
          rw [held_iff hv] at hp
          rw [held_iff hv']
          have h := (h1 p hpo).2 hp.1
          exact ⟨h, (hst.iff hv hv' (.inl hp.1) (.inl h) j).2 hp.2⟩
        · intro hp
          rw [held_iff hv'] at hp
          rw [held_iff hv]
          have h := h0 p hp.1
          exact ⟨h, (hst.iff hv hv' (.inl h) (.inl hp.1) j).1 hp.2⟩
    · intro j b
      change s.c.known[j]? = some b ↔ _
      rw [hf.known]
      exact exists_congr fun p => and_congr_right fun _ => (entry_same hv hv' hst (h2 p) j).symm
    · intro b
      simp only [freeB]
      rw [hf.born, h3]

/-- A cache gets to know the builder number `o`, which somebody holds. -/
theorem Fits.knows (hw : 0 < w) (hr : WReach w W) (hr' : WReach w W') (hst : Stays w W W') (hf : Fits name w s W)
    {o : Nat} (ho : Holder W o) (h1 : ∀ p, Holder W' p ↔ Holder W p)
    (h2 : ∀ p, HasEntry W' p ↔ HasEntry W p ∨ p = o) (h3 : W'.born.length = W.born.length) :
    ∃ s', MemStep s s' ∧ Fits name w s' W' := by
  have hv := hr.inv hw
  have hv' := hr'.inv hw
  obtain ⟨i, hi⟩ := id_exists hv (.inl ho)
  have hheld : HeldAt w W i o := (held_iff hv i o).2 ⟨ho, hi⟩
  have hheap : s.heap[i]? = some (name o) := (hf.heap i _).2 ⟨o, rfl, hheld⟩
  have hlive : s.live (⟨i, name o⟩ : Promise σ) = true := by simp [St.live, hheap]
  have hne : ∀ p, p ≠ o → ∀ j, EntryAt W' j p ↔ EntryAt W j p := fun p hp j =>
    entry_same hv hv' hst ⟨fun h => ((h2 p).1 h).resolve_right hp, fun h => (h2 p).2 (.inl h)⟩ j
  have hio : EntryAt W' i o := by
    rw [entry_iff hv']
    have h' : HasEntry W' o := (h2 o).2 (.inr rfl)
    exact ⟨h', (hst.iff hv hv' (.inl ho) (.inr h') i).2 hi⟩
  have huniq : ∀ j p, EntryAt W' j p → (i = j ↔ o = p) := fun j p hp =>
    C38_distinct_ids hw hr' (.inr (.inl hio)) (.inr (.inl hp))
  refine ⟨_, .know ⟨i, name o⟩ hlive, ?_, ?_, ?_⟩
  · intro j b
    change s.heap[j]? = some b ↔ _
    rw [hf.heap]
    exact exists_congr fun p => and_congr_right fun _ => (held_same hv hv' hst (h1 p) j).symm
  · intro j b
    have hold : ∀ j p, EntryAt W j p → (i = j ↔ o = p) := fun j p hp =>
      C38_distinct_ids hw hr (hheld.imp_right .inr) (.inr (.inl hp))
    have hget : (s.c.known[i]?).getD (name o) = name o := by
      cases hk : s.c.known[i]? with
      | none => rfl
      | some b' =>
        obtain ⟨q, rfl, hq⟩ := (hf.known i b').1 hk
        rw [(hold i q hq).1 rfl]
        rfl
    simp only [St.onCache, makeKnown_getElem, hget]
    split
    · next h =>
      subst h
      constructor
      · intro hb; cases hb; exact ⟨o, rfl, hio⟩
      · rintro ⟨p, rfl, hp⟩
        rw [(huniq _ p hp).1 rfl]
    · next h =>
      rw [hf.known]
      refine exists_congr fun p => and_congr_right fun hp => ?_
      by_cases hpo : p = o
      · subst hpo
        exact ⟨fun hp => absurd ((hold _ _ hp).2 rfl).symm h, fun hp => absurd ((huniq _ _ hp).2 rfl).symm h⟩
      · exact (hne p hpo j).symm
  · intro b
    change b ∈ s.born ↔ _
    rw [hf.born, h3]

/-- An entry for the builder number `o` is dropped. -/
theorem Fits.forgets (hw : 0 < w) (hr : WReach w W) (hr' : WReach w W') (hst : Stays w W W') (hf : Fits name w s W)
    {o : Nat} (ho : HasEntry W o) (h1 : ∀ p, Holder W' p ↔ Holder W p) (h0 : ∀ p, HasEntry W' p → HasEntry W p)
    (h2 : ∀ p, p ≠ o → (HasEntry W' p ↔ HasEntry W p)) (h3 : W'.born.length = W.born.length) :
    ∃ s', MemStep s s' ∧ Fits name w s' W' := by
  have hv := hr.inv hw
  have hv' := hr'.inv hw
  by_cases hh : HasEntry W' o
  · refine ⟨s, .idle, hf.same hv hv' hst h1 (fun p => ?_) h3⟩
    by_cases hp : p = o
    · subst hp; exact ⟨fun _ => ho, fun _ => hh⟩
    · exact h2 p hp
  · obtain ⟨i, hi⟩ := id_exists hv (.inr ho)
    have hat : EntryAt W i o := (entry_iff hv i o).2 ⟨ho, hi⟩
    have hij : ∀ j p, EntryAt W j p → (i = j ↔ o = p) := fun j p hp =>
      C38_distinct_ids hw hr (.inr (.inl hat)) (.inr (.inl hp))
    refine ⟨_, .forget i, ?_, ?_, ?_⟩
    · intro j b
      change s.heap[j]? = some b ↔ _
      rw [hf.heap]
      exact exists_congr fun p => and_congr_right fun _ => (held_same hv hv' hst (h1 p) j).symm
    · intro j b
      simp only [St.onCache, ExtTreeMap.getElem?_erase]
      have back : ∀ p, EntryAt W' j p → EntryAt W j p := by
        intro p hp
        rw [entry_iff hv'] at hp
        rw [entry_iff hv]
        exact ⟨h0 p hp.1, (hst.iff hv hv' (.inr (h0 p hp.1)) (.inr hp.1) j).1 hp.2⟩
      split
      · next he =>
        have he : i = j := by simpa using he
        refine ⟨nofun, ?_⟩
        rintro ⟨p, _, hp⟩
        obtain rfl := (hij j p (back p hp)).1 he
        rw [entry_iff hv'] at hp
        exact absurd hp.1 hh
      · next he =>
        have he : i ≠ j := by simpa using he
        rw [hf.known]
        refine exists_congr fun p => and_congr_right fun _ => ⟨fun hp => ?_, back p⟩
        have hpo : p ≠ o := by rintro rfl; exact he ((hij _ _ hp).2 rfl)
        exact (entry_same hv hv' hst (h2 p hpo) j).2 hp
    · intro b
      change b ∈ s.born ↔ _
      rw [hf.born, h3]

/-- A blueprint for a new builder. -/
theorem Fits.creates (hname : Function.Injective name) (hw : 0 < w) (hr : WReach w W) (hr' : WReach w W')
    (hst : Stays w W W') (hf : Fits name w s W)
    (h1 : ∀ p, Holder W' p ↔ Holder W p ∨ p = W.born.length) (h2 : ∀ p, HasEntry W' p ↔ HasEntry W p)
    (h3 : W'.born.length = W.born.length + 1) :
    ∃ i s', HeldAt w W' i W.born.length ∧ allocB ⟨i, name W.born.length⟩ s = some s' ∧ Fits name w s' W' := by
  have hv := hr.inv hw
  have hv' := hr'.inv hw
  have ho : Holder W' W.born.length := (h1 _).2 (.inr rfl)
  obtain ⟨i, hi⟩ := id_exists hv' (.inl ho)
  have hheld : HeldAt w W' i W.born.length := (held_iff hv' _ _).2 ⟨ho, hi⟩
  have lt1 : ∀ {j p}, HeldAt w W j p → p < W.born.length := fun h => (((held_iff hv _ _).1 h).2).lt hv
  have lt2 : ∀ {j p}, EntryAt W j p → p < W.born.length := fun h => (((entry_iff hv _ _).1 h).2).lt hv
  have up1 : ∀ j p, p ≠ W.born.length → (HeldAt w W' j p ↔ HeldAt w W j p) := fun j p hp =>
    held_same hv hv' hst (by rw [h1]; exact or_iff_left hp) j
  have up2 : ∀ j p, EntryAt W' j p ↔ EntryAt W j p := fun j p => entry_same hv hv' hst (h2 p) j
  have hn1 : s.heap[i]? = none := by
    cases hs : s.heap[i]? with
    | none => rfl
    | some b =>
      obtain ⟨p, _, hp⟩ := (hf.heap i b).1 hs
      have hlt := lt1 hp
      have := (C38_distinct_ids hw hr' (hheld.imp_right .inr)
        (((up1 i p (by omega)).2 hp).imp_right .inr)).1 rfl
      omega
  have hn2 : s.c.known[i]? = none := by
    cases hs : s.c.known[i]? with
    | none => rfl
    | some b =>
      obtain ⟨p, _, hp⟩ := (hf.known i b).1 hs
      have hlt := lt2 hp
      have := (C38_distinct_ids hw hr' (hheld.imp_right .inr) (.inr (.inl ((up2 i p).2 hp)))).1 rfl
      omega
  have hn3 : name W.born.length ∉ s.born := by
    intro h
    obtain ⟨p, hp, he⟩ := (hf.born _).1 h
    have := hname he
    omega
  refine ⟨i, { s with heap := s.heap.insert i (name W.born.length), born := name W.born.length :: s.born }, hheld, ?_,
    ?_, ?_, ?_⟩
  · unfold allocB
    have e1 : s.heap.contains i = false := by
      cases h : s.heap.contains i with
      | false => rfl
      | true =>
        rw [ExtTreeMap.contains_iff_mem, mem_getElem] at h
        obtain ⟨b, hb⟩ := h
        rw [hn1] at hb; cases hb
    have e2 : s.c.known.contains i = false := by
      cases h : s.c.known.contains i with
      | false => rfl
      | true =>
        rw [ExtTreeMap.contains_iff_mem, mem_getElem] at h
        obtain ⟨b, hb⟩ := h
        rw [hn2] at hb; cases hb
    simp [e1, e2, hn3]
  · intro j b
    simp only [ExtTreeMap.getElem?_insert]
    have hij : ∀ p, HeldAt w W' j p → (i = j ↔ W.born.length = p) := fun p hp =>
      C38_distinct_ids hw hr' (hheld.imp_right .inr) (hp.imp_right .inr)
    split
    · next he =>
      have he : i = j := by simpa using he
      subst he
      constructor
      · intro h; cases h; exact ⟨_, rfl, hheld⟩
      · rintro ⟨p, rfl, hp⟩
        rw [← (hij p hp).1 rfl]
    · next he =>
      have he : i ≠ j := by simpa using he
      rw [hf.heap]
      refine exists_congr fun p => and_congr_right fun _ => ?_
      by_cases hp : p = W.born.length
      · subst hp
        exact ⟨fun h => absurd (lt1 h) (by omega), fun h => absurd ((hij _ h).2 rfl) he⟩
      · exact (up1 j p hp).symm
  · intro j b
    change s.c.known[j]? = some b ↔ _
    rw [hf.known]
    exact exists_congr fun p => and_congr_right fun _ => (up2 j p).symm
  · intro b
    simp only [List.mem_cons, h3]
    rw [hf.born]
    constructor
    · rintro (rfl | ⟨p, hp, rfl⟩)
      · exact ⟨_, by omega, rfl⟩
      · exact ⟨p, by omega, rfl⟩
    · rintro ⟨p, hp, rfl⟩
      by_cases he : p = W.born.length
      · subst he; exact .inl rfl
      · exact .inr ⟨p, by omega, rfl⟩

/-- **C57** Every action of a program, its builders and caches in memory is one of the cache model's: if its state
fits the memory before, there is a state it can go to that fits the memory afterwards; and creating a builder is an
allocation of the cache model, which succeeds. -/
theorem C57_memory_step (hname : Function.Injective name) (hw : 0 < w) (h : WReach w W) (hs : WStep w W W')
    (hf : Fits name w s W) :
    ∃ s', MemStep s s' ∧ Fits name w s' W' ∧
      (W'.born ≠ W.born → ∃ i, HeldAt w W' i W.born.length ∧ allocB ⟨i, name W.born.length⟩ s = some s') := by
  have hr' : WReach w W' := .step _ _ h hs
  have hv := h.inv hw
  have hv' := hr'.inv hw
  have hst := step_stays hw hv hs
  have plain : ∀ {X : Prop}, W'.born = W.born → (∃ s', MemStep s s' ∧ Fits name w s' W') →
      ∃ s', MemStep s s' ∧ Fits name w s' W' ∧ (W'.born ≠ W.born → ∃ i, HeldAt w W' i W.born.length ∧
        allocB ⟨i, name W.born.length⟩ s = some s') := by
    rintro _ hb ⟨s', h1, h2⟩
    exact ⟨s', h1, h2, fun h => absurd hb h⟩
  cases hs with
  | new k a l ty v hl hfree =>
    obtain ⟨i, s', h1, h2, h3⟩ := hf.creates hname hw h hr' hst
      (fun p => by
        have : (bpNew k a l ty v W.born.length W.mem).2.origin = W.born.length := by cases k <;> rfl
        simp only [Holder, List.mem_cons, exists_eq_or_imp, this]
        grind)
      (fun p => Iff.rfl) (by simp)
    exact ⟨s', .alloc _ _ h2, h3, fun _ => ⟨i, h1, h2⟩⟩
  | clone b hb =>
    refine plain (X := True) rfl ⟨s, .idle, hf.same hv hv' hst (fun p => ?_) (fun p => Iff.rfl) rfl⟩
    have : (bpClone b W.mem).2.origin = b.origin := by
      unfold bpClone; cases b.canned <;> rfl
    simp only [Holder, List.mem_cons, exists_eq_or_imp, this]
    grind
  | convert p q b hb c mem' b' hc =>
    have hbm : b ∈ W.bps := by rw [hb]; simp
    have hrc := hv.rc
    rw [hb] at hrc
    have hor := (bpConvert_spec (hrc.congr (strongs_count p q b _) (fun _ => rfl)) (hv.bp b hbm).1 hc).2.2.2.2.2
    refine plain (X := True) rfl ⟨s, .idle, hf.same hv hv' hst (fun p => ?_) (fun p => Iff.rfl) rfl⟩
    simp only [Holder, hb]
    grind
  | drop p q b hb =>
    refine plain (X := True) rfl (hf.release (o := b.origin) hw h hv' hst (.inl ⟨b, by simp [hb], rfl⟩) ?_ ?_
      (fun p => Iff.rfl) rfl)
    · intro r; simp only [Holder, hb]; grind
    · intro r hr; simp only [Holder, hb]; grind
  | know b hb k hk =>
    have hor : k.origin = b.origin := by
      unfold bpKnow at hk
      simp only at hk
      cases hi : bpId w b W.mem with
      | none => rw [hi] at hk; cases hk
      | some i => rw [hi] at hk; cases hk; rfl
    refine plain (X := True) rfl (hf.knows (o := b.origin) hw h hr' hst (.inl ⟨b, hb, rfl⟩) (fun p => Iff.rfl) ?_ rfl)
    intro r; simp only [HasEntry]; grind
  | forget p q k hk =>
    refine plain (X := True) rfl (hf.forgets (o := k.origin) hw h hr' hst ⟨k, by simp [hk], rfl⟩ (fun p => Iff.rfl) ?_
      ?_ rfl)
    · intro r; simp only [HasEntry, hk]; grind
    · intro r hr; simp only [HasEntry, hk]; grind
  | handle b hb g hg =>
    have hor : g.origin = b.origin := by
      unfold bhNew at hg
      simp only at hg
      cases hi : bpId w b W.mem with
      | none => rw [hi] at hg; cases hg
      | some i => rw [hi] at hg; cases hg; rfl
    refine plain (X := True) rfl ⟨s, .idle, hf.same hv hv' hst (fun p => ?_) (fun p => Iff.rfl) rfl⟩
    simp only [Holder]; grind
  | cloneHandle g hg =>
    refine plain (X := True) rfl ⟨s, .idle, hf.same hv hv' hst (fun p => ?_) (fun p => Iff.rfl) rfl⟩
    simp only [Holder, bhClone]; grind
  | dropHandle p q g hg =>
    refine plain (X := True) rfl (hf.release (o := g.origin) hw h hv' hst (.inr ⟨g, by simp [hg], rfl⟩) ?_ ?_
      (fun p => Iff.rfl) rfl)
    · intro r; simp only [Holder, hg]; grind
    · intro r hr; simp only [Holder, hg]; grind

/-- **C57** Every memory a program can produce is the memory of a state of the cache model. -/
theorem C57_memory (hname : Function.Injective name) (hw : 0 < w) (h : WReach w W) (x : σ.W) :
    ∃ s : St σ, MemReach x s ∧ Fits name w s W := by
  induction h with
  | start =>
    exact ⟨_, .start, by simp [St.new, HeldAt], by simp [St.new, EntryAt], by simp [St.new]⟩
  | step W W' h hs ih =>
    obtain ⟨s, h1, h2⟩ := ih
    obtain ⟨s', h3, h4, _⟩ := C57_memory_step hname hw h hs h2
    exact ⟨s', .step s s' h1 h3, h4⟩

/-- **C57** In a state that fits, a promise of the cache model is alive iff somebody holds the builder; and a known
builder counts as garbage for the collector iff its weak reference can not be upgraded. -/
theorem C57_alive (hname : Function.Injective name) (hw : 0 < w) (h : WReach w W) (hf : Fits name w s W) :
    (∀ i o, s.live (⟨i, name o⟩ : Promise σ) = true ↔ HeldAt w W i o) ∧
    (∀ k ∈ W.known, isDead s k.key (name k.origin) = false ↔ (rcUpgrade k.weak W.mem).2 = true) := by
  have hv := h.inv hw
  have h1 : ∀ i o, s.heap[i]? = some (name o) ↔ HeldAt w W i o := by
    intro i o
    rw [hf.heap]
    constructor
    · rintro ⟨p, he, hp⟩
      rw [← hname he]; exact hp
    · intro hp; exact ⟨o, rfl, hp⟩
  refine ⟨?_, ?_⟩
  · intro i o
    rw [← h1]
    simp [St.live]
  · intro k hk
    rw [(C36_weak hw h hk).1]
    have : isDead s k.key (name k.origin) = false ↔ s.heap[k.key]? = some (name k.origin) := by
      simp [isDead]
    rw [this, h1, held_iff hv]
    have hid := (entry_iff hv k.key k.origin).1 ⟨k, hk, rfl, rfl⟩
    exact ⟨fun h => h.1, fun h => ⟨h, hid.2⟩⟩

/-! The program of `Props10` (two builders of size zero, the second one's dyn blueprint and a converted clone of the
first one's are left, a cache knows the first): the cache model has a state with both builders at their ids 16 and
32, in which the first is known; and it reaches it by its own memory operations. -/

/-- A signature in which everything is a number. -/
abbrev exSig : Sig where
  B := Nat
  V := Nat
  S := Nat
  E := Nat
  W := Nat
  T := Nat
  decB := inferInstance
  decT := inferInstance

example : ∃ s : St exSig, MemReach (0 : Nat) s ∧ Fits id 8 s exW ∧
    s.heap[16]? = some (0 : Nat) ∧ s.heap[32]? = some (1 : Nat) ∧
    s.c.known[16]? = some (0 : Nat) ∧ s.c.known[32]? = none := by
  obtain ⟨s, h1, h2⟩ := C57_memory (σ := exSig) (name := id) Function.injective_id
    (by decide) exW_reach (0 : Nat)
  refine ⟨s, h1, h2, (h2.heap 16 0).2 ⟨0, rfl, .inl ⟨⟨.dyn, 0, some 0, 0⟩, by simp [exW], ?_, rfl⟩⟩,
    (h2.heap 32 1).2 ⟨1, rfl, .inl ⟨⟨.dyn, 16, some 16, 1⟩, by simp [exW], ?_, rfl⟩⟩,
    (h2.known 16 0).2 ⟨0, rfl, ⟨16, 0, 0⟩, by simp [exW], rfl, rfl⟩, ?_⟩
  · rfl
  · rfl
  · cases hk : s.c.known[(32 : Nat)]? with
    | none => rfl
    | some b =>
      obtain ⟨o, _, k, hk', he, _⟩ := (h2.known 32 b).1 hk
      simp [exW] at hk'
      subst hk'
      cases he

end Daab.Mem
