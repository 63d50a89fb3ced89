import Verif.BpInv

/-! # Programs that use cans -/

open Std

namespace Daab.Mem

variable {T D : Type} [DecidableEq T]

/-- The bins, cans and weak cans a program holds. -/
structure CWorld (T D : Type) where
  mem : Memory T D
  bins : List (Bin T)
  cans : List Can
  weaks : List Addr

/-- One use of the can traits; the allocator picks any free place.  (The `n` in `new` is the ghost number
of the allocation.) -/
inductive CStep (w : Nat) : CWorld T D → CWorld T D → Prop
  /-- `CanSized::into_bin`, `src/canning.rs` 447-449, 600-602 -/
  | intoBin (W : CWorld T D) (a : Addr) (l : Layout) (ty : T) (v : D) (n : Nat) (hl : 0 < l.align)
      (hf : Free w W.mem a l) :
      CStep w W { W with mem := rcNew a l ty v n W.mem, bins := ⟨a, ty⟩ :: W.bins }
  | fromBin (W : CWorld T D) (p q : List (Bin T)) (b : Bin T) (h : W.bins = p ++ b :: q) :
      CStep w W { W with bins := p ++ q, cans := fromBin b :: W.cans }
  | downcast (W : CWorld T D) (p q : List Can) (c : Can) (h : W.cans = p ++ c :: q) (t : T) :
      CStep w W { W with mem := (downcastCan t c W.mem).1, cans := p ++ q,
                         bins := (downcastCan t c W.mem).2.toList ++ W.bins }
  | cloneBin (W : CWorld T D) (b : Bin T) (h : b ∈ W.bins) :
      CStep w W { W with mem := rcClone b.addr W.mem, bins := b :: W.bins }
  | cloneCan (W : CWorld T D) (c : Can) (h : c ∈ W.cans) :
      CStep w W { W with mem := rcClone c.addr W.mem, cans := c :: W.cans }
  | downgrade (W : CWorld T D) (c : Can) (h : c ∈ W.cans) :
      CStep w W { W with mem := rcDowngrade c.addr W.mem, weaks := c.addr :: W.weaks }
  | upgrade (W : CWorld T D) (a : Addr) (h : a ∈ W.weaks) :
      CStep w W { W with mem := (rcUpgrade a W.mem).1,
                         cans := (if (rcUpgrade a W.mem).2 then [⟨a⟩] else []) ++ W.cans }
  | dropBin (W : CWorld T D) (p q : List (Bin T)) (b : Bin T) (h : W.bins = p ++ b :: q) :
      CStep w W { W with mem := rcDrop b.addr W.mem, bins := p ++ q }
  | dropCan (W : CWorld T D) (p q : List Can) (c : Can) (h : W.cans = p ++ c :: q) :
      CStep w W { W with mem := rcDrop c.addr W.mem, cans := p ++ q }
  | dropWeak (W : CWorld T D) (p q : List Addr) (a : Addr) (h : W.weaks = p ++ a :: q) :
      CStep w W { W with mem := weakDrop a W.mem, weaks := p ++ q }

inductive CReach (w : Nat) : CWorld T D → Prop
  | start : CReach w ⟨∅, [], [], []⟩
  | step (W W' : CWorld T D) (h : CReach w W) (hs : CStep w W W') : CReach w W'

/-- Dereferencing a bin: the value (with its actual type) in the box. -/
def binDeref (b : Bin T) (mem : Memory T D) : Option (T × D) :=
  match mem[b.addr]? with
  | none => none
  | some x => x.val.map fun v => (x.ty, v)

def cstrongs (W : CWorld T D) : List Addr := W.bins.map Bin.addr ++ W.cans.map Can.addr

structure CInv (w : Nat) (W : CWorld T D) : Prop where
  rc : RcOk W.mem (cstrongs W) W.weaks
  bin : ∀ b ∈ W.bins, ∃ x, W.mem[b.addr]? = some x ∧ x.ty = b.ty
  box : ∀ (a : Addr) x, W.mem[a]? = some x → 0 < x.layout.align
  sep : ∀ (a b : Addr) x y, W.mem[a]? = some x → W.mem[b]? = some y → a ≠ b →
    Disjoint a (boxSize w x.layout) b (boxSize w y.layout)

omit [DecidableEq T] in
theorem CInv.of_sub {w : Nat} {W W' : CWorld T D} (h : CInv w W) (hs : Sub W.mem W'.mem)
    (hrc : RcOk W'.mem (cstrongs W') W'.weaks)
    (hb : ∀ b ∈ W'.bins, ∃ x, W.mem[b.addr]? = some x ∧ x.ty = b.ty) : CInv w W' where
  rc := hrc
  bin := by
    intro b hbm
    obtain ⟨x, hx, ht⟩ := hb b hbm
    obtain ⟨y, hy, -⟩ := hrc.mem_strong (a := b.addr)
      (List.mem_append_left _ (List.mem_map.2 ⟨b, hbm, rfl⟩))
    obtain ⟨z, hz, -, ht', -, -⟩ := hs _ y hy
    rw [hx] at hz
    cases hz
    exact ⟨y, hy, by rw [ht', ht]⟩
  box := by
    intro a x hx
    obtain ⟨y, hy, hl, -⟩ := hs a x hx
    rw [hl]
    exact h.box a y hy
  sep := by
    intro a b x y hx hy hab
    obtain ⟨x', hx', hl, -⟩ := hs a x hx
    obtain ⟨y', hy', hl', -⟩ := hs b y hy
    rw [hl, hl']
    exact h.sep a b x' y' hx' hy' hab

theorem CInv.step {w : Nat} (hw : 0 < w) {W W' : CWorld T D} (h : CInv w W) (hs : CStep w W W') :
    CInv w W' := by
  cases hs with
  | intoBin a l ty v n hl hf =>
    have ha := free_none hw hl h.box hf
    have hget : ∀ b : Addr, (rcNew a l ty v n W.mem)[b]? =
        if a = b then some ⟨l, ty, some v, 1, 1, n⟩ else W.mem[b]? := by
      intro b
      unfold rcNew
      rw [ExtTreeMap.getElem?_insert]
      by_cases hab : a = b <;> simp [hab]
    have hne : ∀ (b : Addr) x, W.mem[b]? = some x → a ≠ b := by
      rintro b x hx rfl
      rw [ha] at hx
      cases hx
    constructor
    · exact h.rc.new ha l ty v _
    · intro b hb
      simp only [List.mem_cons] at hb
      rcases hb with rfl | hb
      · exact ⟨_, by rw [hget, if_pos rfl], rfl⟩
      · obtain ⟨x, hx, ho⟩ := h.bin b hb
        exact ⟨x, by rw [hget, if_neg (hne _ _ hx)]; exact hx, ho⟩
    · intro b x hx
      simp only at hx
      rw [hget] at hx
      split at hx
      · cases hx
        exact hl
      · exact h.box b x hx
    · intro b c x y hx hy hbc
      simp only at hx hy
      rw [hget] at hx hy
      split at hx
      · cases hx
        rw [if_neg (by subst_vars; exact hbc)] at hy
        subst_vars
        exact hf c y hy
      · split at hy
        · cases hy
          subst_vars
          have := hf b x hx
          unfold Disjoint at this ⊢
          simp only
          omega
        · exact h.sep b c x y hx hy hbc
  | fromBin p q b hb =>
    refine h.of_sub (Sub.refl _) ?_ ?_
    · refine h.rc.congr (fun x => ?_) (fun _ => rfl)
      simp only [cstrongs, hb, fromBin, List.map_append, List.map_cons, List.count_append, List.count_cons]
      omega
    · intro b' hb'
      refine h.bin b' ?_
      rw [hb]
      simp only [List.mem_append, List.mem_cons] at hb' ⊢
      tauto
  | downcast p q c hc t =>
    have hrc : RcOk W.mem (c.addr :: (W.bins.map Bin.addr ++ (p ++ q).map Can.addr)) W.weaks := by
      refine h.rc.congr (fun x => ?_) (fun _ => rfl)
      simp only [cstrongs, hc, List.map_append, List.map_cons, List.count_append, List.count_cons]
      omega
    obtain ⟨x, hx, -⟩ := hrc.mem_strong (a := c.addr) (by simp)
    unfold downcastCan
    rw [hx]
    simp only
    split
    · rename_i ht
      refine h.of_sub (Sub.refl _) hrc ?_
      intro b' hb'
      simp only [Option.toList, List.cons_append, List.nil_append, List.mem_cons] at hb'
      rcases hb' with rfl | hb'
      · exact ⟨x, hx, ht⟩
      · exact h.bin b' hb'
    · have hd := hrc.drop
      exact h.of_sub hd.2 hd.1 h.bin
  | cloneBin b hb =>
    have hc := h.rc.clone (a := b.addr) (List.mem_append_left _ (List.mem_map.2 ⟨b, hb, rfl⟩))
    refine h.of_sub hc.2 hc.1 ?_
    intro b' hb'
    simp only [List.mem_cons] at hb'
    rcases hb' with rfl | hb'
    · exact h.bin _ hb
    · exact h.bin _ hb'
  | cloneCan c hcm =>
    have hc := h.rc.clone (a := c.addr) (List.mem_append_right _ (List.mem_map.2 ⟨c, hcm, rfl⟩))
    refine h.of_sub hc.2 (hc.1.congr (fun x => ?_) (fun _ => rfl)) h.bin
    simp only [cstrongs, List.map_cons, List.count_append, List.count_cons]
    omega
  | downgrade c hcm =>
    have hc := h.rc.downgrade (a := c.addr) (List.mem_append_right _ (List.mem_map.2 ⟨c, hcm, rfl⟩))
    exact h.of_sub hc.2 hc.1 h.bin
  | upgrade a ha =>
    obtain ⟨x, hx⟩ := h.rc.mem_weak ha
    by_cases hu : (rcUpgrade a W.mem).2 = true
    · have hm := (rcUpgrade_iff h.rc ha).1 hu
      have hne := (h.rc.strong_iff hx).2 hm
      have he : (rcUpgrade a W.mem).1 = rcClone a W.mem := by
        unfold rcUpgrade
        rw [hx]
        simp only
        rw [if_neg hne]
      rw [he, if_pos hu]
      have hc := h.rc.clone hm
      refine h.of_sub hc.2 (hc.1.congr (fun x => ?_) (fun _ => rfl)) h.bin
      simp only [cstrongs, List.map_cons, List.cons_append, List.nil_append, List.count_append,
        List.count_cons]
      omega
    · have he : (rcUpgrade a W.mem).1 = W.mem := by
        unfold rcUpgrade at hu ⊢
        rw [hx] at hu ⊢
        simp only at hu ⊢
        split
        · rfl
        · rename_i h0
          rw [if_neg h0] at hu
          exact absurd rfl hu
      rw [he, if_neg hu]
      exact h.of_sub (Sub.refl _) h.rc h.bin
  | dropBin p q b hb =>
    have hrc : RcOk W.mem (b.addr :: ((p ++ q).map Bin.addr ++ W.cans.map Can.addr)) W.weaks := by
      refine h.rc.congr (fun x => ?_) (fun _ => rfl)
      simp only [cstrongs, hb, List.map_append, List.map_cons, List.count_append, List.count_cons]
      omega
    have hd := hrc.drop
    refine h.of_sub hd.2 hd.1 ?_
    intro b' hb'
    refine h.bin b' ?_
    rw [hb]
    simp only [List.mem_append, List.mem_cons] at hb' ⊢
    tauto
  | dropCan p q c hc =>
    have hrc : RcOk W.mem (c.addr :: (W.bins.map Bin.addr ++ (p ++ q).map Can.addr)) W.weaks := by
      refine h.rc.congr (fun x => ?_) (fun _ => rfl)
      simp only [cstrongs, hc, List.map_append, List.map_cons, List.count_append, List.count_cons]
      omega
    have hd := hrc.drop
    exact h.of_sub hd.2 hd.1 h.bin
  | dropWeak p q a ha =>
    have hrc : RcOk W.mem (cstrongs W) (a :: (p ++ q)) := by
      refine h.rc.congr (fun _ => rfl) (fun x => ?_)
      simp only [ha, List.count_append, List.count_cons]
      omega
    have hd := hrc.weakDrop
    exact h.of_sub hd.2 hd.1 h.bin

theorem CReach.inv {w : Nat} (hw : 0 < w) {W : CWorld T D} (h : CReach w W) : CInv w W := by
  induction h with
  | start =>
    constructor
    · exact RcOk.empty
    all_goals simp
  | step W W' _ hs ih => exact ih.step hw hs

end Daab.Mem
