import Verif.RcInv

/-!
# Model of blueprints

The three blueprint types of `src/blueprint.rs`, on top of the memory of `Verif.Rc`.  A world of
blueprints is whatever a program and its caches hold at some point; each function of the source says
which references it creates and drops.
-/

open Std

namespace Daab.Mem

/-- `src/blueprint.rs` 136-138 `Blueprint`, 306-309 `BlueprintUnsized`, 582-588 `BlueprintDyn`. -/
inductive Kind
  /-- `Blueprint`: only the bin -/
  | sized
  /-- `BlueprintUnsized`: bin and can -/
  | uns
  /-- `BlueprintDyn`: bin and can -/
  | dyn
  deriving DecidableEq

/-- A blueprint.  `builder` is the box its bin points to, `canned` the box its can points to (for the
types that have one).  `origin` is a ghost: the number of the builder it was created for, handed on by
cloning and converting; no function reads it. -/
structure Bp where
  kind : Kind
  builder : Addr
  canned : Option Addr
  origin : Nat

/-- The strong references a blueprint consists of. -/
def Bp.refs (b : Bp) : List Addr := b.builder :: b.canned.toList

variable {T D : Type}

/-- `src/canning.rs` 466-481, 619-634 `CanBuilder::can_unsized`: `rc_dyn` is a clone of the bin, `rc_any`
the bin itself. -/
def canUnsized (bin : Addr) (mem : Memory T D) : Memory T D × Addr × Addr :=
  (rcClone bin mem, bin, bin)

/-- `src/blueprint.rs` 143-147 `Blueprint::new`, 324-331 `BlueprintUnsized::new` (with 339-344
`new_binned`; also 411-422 `new_unsized`, which differs in the order of the two references only), 607-622
`BlueprintDyn::new`.  The builder is moved to a new box at `a`. -/
def bpNew (k : Kind) (a : Addr) (l : Layout) (ty : T) (v : D) (origin : Nat) (mem : Memory T D) :
    Memory T D × Bp :=
  let mem := rcNew a l ty v origin mem
  match k with
  | .sized => (mem, ⟨.sized, a, none, origin⟩)
  | .uns => (rcClone a mem, ⟨.uns, a, some a, origin⟩)
  | .dyn =>
    let (mem, bin, can) := canUnsized a mem
    (mem, ⟨.dyn, bin, some can, origin⟩)

/-- `src/blueprint.rs` 242-248, 483-490, 736-747 `Clone`. -/
def bpClone (b : Bp) (mem : Memory T D) : Memory T D × Bp :=
  match b.canned with
  | none => (rcClone b.builder mem, b)
  | some c => (rcClone c (rcClone b.builder mem), b)

/-- The drop glue of a blueprint: its fields are dropped in order. -/
def bpDrop (b : Bp) (mem : Memory T D) : Memory T D :=
  match b.canned with
  | none => rcDrop b.builder mem
  | some c => rcDrop c (rcDrop b.builder mem)

/-- The conversions between blueprints. -/
inductive Conv
  /-- 230-236 `Blueprint::into_unsized` -/
  | sizedIntoUnsized
  /-- 521-528 `From<Blueprint<B>> for BlueprintUnsized<B>` -/
  | sizedToUnsized
  /-- 442-453 `BlueprintUnsized::from_sized_bp`, also 541-550 `From` -/
  | fromSizedBp
  /-- 362-372 `BlueprintUnsized::into_unsized` -/
  | unsizedIntoUnsized
  /-- 427-438 `BlueprintUnsized::from_sized`, also 552-561 `From` -/
  | fromSized
  /-- 686-697 `BlueprintDyn::from_bp`, also 794-803 `From` -/
  | dynFromBp
  /-- 643-650 `BlueprintDyn::into_unsized` -/
  | dynIntoUnsized
  deriving DecidableEq

/-- The conversions of `Conv`; the answer is `none` if the blueprint is of another type (which the
compiler rejects).  They consume the blueprint. -/
def bpConvert (c : Conv) (b : Bp) (mem : Memory T D) : Option (Memory T D × Bp) :=
  match c, b.kind, b.canned with
  -- `new_binned(self.builder).into_unsized()`: bin cloned, then moved to the can; `CanUnsized::into_unsized`
  -- is a coercion (canning.rs 457-464, 610-617)
  | .sizedIntoUnsized, .sized, none =>
      some (rcClone b.builder mem, { b with kind := .uns, canned := some b.builder })
  | .sizedToUnsized, .sized, none =>
      some (rcClone b.builder mem, { b with kind := .uns, canned := some b.builder })
  | .fromSizedBp, .sized, none =>
      let (mem, bin, can) := canUnsized b.builder mem
      some (mem, { b with kind := .uns, builder := bin, canned := some can })
  | .unsizedIntoUnsized, .uns, some can => some (mem, { b with canned := some can })
  -- the old can is dropped with the rest of the blueprint
  | .fromSized, .uns, some old =>
      let (mem, bin, can) := canUnsized b.builder mem
      some (rcDrop old mem, { b with builder := bin, canned := some can })
  | .dynFromBp, .sized, none =>
      let (mem, bin, can) := canUnsized b.builder mem
      some (mem, { b with kind := .dyn, builder := bin, canned := some can })
  | .dynIntoUnsized, .dyn, some can => some (mem, { b with kind := .uns, canned := some can })
  | _, _, _ => none

/-- `src/blueprint.rs` 180-182 `Blueprint::id` uses the bin, 381-383 and 664-666 use the can. -/
def bpId (w : Nat) (b : Bp) (mem : Memory T D) : Option Addr :=
  match b.canned with
  | none => valuePtr w b.builder mem
  | some c => canAsPtr w ⟨c⟩ mem

/-- `src/blueprint.rs` 256-260, 499-503, 757-763 `PartialEq::eq`. -/
def bpEq (w : Nat) (b b' : Bp) (mem : Memory T D) : Prop := bpId w b mem = bpId w b' mem

/-- `src/blueprint.rs` 197-201, 469-473, 717-721 `Promise::builder`: the builder (with its type). -/
def bpBuilder (b : Bp) (mem : Memory T D) : Option (T × D) :=
  match mem[b.builder]? with
  | none => none
  | some x => x.val.map fun v => (x.ty, v)

/-- `src/blueprint.rs` 203-207, 475-479, 723-727 `Promise::canned`. -/
def bpCanned (b : Bp) (mem : Memory T D) : Memory T D × Can :=
  match b.canned with
  | none => (rcClone b.builder mem, fromBin (T := Unit) ⟨b.builder, ()⟩)
  | some c => (rcClone c mem, ⟨c⟩)

/-- `src/canning.rs` 689-691, 719-721 `BuilderArtifact::from_bin`: the can of the blueprint, which is
then dropped. -/
def baFromBin (b : Bp) (mem : Memory T D) : Memory T D × Can :=
  let (mem1, c) := bpCanned b mem
  (bpDrop b mem1, c)

/-- `src/canning.rs` 684-688, 714-718 `BuilderArtifact::downcast_can`, for the types `Blueprint` and
`BlueprintUnsized` (`new_binned`, `src/blueprint.rs` 155-159 and 339-344) of a builder of type `t`.  `o`
is the ghost origin of the result. -/
def baDowncast [DecidableEq T] (k : Kind) (t : T) (o : Nat) (c : Can) (mem : Memory T D) :
    Memory T D × Option Bp :=
  match downcastCan t c mem with
  | (mem, none) => (mem, none)
  | (mem, some bin) =>
    match k with
    | .sized => (mem, some ⟨.sized, bin.addr, none, o⟩)
    | k => (rcClone bin.addr mem, some ⟨k, bin.addr, some bin.addr, o⟩)

/-- An entry of a cache's table of known builders: the id it is filed under and the weak can;
`src/cache/internal.rs` `BuilderEntry`.  `origin` is a ghost again. -/
structure Known where
  key : Addr
  weak : Addr
  origin : Nat

/-- `src/cache/internal.rs` 915-937 `make_builder_known`: the promise's id, and a weak reference to
its can (the can itself is a temporary). -/
def bpKnow (w : Nat) (b : Bp) (mem : Memory T D) : Memory T D × Option Known :=
  let (mem1, c) := bpCanned b mem
  let mem2 := rcDowngrade c.addr mem1
  (rcDrop c.addr mem2, (bpId w b mem).map fun i => ⟨i, c.addr, b.origin⟩)

/-- `src/diagnostics/mod.rs` 187-201 `BuilderHandle`: the can it keeps, and the id (the texts are in
`Verif.Doctors`).  `origin` is a ghost: the origin of the blueprint it was made from. -/
structure Handle where
  can : Can
  id : Addr
  origin : Nat

/-- `src/diagnostics/mod.rs` 206-221 `BuilderHandle::new`. -/
def bhNew (w : Nat) (b : Bp) (mem : Memory T D) : Memory T D × Option Handle :=
  let id := bpId w b mem
  let (mem, c) := bpCanned b mem
  (mem, id.map fun i => ⟨c, i, b.origin⟩)

/-- `src/diagnostics/mod.rs` 187 `derive(Clone)`. -/
def bhClone (h : Handle) (mem : Memory T D) : Memory T D × Handle := (rcClone h.can.addr mem, h)

/-- The drop glue of a handle. -/
def bhDrop (h : Handle) (mem : Memory T D) : Memory T D := rcDrop h.can.addr mem

/-- `src/diagnostics/mod.rs` 225-227 `BuilderHandle::id`. -/
def bhId (h : Handle) : Addr := h.id

/-- `src/diagnostics/mod.rs` 236-240 `PartialEq::eq`. -/
def bhEq (h h' : Handle) : Prop := h.id = h'.id

/-- `src/diagnostics/mod.rs` 230-234 `Hash::hash`: what is fed to the hasher. -/
def bhHash (h : Handle) : Addr := h.id

/-- Everything that exists: the memory, the blueprints of the program (including those inside builders),
the entries of its caches' tables of known builders, the handles its doctors keep, and (ghost) what
builders were created so far. -/
structure World (T D : Type) where
  mem : Memory T D
  bps : List Bp
  known : List Known
  handles : List Handle
  born : List (T × D)

/-- One action of a program, its builders or its caches.  The allocator picks any free place (hypothesis
of `new`).  Simplification: the blueprints inside a builder that is dropped are not dropped together with
it but by further `drop` actions, in any order, at any later time. -/
inductive WStep (w : Nat) : World T D → World T D → Prop
  /-- creating a blueprint for a new builder -/
  | new (W : World T D) (k : Kind) (a : Addr) (l : Layout) (ty : T) (v : D) (hl : 0 < l.align)
      (hf : Free w W.mem a l) :
      WStep w W { W with mem := (bpNew k a l ty v W.born.length W.mem).1,
                         bps := (bpNew k a l ty v W.born.length W.mem).2 :: W.bps,
                         born := W.born ++ [(ty, v)] }
  | clone (W : World T D) (b : Bp) (hb : b ∈ W.bps) :
      WStep w W { W with mem := (bpClone b W.mem).1, bps := (bpClone b W.mem).2 :: W.bps }
  | convert (W : World T D) (p q : List Bp) (b : Bp) (hb : W.bps = p ++ b :: q) (c : Conv)
      (mem' : Memory T D) (b' : Bp) (hc : bpConvert c b W.mem = some (mem', b')) :
      WStep w W { W with mem := mem', bps := p ++ b' :: q }
  | drop (W : World T D) (p q : List Bp) (b : Bp) (hb : W.bps = p ++ b :: q) :
      WStep w W { W with mem := bpDrop b W.mem, bps := p ++ q }
  /-- a cache gets to know the builder -/
  | know (W : World T D) (b : Bp) (hb : b ∈ W.bps) (k : Known) (hk : (bpKnow w b W.mem).2 = some k) :
      WStep w W { W with mem := (bpKnow w b W.mem).1, known := k :: W.known }
  /-- a cache drops the entry (garbage collection, `clear_all`, dropping the cache) -/
  | forget (W : World T D) (p q : List Known) (k : Known) (hk : W.known = p ++ k :: q) :
      WStep w W { W with mem := weakDrop k.weak W.mem, known := p ++ q }
  /-- a handle is made for a doctor -/
  | handle (W : World T D) (b : Bp) (hb : b ∈ W.bps) (h : Handle) (hh : (bhNew w b W.mem).2 = some h) :
      WStep w W { W with mem := (bhNew w b W.mem).1, handles := h :: W.handles }
  /-- a doctor keeps a copy of a handle -/
  | cloneHandle (W : World T D) (h : Handle) (hh : h ∈ W.handles) :
      WStep w W { W with mem := (bhClone h W.mem).1, handles := (bhClone h W.mem).2 :: W.handles }
  | dropHandle (W : World T D) (p q : List Handle) (h : Handle) (hh : W.handles = p ++ h :: q) :
      WStep w W { W with mem := bhDrop h W.mem, handles := p ++ q }

/-- The states a program can reach; `w` is the size of `usize`. -/
inductive WReach (w : Nat) : World T D → Prop
  | start : WReach w ⟨∅, [], [], [], []⟩
  | step (W W' : World T D) (h : WReach w W) (hs : WStep w W W') : WReach w W'

end Daab.Mem
