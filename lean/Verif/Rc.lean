import Std.Data.ExtTreeMap
import Mathlib.Data.List.Count

/-!
# Model of cans and bins

`src/canning.rs` implements the can traits for `Rc<dyn Any>`, `Arc<dyn Any + Send + Sync>` and
`Box<dyn Any>`.  This file models the memory behind them: reference counted boxes (what `std`'s
documentation says about `Rc`/`Arc`/`Weak`: a strong and a weak count, the value is dropped with the
last strong reference, the memory is freed with the last reference of any kind) and, on top, the
functions of `src/canning.rs`.
-/

open Std

namespace Daab.Mem

/-- A machine address. -/
abbrev Addr := Nat

/-- Size and alignment of a Rust type. -/
structure Layout where
  size : Nat
  align : Nat

/-- Round `n` up to a multiple of `a`. -/
def roundUp (n a : Nat) : Nat := (n + (a - 1)) / a * a

/-- Offset of the value in a `#[repr(C)] struct RcBox { strong: usize, weak: usize, value: T }`, where
`w` is the size of `usize`. -/
def valueOffset (w : Nat) (l : Layout) : Nat := roundUp (2 * w) l.align

/-- Size of an `RcBox` (without the padding at its end). -/
def boxSize (w : Nat) (l : Layout) : Nat := valueOffset w l + l.size

/-- The reference counted box of a value `val` of type `ty`; `val` is `none` after the value was
dropped.  `origin`: a serial number of the allocation (ghost). -/
structure RcBox (T D : Type) where
  layout : Layout
  ty : T
  val : Option D
  strong : Nat
  weak : Nat
  origin : Nat

variable {T D : Type}

/-- The memory: boxes by the address of the box. -/
abbrev Memory (T D : Type) := ExtTreeMap Addr (RcBox T D)

/-- The byte ranges `[a, a+n)` and `[b, b+m)` have no byte in common. -/
def Disjoint (a n b m : Nat) : Prop := a + n ≤ b ∨ b + m ≤ a

/-- What an allocator guarantees: the new box does not overlap any other. -/
def Free (w : Nat) (mem : Memory T D) (a : Addr) (l : Layout) : Prop :=
  ∀ (b : Addr) x, mem[b]? = some x → Disjoint a (boxSize w l) b (boxSize w x.layout)

/-- `Rc::new`, `Arc::new` (all strong references together own one weak reference). -/
def rcNew (a : Addr) (l : Layout) (ty : T) (v : D) (origin : Nat) (mem : Memory T D) : Memory T D :=
  mem.insert a ⟨l, ty, some v, 1, 1, origin⟩

/-- `Rc::clone`, also `Rc<T>` to `Rc<dyn Trait>` coercions of a clone. -/
def rcClone (a : Addr) (mem : Memory T D) : Memory T D :=
  mem.modify a fun x => { x with strong := x.strong + 1 }

/-- `Weak::drop`. -/
def weakDrop (a : Addr) (mem : Memory T D) : Memory T D :=
  match mem[a]? with
  | none => mem
  | some x => if x.weak ≤ 1 then mem.erase a else mem.insert a { x with weak := x.weak - 1 }

/-- `Rc::drop`. -/
def rcDrop (a : Addr) (mem : Memory T D) : Memory T D :=
  match mem[a]? with
  | none => mem
  | some x =>
    if x.strong ≤ 1 then weakDrop a (mem.insert a { x with strong := 0, val := none })
    else mem.insert a { x with strong := x.strong - 1 }

/-- `Rc::downgrade`; `src/canning.rs` 403-405, 561-563 `CanStrong::downgrade`. -/
def rcDowngrade (a : Addr) (mem : Memory T D) : Memory T D :=
  mem.modify a fun x => { x with weak := x.weak + 1 }

/-- `Weak::upgrade`; `src/canning.rs` 407-409, 565-567 `CanStrong::upgrade_from_weak`.  Answers whether
it succeeds. -/
def rcUpgrade (a : Addr) (mem : Memory T D) : Memory T D × Bool :=
  match mem[a]? with
  | none => (mem, false)
  | some x => if x.strong = 0 then (mem, false) else (rcClone a mem, true)

/-! ## The can traits -/

/-- A `Bin` of `Rc<dyn Any>` or `Arc<dyn Any + Send + Sync>`: `Rc<T>` or `Arc<T>` (typed pointer). -/
structure Bin (T : Type) where
  addr : Addr
  ty : T

/-- A `Can`: `Rc<dyn Any>` or `Arc<dyn Any + Send + Sync>`. -/
structure Can where
  addr : Addr

/-- `src/canning.rs` 453-455, 606-608 `CanSized::from_bin`: a coercion. -/
def fromBin (b : Bin T) : Can := ⟨b.addr⟩

/-- The address of the value in a box: `Deref::deref`. -/
def valuePtr (w : Nat) (a : Addr) (mem : Memory T D) : Option Addr :=
  (mem[a]?).map fun x => a + valueOffset w x.layout

/-- `src/canning.rs` 395-397, 553-555 `CanBase::can_as_ptr`. -/
def canAsPtr (w : Nat) (c : Can) (mem : Memory T D) : Option Addr := valuePtr w c.addr mem

/-- `src/canning.rs` 415-417, 573-575 `Can::bin_as_ptr`. -/
def binAsPtr (w : Nat) (b : Bin T) (mem : Memory T D) : Option Addr := valuePtr w b.addr mem

variable [DecidableEq T]

/-- `src/canning.rs` 450-452, 603-605 `CanSized::downcast_can`: `self.downcast().ok()` compares
the `TypeId`; on failure `self` is dropped. -/
def downcastCan (t : T) (c : Can) (mem : Memory T D) : Memory T D × Option (Bin T) :=
  match mem[c.addr]? with
  | none => (mem, none)
  | some x => if x.ty = t then (mem, some ⟨c.addr, t⟩) else (rcDrop c.addr mem, none)

/-- `src/canning.rs` 441-443, 594-596 `CanRef::downcast_can_ref`: a reference to the value, if
the type is right. -/
def downcastRef (t : T) (c : Can) (mem : Memory T D) : Option D :=
  match mem[c.addr]? with
  | none => none
  | some x => if x.ty = t then x.val else none

/-! ### `Box<dyn Any>` -/

/-- A `Box<dyn Any>` owns its value, so it is modelled as the value with its address. -/
structure BoxCan (T D : Type) where
  addr : Addr
  ty : T
  val : D

/-- A `Box<T>` of static type `ty`. -/
structure BoxBin (T D : Type) where
  addr : Addr
  ty : T
  val : D

/-- `src/canning.rs` 538-540 `from_bin`. -/
def boxFromBin (b : BoxBin T D) : BoxCan T D := ⟨b.addr, b.ty, b.val⟩

/-- `src/canning.rs` 490-492 `can_as_ptr`. -/
def boxCanPtr (c : BoxCan T D) : Addr := c.addr

/-- `src/canning.rs` 498-500 `bin_as_ptr`. -/
def boxBinPtr (b : BoxBin T D) : Addr := b.addr

/-- `src/canning.rs` 534-537 `downcast_can`. -/
def boxDowncast (t : T) (c : BoxCan T D) : Option (BoxBin T D) :=
  if c.ty = t then some ⟨c.addr, t, c.val⟩ else none

/-- `src/canning.rs` 519-521 `downcast_can_ref`. -/
def boxDowncastRef (t : T) (c : BoxCan T D) : Option D := if c.ty = t then some c.val else none

/-- `src/canning.rs` 525-527 `downcast_can_mut`, with the caller's write `f`; answers the value handed
out. -/
def boxDowncastMut (t : T) (f : D → D) (c : BoxCan T D) : BoxCan T D × Option D :=
  if c.ty = t then ({ c with val := f c.val }, some c.val) else (c, none)

end Daab.Mem
