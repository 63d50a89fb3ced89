import Verif.Props11

/-!
# The doctors' counters are machine words

`TextualDoc` and `VisgraphDoc` count generations and instances in `u64`s (`src/diagnostics/textual.rs`
136, `src/diagnostics/visgraph.rs` 105); `Doctors.lean` counts in `Nat`.  Here the counters are the real
ones: `+= 1` on the largest `u64` panics in a build with overflow checks and wraps around to zero in a
build without.  The doctors of `Doctors.lean` are the real ones as long as there are fewer than `2 ^ 64`
events, and not one event longer.
-/

namespace Daab.Doc

/-- `+= 1` on an `u64` (`none`: it panics); `checks`: the build has overflow checks. -/
def inc64 (checks : Bool) (n : UInt64) : Option UInt64 :=
  if n.toNat + 1 < 2 ^ 64 ∨ checks = false then some (n + 1) else none

/-- `src/diagnostics/textual.rs` 125-137 `TextualDoc`. -/
structure TextualDoc64 where
  opts : TextOpts
  output : Text
  count : UInt64 × UInt64

/-- `src/diagnostics/textual.rs` 142-151 `new`. -/
def TextualDoc64.new (opts : TextOpts) (output : Text) : TextualDoc64 := ⟨opts, output, (0, 0)⟩

/-- The counters read as numbers. -/
def TextualDoc64.widen (d : TextualDoc64) : TextualDoc := ⟨d.opts, d.output, (d.count.1.toNat, d.count.2.toNat)⟩

/-- `src/diagnostics/textual.rs` 192-295, the `Doctor` impl (`none`: it panics).  The texts are those of
`TextualDoc.on` for the present counters; the counters: 254 (`build`), 266-267 (`clear`), 293-294
(`invalidate`). -/
def TextualDoc64.on (checks : Bool) (d : TextualDoc64) (e : DocEv) : Option TextualDoc64 :=
  let d' := { d with output := (d.widen.on e).output }
  match e with
  | .resolve _ _ => some d'
  | .build _ _ => (inc64 checks d.count.2).map fun c => { d' with count := (d.count.1, c) }
  | .clear => (inc64 checks d.count.1).map fun c => { d' with count := (c, 0) }
  | .invalidate _ => (inc64 checks d.count.1).map fun c => { d' with count := (c, 0) }

/-- The doctor after a sequence of events (oldest first). -/
def TextualDoc64.run (checks : Bool) (d : TextualDoc64) : List DocEv → Option TextualDoc64
  | [] => some d
  | e :: es => (d.on checks e).bind fun d => d.run checks es

/-- `src/diagnostics/visgraph.rs` 91-103 `VisgraphDoc`. -/
structure VisgraphDoc64 where
  opts : VisOpts
  output : Option Text
  count : UInt64 × UInt64

/-- The counters read as numbers. -/
def VisgraphDoc64.widen (d : VisgraphDoc64) : VisgraphDoc := ⟨d.opts, d.output, (d.count.1.toNat, d.count.2.toNat)⟩

/-- `src/diagnostics/visgraph.rs` 108-118 `new`. -/
def VisgraphDoc64.new (opts : VisOpts) (output : Text) : VisgraphDoc64 :=
  ⟨opts, (VisgraphDoc.new opts output).output, (0, 0)⟩

/-- `src/diagnostics/visgraph.rs` 155-234, the `Doctor` impl (`none`: it panics).  The texts are those of
`VisgraphDoc.on` for the present counters; the counters: 220 (`build`), 226-227 (`clear`), 232-233
(`invalidate`). -/
def VisgraphDoc64.on (printable : Char → Bool) (checks : Bool) (d : VisgraphDoc64) (e : DocEv) :
    Option VisgraphDoc64 :=
  (d.widen.on printable e).bind fun w =>
    let d' := { d with output := w.output }
    match e with
    | .resolve _ _ => some d'
    | .build _ _ => (inc64 checks d.count.2).map fun c => { d' with count := (d.count.1, c) }
    | .clear => (inc64 checks d.count.1).map fun c => { d' with count := (c, 0) }
    | .invalidate _ => (inc64 checks d.count.1).map fun c => { d' with count := (c, 0) }

/-- The doctor after a sequence of events (oldest first). -/
def VisgraphDoc64.run (printable : Char → Bool) (checks : Bool) (d : VisgraphDoc64) :
    List DocEv → Option VisgraphDoc64
  | [] => some d
  | e :: es => (d.on printable checks e).bind fun d => d.run printable checks es

/-! ## Fewer than `2 ^ 64` events -/

theorem inc64_small {checks : Bool} {n : UInt64} (h : n.toNat + 1 < 2 ^ 64) :
    ∃ m, inc64 checks n = some m ∧ m.toNat = n.toNat + 1 := by
  refine ⟨n + 1, by simp [inc64, h], ?_⟩
  rw [UInt64.toNat_add]
  simpa using h

theorem TextualDoc64.on_small {checks : Bool} {d : TextualDoc64} (e : DocEv)
    (h1 : d.count.1.toNat + 1 < 2 ^ 64) (h2 : d.count.2.toNat + 1 < 2 ^ 64) :
    ∃ d', d.on checks e = some d' ∧ d'.widen = d.widen.on e := by
  obtain ⟨m1, i1, j1⟩ := inc64_small (checks := checks) h1
  obtain ⟨m2, i2, j2⟩ := inc64_small (checks := checks) h2
  rw [TextualDoc.on_eq]
  cases e <;> simp [TextualDoc64.on, TextualDoc64.widen, i1, i2, j1, j2, DocEv.isReset, DocEv.isBuild,
    TextualDoc.on_eq]

theorem TextualDoc64.run_small {checks : Bool} (evs : List DocEv) {d : TextualDoc64}
    (h1 : d.count.1.toNat + evs.length < 2 ^ 64) (h2 : d.count.2.toNat + evs.length < 2 ^ 64) :
    ∃ d', d.run checks evs = some d' ∧ d'.widen = d.widen.run evs := by
  induction evs generalizing d with
  | nil => exact ⟨d, rfl, rfl⟩
  | cons e es ih =>
    simp only [List.length_cons] at h1 h2
    obtain ⟨d1, i1, i2⟩ := TextualDoc64.on_small (checks := checks) e (d := d) (by omega) (by omega)
    have i3 := congrArg TextualDoc.count i2
    rw [TextualDoc.on_eq] at i3
    have i4 : d1.count.1.toNat ≤ d.count.1.toNat + 1 ∧ d1.count.2.toNat ≤ d.count.2.toNat + 1 := by
      have k1 : d1.count.1.toNat = _ := congrArg Prod.fst i3
      have k2 : d1.count.2.toNat = _ := congrArg Prod.snd i3
      rw [k1, k2]
      cases e <;> simp [TextualDoc64.widen, DocEv.isReset, DocEv.isBuild]
    obtain ⟨d2, k1, k2⟩ := ih (d := d1) (by omega) (by omega)
    refine ⟨d2, by simp [TextualDoc64.run, i1, k1], ?_⟩
    rw [k2, i2]
    rfl

theorem VisgraphDoc64.on_small {printable : Char → Bool} {checks : Bool} {d : VisgraphDoc64} (e : DocEv)
    {o : Text} (ho : d.output = some o) (h1 : d.count.1.toNat + 1 < 2 ^ 64) (h2 : d.count.2.toNat + 1 < 2 ^ 64) :
    ∃ d', d.on printable checks e = some d' ∧ d.widen.on printable e = some d'.widen ∧
      d'.output.isSome ∧ d'.count.1.toNat ≤ d.count.1.toNat + 1 ∧ d'.count.2.toNat ≤ d.count.2.toNat + 1 := by
  obtain ⟨m1, i1, j1⟩ := inc64_small (checks := checks) h1
  obtain ⟨m2, i2, j2⟩ := inc64_small (checks := checks) h2
  have hs := VisgraphDoc.on_some (printable := printable) (d := d.widen) (o := o) ho e
  unfold VisgraphDoc64.on
  rw [hs]
  cases e <;> simp [VisgraphDoc64.widen, i1, i2, j1, j2, DocEv.isReset, DocEv.isBuild]

theorem VisgraphDoc64.run_small {printable : Char → Bool} {checks : Bool} (evs : List DocEv)
    {d : VisgraphDoc64} {o : Text} (ho : d.output = some o)
    (h1 : d.count.1.toNat + evs.length < 2 ^ 64) (h2 : d.count.2.toNat + evs.length < 2 ^ 64) :
    ∃ d', d.run printable checks evs = some d' ∧ d.widen.run printable evs = some d'.widen := by
  induction evs generalizing d o with
  | nil => exact ⟨d, rfl, rfl⟩
  | cons e es ih =>
    simp only [List.length_cons] at h1 h2
    obtain ⟨d1, i1, i2, i3, i4, i5⟩ :=
      VisgraphDoc64.on_small (printable := printable) (checks := checks) e ho (by omega) (by omega)
    obtain ⟨o1, ho1⟩ := Option.isSome_iff_exists.1 i3
    obtain ⟨d2, k1, k2⟩ := ih ho1 (by omega) (by omega)
    exact ⟨d2, by simp [VisgraphDoc64.run, i1, k1], by simp [VisgraphDoc.run, i2, k2]⟩

/-- **C41 (the counters suffice)** As long as there are fewer than `2 ^ 64` events, `TextualDoc` and
`VisgraphDoc` with their real counters do not overflow (whether or not the build checks), and behave as the
doctors which the other theorems speak about. -/
theorem C41_counters_suffice (checks : Bool) (evs : List DocEv) (h : evs.length < 2 ^ 64) (t : Text) :
    (∀ o, ∃ d, (TextualDoc64.new o t).run checks evs = some d ∧ d.widen = (TextualDoc.new o t).run evs) ∧
    (∀ printable o, ∃ d, (VisgraphDoc64.new o t).run printable checks evs = some d ∧
      (VisgraphDoc.new o t).run printable evs = some d.widen) := by
  refine ⟨fun o => ?_, fun printable o => ?_⟩
  · exact TextualDoc64.run_small evs (d := TextualDoc64.new o t) (by simpa [TextualDoc64.new] using h)
      (by simpa [TextualDoc64.new] using h)
  · exact VisgraphDoc64.run_small evs (d := VisgraphDoc64.new o t) rfl (by simpa [VisgraphDoc64.new] using h)
      (by simpa [VisgraphDoc64.new] using h)

/-! ## `2 ^ 64` events -/

theorem TextualDoc64.run_append (checks : Bool) (es es' : List DocEv) (d : TextualDoc64) :
    d.run checks (es ++ es') = (d.run checks es).bind fun d => d.run checks es' := by
  induction es generalizing d with
  | nil => rfl
  | cons e es ih =>
    simp only [List.cons_append, TextualDoc64.run]
    cases d.on checks e with
    | none => rfl
    | some d => exact ih d

/-- **C41 (the bound is sharp)** After `2 ^ 64` builds without an invalidation the label of the first one
comes back in a build without overflow checks, and a build with overflow checks does not get that far: the
doctor panics. -/
theorem C41_counters_end (b : BHandle) (a : AHandle) (o : TextOpts) (t : Text) :
    (∃ d, (TextualDoc64.new o t).run false (List.replicate (2 ^ 64) (.build b a)) = some d ∧
      d.count = (0, 0)) ∧
    (TextualDoc64.new o t).run true (List.replicate (2 ^ 64) (.build b a)) = none := by
  have key : ∀ checks, ∃ d, (TextualDoc64.new o t).run checks (List.replicate (2 ^ 64 - 1) (.build b a)) = some d ∧
      d.count.1.toNat = 0 ∧ d.count.2.toNat = 2 ^ 64 - 1 := by
    intro checks
    obtain ⟨d, h1, h2⟩ := (C41_counters_suffice checks (List.replicate (2 ^ 64 - 1) (.build b a))
      (by rw [List.length_replicate]; decide) t).1 o
    refine ⟨d, h1, ?_⟩
    have h3 := congrArg TextualDoc.count h2
    rw [TextualDoc.run_count] at h3
    have h4 : ∀ n, labelOf (List.replicate n (.build b a)) = (0, n) := by
      intro n
      induction n with
      | zero => rfl
      | succ n ih =>
        rw [List.replicate_succ', labelOf_snoc, ih]
        rfl
    rw [h4] at h3
    exact ⟨congrArg Prod.fst h3, congrArg Prod.snd h3⟩
  have hsplit : ∀ checks, (TextualDoc64.new o t).run checks (List.replicate (2 ^ 64) (.build b a)) =
      ((TextualDoc64.new o t).run checks (List.replicate (2 ^ 64 - 1) (.build b a))).bind
        fun d => d.run checks [.build b a] := by
    intro checks
    rw [← TextualDoc64.run_append, ← List.replicate_succ']
  constructor
  · obtain ⟨d, h1, h2, h3⟩ := key false
    rw [hsplit, h1]
    have e1 : d.count.1 = 0 := UInt64.toNat_inj.1 h2
    have e2 : d.count.2 + 1 = 0 := by
      apply UInt64.toNat_inj.1
      rw [UInt64.toNat_add, h3]
      decide
    refine ⟨{ d with output := (d.widen.on (.build b a)).output, count := (0, 0) }, ?_, rfl⟩
    simp [TextualDoc64.run, TextualDoc64.on, inc64, e1, e2]
  · obtain ⟨d, h1, h2, h3⟩ := key true
    rw [hsplit, h1]
    simp [TextualDoc64.run, TextualDoc64.on, inc64, h3]

/-- A run which meets the hypothesis of `C41_counters_suffice`. -/
example (b : BHandle) (a : AHandle) : [DocEv.build b a, .clear, .build b a, .build b a].length < 2 ^ 64 := by
  simp

end Daab.Doc
