import Verif.Props17

/-!
# C61: the doctors on a `Write` that may fail

`Doctors.lean` models `TextualDoc` and `VisgraphDoc` on a `Write` that never fails.  Here the `Write` is an arbitrary
machine: each time something is written to it, it takes a part and may then report an error, on which the doctor panics
(`.unwrap()`).  The panic may be caught, and the cache (and thus the doctor) be used on.

Simplification: a `Write` takes whole characters.
-/

namespace Daab.Doc

/-! ## The `Write` -/

/-- An implementation of `std::io::Write`, with a state.  `put st t`: the text `t` is written (by `write!`, which calls
`write_all` for its parts until one fails); the next state, and how many characters were taken before there was an
error.  There was none iff all were taken.  `flush st`: the next state, and whether there was an error. -/
structure Device where
  State : Type
  put : State → Text → State × Nat
  flush : State → State × Bool

/-- A `Write`: its state; all that it has taken; how many errors it has reported. -/
structure Sink (D : Device) where
  st : D.State
  got : Text
  errors : Nat

variable {D : Device}

/-- `write!(w, ..)`.  `true`: it answers an error. -/
def Sink.write (w : Sink D) (t : Text) : Sink D × Bool :=
  let r := D.put w.st t
  if r.2 < t.length then (⟨r.1, w.got ++ t.take r.2, w.errors + 1⟩, true)
  else (⟨r.1, w.got ++ t, w.errors⟩, false)

/-- `w.flush()`.  `true`: it answers an error. -/
def Sink.flush (w : Sink D) : Sink D × Bool :=
  let r := D.flush w.st
  (⟨r.1, w.got, if r.2 then w.errors + 1 else w.errors⟩, r.2)

/-- The next statement, unless the last one panicked. -/
def andThen {α : Type} (x : α × Bool) (k : α → α × Bool) : α × Bool := if x.2 then x else k x.1

/-! ## `TextualDoc` -/

/-- `src/diagnostics/textual.rs` 125-137 `TextualDoc`. -/
structure TextualW (D : Device) where
  opts : TextOpts
  output : Sink D
  count : Nat × Nat

/-- `src/diagnostics/textual.rs` 142-151 `new`. -/
def TextualW.new (opts : TextOpts) (output : Sink D) : TextualW D := ⟨opts, output, (0, 0)⟩

/-- `write!(self.output(), ..).unwrap()` -/
def TextualW.write (d : TextualW D) (t : Text) : TextualW D × Bool :=
  ({ d with output := (d.output.write t).1 }, (d.output.write t).2)

/-- `writeln!(self.output(), ..).unwrap()` -/
def TextualW.writeln (d : TextualW D) (t : Text) : TextualW D × Bool := d.write (t ++ ['\n'])

/-- `self.output().flush().unwrap()` -/
def TextualW.flush (d : TextualW D) : TextualW D × Bool :=
  ({ d with output := d.output.flush.1 }, d.output.flush.2)

/-- `src/diagnostics/textual.rs` 192-213 `resolve`. -/
def TextualW.resolve (d : TextualW D) (b u : BHandle) : TextualW D × Bool :=
  let bs := d.opts.builderStr b
  let us := d.opts.builderStr u
  if d.opts.showAddr then
    d.writeln (lit "resolves [" ++ ptr b.id ++ lit "] " ++ bs ++ lit " -> [" ++ ptr u.id
      ++ lit "] " ++ us)
  else d.writeln (lit "resolves " ++ bs ++ lit " -> " ++ us)

/-- `src/diagnostics/textual.rs` 216-254 `build`. -/
def TextualW.build (d : TextualW D) (b : BHandle) (a : AHandle) : TextualW D × Bool :=
  let count := d.count
  let bs := d.opts.builderStr b
  let x :=
    if d.opts.showAddr then
      d.write (lit "built #" ++ dec count.1 ++ lit "." ++ dec count.2 ++ lit " [" ++ ptr b.id
        ++ lit "] " ++ bs ++ lit " => [" ++ ptr a.addr ++ lit "] ")
    else
      d.write (lit "built #" ++ dec count.1 ++ lit "." ++ dec count.2 ++ lit "  " ++ bs
        ++ lit " => ")
  andThen x fun d =>
  andThen (if d.opts.showArtifact then d.writeln a.dbg else d.writeln (d.opts.tynm a.typeName)) fun d =>
  andThen d.flush fun d =>
  ({ d with count := (d.count.1, d.count.2 + 1) }, false)

/-- `src/diagnostics/textual.rs` 256-267 `clear`. -/
def TextualW.clear (d : TextualW D) : TextualW D × Bool :=
  let count := d.count
  andThen (d.writeln (lit "Clears generation #" ++ dec count.1)) fun d =>
  ({ d with count := (d.count.1 + 1, 0) }, false)

/-- `src/diagnostics/textual.rs` 269-295 `invalidate`. -/
def TextualW.invalidate (d : TextualW D) (b : BHandle) : TextualW D × Bool :=
  let count := d.count
  andThen (d.write (lit "Invalidates generation #" ++ dec count.1 ++ lit " targeting ")) fun d =>
  let bs := d.opts.builderStr b
  andThen (if d.opts.showAddr then d.write (lit "[" ++ ptr b.id ++ lit "] " ++ bs) else d.write bs) fun d =>
  ({ d with count := (d.count.1 + 1, 0) }, false)

/-- The `Doctor` impl.  `true`: the call panics. -/
def TextualW.on (d : TextualW D) : DocEv → TextualW D × Bool
  | .resolve b u => d.resolve b u
  | .build b a => d.build b a
  | .clear => d.clear
  | .invalidate b => d.invalidate b

/-- A sequence of calls, panics being caught; and for each call whether it panicked. -/
def TextualW.run (d : TextualW D) : List DocEv → TextualW D × List (DocEv × Bool)
  | [] => (d, [])
  | e :: es => (((d.on e).1.run es).1, (e, (d.on e).2) :: ((d.on e).1.run es).2)

/-! ## `VisgraphDoc` -/

/-- `src/diagnostics/visgraph.rs` 91-103 `VisgraphDoc`. -/
structure VisgraphW (D : Device) where
  opts : VisOpts
  output : Option (Sink D)
  count : Nat × Nat

/-- `src/diagnostics/visgraph.rs` 108-118 `new`.  `error`: it panics, and this has become of the `Write`. -/
def VisgraphW.new (opts : VisOpts) (output : Sink D) : Except (Sink D) (VisgraphW D) :=
  match output.write (lit "strict digraph { graph [labeljust = l];\n") with
  | (w, true) => .error w
  | (w, false) => .ok ⟨opts, some w, (0, 0)⟩

/-- `writeln!(self.output(), ..).unwrap()`; `src/diagnostics/visgraph.rs` 129-131 `output` panics, too, if there is
none. -/
def VisgraphW.writeln (d : VisgraphW D) (t : Text) : VisgraphW D × Bool :=
  match d.output with
  | none => (d, true)
  | some w => ({ d with output := some (w.write (t ++ ['\n'])).1 }, (w.write (t ++ ['\n'])).2)

/-- `self.output().flush().unwrap()` -/
def VisgraphW.flush (d : VisgraphW D) : VisgraphW D × Bool :=
  match d.output with
  | none => (d, true)
  | some w => ({ d with output := some w.flush.1 }, w.flush.2)

/-- `src/diagnostics/visgraph.rs` 155-180 `resolve`. -/
def VisgraphW.resolve (printable : Char → Bool) (d : VisgraphW D) (b u : BHandle) : VisgraphW D × Bool :=
  let s := d.opts.builderStr b
  andThen (d.writeln (nodeLine printable b.id s)) fun d =>
  let s := d.opts.builderStr u
  andThen (d.writeln (nodeLine printable u.id s)) fun d =>
  andThen (d.writeln (lit "  \"" ++ ptr b.id ++ lit "\" -> \"" ++ ptr u.id ++ lit "\"")) fun d =>
  d.flush

/-- `src/diagnostics/visgraph.rs` 183-222 `build`. -/
def VisgraphW.build (printable : Char → Bool) (d : VisgraphW D) (b : BHandle) (a : AHandle) : VisgraphW D × Bool :=
  let count := d.count
  let s := d.opts.builderStr b
  andThen (d.writeln (nodeLine printable b.id s)) fun d =>
  let s := if d.opts.showArtifact then lit " :\n" ++ a.dbg else []
  andThen (d.writeln (artLine count a s)) fun d =>
  andThen (d.writeln (lit "  \"" ++ ptr b.id ++ lit "\" -> \"" ++ artNode count a
    ++ lit "\" [arrowhead = \"none\"]")) fun d =>
  andThen d.flush fun d =>
  ({ d with count := (d.count.1, d.count.2 + 1) }, false)

/-- `src/diagnostics/visgraph.rs` 224-228 `clear`. -/
def VisgraphW.clear (d : VisgraphW D) : VisgraphW D := { d with count := (d.count.1 + 1, 0) }

/-- `src/diagnostics/visgraph.rs` 230-234 `invalidate`. -/
def VisgraphW.invalidate (d : VisgraphW D) (_b : BHandle) : VisgraphW D := { d with count := (d.count.1 + 1, 0) }

/-- The `Doctor` impl.  `true`: the call panics. -/
def VisgraphW.on (printable : Char → Bool) (d : VisgraphW D) : DocEv → VisgraphW D × Bool
  | .resolve b u => d.resolve printable b u
  | .build b a => d.build printable b a
  | .clear => (d.clear, false)
  | .invalidate b => (d.invalidate b, false)

/-- A sequence of calls, panics being caught; and for each call whether it panicked. -/
def VisgraphW.run (printable : Char → Bool) (d : VisgraphW D) : List DocEv → VisgraphW D × List (DocEv × Bool)
  | [] => (d, [])
  | e :: es =>
    (((d.on printable e).1.run printable es).1, (e, (d.on printable e).2) :: ((d.on printable e).1.run printable es).2)

/-- `src/diagnostics/visgraph.rs` 133-135 `finish`. -/
def VisgraphW.finish (d : VisgraphW D) : VisgraphW D × Bool := d.writeln (lit "}")

/-- `src/diagnostics/visgraph.rs` 145-151 `drop`: what has become of the `Write`, if it is still owned; and whether the
destructor panics. -/
def VisgraphW.drop (d : VisgraphW D) : Option (Sink D) × Bool :=
  if d.output.isSome then (d.finish.1.output, d.finish.2) else (none, false)

/-- How `into_inner` may end: it returns the `Write`; it panics, the `Write` being lost; or there is a second panic, in the
destructor that is run because of the first, on which the process is aborted. -/
inductive IntoInner (D : Device)
  | returned (w : Sink D)
  | panicked (w : Option (Sink D))
  | aborted (w : Option (Sink D))

/-- `src/diagnostics/visgraph.rs` 139-142 `into_inner`. -/
def VisgraphW.intoInner (d : VisgraphW D) : IntoInner D :=
  match d.finish with
  | (d, true) =>
    match d.drop with
    | (w, true) => .aborted w
    | (w, false) => .panicked w
  | (d, false) =>
    match d.output with
    | none => .panicked none
    | some w =>
      match ({ d with output := none } : VisgraphW D).drop with
      | (_, true) => .panicked none
      | (_, false) => .returned w

/-! ## Specification -/

/-- The events the doctor was told successfully: the calls that returned. -/
def returned (l : List (DocEv × Bool)) : List DocEv := (l.filter fun x => !x.2).map (·.1)

/-- `Received text l t t'`: a `Write` that had taken `t` before the calls `l` has taken `t'` after them: for each call that
returned the whole text of the event; for each call that panicked a beginning of it.  `text past e`: the text of the
event `e` after the events `past`; only the calls that returned count as events. -/
inductive Received (text : List DocEv → DocEv → Text) : List (DocEv × Bool) → Text → Text → Prop
  | nil (t : Text) : Received text [] t t
  | returned {l : List (DocEv × Bool)} {t t' : Text} (e : DocEv) : Received text l t t' →
      Received text (l ++ [(e, false)]) t (t' ++ text (returned l) e)
  | panicked {l : List (DocEv × Bool)} {t t' u : Text} (e : DocEv) : Received text l t t' →
      u <+: text (Doc.returned l) e → Received text (l ++ [(e, true)]) t (t' ++ u)

/-- A `Write` that never fails. -/
def Device.Reliable (D : Device) : Prop := (∀ st t, t.length ≤ (D.put st t).2) ∧ ∀ st, (D.flush st).2 = false

/-! ## Proofs -/

/-- What a call does to the `Write`: it takes all of `t`, or a beginning of it and there is one error. -/
structure Took (w : Sink D) (t : Text) (w' : Sink D) (f : Bool) : Prop where
  ok : f = false → w'.got = w.got ++ t ∧ w'.errors = w.errors
  failed : f = true → (∃ u, u <+: t ∧ w'.got = w.got ++ u) ∧ w'.errors = w.errors + 1
  reliable : D.Reliable → f = false

theorem Sink.write_took (w : Sink D) (t : Text) : Took w t (w.write t).1 (w.write t).2 := by
  unfold Sink.write
  by_cases h : (D.put w.st t).2 < t.length
  · simp only [h, if_true]
    exact ⟨by simp, fun _ => ⟨⟨_, List.take_prefix _ _, rfl⟩, rfl⟩, fun hr => absurd (hr.1 w.st t) (by omega)⟩
  · simp only [h, if_false]
    exact ⟨fun _ => ⟨rfl, rfl⟩, by simp, fun _ => rfl⟩

theorem Sink.flush_took (w : Sink D) : Took w [] w.flush.1 w.flush.2 := by
  unfold Sink.flush
  cases h : (D.flush w.st).2 with
  | false => exact ⟨fun _ => ⟨by simp, by simp [h]⟩, by simp, fun _ => rfl⟩
  | true =>
    exact ⟨by simp, fun _ => ⟨⟨[], List.prefix_refl _, by simp⟩, by simp [h]⟩, fun hr => by rw [hr.2] at h; cases h⟩

theorem Took.trans {w w1 w2 : Sink D} {t u : Text} {f : Bool} (h : Took w t w1 false) (h' : Took w1 u w2 f) :
    Took w (t ++ u) w2 f where
  ok hf := by
    rw [(h'.ok hf).1, (h'.ok hf).2, (h.ok rfl).1, (h.ok rfl).2, List.append_assoc]; exact ⟨rfl, rfl⟩
  failed hf := by
    obtain ⟨⟨x, hx, e⟩, e'⟩ := h'.failed hf
    exact ⟨⟨t ++ x, (List.prefix_append_right_inj t).2 hx, by rw [e, (h.ok rfl).1, List.append_assoc]⟩,
      by rw [e', (h.ok rfl).2]⟩
  reliable := h'.reliable

theorem Took.stop {w w1 : Sink D} {t u : Text} (h : Took w t w1 true) : Took w (t ++ u) w1 true where
  ok hf := by cases hf
  failed hf := by
    obtain ⟨⟨x, hx, e⟩, e'⟩ := h.failed hf
    exact ⟨⟨x, hx.trans (List.prefix_append _ _), e⟩, e'⟩
  reliable := h.reliable

/-- What a call does to the doctor. -/
structure Did (opts : TextOpts) (d : TextualW D) (t : Text) (c : Nat × Nat) (x : TextualW D × Bool) : Prop where
  opts : x.1.opts = opts
  took : Took d.output t x.1.output x.2
  count : x.1.count = if x.2 then d.count else c

theorem TextualW.write_did (d : TextualW D) (t : Text) : Did d.opts d t d.count (d.write t) :=
  ⟨rfl, Sink.write_took .., by split <;> rfl⟩

theorem TextualW.flush_did (d : TextualW D) : Did d.opts d [] d.count d.flush :=
  ⟨rfl, Sink.flush_took .., by split <;> rfl⟩

theorem Did.andThen {o : TextOpts} {d : TextualW D} {t u : Text} {c : Nat × Nat} {x : TextualW D × Bool}
    {k : TextualW D → TextualW D × Bool} (h : Did o d t d.count x)
    (hk : ∀ d', d'.opts = o → d'.count = d.count → Did o d' u c (k d')) : Did o d (t ++ u) c (andThen x k) := by
  obtain ⟨x, f⟩ := x
  cases f with
  | true => exact ⟨h.opts, h.took.stop, h.count⟩
  | false =>
    have h1 : x.count = d.count := by simpa using h.count
    obtain ⟨a1, a2, a3⟩ := hk x h.opts h1
    exact ⟨a1, h.took.trans a2, by rw [h1] at a3; exact a3⟩

theorem Did.done {o : TextOpts} {d : TextualW D} (c : Nat × Nat) (ho : d.opts = o) :
    Did o d [] c ({ d with count := c }, false) :=
  ⟨ho, ⟨fun _ => by simp, by simp, fun _ => rfl⟩, rfl⟩

theorem TextualW.on_did (d : TextualW D) (e : DocEv) :
    Did d.opts d (textText d.opts d.count e) (next d.count e) (d.on e) := by
  have e1 : lit "." = ['.'] := by unfold lit; decide
  cases e with
  | resolve b u =>
    simp only [TextualW.on, TextualW.resolve, textText, TextualW.writeln, next, DocEv.isReset, DocEv.isBuild]
    by_cases h : d.opts.showAddr = true
    · simp only [h, if_true]
      simpa using d.write_did _
    · simp only [h]
      simpa using d.write_did _
  | build b a =>
    have key : ∀ t u : Text, Did d.opts d ((t ++ (u ++ ['\n'])) ++ ([] ++ [])) (d.count.1, d.count.2 + 1)
        (Doc.andThen (d.write t) fun d1 => Doc.andThen (d1.writeln u) fun d =>
          Doc.andThen d.flush fun d => ({ d with count := (d.count.1, d.count.2 + 1) }, false)) := by
      intro t u
      rw [List.append_assoc]
      refine (d.write_did t).andThen fun d1 h1 h1' => ?_
      rw [← h1]
      refine Did.andThen (d1.write_did _) fun d2 h2 h2' => ?_
      rw [← h2]
      refine Did.andThen d2.flush_did fun d3 h3 h3' => ?_
      rw [h3', h2', h1']
      exact .done _ h3
    have h3 : ∀ t, (Doc.andThen (d.write t) fun d1 =>
        Doc.andThen (if d1.opts.showArtifact then d1.writeln a.dbg else d1.writeln (d1.opts.tynm a.typeName)) fun d =>
          Doc.andThen d.flush fun d => ({ d with count := (d.count.1, d.count.2 + 1) }, false)) =
        Doc.andThen (d.write t) fun d1 =>
        Doc.andThen (d1.writeln (if d.opts.showArtifact then a.dbg else d.opts.tynm a.typeName)) fun d =>
          Doc.andThen d.flush fun d => ({ d with count := (d.count.1, d.count.2 + 1) }, false) := by
      intro t
      unfold Doc.andThen
      show (if (d.write t).2 = true then _ else _) = _
      split
      · rfl
      · have : (d.write t).1.opts = d.opts := rfl
        simp only [this]
        split <;> rfl
    simp only [TextualW.on, TextualW.build, textText, next, DocEv.isReset, DocEv.isBuild, labelText]
    by_cases h : d.opts.showAddr = true
    · simp only [h, if_true, h3]
      exact (congrArg (Did d.opts d · _ _) (by simp [e1])).mp (key _ _)
    · simp only [h, if_false, Bool.false_eq_true, h3]
      exact (congrArg (Did d.opts d · _ _) (by simp [e1])).mp (key _ _)
  | clear =>
    simp only [TextualW.on, TextualW.clear, textText, next, DocEv.isReset, TextualW.writeln, if_true]
    have key : ∀ t, Did d.opts d (t ++ []) (d.count.1 + 1, 0)
        (Doc.andThen (d.write t) fun d => ({ d with count := (d.count.1 + 1, 0) }, false)) := by
      intro t
      refine (d.write_did _).andThen fun d1 h1 h1' => ?_
      rw [h1']
      exact .done _ h1
    exact (congrArg (Did d.opts d · _ _) (by simp)).mp (key _)
  | invalidate b =>
    simp only [TextualW.on, TextualW.invalidate, textText, next, DocEv.isReset, if_true]
    have key : ∀ u : Text, Did d.opts d ((lit "Invalidates generation #" ++ dec d.count.1 ++ lit " targeting ") ++
        (u ++ [])) (d.count.1 + 1, 0)
        (Doc.andThen (d.write (lit "Invalidates generation #" ++ dec d.count.1 ++ lit " targeting ")) fun d1 =>
          Doc.andThen (d1.write u) fun d => ({ d with count := (d.count.1 + 1, 0) }, false)) := by
      intro u
      refine (d.write_did _).andThen fun d1 h1 h1' => ?_
      rw [← h1]
      refine Did.andThen (d1.write_did u) fun d2 h2 h2' => ?_
      rw [h2', h1']
      exact .done _ h2
    have h3 : (Doc.andThen (d.write (lit "Invalidates generation #" ++ dec d.count.1 ++ lit " targeting ")) fun d1 =>
        Doc.andThen (if d1.opts.showAddr then d1.write (lit "[" ++ ptr b.id ++ lit "] " ++ d1.opts.builderStr b)
          else d1.write (d1.opts.builderStr b)) fun d => ({ d with count := (d.count.1 + 1, 0) }, false)) =
        Doc.andThen (d.write (lit "Invalidates generation #" ++ dec d.count.1 ++ lit " targeting ")) fun d1 =>
        Doc.andThen (d1.write ((if d.opts.showAddr then lit "[" ++ ptr b.id ++ lit "] " else []) ++
          d.opts.builderStr b)) fun d => ({ d with count := (d.count.1 + 1, 0) }, false) := by
      unfold Doc.andThen
      show (if (d.write _).2 = true then _ else _) = _
      split
      · rfl
      · have : ∀ t, (d.write t).1.opts = d.opts := fun _ => rfl
        simp only [this]
        split <;> simp
    rw [h3]
    exact (congrArg (Did d.opts d · _ _) (by simp)).mp (key _)

/-- What a call does to a `VisgraphDoc` that owns the `Write` `w`. -/
structure DidV (opts : VisOpts) (count : Nat × Nat) (w : Sink D) (t : Text) (c : Nat × Nat) (x : VisgraphW D × Bool) :
    Prop where
  opts : x.1.opts = opts
  took : ∃ w', x.1.output = some w' ∧ Took w t w' x.2
  count : x.1.count = if x.2 then count else c

theorem VisgraphW.writeln_did {d : VisgraphW D} {w : Sink D} (h : d.output = some w) (t : Text) :
    DidV d.opts d.count w (t ++ ['\n']) d.count (d.writeln t) := by
  unfold VisgraphW.writeln
  simp only [h]
  exact ⟨rfl, ⟨_, rfl, Sink.write_took ..⟩, by split <;> rfl⟩

theorem VisgraphW.flush_did {d : VisgraphW D} {w : Sink D} (h : d.output = some w) :
    DidV d.opts d.count w [] d.count d.flush := by
  unfold VisgraphW.flush
  simp only [h]
  exact ⟨rfl, ⟨_, rfl, Sink.flush_took ..⟩, by split <;> rfl⟩

theorem DidV.andThen {o : VisOpts} {n : Nat × Nat} {w : Sink D} {t u : Text} {c : Nat × Nat}
    {x : VisgraphW D × Bool} {k : VisgraphW D → VisgraphW D × Bool} (h : DidV o n w t n x)
    (hk : ∀ d' w', d'.opts = o → d'.count = n → d'.output = some w' → DidV o n w' u c (k d')) :
    DidV o n w (t ++ u) c (andThen x k) := by
  obtain ⟨x, f⟩ := x
  obtain ⟨h0, ⟨w', h2, h3⟩, h1⟩ := h
  cases f with
  | true => exact ⟨h0, ⟨w', h2, h3.stop⟩, h1⟩
  | false =>
    have h1 : x.count = n := by simpa using h1
    obtain ⟨a1, ⟨w2, a2, a3⟩, a4⟩ := hk x w' h0 h1 h2
    exact ⟨a1, ⟨w2, a2, h3.trans a3⟩, a4⟩

theorem DidV.done {o : VisOpts} {d : VisgraphW D} {n : Nat × Nat} {w : Sink D} (c : Nat × Nat) (ho : d.opts = o)
    (hw : d.output = some w) : DidV o n w [] c ({ d with count := c }, false) :=
  ⟨ho, ⟨w, hw, ⟨fun _ => by simp, by simp, fun _ => rfl⟩⟩, rfl⟩

theorem VisgraphW.on_did (printable : Char → Bool) {d : VisgraphW D} {w : Sink D} (h : d.output = some w) (e : DocEv) :
    DidV d.opts d.count w (visText printable d.opts d.count e) (next d.count e) (d.on printable e) := by
  obtain ⟨o, out, n⟩ := d
  simp only at h
  subst h
  cases e with
  | resolve b u =>
    simp only [VisgraphW.on, VisgraphW.resolve, visText, next, DocEv.isReset, DocEv.isBuild]
    have key := (VisgraphW.writeln_did (d := ⟨o, some w, n⟩) rfl (nodeLine printable b.id (o.builderStr b))).andThen
      (k := fun d => Doc.andThen (d.writeln (nodeLine printable u.id (d.opts.builderStr u))) fun d =>
        Doc.andThen (d.writeln (lit "  \"" ++ ptr b.id ++ lit "\" -> \"" ++ ptr u.id ++ lit "\"")) fun d => d.flush)
      (c := n) (u := (nodeLine printable u.id (o.builderStr u) ++ ['\n']) ++
        ((lit "  \"" ++ ptr b.id ++ lit "\" -> \"" ++ ptr u.id ++ lit "\"" ++ ['\n']) ++ [])) (by
      intro d1 w1 h1 h1' h1''
      obtain ⟨o1, out1, n1⟩ := d1
      simp only at h1 h1' h1''
      subst h1 h1' h1''
      refine (VisgraphW.writeln_did (d := ⟨_, some w1, _⟩) rfl _).andThen ?_
      intro d2 w2 h2 h2' h2''
      obtain ⟨o2, out2, n2⟩ := d2
      simp only at h2 h2' h2''
      subst h2 h2' h2''
      refine (VisgraphW.writeln_did (d := ⟨_, some w2, _⟩) rfl _).andThen ?_
      intro d3 w3 h3 h3' h3''
      obtain ⟨o3, out3, n3⟩ := d3
      simp only at h3 h3' h3''
      subst h3 h3' h3''
      exact VisgraphW.flush_did (d := ⟨_, some w3, _⟩) rfl)
    exact (congrArg (DidV _ _ _ · _ _) (by simp)).mp key
  | build b a =>
    simp only [VisgraphW.on, VisgraphW.build, visText, next, DocEv.isReset, DocEv.isBuild]
    have key := (VisgraphW.writeln_did (d := ⟨o, some w, n⟩) rfl (nodeLine printable b.id (o.builderStr b))).andThen
      (k := fun d => Doc.andThen (d.writeln (artLine n a (if d.opts.showArtifact then lit " :\n" ++ a.dbg else [])))
        fun d => Doc.andThen (d.writeln (lit "  \"" ++ ptr b.id ++ lit "\" -> \"" ++ artNode n a
          ++ lit "\" [arrowhead = \"none\"]")) fun d =>
        Doc.andThen d.flush fun d => ({ d with count := (d.count.1, d.count.2 + 1) }, false))
      (c := (n.1, n.2 + 1))
      (u := (artLine n a (if o.showArtifact then lit " :\n" ++ a.dbg else []) ++ ['\n']) ++
        ((lit "  \"" ++ ptr b.id ++ lit "\" -> \"" ++ artNode n a
          ++ lit "\" [arrowhead = \"none\"]" ++ ['\n']) ++ ([] ++ []))) (by
      intro d1 w1 h1 h1' h1''
      obtain ⟨o1, out1, n1⟩ := d1
      simp only at h1 h1' h1''
      subst h1 h1' h1''
      refine (VisgraphW.writeln_did (d := ⟨_, some w1, _⟩) rfl _).andThen ?_
      intro d2 w2 h2 h2' h2''
      obtain ⟨o2, out2, n2⟩ := d2
      simp only at h2 h2' h2''
      subst h2 h2' h2''
      refine (VisgraphW.writeln_did (d := ⟨_, some w2, _⟩) rfl _).andThen ?_
      intro d3 w3 h3 h3' h3''
      obtain ⟨o3, out3, n3⟩ := d3
      simp only at h3 h3' h3''
      subst h3 h3' h3''
      refine (VisgraphW.flush_did (d := ⟨_, some w3, _⟩) rfl).andThen ?_
      intro d4 w4 h4 h4' h4''
      rw [h4']
      exact .done _ h4 h4'')
    exact (congrArg (DidV _ _ _ · _ _) (by simp)).mp key
  | clear => exact .done _ rfl rfl
  | invalidate b => exact .done _ rfl rfl

theorem returned_snoc (l : List (DocEv × Bool)) (e : DocEv) (f : Bool) :
    returned (l ++ [(e, f)]) = returned l ++ if f then [] else [e] := by
  cases f <;> simp [returned]

theorem TextualW.run_append (d : TextualW D) (es es' : List DocEv) :
    d.run (es ++ es') = (((d.run es).1.run es').1, (d.run es).2 ++ ((d.run es).1.run es').2) := by
  induction es generalizing d with
  | nil => rfl
  | cons e es ih => simp only [List.cons_append, TextualW.run, ih]

theorem VisgraphW.run_append (printable : Char → Bool) (d : VisgraphW D) (es es' : List DocEv) :
    d.run printable (es ++ es') = (((d.run printable es).1.run printable es').1,
      (d.run printable es).2 ++ ((d.run printable es).1.run printable es').2) := by
  induction es generalizing d with
  | nil => rfl
  | cons e es ih => simp only [List.cons_append, VisgraphW.run, ih]

theorem labelOf_next (past : List DocEv) (e : DocEv) : next (labelOf past) e = labelOf (past ++ [e]) := by
  rw [labelOf_eq, labelOf_eq, List.foldl_append]; rfl

theorem told_eq (o : TextOpts) (past : List DocEv) (e : DocEv) : textText o (labelOf past) e = told o past e := by
  have h := TextualDoc.run_output o [] past e
  rw [C53_told] at h
  exact (List.append_cancel_left h).symm

/-- All about a sequence of calls of `TextualDoc`. -/
theorem TextualW.run_all (o : TextOpts) (w : Sink D) (evs : List DocEv) :
    let r := (TextualW.new o w).run evs
    r.1.opts = o ∧ r.1.count = labelOf (returned r.2) ∧ Received (told o) r.2 w.got r.1.output.got ∧
      r.1.output.errors = w.errors + r.2.countP (·.2) ∧ (D.Reliable → ∀ x ∈ r.2, x.2 = false) ∧
      r.2.map (·.1) = evs := by
  induction evs using List.reverseRecOn with
  | nil => exact ⟨rfl, rfl, .nil _, rfl, fun _ _ h => absurd h (by simp [TextualW.run]), rfl⟩
  | append_singleton evs e ih =>
    simp only [TextualW.run_append, TextualW.run]
    simp only at ih
    generalize (TextualW.new o w).run evs = r at ih
    obtain ⟨d, l⟩ := r
    obtain ⟨i1, i2, i3, i4, i5, i6⟩ := ih
    simp only at i1 i2 i3 i4 i5 i6 ⊢
    obtain ⟨h1, h2, h3⟩ := d.on_did e
    rw [i2, i1, told_eq] at h2
    rw [i1] at h1
    rw [i2, labelOf_next] at h3
    generalize d.on e = y at h1 h2 h3
    obtain ⟨d', f⟩ := y
    simp only at h1 h2 h3 ⊢
    refine ⟨h1, ?_, ?_, ?_, ?_, by simp [i6]⟩
    · rw [h3, returned_snoc]
      cases f <;> simp
    · cases f with
      | false =>
        rw [(h2.ok rfl).1]
        exact .returned e i3
      | true =>
        obtain ⟨⟨u, hu, hu'⟩, _⟩ := h2.failed rfl
        rw [hu']
        exact .panicked e i3 hu
    · cases f with
      | false => rw [(h2.ok rfl).2, i4]; simp
      | true => rw [(h2.failed rfl).2, i4]; simp; omega
    · intro hr x hx
      rcases List.mem_append.1 hx with hx | hx
      · exact i5 hr x hx
      · rw [List.mem_singleton.1 hx]; exact h2.reliable hr

/-- All about a sequence of calls of `VisgraphDoc`. -/
theorem VisgraphW.run_all (printable : Char → Bool) {d : VisgraphW D} {w : Sink D} (hd : d.output = some w)
    (hc : d.count = (0, 0)) (evs : List DocEv) :
    let r := d.run printable evs
    r.1.opts = d.opts ∧ r.1.count = labelOf (returned r.2) ∧ ∃ w', r.1.output = some w' ∧
      Received (fun past e => visText printable d.opts (labelOf past) e) r.2 w.got w'.got ∧
      w'.errors = w.errors + r.2.countP (·.2) ∧ (D.Reliable → ∀ x ∈ r.2, x.2 = false) ∧
      r.2.map (·.1) = evs := by
  induction evs using List.reverseRecOn with
  | nil => exact ⟨rfl, hc, w, hd, .nil _, rfl, fun _ _ h => absurd h (by simp [VisgraphW.run]), rfl⟩
  | append_singleton evs e ih =>
    simp only [VisgraphW.run_append, VisgraphW.run]
    simp only at ih
    generalize d.run printable evs = r at ih
    obtain ⟨d', l⟩ := r
    obtain ⟨i1, i2, w', i0, i3, i4, i5, i6⟩ := ih
    simp only at i1 i2 i0 i3 i4 i5 i6 ⊢
    obtain ⟨h1, ⟨w2, h0, h2⟩, h3⟩ := VisgraphW.on_did printable i0 e
    rw [i2, i1] at h2
    rw [i1] at h1
    rw [i2, labelOf_next] at h3
    generalize d'.on printable e = y at h1 h2 h3 h0
    obtain ⟨d'', f⟩ := y
    simp only at h1 h2 h3 h0 ⊢
    refine ⟨h1, ?_, w2, h0, ?_, ?_, ?_, by simp [i6]⟩
    · rw [h3, returned_snoc]
      cases f <;> simp
    · cases f with
      | false =>
        rw [(h2.ok rfl).1]
        exact .returned (text := fun past e => visText printable d.opts (labelOf past) e) e i3
      | true =>
        obtain ⟨⟨u, hu, hu'⟩, _⟩ := h2.failed rfl
        rw [hu']
        exact .panicked (text := fun past e => visText printable d.opts (labelOf past) e) e i3 hu
    · cases f with
      | false => rw [(h2.ok rfl).2, i4]; simp
      | true => rw [(h2.failed rfl).2, i4]; simp; omega
    · intro hr x hx
      rcases List.mem_append.1 hx with hx | hx
      · exact i5 hr x hx
      · rw [List.mem_singleton.1 hx]; exact h2.reliable hr

/-! ## The properties -/

/-- **C61** `TextualDoc` on an arbitrary `Write`, whatever fails when: each call that returns has written exactly the text
of its event, and each call that panics a beginning of it.  Calls that panicked do not count for the labels. -/
theorem C61_textual (o : TextOpts) (w : Sink D) (evs : List DocEv) :
    let r := (TextualW.new o w).run evs
    r.2.map (·.1) = evs ∧ Received (told o) r.2 w.got r.1.output.got :=
  ⟨(TextualW.run_all o w evs).2.2.2.2.2, (TextualW.run_all o w evs).2.2.1⟩

/-- **C61** No error of the `Write` is swallowed, and the doctor panics for no other reason: the `Write` has reported as
many errors as there were calls that panicked. -/
theorem C61_errors (o : TextOpts) (w : Sink D) (evs : List DocEv) :
    let r := (TextualW.new o w).run evs
    r.1.output.errors = w.errors + r.2.countP (·.2) := (TextualW.run_all o w evs).2.2.2.1

theorem received_all {text : List DocEv → DocEv → Text} {l : List (DocEv × Bool)} {t t' : Text}
    (h : Received text l t t') (hl : ∀ x ∈ l, x.2 = false) :
    ∀ f : List DocEv → Text, f [] = t → (∀ past e, f (past ++ [e]) = f past ++ text past e) → t' = f (l.map (·.1)) := by
  intro f h0 h1
  have hret : ∀ l : List (DocEv × Bool), (∀ x ∈ l, x.2 = false) → returned l = l.map (·.1) := by
    intro l hl
    unfold returned
    rw [List.filter_eq_self.2 fun x hx => by simp [hl x hx]]
  induction h with
  | nil t => exact h0.symm
  | returned e _ ih =>
    have hl' := fun x hx => hl x (List.mem_append_left _ hx)
    rw [ih hl' h0, List.map_append, List.map_singleton, h1, hret _ hl']
  | panicked e _ _ _ => exact absurd (hl (e, true) (by simp)) (by simp)

/-- **C61** On a `Write` that never fails nothing panics, and the text is the one of the model without failures. -/
theorem C61_reliable (hD : D.Reliable) (o : TextOpts) (w : Sink D) (evs : List DocEv) :
    let r := (TextualW.new o w).run evs
    r.2 = evs.map (·, false) ∧ r.1.output.got = ((TextualDoc.new o w.got).run evs).output := by
  obtain ⟨_, _, h3, _, h5, h6⟩ := TextualW.run_all o w evs
  refine ⟨?_, ?_⟩
  · generalize ((TextualW.new o w).run evs).2 = l at h5 h6
    subst h6
    rw [List.map_map]
    exact (List.map_id l).symm.trans (List.map_congr_left fun x hx => Prod.ext rfl (h5 hD x hx))
  · rw [received_all h3 (h5 hD) (fun evs => ((TextualDoc.new o w.got).run evs).output) rfl
      (fun past e => C53_told o w.got past e), h6]

/-- **C61** Up to and including the first call that panics, the `Write` has taken a beginning of the text it would have
taken had it not failed, and all of it but (a part of) the text of the last event. -/
theorem C61_first_error (o : TextOpts) (w : Sink D) (evs : List DocEv) (e : DocEv)
    (h : ∀ x ∈ ((TextualW.new o w).run evs).2, x.2 = false) :
    let t := ((TextualDoc.new o w.got).run evs).output
    let t' := ((TextualDoc.new o w.got).run (evs ++ [e])).output
    let r := (TextualW.new o w).run (evs ++ [e])
    t <+: r.1.output.got ∧ r.1.output.got <+: t' ∧ (r.1.output.errors = w.errors → r.1.output.got = t') := by
  obtain ⟨i1, i2, i3, i4, _, i6⟩ := TextualW.run_all o w evs
  have i3 := received_all i3 h (fun evs => ((TextualDoc.new o w.got).run evs).output) rfl
    (fun past e => C53_told o w.got past e)
  rw [i6] at i3
  rw [List.countP_eq_zero.2 (by simpa using h)] at i4
  have hret : returned ((TextualW.new o w).run evs).2 = evs := by
    unfold returned
    rw [List.filter_eq_self.2 fun x hx => by simp [h x hx], i6]
  simp only [TextualW.run_append, TextualW.run, C53_told]
  rw [← i3]
  have h2 := (((TextualW.new o w).run evs).1.on_did e).took
  rw [i1, i2, told_eq, hret] at h2
  cases hf : (((TextualW.new o w).run evs).1.on e).2 with
  | false =>
    rw [(h2.ok hf).1]
    exact ⟨List.prefix_append _ _, List.prefix_refl _, fun _ => rfl⟩
  | true =>
    obtain ⟨⟨u, hu, hu'⟩, he⟩ := h2.failed hf
    rw [hu', he, i4]
    exact ⟨List.prefix_append _ _, (List.prefix_append_right_inj _).2 hu, fun h => by omega⟩

/-- **C61** Two calls for artifacts that returned have given them different labels, whatever failed in between. -/
theorem C61_labels {l rest rest' past past' : List (DocEv × Bool)} {b b' : BHandle} {a a' : AHandle}
    (h : l = past ++ (.build b a, false) :: rest) (h' : l = past' ++ (.build b' a', false) :: rest')
    (hl : labelText (labelOf (returned past)) = labelText (labelOf (returned past'))) : past = past' := by
  have key : ∀ p : List (DocEv × Bool), ∀ q e, returned (p ++ (e, false) :: q) = returned p ++ e :: returned q := by
    intro p q e
    simp [returned]
  have h1 : returned past = returned past' :=
    C41_unique (evs := returned l) (by rw [h, key]) (by rw [h', key]) (x := ' ') (y := ' ') (r := []) (r' := [])
      (by decide) (by decide) (by rw [hl])
  -- if one were longer than the other, there would be more events before it
  have h2 : ∀ p p' r : List (DocEv × Bool), ∀ x e, p' = p ++ x :: r → x = (e, false) →
      (returned p).length < (returned p').length := by
    rintro p _ r _ e rfl rfl
    rw [key]; simp
  have h3 : past ++ (.build b a, false) :: rest = past' ++ (.build b' a', false) :: rest' := h.symm.trans h'
  rcases List.append_eq_append_iff.1 h3 with ⟨m, e1, e2⟩ | ⟨m, e1, e2⟩
  · cases m with
    | nil => simpa using e1.symm
    | cons x m =>
      simp only [List.cons_append, List.cons.injEq] at e2
      have := h2 past past' m x _ e1 e2.1.symm
      rw [h1] at this; omega
  · cases m with
    | nil => simpa using e1
    | cons x m =>
      simp only [List.cons_append, List.cons.injEq] at e2
      have := h2 past' past m x _ e1 e2.1.symm
      rw [h1] at this; omega

/-- A `Write` that takes everything but whose first `n` flushes fail. -/
def leaky : Device where
  State := Nat
  put n t := (n, t.length)
  flush n := (n - 1, n != 0)

unseal lit in
/-- **C61** But a call that panicked may have written its whole line, with the label that the next one gets, too. -/
theorem C61_label_twice :
    let r := (TextualW.new ⟨false, false, false, id⟩ (D := leaky) ⟨(1 : Nat), [], 0⟩).run
      [.build (demoHandle 0) demoArt, .build (demoHandle 0) demoArt]
    r.2.map (·.2) = [true, false] ∧
    r.1.output.got = "built #0.0  my::Builder => Leaf\nbuilt #0.0  my::Builder => Leaf\n".toList := by decide

/-- The header of a graph. -/
def header : Text := lit "strict digraph { graph [labeljust = l];\n"

/-- The end of a graph. -/
def footer : Text := lit "}\n"

/-- **C61** `VisgraphDoc` on an arbitrary `Write`: there is one only if the header was written; then as for
`TextualDoc`. -/
theorem C61_visgraph (printable : Char → Bool) (o : VisOpts) (w : Sink D) (evs : List DocEv) :
    match VisgraphW.new o w with
    | .error w' => (∃ u, u <+: header ∧ w'.got = w.got ++ u) ∧ w'.errors = w.errors + 1
    | .ok d =>
      let r := d.run printable evs
      r.2.map (·.1) = evs ∧ ∃ w', r.1.output = some w' ∧
        Received (fun past e => visText printable o (labelOf past) e) r.2 (w.got ++ header) w'.got ∧
        w'.errors = w.errors + r.2.countP (·.2) := by
  have h := w.write_took header
  unfold VisgraphW.new
  rw [← header]
  generalize w.write header = x at h
  obtain ⟨w1, f⟩ := x
  cases f with
  | true => exact h.failed rfl
  | false =>
    simp only at h ⊢
    obtain ⟨_, _, w', h3, h4, h5, _, h7⟩ :=
      VisgraphW.run_all printable (d := ⟨o, some w1, (0, 0)⟩) (w := w1) rfl rfl evs
    rw [(h.ok rfl).1] at h4
    rw [(h.ok rfl).2] at h5
    exact ⟨h7, w', h3, h4, h5⟩

theorem footer_eq : footer = lit "}" ++ ['\n'] := by unfold footer lit; decide

/-- **C61** The end of a `VisgraphDoc`, whatever failed before.  Dropping it writes the end of the graph; if that fails,
the destructor panics. -/
theorem C61_drop {d : VisgraphW D} {w : Sink D} (h : d.output = some w) : ∃ w', d.drop.1 = some w' ∧
    if d.drop.2 then (∃ u, u <+: footer ∧ w'.got = w.got ++ u) ∧ w'.errors = w.errors + 1
    else w'.got = w.got ++ footer ∧ w'.errors = w.errors := by
  obtain ⟨_, ⟨w', h2, h3⟩, _⟩ := VisgraphW.writeln_did h (lit "}")
  rw [← footer_eq] at h3
  refine ⟨w', by simp [VisgraphW.drop, VisgraphW.finish, h, h2], ?_⟩
  have e : d.drop.2 = (d.writeln (lit "}")).2 := by simp [VisgraphW.drop, VisgraphW.finish, h]
  rw [e]
  generalize (d.writeln (lit "}")).2 = f at h3
  cases f with
  | true => exact h3.failed rfl
  | false => exact h3.ok rfl

/-- **C61** `into_inner` returns the `Write` iff the end of the graph could be written, once.  Otherwise the end of the
graph is written a second time; if that also fails, the process is aborted. -/
theorem C61_into_inner {d : VisgraphW D} {w : Sink D} (h : d.output = some w) :
    match d.intoInner with
    | .returned w' => w'.got = w.got ++ footer ∧ w'.errors = w.errors
    | .panicked w' => ∃ w1 u, w' = some w1 ∧ u <+: footer ∧ w1.got = w.got ++ u ++ footer ∧ w1.errors = w.errors + 1
    | .aborted w' => ∃ w1 u u', w' = some w1 ∧ u <+: footer ∧ u' <+: footer ∧ w1.got = w.got ++ u ++ u' ∧
        w1.errors = w.errors + 2 := by
  obtain ⟨_, ⟨w', h2, h3⟩, _⟩ := VisgraphW.writeln_did h (lit "}")
  rw [← footer_eq] at h3
  unfold VisgraphW.intoInner VisgraphW.finish
  generalize d.writeln (lit "}") = x at h2 h3
  obtain ⟨d1, f⟩ := x
  simp only at h2 h3 ⊢
  cases f with
  | false =>
    simp only [h2]
    simp only [VisgraphW.drop, Option.isSome_none, Bool.false_eq_true, if_false]
    exact h3.ok rfl
  | true =>
    obtain ⟨⟨u, hu, hu'⟩, he⟩ := h3.failed rfl
    obtain ⟨w2, h4, h5⟩ := C61_drop h2
    simp only
    generalize d1.drop = y at h4 h5
    obtain ⟨w3, g⟩ := y
    simp only at h4 h5
    cases g with
    | false =>
      simp only [Bool.false_eq_true, if_false] at h5 ⊢
      exact ⟨w2, u, h4, hu, by rw [h5.1, hu'], by rw [h5.2, he]⟩
    | true =>
      simp only [if_true] at h5 ⊢
      obtain ⟨⟨u', k1, k2⟩, k3⟩ := h5
      exact ⟨w2, u, u', h4, hu, k1, by rw [k2, hu'], by rw [k3, he]⟩

/-- **C61** In particular: if the `Write` has broken down for good, then whatever was done before, dropping the
`VisgraphDoc` panics (which aborts the process, if it is dropped because of a panic, e.g. the one of the call in which the
`Write` first failed), and `into_inner` aborts the process. -/
theorem C61_broken_pipe (hD : ∀ st t, t ≠ [] → (D.put st t).2 = 0) {d : VisgraphW D} {w : Sink D}
    (h : d.output = some w) :
    d.drop.2 = true ∧ ∃ w', d.intoInner = .aborted w' := by
  have h0 : ∀ w : Sink D, (w.write (lit "}" ++ ['\n'])).2 = true := by
    intro w
    unfold Sink.write
    simp [hD w.st (lit "}" ++ ['\n']) (by simp)]
  have key : ∀ (d : VisgraphW D) (w : Sink D), d.output = some w → d.drop.2 = true := by
    intro d w h
    simp [VisgraphW.drop, VisgraphW.finish, VisgraphW.writeln, h, h0]
  refine ⟨key d w h, ?_⟩
  have h1 := key { d with output := some (w.write (lit "}" ++ ['\n'])).1 } _ rfl
  unfold VisgraphW.intoInner VisgraphW.finish
  simp only [VisgraphW.writeln, h, h0]
  generalize ({ d with output := some (w.write (lit "}" ++ ['\n'])).1 } : VisgraphW D).drop = x at h1
  obtain ⟨x, f⟩ := x
  simp only at h1
  subst h1
  exact ⟨x, rfl⟩

/-! ## Examples -/

/-- A `Write` with room for `n` characters. -/
def paper : Device where
  State := Nat
  put n t := (n - t.length, n)
  flush n := (n, false)

unseal lit in
/-- The paper ends in the second call. -/
example :
    let r := (TextualW.new ⟨false, false, false, id⟩ (D := paper) ⟨(50 : Nat), [], 0⟩).run
      [.build (demoHandle 0) demoArt, .resolve (demoHandle 1) (demoHandle 0), .clear]
    r.2.map (·.2) = [false, true, true] ∧ r.1.output.errors = 2 ∧
    r.1.output.got = "built #0.0  my::Builder => Leaf\nresolves my::Build".toList := by decide

unseal lit in
/-- A graph: there is room for the header and one more character. -/
example :
    (match VisgraphW.new ⟨false, false⟩ (D := paper) ⟨(41 : Nat), [], 0⟩ with
    | .error _ => none
    | .ok d => match d.intoInner with
      | .aborted (some w) => some w.got
      | _ => none) = some "strict digraph { graph [labeljust = l];\n}".toList := by decide

end Daab.Doc
