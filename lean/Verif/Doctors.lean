import Std.Data.String.ToNat

/-!
# Model of `TextualDoc` and `VisgraphDoc`

`src/diagnostics/textual.rs` and `src/diagnostics/visgraph.rs` as state machines over the doctor's events.
Simplifications: the `Write` never fails (a failing one makes the doctor panic, `unwrap`), flushing
has no effect on the text, and the `u64` counters do not overflow (`Words.lean`: they do not while there
are fewer than `2 ^ 64` events; `Writer.lean`: outputs which fail).
-/

namespace Daab.Doc

abbrev Text := List Char

/-- The characters of a literal. -/
@[irreducible] def lit (s : String) : Text := s.toList

/-- `{}` of an `u64`. -/
def dec (n : Nat) : Text := Nat.toDigits 10 n

/-- `{:p}` of a pointer. -/
def ptr (n : Nat) : Text := lit "0x" ++ Nat.toDigits 16 n

/-- `src/diagnostics/mod.rs` 187-201 `BuilderHandle` (`typeName`: `std::any::type_name`, `dbg`: the
`{:#?}` text). -/
structure BHandle where
  id : Nat
  typeName : Text
  dbg : Text

/-- `src/diagnostics/mod.rs` 122-132 `ArtifactHandle`; `addr`: `value.can_as_ptr()`. -/
structure AHandle where
  addr : Nat
  typeName : Text
  dbg : Text

/-- The calls of the `Doctor` trait, `src/diagnostics/mod.rs` 69-108. -/
inductive DocEv
  | resolve (builder used : BHandle)
  | build (builder : BHandle) (artifact : AHandle)
  | clear
  | invalidate (builder : BHandle)

/-! ## `TextualDoc` -/

/-- `src/diagnostics/textual.rs` 46-72 `TextualDocOptions`.  `tynm` is the abbreviation of type
names (a function of the crate `tynm`, or the identity). -/
structure TextOpts where
  showBuilder : Bool
  showArtifact : Bool
  showAddr : Bool
  tynm : Text → Text

/-- `src/diagnostics/textual.rs` 125-137 `TextualDoc`. -/
structure TextualDoc where
  opts : TextOpts
  output : Text
  count : Nat × Nat

/-- `src/diagnostics/textual.rs` 142-151 `new`; the given `Write` may have been written to before. -/
def TextualDoc.new (opts : TextOpts) (output : Text) : TextualDoc := ⟨opts, output, (0, 0)⟩

/-- `src/diagnostics/textual.rs` 170-176 `builder_str`. -/
def TextOpts.builderStr (o : TextOpts) (b : BHandle) : Text :=
  if o.showBuilder then b.dbg else o.tynm b.typeName

/-- `write!` -/
def TextualDoc.write (d : TextualDoc) (t : Text) : TextualDoc := { d with output := d.output ++ t }

/-- `writeln!` -/
def TextualDoc.writeln (d : TextualDoc) (t : Text) : TextualDoc := { d with output := d.output ++ t ++ ['\n'] }

/-- `src/diagnostics/textual.rs` 192-213 `resolve`. -/
def TextualDoc.resolve (d : TextualDoc) (b u : BHandle) : TextualDoc :=
  let bs := d.opts.builderStr b
  let us := d.opts.builderStr u
  if d.opts.showAddr then
    d.writeln (lit "resolves [" ++ ptr b.id ++ lit "] " ++ bs ++ lit " -> [" ++ ptr u.id
      ++ lit "] " ++ us)
  else d.writeln (lit "resolves " ++ bs ++ lit " -> " ++ us)

/-- `src/diagnostics/textual.rs` 216-254 `build`. -/
def TextualDoc.build (d : TextualDoc) (b : BHandle) (a : AHandle) : TextualDoc :=
  let count := d.count
  let bs := d.opts.builderStr b
  let d :=
    if d.opts.showAddr then
      d.write (lit "built #" ++ dec count.1 ++ lit "." ++ dec count.2 ++ lit " [" ++ ptr b.id
        ++ lit "] " ++ bs ++ lit " => [" ++ ptr a.addr ++ lit "] ")
    else
      d.write (lit "built #" ++ dec count.1 ++ lit "." ++ dec count.2 ++ lit "  " ++ bs
        ++ lit " => ")
  let d := if d.opts.showArtifact then d.writeln a.dbg else d.writeln (d.opts.tynm a.typeName)
  { d with count := (d.count.1, d.count.2 + 1) }

/-- `src/diagnostics/textual.rs` 256-267 `clear`. -/
def TextualDoc.clear (d : TextualDoc) : TextualDoc :=
  let count := d.count
  let d := d.writeln (lit "Clears generation #" ++ dec count.1)
  { d with count := (d.count.1 + 1, 0) }

/-- `src/diagnostics/textual.rs` 269-295 `invalidate` (it uses `write!` only). -/
def TextualDoc.invalidate (d : TextualDoc) (b : BHandle) : TextualDoc :=
  let count := d.count
  let d := d.write (lit "Invalidates generation #" ++ dec count.1 ++ lit " targeting ")
  let bs := d.opts.builderStr b
  let d :=
    if d.opts.showAddr then d.write (lit "[" ++ ptr b.id ++ lit "] " ++ bs) else d.write bs
  { d with count := (d.count.1 + 1, 0) }

/-- The `Doctor` impl. -/
def TextualDoc.on (d : TextualDoc) : DocEv → TextualDoc
  | .resolve b u => d.resolve b u
  | .build b a => d.build b a
  | .clear => d.clear
  | .invalidate b => d.invalidate b

/-- The doctor after a sequence of events (oldest first). -/
def TextualDoc.run (d : TextualDoc) (evs : List DocEv) : TextualDoc := evs.foldl TextualDoc.on d

/-! ## `VisgraphDoc` -/

/-- `src/diagnostics/visgraph.rs` 28-38 `VisgraphDocOptions`. -/
structure VisOpts where
  showBuilder : Bool
  showArtifact : Bool

/-- `src/diagnostics/visgraph.rs` 91-103 `VisgraphDoc`. -/
structure VisgraphDoc where
  opts : VisOpts
  output : Option Text
  count : Nat × Nat

/-- `src/diagnostics/visgraph.rs` 108-118 `new`. -/
def VisgraphDoc.new (opts : VisOpts) (output : Text) : VisgraphDoc :=
  ⟨opts, some (output ++ lit "strict digraph { graph [labeljust = l];\n"), (0, 0)⟩

/-- `src/diagnostics/visgraph.rs` 121-127 `builder_str`. -/
def VisOpts.builderStr (o : VisOpts) (b : BHandle) : Text := if o.showBuilder then b.dbg else b.typeName

/-- `writeln!(self.output(), ..)`, `src/diagnostics/visgraph.rs` 129-131 `output` (`none`: it panics). -/
def VisgraphDoc.writeln (d : VisgraphDoc) (t : Text) : Option VisgraphDoc :=
  d.output.map fun o => { d with output := some (o ++ t ++ ['\n']) }

/-- One character of `{:?}` of a `str`: `char::escape_debug` with the quotation marks of a string.
`printable` says which other characters are left alone. -/
def escChar (printable : Char → Bool) (c : Char) : Text :=
  if c = '"' then lit "\\\""
  else if c = '\\' then lit "\\\\"
  else if c = '\n' then lit "\\n"
  else if c = '\r' then lit "\\r"
  else if c = '\t' then lit "\\t"
  else if c = '\x00' then lit "\\0"
  else if printable c then [c]
  else lit "\\u{" ++ Nat.toDigits 16 c.toNat ++ lit "}"

/-- `{:?}` of a `str`. -/
def dbgStr (printable : Char → Bool) (t : Text) : Text := '"' :: t.flatMap (escChar printable) ++ ['"']

/-- `  "{:p}" [label = {:?}]` -/
def nodeLine (printable : Char → Bool) (id : Nat) (s : Text) : Text :=
  lit "  \"" ++ ptr id ++ lit "\" [label = " ++ dbgStr printable s ++ lit "]"

/-- `src/diagnostics/visgraph.rs` 155-180 `resolve`. -/
def VisgraphDoc.resolve (printable : Char → Bool) (d : VisgraphDoc) (b u : BHandle) : Option VisgraphDoc := do
  let s := d.opts.builderStr b
  let d ← d.writeln (nodeLine printable b.id s)
  let s := d.opts.builderStr u
  let d ← d.writeln (nodeLine printable u.id s)
  d.writeln (lit "  \"" ++ ptr b.id ++ lit "\" -> \"" ++ ptr u.id ++ lit "\"")

/-- The name of an artifact's node: `{0}.{1}-{2:p}`. -/
def artNode (count : Nat × Nat) (a : AHandle) : Text :=
  dec count.1 ++ lit "." ++ dec count.2 ++ lit "-" ++ ptr a.addr

/-- `  "{0}.{1}-{2:p}" [label = "#{0}.{1} {3}{4}", shape = box]` -/
def artLine (count : Nat × Nat) (a : AHandle) (s : Text) : Text :=
  lit "  \"" ++ artNode count a ++ lit "\" [label = \"#" ++ dec count.1 ++ lit "." ++ dec count.2
    ++ lit " " ++ a.typeName ++ s ++ lit "\", shape = box]"

/-- `src/diagnostics/visgraph.rs` 183-222 `build`. -/
def VisgraphDoc.build (printable : Char → Bool) (d : VisgraphDoc) (b : BHandle) (a : AHandle) :
    Option VisgraphDoc := do
  let count := d.count
  let s := d.opts.builderStr b
  let d ← d.writeln (nodeLine printable b.id s)
  let s := if d.opts.showArtifact then lit " :\n" ++ a.dbg else []
  let d ← d.writeln (artLine count a s)
  let d ← d.writeln (lit "  \"" ++ ptr b.id ++ lit "\" -> \"" ++ artNode count a
    ++ lit "\" [arrowhead = \"none\"]")
  pure { d with count := (d.count.1, d.count.2 + 1) }

/-- `src/diagnostics/visgraph.rs` 224-228 `clear`. -/
def VisgraphDoc.clear (d : VisgraphDoc) : VisgraphDoc := { d with count := (d.count.1 + 1, 0) }

/-- `src/diagnostics/visgraph.rs` 230-234 `invalidate`. -/
def VisgraphDoc.invalidate (d : VisgraphDoc) (_b : BHandle) : VisgraphDoc :=
  { d with count := (d.count.1 + 1, 0) }

/-- The `Doctor` impl (`none`: it panics). -/
def VisgraphDoc.on (printable : Char → Bool) (d : VisgraphDoc) : DocEv → Option VisgraphDoc
  | .resolve b u => d.resolve printable b u
  | .build b a => d.build printable b a
  | .clear => some d.clear
  | .invalidate b => some (d.invalidate b)

def VisgraphDoc.run (printable : Char → Bool) (d : VisgraphDoc) : List DocEv → Option VisgraphDoc
  | [] => some d
  | e :: es => (d.on printable e).bind fun d => d.run printable es

/-- `src/diagnostics/visgraph.rs` 133-135 `finish`. -/
def VisgraphDoc.finish (d : VisgraphDoc) : Option VisgraphDoc := d.writeln (lit "}")

/-- `src/diagnostics/visgraph.rs` 145-151 `drop`.  Answers what the owned `Write` (if it is still owned)
has received in the end. -/
def VisgraphDoc.drop (d : VisgraphDoc) : Option (Option Text) :=
  if d.output.isSome then d.finish.map (·.output) else some none

/-- `src/diagnostics/visgraph.rs` 139-142 `into_inner`: the returned `Write`, and what the `drop` that
follows leaves in a `Write` still owned. -/
def VisgraphDoc.intoInner (d : VisgraphDoc) : Option (Text × Option Text) := do
  let d ← d.finish
  let w ← d.output
  let rest ← { d with output := none }.drop
  pure (w, rest)

end Daab.Doc
