import Verif.Doctors
import Mathlib.Data.List.Induction

/-! # Properties C41 (labels), C42 (frame of the graph), C43 (lines), C45 (quoting) -/

namespace Daab.Doc

/-! ## Specification -/

/-- The events that begin a new generation. -/
def DocEv.isReset : DocEv → Bool
  | .clear => true
  | .invalidate _ => true
  | _ => false

def DocEv.isBuild : DocEv → Bool
  | .build _ _ => true
  | _ => false

/-- The label of a build that comes after the events `past`: the number of invalidations and clears
so far, and the number of builds since the last one. -/
def labelOf (past : List DocEv) : Nat × Nat :=
  (past.countP DocEv.isReset, (past.reverse.takeWhile fun e => !e.isReset).countP DocEv.isBuild)

/-- The text `g.i` of a label. -/
def labelText (l : Nat × Nat) : Text := dec l.1 ++ '.' :: dec l.2

/-! ## Facts about texts -/

theorem dec_digit {n : Nat} {c : Char} (h : c ∈ dec n) : c.isDigit :=
  Nat.isDigit_of_mem_toDigits (by decide) (by decide) h

theorem dec_inj {m n : Nat} (h : dec m = dec n) : m = n := by
  apply Nat.repr_injective
  unfold dec at h
  rw [← String.toList_inj, Nat.toList_repr, Nat.toList_repr, h]

theorem digits_split {a a' r r' : Text} {x y : Char} (ha : ∀ c ∈ a, c.isDigit) (ha' : ∀ c ∈ a', c.isDigit)
    (hx : x.isDigit = false) (hy : y.isDigit = false) (h : a ++ x :: r = a' ++ y :: r') :
    a = a' ∧ x = y ∧ r = r' := by
  induction a generalizing a' with
  | nil =>
    cases a' with
    | nil => simpa using h
    | cons c a' =>
      simp only [List.nil_append, List.cons_append, List.cons.injEq] at h
      have := ha' c (by simp)
      rw [← h.1, hx] at this
      cases this
  | cons c a ih =>
    cases a' with
    | nil =>
      simp only [List.nil_append, List.cons_append, List.cons.injEq] at h
      have := ha c (by simp)
      rw [h.1, hy] at this
      cases this
    | cons c' a' =>
      simp only [List.cons_append, List.cons.injEq] at h
      obtain ⟨h1, h2, h3⟩ := ih (a' := a') (fun c hc => ha c (by simp [hc])) (fun c hc => ha' c (by simp [hc])) h.2
      exact ⟨by rw [h.1, h1], h2, h3⟩

/-- The text of a label, followed by something that does not begin with a digit, determines it. -/
theorem labelText_inj {l l' : Nat × Nat} {x y : Char} {r r' : Text} (hx : x.isDigit = false)
    (hy : y.isDigit = false) (h : labelText l ++ x :: r = labelText l' ++ y :: r') :
    l = l' ∧ x = y ∧ r = r' := by
  unfold labelText at h
  simp only [List.append_assoc, List.cons_append] at h
  obtain ⟨h1, -, h2⟩ := digits_split (fun c => dec_digit) (fun c => dec_digit) (by decide) (by decide) h
  obtain ⟨h3, h4, h5⟩ := digits_split (fun c => dec_digit) (fun c => dec_digit) hx hy h2
  exact ⟨Prod.ext (dec_inj h1) (dec_inj h3), h4, h5⟩

/-! ## C41 -/

theorem labelOf_snoc (past : List DocEv) (e : DocEv) : labelOf (past ++ [e]) =
    if e.isReset then ((labelOf past).1 + 1, 0)
    else ((labelOf past).1, (labelOf past).2 + if e.isBuild then 1 else 0) := by
  unfold labelOf
  cases he : e.isReset
  · simp [he, List.countP_cons]
  · simp [he]

/-- What `TextualDoc` writes for an event. -/
def textText (o : TextOpts) (count : Nat × Nat) : DocEv → Text
  | .resolve b u =>
    (if o.showAddr then lit "resolves [" ++ ptr b.id ++ lit "] " ++ o.builderStr b ++ lit " -> ["
        ++ ptr u.id ++ lit "] " ++ o.builderStr u
      else lit "resolves " ++ o.builderStr b ++ lit " -> " ++ o.builderStr u) ++ ['\n']
  | .build b a =>
    lit "built #" ++ labelText count ++
      (if o.showAddr then lit " [" ++ ptr b.id ++ lit "] " ++ o.builderStr b ++ lit " => ["
          ++ ptr a.addr ++ lit "] "
        else lit "  " ++ o.builderStr b ++ lit " => ") ++
      (if o.showArtifact then a.dbg else o.tynm a.typeName) ++ ['\n']
  | .clear => lit "Clears generation #" ++ dec count.1 ++ ['\n']
  | .invalidate b =>
    lit "Invalidates generation #" ++ dec count.1 ++ lit " targeting " ++
      (if o.showAddr then lit "[" ++ ptr b.id ++ lit "] " else []) ++ o.builderStr b

theorem TextualDoc.on_eq (d : TextualDoc) (e : DocEv) : d.on e = { d with
    output := d.output ++ textText d.opts d.count e
    count := if e.isReset then (d.count.1 + 1, 0)
      else (d.count.1, d.count.2 + if e.isBuild then 1 else 0) } := by
  have e1 : lit "." = ['.'] := by unfold lit; decide
  cases e <;> simp only [TextualDoc.on, TextualDoc.resolve, TextualDoc.build, TextualDoc.clear,
    TextualDoc.invalidate, TextualDoc.write, TextualDoc.writeln, textText, DocEv.isReset, DocEv.isBuild,
    labelText, e1] <;>
  by_cases h1 : d.opts.showAddr = true <;> by_cases h2 : d.opts.showArtifact = true <;>
  simp only [h1, h2, if_true, if_false, Bool.false_eq_true, List.append_assoc,
      List.cons_append, List.nil_append, Nat.add_zero]

theorem TextualDoc.run_opts (d : TextualDoc) (evs : List DocEv) : (d.run evs).opts = d.opts := by
  induction evs generalizing d with
  | nil => rfl
  | cons e es ih => exact (ih (d.on e)).trans (by rw [d.on_eq])

theorem TextualDoc.run_snoc (d : TextualDoc) (evs : List DocEv) (e : DocEv) :
    d.run (evs ++ [e]) = (d.run evs).on e := by
  simp [TextualDoc.run, List.foldl_append]

theorem TextualDoc.run_count (o : TextOpts) (t : Text) (evs : List DocEv) :
    ((TextualDoc.new o t).run evs).count = labelOf evs := by
  induction evs using List.reverseRecOn with
  | nil => rfl
  | append_singleton evs e ih => 
    rw [TextualDoc.run_snoc, TextualDoc.on_eq, ih, labelOf_snoc]

theorem TextualDoc.run_output (o : TextOpts) (t : Text) (past : List DocEv) (e : DocEv) :
    ((TextualDoc.new o t).run (past ++ [e])).output =
      ((TextualDoc.new o t).run past).output ++ textText o (labelOf past) e := by
  rw [TextualDoc.run_snoc, TextualDoc.on_eq, TextualDoc.run_count, TextualDoc.run_opts]
  rfl

/-- **C41 (uniqueness)** In any sequence of events, the builds have pairwise different labels, and also the
texts of the labels differ, whatever follows them (a blank, a minus sign, ...). -/
theorem C41_unique {evs past past' rest rest' : List DocEv} {b b' : BHandle} {a a' : AHandle}
    (h : evs = past ++ .build b a :: rest) (h' : evs = past' ++ .build b' a' :: rest')
    {x y : Char} {r r' : Text} (hx : x.isDigit = false) (hy : y.isDigit = false)
    (hl : labelText (labelOf past) ++ x :: r = labelText (labelOf past') ++ y :: r') : past = past' := by
  have hl := (labelText_inj hx hy hl).1
  have key : ∀ p q : List DocEv, (labelOf p).1 ≤ (labelOf (p ++ q)).1 ∧
      ((labelOf p).1 = (labelOf (p ++ q)).1 → (labelOf p).2 ≤ (labelOf (p ++ q)).2) := by
    intro p q
    induction q using List.reverseRecOn with
    | nil => simp
    | append_singleton q e ih =>
      rw [← List.append_assoc, labelOf_snoc]
      split
      · simp only
        exact ⟨by omega, fun h => by omega⟩
      · simp only
        exact ⟨ih.1, fun h => by have := ih.2 h; omega⟩
  have key2 : ∀ (p q : List DocEv) b a, labelOf p ≠ labelOf (p ++ .build b a :: q) := by
    intro p q b a he
    have h1 := key (p ++ [.build b a]) q
    rw [labelOf_snoc] at h1
    simp only [DocEv.isReset, DocEv.isBuild, if_true, List.append_assoc, List.cons_append,
      List.nil_append, Bool.false_eq_true, if_false] at h1
    rw [← he] at h1
    have := h1.2 rfl
    omega
  rcases List.append_eq_append_iff.1 (h.symm.trans h') with ⟨c, hc, hc'⟩ | ⟨c, hc, hc'⟩
  · cases c with
    | nil => simpa using hc.symm
    | cons e c =>
      simp only [List.cons_append, List.cons.injEq] at hc'
      rw [hc, ← hc'.1] at hl
      exact absurd hl (key2 past c b a)
  · cases c with
    | nil => simpa using hc
    | cons e c =>
      simp only [List.cons_append, List.cons.injEq] at hc'
      rw [hc, ← hc'.1] at hl
      exact absurd hl.symm (key2 past' c b' a')

/-- **C41 (`TextualDoc`)** What `TextualDoc` writes for a build begins with the label. -/
theorem C41_textual (o : TextOpts) (t : Text) (past : List DocEv) (b : BHandle) (a : AHandle) :
    ∃ text, ((TextualDoc.new o t).run (past ++ [.build b a])).output =
      ((TextualDoc.new o t).run past).output ++ lit "built #" ++ labelText (labelOf past) ++ ' ' :: text := by
  have e2 : lit " [" = [' ', '['] := by unfold lit; decide
  have e3 : lit "  " = [' ', ' '] := by unfold lit; decide
  rw [TextualDoc.run_output]
  simp only [textText, e2, e3]
  by_cases h1 : o.showAddr = true <;>
    simp only [h1, if_true, if_false, Bool.false_eq_true, List.append_assoc, List.cons_append,
      List.nil_append] <;> exact ⟨_, rfl⟩

/-! ### `VisgraphDoc` -/

theorem VisgraphDoc.writeln_some {d : VisgraphDoc} {t o : Text} (h : d.output = some o) :
    d.writeln t = some { d with output := some (o ++ t ++ ['\n']) } := by
  simp [VisgraphDoc.writeln, h]

/-- The text of an event. -/
def visText (printable : Char → Bool) (o : VisOpts) (count : Nat × Nat) : DocEv → Text
  | .resolve b u => nodeLine printable b.id (o.builderStr b) ++ '\n' :: (nodeLine printable u.id (o.builderStr u)
      ++ '\n' :: (lit "  \"" ++ ptr b.id ++ lit "\" -> \"" ++ ptr u.id ++ lit "\"" ++ ['\n']))
  | .build b a => nodeLine printable b.id (o.builderStr b) ++ '\n' ::
      (artLine count a (if o.showArtifact then lit " :\n" ++ a.dbg else []) ++ '\n' ::
        (lit "  \"" ++ ptr b.id ++ lit "\" -> \"" ++ artNode count a
          ++ lit "\" [arrowhead = \"none\"]" ++ ['\n']))
  | .clear => []
  | .invalidate _ => []

theorem VisgraphDoc.on_some {printable : Char → Bool} {d : VisgraphDoc} {o : Text} (h : d.output = some o)
    (e : DocEv) : d.on printable e = some { d with
      output := some (o ++ visText printable d.opts d.count e)
      count := if e.isReset then (d.count.1 + 1, 0)
        else (d.count.1, d.count.2 + if e.isBuild then 1 else 0) } := by
  cases e with
  | resolve b u =>
    simp only [VisgraphDoc.on, VisgraphDoc.resolve, VisgraphDoc.writeln, h, Option.map_some,
      Option.bind_eq_bind, Option.bind_some, visText, DocEv.isReset, DocEv.isBuild]
    simp
  | build b a =>
    simp only [VisgraphDoc.on, VisgraphDoc.build, VisgraphDoc.writeln, h, Option.map_some,
      Option.bind_eq_bind, Option.bind_some, visText, DocEv.isReset, DocEv.isBuild, Option.pure_def]
    simp
  | clear => simp [VisgraphDoc.on, VisgraphDoc.clear, visText, DocEv.isReset, h]
  | invalidate b => simp [VisgraphDoc.on, VisgraphDoc.invalidate, visText, DocEv.isReset, h]

theorem VisgraphDoc.run_snoc (printable : Char → Bool) (d : VisgraphDoc) (evs : List DocEv) (e : DocEv) :
    d.run printable (evs ++ [e]) = (d.run printable evs).bind fun d => d.on printable e := by
  induction evs generalizing d with
  | nil => simp [VisgraphDoc.run]
  | cons e' es ih =>
    simp only [List.cons_append, VisgraphDoc.run]
    rw [Option.bind_assoc]
    congr 1
    funext d
    exact ih d

/-- A `VisgraphDoc` never panics over an event, and it appends the event's text. -/
theorem VisgraphDoc.run_some (printable : Char → Bool) (o : VisOpts) (t : Text) (evs : List DocEv) :
    ∃ out, (VisgraphDoc.new o t).run printable evs = some ⟨o, some out, labelOf evs⟩ := by
  induction evs using List.reverseRecOn with
  | nil => exact ⟨_, rfl⟩
  | append_singleton evs e ih =>
    obtain ⟨out, ho⟩ := ih
    rw [VisgraphDoc.run_snoc, ho, Option.bind_some, VisgraphDoc.on_some rfl, labelOf_snoc]
    exact ⟨_, rfl⟩

/-- The text a `VisgraphDoc`, created with a `Write` that holds `t`, has written after `evs` (before it
is finished). -/
def visOutput (printable : Char → Bool) (o : VisOpts) (t : Text) (evs : List DocEv) : Option Text :=
  ((VisgraphDoc.new o t).run printable evs).bind (·.output)

theorem visOutput_snoc (printable : Char → Bool) (o : VisOpts) (t : Text) (past : List DocEv) (e : DocEv) :
    ∃ out, visOutput printable o t past = some out ∧
      visOutput printable o t (past ++ [e]) = some (out ++ visText printable o (labelOf past) e) := by
  obtain ⟨out, ho⟩ := VisgraphDoc.run_some printable o t past
  refine ⟨out, by simp [visOutput, ho], ?_⟩
  unfold visOutput
  rw [VisgraphDoc.run_snoc, ho, Option.bind_some, VisgraphDoc.on_some rfl, Option.bind_some]

/-- **C41 (`VisgraphDoc`)** What `VisgraphDoc` writes for a build: the builder's node; the artifact's node,
whose name begins with the label; and an edge from the one to the other.  No artifact's node has the
name of a builder's node. -/
theorem C41_visgraph (printable : Char → Bool) (o : VisOpts) (t : Text) (past : List DocEv) (b : BHandle)
    (a : AHandle) :
    (∃ out label alabel, visOutput printable o t past = some out ∧
      visOutput printable o t (past ++ [.build b a]) = some (out ++
        lit "  \"" ++ ptr b.id ++ lit "\" [label = " ++ label ++ lit "]\n" ++
        lit "  \"" ++ (labelText (labelOf past) ++ '-' :: ptr a.addr) ++ lit "\" [label = \"#" ++
          labelText (labelOf past) ++ ' ' :: alabel ++ lit "\", shape = box]\n" ++
        lit "  \"" ++ ptr b.id ++ lit "\" -> \"" ++ (labelText (labelOf past) ++ '-' :: ptr a.addr) ++
          lit "\" [arrowhead = \"none\"]\n")) ∧
    ∀ i, ptr i ≠ labelText (labelOf past) ++ '-' :: ptr a.addr := by
  refine ⟨?_, ?_⟩
  · obtain ⟨out, h1, h2⟩ := visOutput_snoc printable o t past (.build b a)
    refine ⟨out, dbgStr printable (o.builderStr b),
      a.typeName ++ (if o.showArtifact then lit " :\n" ++ a.dbg else []), h1, ?_⟩
    rw [h2]
    have e1 : lit "." = ['.'] := by unfold lit; decide
    have e2 : lit "-" = ['-'] := by unfold lit; decide
    have e3 : lit " " = [' '] := by unfold lit; decide
    have e4 : lit "]\n" = lit "]" ++ ['\n'] := by unfold lit; decide
    have e5 : lit "\", shape = box]\n" = lit "\", shape = box]" ++ ['\n'] := by unfold lit; decide
    have e6 : lit "\" [arrowhead = \"none\"]\n" = lit "\" [arrowhead = \"none\"]" ++ ['\n'] := by unfold lit; decide
    rw [e4, e5, e6]
    simp only [visText, nodeLine, artLine, artNode, labelText, e1, e2, e3, List.append_assoc, List.cons_append,
      List.nil_append]
  · intro i h
    have e : ptr i = ['0'] ++ 'x' :: Nat.toDigits 16 i := by
      have : lit "0x" = ['0', 'x'] := by unfold lit; decide
      unfold ptr
      rw [this]
      rfl
    rw [e] at h
    unfold labelText at h
    simp only [List.append_assoc, List.cons_append] at h
    have := digits_split (a := ['0']) (by simp) (fun c => dec_digit) (by decide) (by decide) h
    exact absurd this.2.1 (by decide)

/-! ## C42 -/

/-- A text that consists of whole lines. -/
def Lines (t : Text) : Prop := t = [] ∨ ∃ t', t = t' ++ ['\n']

theorem Lines.append {t u : Text} (ht : Lines t) (hu : Lines u) : Lines (t ++ u) := by
  rcases hu with rfl | ⟨u', rfl⟩
  · simpa using ht
  · exact .inr ⟨t ++ u', by simp⟩

theorem visText_lines (printable : Char → Bool) (o : VisOpts) (c : Nat × Nat) (e : DocEv) :
    Lines (visText printable o c e) := by
  cases e with
  | resolve b u =>
    exact .inr ⟨nodeLine printable b.id (o.builderStr b) ++ '\n' :: (nodeLine printable u.id (o.builderStr u)
      ++ '\n' :: (lit "  \"" ++ ptr b.id ++ lit "\" -> \"" ++ ptr u.id ++ lit "\"")),
      by simp [visText]⟩
  | build b a =>
    exact .inr ⟨nodeLine printable b.id (o.builderStr b) ++ '\n' ::
      (artLine c a (if o.showArtifact then lit " :\n" ++ a.dbg else []) ++ '\n' ::
        (lit "  \"" ++ ptr b.id ++ lit "\" -> \"" ++ artNode c a
          ++ lit "\" [arrowhead = \"none\"]")), by simp [visText]⟩
  | clear => exact .inl rfl
  | invalidate b => exact .inl rfl

/-- **C42** Whatever events a `VisgraphDoc` sees, the text it leaves in the `Write` is: the header line,
some whole lines (which do not depend on how it ends), and one closing line.  This holds if it is
dropped, and if it is dismantled; in the latter case the `drop` that follows finds no `Write` to
close a second time.  No event makes it panic. -/
theorem C42_framed (printable : Char → Bool) (o : VisOpts) (t : Text) (evs : List DocEv) :
    ∃ d body, (VisgraphDoc.new o t).run printable evs = some d ∧ Lines body ∧
      visOutput printable o t evs = some (t ++ lit "strict digraph { graph [labeljust = l];\n" ++ body) ∧
      d.drop = some (some (t ++ lit "strict digraph { graph [labeljust = l];\n" ++ body ++ lit "}\n")) ∧
      d.intoInner = some (t ++ lit "strict digraph { graph [labeljust = l];\n" ++ body ++ lit "}\n", none) := by
  obtain ⟨out, ho⟩ := VisgraphDoc.run_some printable o t evs
  have hb : ∃ body, Lines body ∧ out = t ++ lit "strict digraph { graph [labeljust = l];\n" ++ body := by
    have hv : visOutput printable o t evs = some out := by simp [visOutput, ho]
    clear ho
    induction evs using List.reverseRecOn generalizing out with
    | nil =>
      refine ⟨[], .inl rfl, ?_⟩
      have := Option.some.inj hv
      rw [← this]
      simp
    | append_singleton evs e ih =>
      obtain ⟨out', h1, h2⟩ := visOutput_snoc printable o t evs e
      obtain ⟨body, hb, rfl⟩ := ih out' h1
      rw [h2] at hv
      refine ⟨body ++ visText printable o (labelOf evs) e, hb.append (visText_lines _ _ _ _), ?_⟩
      rw [← Option.some.inj hv]
      simp
  obtain ⟨body, hb, rfl⟩ := hb
  have e1 : lit "}\n" = lit "}" ++ ['\n'] := by unfold lit; decide
  rw [e1]
  refine ⟨_, body, ho, hb, by simp [visOutput, ho], ?_, ?_⟩
  · simp [VisgraphDoc.drop, VisgraphDoc.finish, VisgraphDoc.writeln]
  · simp [VisgraphDoc.intoInner, VisgraphDoc.drop, VisgraphDoc.finish, VisgraphDoc.writeln]

/-! ## C43 -/

/-- The word the text of an event begins with. -/
def DocEv.keyword : DocEv → Text
  | .resolve _ _ => lit "resolves "
  | .build _ _ => lit "built #"
  | .clear => lit "Clears generation #"
  | .invalidate _ => lit "Invalidates generation #"

def DocEv.isInvalidate : DocEv → Bool
  | .invalidate _ => true
  | _ => false

/-- **C43 (partial)** Each event's text, which begins with its keyword, is appended to what was written
before; and it begins on a new line if the event before was not an invalidation.  What is missing: an
event after an invalidation does not begin on a new line, see `C43_not_a_line`. -/
theorem C43_lines_partial (o : TextOpts) (t : Text) (ht : Lines t) (past : List DocEv) (e : DocEv) :
    (∃ text, ((TextualDoc.new o t).run (past ++ [e])).output =
      ((TextualDoc.new o t).run past).output ++ e.keyword ++ text) ∧
    ((∀ p i, past = p ++ [i] → i.isInvalidate = false) → Lines ((TextualDoc.new o t).run past).output) := by
  refine ⟨?_, ?_⟩
  · rw [TextualDoc.run_output]
    have e1 : lit "resolves [" = lit "resolves " ++ ['['] := by unfold lit; decide
    cases e <;> simp only [textText, DocEv.keyword, e1] <;>
      by_cases h1 : o.showAddr = true <;>
      simp only [h1, if_true, if_false, Bool.false_eq_true, List.append_assoc] <;> exact ⟨_, rfl⟩
  · intro h
    induction past using List.reverseRecOn with
    | nil => exact ht
    | append_singleton past i ih =>
      have hi := h past i rfl
      rw [TextualDoc.run_output]
      generalize ((TextualDoc.new o t).run past).output = out
      refine .inr ?_
      cases i with
      | invalidate b => simp [DocEv.isInvalidate] at hi
      | resolve b u => simp only [textText, ← List.append_assoc]; exact ⟨_, rfl⟩
      | build b a => simp only [textText, ← List.append_assoc]; exact ⟨_, rfl⟩
      | clear => simp only [textText, ← List.append_assoc]; exact ⟨_, rfl⟩

/-- **C43 fails**: an event after an invalidation is written on the invalidation's line.  For every
history `past` and every builder whose text is not empty and does not end in a newline. -/
theorem C43_not_a_line (o : TextOpts) (t : Text) (past : List DocEv) (b : BHandle) (c : Char) (s : Text)
    (hb : o.builderStr b = s ++ [c]) (hc : c ≠ '\n') :
    ¬ Lines ((TextualDoc.new o t).run (past ++ [.invalidate b])).output := by
  rw [TextualDoc.run_output]
  simp only [textText, hb, ← List.append_assoc]
  rintro (h | ⟨t', h⟩)
  · simp at h
  · have := List.append_inj_right' h rfl
    simp only [List.cons.injEq, and_true] at this
    exact hc this

unseal lit in
/-- A concrete run: the default options, an invalidation and a clear. -/
example : ((TextualDoc.new ⟨false, false, false, id⟩ []).run
    [.invalidate ⟨1, lit "Leaf", []⟩, .clear]).output =
    lit "Invalidates generation #0 targeting LeafClears generation #1\n" := by decide

/-! ## C45 -/

/-- What is left of a text in DOT format if every quoted string is replaced by one quotation mark (in a
quoted string, a backslash takes away the meaning of the next character).  The flag says whether the
text begins inside a string. -/
def skeleton : Bool → Text → Text
  | _, [] => []
  | true, '\\' :: _ :: r => skeleton true r
  | true, c :: r => if c = '"' then skeleton false r else skeleton true r
  | false, c :: r => if c = '"' then '"' :: skeleton true r else c :: skeleton false r

/-- What may stand in a quoted string. -/
inductive Inner : Text → Prop
  | nil : Inner []
  | plain (c : Char) (t : Text) (hq : c ≠ '"') (hb : c ≠ '\\') (h : Inner t) : Inner (c :: t)
  | esc (c : Char) (t : Text) (h : Inner t) : Inner ('\\' :: c :: t)

theorem Inner.append {t u : Text} (ht : Inner t) (hu : Inner u) : Inner (t ++ u) := by
  induction ht with
  | nil => exact hu
  | plain c t hq hb _ ih => exact .plain c _ hq hb ih
  | esc c t _ ih => exact .esc c _ ih

theorem Inner.of_plain {t : Text} (h : ∀ c ∈ t, c ≠ '"' ∧ c ≠ '\\') : Inner t := by
  induction t with
  | nil => exact .nil
  | cons c t ih =>
    exact .plain c t (h c (by simp)).1 (h c (by simp)).2 (ih fun c hc => h c (by simp [hc]))

theorem skeleton_inner {t : Text} (ht : Inner t) (r : Text) :
    skeleton true (t ++ '"' :: r) = skeleton false r := by
  induction ht with
  | nil => simp [skeleton]
  | plain c t hq hb _ ih =>
    rw [List.cons_append, skeleton.eq_3 _ _ (by simp_all)]
    rw [if_neg hq]
    exact ih
  | esc c t _ ih =>
    simp only [List.cons_append, skeleton]
    exact ih

theorem skeleton_outer {t : Text} (ht : ∀ c ∈ t, c ≠ '"') (r : Text) :
    skeleton false (t ++ r) = t ++ skeleton false r := by
  induction t with
  | nil => rfl
  | cons c t ih =>
    simp only [List.cons_append, skeleton]
    rw [if_neg (ht c (by simp)), ih fun c hc => ht c (by simp [hc])]

theorem skeleton_quoted {t : Text} (ht : Inner t) (r : Text) :
    skeleton false ('"' :: (t ++ '"' :: r)) = '"' :: skeleton false r := by
  simp only [skeleton, if_true]
  rw [skeleton_inner ht]

theorem hex_plain {n : Nat} {c : Char} (h : c ∈ Nat.toDigits 16 n) : c ≠ '"' ∧ c ≠ '\\' := by
  have core : ∀ fuel n acc, (∀ c ∈ acc, c ≠ '"' ∧ c ≠ '\\') → ∀ c ∈ Nat.toDigitsCore 16 fuel n acc,
      c ≠ '"' ∧ c ≠ '\\' := by
    intro fuel
    induction fuel with
    | zero => intro n acc h; simpa [Nat.toDigitsCore] using h
    | succ fuel ih =>
      intro n acc h
      have hd : ∀ k, k < 16 → (Nat.digitChar k ≠ '"' ∧ Nat.digitChar k ≠ '\\') := by decide
      have hacc : ∀ c ∈ Nat.digitChar (n % 16) :: acc, c ≠ '"' ∧ c ≠ '\\' := by
        intro c hc
        simp only [List.mem_cons] at hc
        rcases hc with rfl | hc
        · exact hd _ (Nat.mod_lt _ (by decide))
        · exact h c hc
      simp only [Nat.toDigitsCore]
      split
      · exact hacc
      · exact ih _ _ hacc
  exact core _ _ [] (by simp) c h

theorem ptr_inner (n : Nat) : Inner (ptr n) := by
  have e : lit "0x" = ['0', 'x'] := by unfold lit; decide
  unfold ptr
  rw [e]
  exact .append (.of_plain (by decide)) (.of_plain fun c => hex_plain)

theorem dec_inner (n : Nat) : Inner (dec n) := by
  refine .of_plain fun c hc => ?_
  have := dec_digit hc
  constructor <;> rintro rfl <;> revert this <;> decide

theorem esc_inner (printable : Char → Bool) (t : Text) : Inner (t.flatMap (escChar printable)) := by
  have h1 : ∀ c, Inner (escChar printable c) := by
    have e1 : lit "\\\"" = ['\\', '"'] := by unfold lit; decide
    have e2 : lit "\\\\" = ['\\', '\\'] := by unfold lit; decide
    have e3 : lit "\\n" = ['\\', 'n'] := by unfold lit; decide
    have e4 : lit "\\r" = ['\\', 'r'] := by unfold lit; decide
    have e5 : lit "\\t" = ['\\', 't'] := by unfold lit; decide
    have e6 : lit "\\0" = ['\\', '0'] := by unfold lit; decide
    have e7 : lit "\\u{" = ['\\', 'u', '{'] := by unfold lit; decide
    have e8 : lit "}" = ['}'] := by unfold lit; decide
    intro c
    unfold escChar
    rw [e1, e2, e3, e4, e5, e6, e7, e8]
    split
    · exact .esc _ _ .nil
    split
    · exact .esc _ _ .nil
    split
    · exact .esc _ _ .nil
    split
    · exact .esc _ _ .nil
    split
    · exact .esc _ _ .nil
    split
    · exact .esc _ _ .nil
    split
    · exact .plain _ _ (by assumption) (by assumption) .nil
    · exact .append (.append (.esc _ _ (.plain _ _ (by decide) (by decide) .nil))
        (.of_plain fun c => hex_plain)) (.plain _ _ (by decide) (by decide) .nil)
  induction t with
  | nil => exact .nil
  | cons c t ih => exact .append (h1 c) ih

/-- The text of a label: `#g.i type :` and the artifact's text. -/
theorem artNode_inner (c : Nat × Nat) (a : AHandle) : Inner (artNode c a) := by
  have e1 : lit "." = ['.'] := by unfold lit; decide
  have e2 : lit "-" = ['-'] := by unfold lit; decide
  unfold artNode
  rw [e1, e2]
  exact .append (.append (.append (.append (dec_inner _) (.of_plain (by decide))) (dec_inner _))
    (.of_plain (by decide))) (ptr_inner _)

theorem skeleton_nodeLine (printable : Char → Bool) (id : Nat) (s r : Text) :
    skeleton false (nodeLine printable id s ++ r) = lit "  \" [label = \"]" ++ skeleton false r := by
  have e1 : lit "  \"" = [' ', ' ', '"'] := by unfold lit; decide
  have e2 : lit "\" [label = " = ['"', ' ', '[', 'l', 'a', 'b', 'e', 'l', ' ', '=', ' '] := by
    unfold lit; decide
  have e3 : lit "]" = [']'] := by unfold lit; decide
  have e4 : lit "  \" [label = \"]" = [' ', ' ', '"', ' ', '[', 'l', 'a', 'b', 'e', 'l', ' ', '=', ' ',
    '"', ']'] := by unfold lit; decide
  unfold nodeLine dbgStr
  rw [e1, e2, e3, e4]
  simp only [List.append_assoc, List.cons_append, List.nil_append]
  have h1 := skeleton_outer (t := [' ', ' ']) (by decide)
  have h2 := skeleton_outer (t := [' ', '[', 'l', 'a', 'b', 'e', 'l', ' ', '=', ' ']) (by decide)
  have h3 := skeleton_outer (t := [']']) (by decide)
  simp only [List.cons_append, List.nil_append] at h1 h2 h3
  rw [h1, skeleton_quoted (ptr_inner _), h2, skeleton_quoted (esc_inner _ _), h3]

/-- **C45 (dependencies)** The lines for a dependency are two node statements and an edge statement, with
nothing but quoted strings as names and labels, whatever the builders' texts are. -/
theorem C45_resolve (printable : Char → Bool) (o : VisOpts) (count : Nat × Nat) (b u : BHandle) (r : Text) :
    skeleton false (visText printable o count (.resolve b u) ++ r) =
      lit "  \" [label = \"]\n  \" [label = \"]\n  \" -> \"\n" ++ skeleton false r := by
  have e0 : lit "  \" [label = \"]\n  \" [label = \"]\n  \" -> \"\n" = lit "  \" [label = \"]" ++ '\n' ::
      (lit "  \" [label = \"]" ++ ['\n', ' ', ' ', '"', ' ', '-', '>', ' ', '"', '\n']) := by
    unfold lit; decide
  have e1 : lit "  \"" = [' ', ' ', '"'] := by unfold lit; decide
  have e2 : lit "\" -> \"" = ['"', ' ', '-', '>', ' ', '"'] := by unfold lit; decide
  have e3 : lit "\"" = ['"'] := by unfold lit; decide
  unfold visText
  rw [e0, e1, e2, e3]
  simp only [List.append_assoc, List.cons_append, List.nil_append]
  rw [skeleton_nodeLine]
  have h1 := skeleton_outer (t := ['\n']) (by decide)
  have h2 := skeleton_outer (t := [' ', ' ']) (by decide)
  have h3 := skeleton_outer (t := [' ', '-', '>', ' ']) (by decide)
  simp only [List.cons_append, List.nil_append] at h1 h2 h3
  rw [h1, skeleton_nodeLine, h1, h2, skeleton_quoted (ptr_inner _), h3, skeleton_quoted (ptr_inner _), h1]

/-- **C45 (partial)** The lines for a build are two node statements and an edge statement with nothing but
quoted strings as names and labels, provided that the artifact's type name and debug text contain no
quotation mark and no backslash.  The proviso is needed, see `C45_unquoted`. -/
theorem C45_build_partial (printable : Char → Bool) (o : VisOpts) (count : Nat × Nat) (b : BHandle) (a : AHandle)
    (r : Text) (ht : ∀ c ∈ a.typeName, c ≠ '"' ∧ c ≠ '\\') (hd : ∀ c ∈ a.dbg, c ≠ '"' ∧ c ≠ '\\') :
    skeleton false (visText printable o count (.build b a) ++ r) =
      lit "  \" [label = \"]\n  \" [label = \", shape = box]\n  \" -> \" [arrowhead = \"]\n" ++
        skeleton false r := by
  have e0 : lit "  \" [label = \"]\n  \" [label = \", shape = box]\n  \" -> \" [arrowhead = \"]\n" =
      lit "  \" [label = \"]" ++ '\n' :: (' ' :: ' ' :: '"' :: ([' ', '[', 'l', 'a', 'b', 'e', 'l', ' ', '=', ' '] ++
        '"' :: ([',', ' ', 's', 'h', 'a', 'p', 'e', ' ', '=', ' ', 'b', 'o', 'x', ']', '\n', ' ', ' '] ++
        '"' :: ([' ', '-', '>', ' '] ++ '"' :: ([' ', '[', 'a', 'r', 'r', 'o', 'w', 'h', 'e', 'a', 'd', ' ',
          '=', ' '] ++ '"' :: [']', '\n']))))) := by
    unfold lit; decide
  have e1 : lit "  \"" = [' ', ' ', '"'] := by unfold lit; decide
  have e2 : lit "\" -> \"" = '"' :: ([' ', '-', '>', ' '] ++ ['"']) := by unfold lit; decide
  have e3 : lit "\" [label = \"#" = '"' :: ([' ', '[', 'l', 'a', 'b', 'e', 'l', ' ', '=', ' '] ++ ['"', '#']) := by
    unfold lit; decide
  have e4 : lit "\", shape = box]" = '"' :: [',', ' ', 's', 'h', 'a', 'p', 'e', ' ', '=', ' ', 'b', 'o', 'x', ']'] := by
    unfold lit; decide
  have e5 : lit "\" [arrowhead = \"none\"]" = '"' :: ([' ', '[', 'a', 'r', 'r', 'o', 'w', 'h', 'e', 'a', 'd', ' ',
      '=', ' '] ++ '"' :: (['n', 'o', 'n', 'e'] ++ '"' :: [']'])) := by unfold lit; decide
  have e6 : lit "." = ['.'] := by unfold lit; decide
  have e7 : lit " " = [' '] := by unfold lit; decide
  have e8 : lit " :\n" = [' ', ':', '\n'] := by unfold lit; decide
  have hlab : Inner ('#' :: (dec count.1 ++ ('.' :: (dec count.2 ++ (' ' :: (a.typeName ++
      (if o.showArtifact then [' ', ':', '\n'] ++ a.dbg else []))))))) := by
    refine .plain _ _ (by decide) (by decide) (.append (dec_inner _) (.plain _ _ (by decide) (by decide)
      (.append (dec_inner _) (.plain _ _ (by decide) (by decide) (.append (.of_plain ht) ?_)))))
    split
    · exact .append (.of_plain (by decide)) (.of_plain hd)
    · exact .nil
  have hq := fun r => skeleton_quoted hlab r
  simp only [List.append_assoc, List.cons_append, List.nil_append] at hq
  unfold visText artLine
  rw [e0, e1, e2, e3, e4, e5, e6, e7, e8]
  simp only [List.append_assoc, List.cons_append, List.nil_append]
  rw [skeleton_nodeLine]
  have h1 := skeleton_outer (t := ['\n', ' ', ' ']) (by decide)
  have h2 := skeleton_outer (t := [' ', '[', 'l', 'a', 'b', 'e', 'l', ' ', '=', ' ']) (by decide)
  have h3 := skeleton_outer (t := [',', ' ', 's', 'h', 'a', 'p', 'e', ' ', '=', ' ', 'b', 'o', 'x', ']', '\n',
    ' ', ' ']) (by decide)
  have h4 := skeleton_outer (t := [' ', '-', '>', ' ']) (by decide)
  have h5 := skeleton_outer (t := [' ', '[', 'a', 'r', 'r', 'o', 'w', 'h', 'e', 'a', 'd', ' ', '=', ' ']) (by decide)
  have h6 := fun r => skeleton_quoted (t := ['n', 'o', 'n', 'e']) (.of_plain (by decide)) r
  have h7 := skeleton_outer (t := [']', '\n']) (by decide)
  simp only [List.cons_append, List.nil_append] at h1 h2 h3 h4 h5 h6 h7
  rw [h1, skeleton_quoted (artNode_inner _ _), h2, hq, h3, skeleton_quoted (ptr_inner _), h4,
    skeleton_quoted (artNode_inner _ _), h5, h6, h7]

unseal lit in
/-- **C45 fails** for an artifact whose debug text contains quotation marks, such as a `String`'s: the label
ends at the first one, and the rest of the text stands outside of any string. -/
theorem C45_unquoted :
    skeleton false (artLine (0, 0) ⟨1, "alloc::string::String".toList, "\"oops\"".toList⟩
      (lit " :\n" ++ "\"oops\"".toList)) = "  \" [label = \"oops\", shape = box]".toList := by
  decide

end Daab.Doc
