import Verif.Props11
import Verif.Trace
import Verif.Props5

/-!
# C52: the graph written by `VisgraphDoc` is the graph of what happened

A small reader for the DOT language, and: reading the text gives back exactly the dependencies and builds
that were reported.  Together with C40: every dependency the cache knows is an edge of the graph, and
every edge of the graph is a use that has happened.
-/

namespace Daab.Doc

/-! ## Specification: reading a DOT text -/

/-- A token: a quoted string (its raw contents), or another character. -/
inductive Tok
  | str (t : Text)
  | sym (c : Char)
  deriving DecidableEq

/-- Split a text into tokens; blanks and line ends outside of strings are skipped.  The first argument is
`some acc` inside of a string, of which `acc` was already read.  In a string, a backslash takes the next
character along. -/
def lex : Option Text → Text → List Tok
  | none, [] => []
  | none, c :: r =>
    if c = '"' then lex (some []) r
    else if c = ' ' ∨ c = '\n' then lex none r
    else .sym c :: lex none r
  | some _, [] => []
  | some acc, '\\' :: c :: r => lex (some (acc ++ ['\\', c])) r
  | some acc, c :: r => if c = '"' then .str acc :: lex none r else lex (some (acc ++ [c])) r

/-- The edges `"x" -> "y"` of a DOT text. -/
def edges : List Tok → List (Text × Text)
  | .str x :: .sym '-' :: .sym '>' :: .str y :: r => (x, y) :: edges (.str y :: r)
  | _ :: r => edges r
  | [] => []

/-- The labels `"x" [label = "l"` of a DOT text. -/
def labels : List Tok → List (Text × Text)
  | .str x :: .sym '[' :: .sym 'l' :: .sym 'a' :: .sym 'b' :: .sym 'e' :: .sym 'l' :: .sym '=' :: .str l :: r =>
    (x, l) :: labels r
  | _ :: r => labels r
  | [] => []

/-- The text a `VisgraphDoc` leaves behind that saw the events and then was dropped. -/
def graphText (printable : Char → Bool) (o : VisOpts) (evs : List DocEv) : Option Text :=
  ((VisgraphDoc.new o []).run printable evs).bind fun d => d.drop.join

/-- The name of the node of a builder. -/
def nodeOf (b : BHandle) : Text := ptr b.id

/-- The name of the node of an artifact that was built after the events `past`. -/
def artNodeOf (past : List DocEv) (a : AHandle) : Text := labelText (labelOf past) ++ '-' :: ptr a.addr

/-- The text of a builder: its value if wanted, otherwise its type. -/
def VisOpts.who (o : VisOpts) (b : BHandle) : Text := if o.showBuilder then b.dbg else b.typeName

/-- The value of a hexadecimal digit. -/
def hexVal (c : Char) : Nat := "0123456789abcdef".toList.idxOf c

/-- What a text with escapes stands for: a backslash and `n`, `r`, `t`, `0`, `u{hex}`, or any other
character (which stands for itself).  The first argument is the number read so far inside of `u{..}`. -/
def unesc : Option Nat → Text → Text
  | none, [] => []
  | none, '\\' :: 'u' :: '{' :: r => unesc (some 0) r
  | none, '\\' :: 'n' :: r => '\n' :: unesc none r
  | none, '\\' :: 'r' :: r => '\r' :: unesc none r
  | none, '\\' :: 't' :: r => '\t' :: unesc none r
  | none, '\\' :: '0' :: r => '\x00' :: unesc none r
  | none, '\\' :: c :: r => c :: unesc none r
  | none, c :: r => c :: unesc none r
  | some _, [] => []
  | some n, c :: r => if c = '}' then Char.ofNat n :: unesc none r else unesc (some (16 * n + hexVal c)) r

/-- The label of an artifact's node: `#g.i`, the type, and (if wanted) the value. -/
def artLabel (o : VisOpts) (count : Nat × Nat) (a : AHandle) : Text :=
  '#' :: (labelText count ++ ' ' :: (a.typeName ++ (if o.showArtifact then ' ' :: ':' :: '\n' :: a.dbg else [])))

/-- The artifact's texts contain no quotation marks and no backslashes (see C45). -/
def DocEv.plain : DocEv → Prop
  | .build _ a => (∀ c ∈ a.typeName, c ≠ '"' ∧ c ≠ '\\') ∧ ∀ c ∈ a.dbg, c ≠ '"' ∧ c ≠ '\\'
  | _ => True

/-! ## Proofs -/

theorem lex_inner {t : Text} (ht : Inner t) (acc r : Text) :
    lex (some acc) (t ++ '"' :: r) = .str (acc ++ t) :: lex none r := by
  induction ht generalizing acc with
  | nil => simp [lex]
  | plain c t hq hb _ ih =>
    rw [List.cons_append, lex.eq_5 _ _ _ (by simp_all), if_neg hq, ih]
    simp
  | esc c t _ ih =>
    simp only [List.cons_append, lex]
    rw [ih]
    simp

theorem lex_quoted {t : Text} (ht : Inner t) (r : Text) :
    lex none ('"' :: (t ++ '"' :: r)) = .str t :: lex none r := by
  simp only [lex, if_true]
  rw [lex_inner ht]
  rfl

theorem lex_blank (c : Char) (hc : c = ' ' ∨ c = '\n') (r : Text) : lex none (c :: r) = lex none r := by
  simp only [lex]
  rw [if_neg (by rcases hc with rfl | rfl <;> decide), if_pos hc]

theorem lex_sym (c : Char) (hq : c ≠ '"') (hc : ¬ (c = ' ' ∨ c = '\n')) (r : Text) :
    lex none (c :: r) = .sym c :: lex none r := by
  simp only [lex]
  rw [if_neg hq, if_neg hc]

/-- The tokens of a node's label. -/
def labelToks (x l : Text) (r : List Tok) : List Tok :=
  .str x :: .sym '[' :: .sym 'l' :: .sym 'a' :: .sym 'b' :: .sym 'e' :: .sym 'l' :: .sym '=' :: .str l :: r

theorem lex_nodeLine (printable : Char → Bool) (id : Nat) (s r : Text) :
    lex none (nodeLine printable id s ++ r) =
      labelToks (ptr id) (s.flatMap (escChar printable)) (.sym ']' :: lex none r) := by
  have e1 : lit "  \"" = [' ', ' ', '"'] := by unfold lit; decide
  have e2 : lit "\" [label = " = ['"', ' ', '[', 'l', 'a', 'b', 'e', 'l', ' ', '=', ' '] := by
    unfold lit; decide
  have e3 : lit "]" = [']'] := by unfold lit; decide
  unfold nodeLine dbgStr labelToks
  rw [e1, e2, e3]
  simp only [List.append_assoc, List.cons_append, List.nil_append]
  rw [lex_blank _ (by decide), lex_blank _ (by decide), lex_quoted (ptr_inner _), lex_blank _ (by decide)]
  repeat rw [lex_sym _ (by decide) (by decide)]
  rw [lex_blank _ (by decide), lex_sym _ (by decide) (by decide), lex_blank _ (by decide),
    lex_quoted (esc_inner _ _), lex_sym _ (by decide) (by decide)]

/-- The tokens of an event. -/
def evToks (printable : Char → Bool) (o : VisOpts) (count : Nat × Nat) (r : List Tok) : DocEv → List Tok
  | .resolve b u =>
    labelToks (nodeOf b) ((o.builderStr b).flatMap (escChar printable)) (.sym ']' ::
    labelToks (nodeOf u) ((o.builderStr u).flatMap (escChar printable)) (.sym ']' ::
      .str (nodeOf b) :: .sym '-' :: .sym '>' :: .str (nodeOf u) :: r))
  | .build b a =>
    labelToks (nodeOf b) ((o.builderStr b).flatMap (escChar printable)) (.sym ']' ::
    labelToks (labelText count ++ '-' :: ptr a.addr) (artLabel o count a) (.sym ',' :: .sym 's' :: .sym 'h' ::
      .sym 'a' :: .sym 'p' :: .sym 'e' :: .sym '=' :: .sym 'b' :: .sym 'o' :: .sym 'x' :: .sym ']' ::
      .str (nodeOf b) :: .sym '-' :: .sym '>' :: .str (labelText count ++ '-' :: ptr a.addr) ::
      .sym '[' :: .sym 'a' :: .sym 'r' :: .sym 'r' :: .sym 'o' :: .sym 'w' :: .sym 'h' :: .sym 'e' :: .sym 'a' ::
      .sym 'd' :: .sym '=' :: .str (lit "none") :: .sym ']' :: r))
  | .clear => r
  | .invalidate _ => r

theorem lex_visText (printable : Char → Bool) (o : VisOpts) (count : Nat × Nat) (e : DocEv) (he : e.plain)
    (r : Text) : lex none (visText printable o count e ++ r) = evToks printable o count (lex none r) e := by
  have e1 : lit "  \"" = [' ', ' ', '"'] := by unfold lit; decide
  have e2 : lit "\" -> \"" = ['"', ' ', '-', '>', ' ', '"'] := by unfold lit; decide
  have e3 : lit "\"" = ['"'] := by unfold lit; decide
  cases e with
  | clear => rfl
  | invalidate b => rfl
  | resolve b u =>
    unfold visText evToks nodeOf
    rw [e1, e2, e3]
    simp only [List.append_assoc, List.cons_append, List.nil_append]
    rw [lex_nodeLine, lex_blank _ (by decide), lex_nodeLine, lex_blank _ (by decide), lex_blank _ (by decide),
      lex_blank _ (by decide), lex_quoted (ptr_inner _), lex_blank _ (by decide),
      lex_sym _ (by decide) (by decide), lex_sym _ (by decide) (by decide), lex_blank _ (by decide),
      lex_quoted (ptr_inner _), lex_blank _ (by decide)]
  | build b a =>
    have e4 : lit "\" [label = \"#" = ['"', ' ', '[', 'l', 'a', 'b', 'e', 'l', ' ', '=', ' ', '"', '#'] := by
      unfold lit; decide
    have e5 : lit "\", shape = box]" = ['"', ',', ' ', 's', 'h', 'a', 'p', 'e', ' ', '=', ' ', 'b', 'o', 'x', ']'] := by
      unfold lit; decide
    have e6 : lit "\" [arrowhead = \"none\"]" = ['"', ' ', '[', 'a', 'r', 'r', 'o', 'w', 'h', 'e', 'a', 'd', ' ',
        '=', ' ', '"', 'n', 'o', 'n', 'e', '"', ']'] := by unfold lit; decide
    have e7 : lit "." = ['.'] := by unfold lit; decide
    have e8 : lit " " = [' '] := by unfold lit; decide
    have e9 : lit " :\n" = [' ', ':', '\n'] := by unfold lit; decide
    have e10 : lit "none" = ['n', 'o', 'n', 'e'] := by unfold lit; decide
    have e11 : lit "-" = ['-'] := by unfold lit; decide
    have hart := artNode_inner count a
    have hlab : Inner (artLabel o count a) := by
      unfold artLabel labelText
      refine .plain _ _ (by decide) (by decide) (.append (.append (dec_inner _) (.plain _ _ (by decide) (by decide)
        (dec_inner _))) (.plain _ _ (by decide) (by decide) (.append (.of_plain he.1) ?_)))
      split
      · exact .plain _ _ (by decide) (by decide) (.plain _ _ (by decide) (by decide)
          (.plain _ _ (by decide) (by decide) (.of_plain he.2)))
      · exact .nil
    have hn : artNode count a = labelText count ++ '-' :: ptr a.addr := by
      unfold artNode labelText; rw [e7, e11]; simp
    rw [hn] at hart
    have hq := fun r => lex_quoted hlab r
    have hart' := fun r => lex_quoted hart r
    unfold artLabel at hq
    simp only [List.append_assoc, List.cons_append] at hq hart'
    simp only [visText, evToks, artLine, nodeOf, hn]
    have hl : ∀ x y : Text, dec count.1 ++ '.' :: (dec count.2 ++ x) = labelText count ++ x := by
      intro x y; unfold labelText; simp
    have hfix : ∀ x : Text, (if o.showArtifact = true then [' ', ':', '\n'] ++ a.dbg else []) ++ x =
        (if o.showArtifact = true then ' ' :: ':' :: '\n' :: a.dbg else []) ++ x := by
      intro x; rfl
    rw [e1, e2, e4, e5, e6, e7, e8, e9, e10]
    simp only [List.append_assoc, List.cons_append, List.nil_append, hl _ []]
    rw [lex_nodeLine, lex_blank _ (by decide), lex_blank _ (by decide), lex_blank _ (by decide), hart',
      lex_blank _ (by decide)]
    repeat rw [lex_sym _ (by decide) (by decide)]
    rw [lex_blank _ (by decide), lex_sym _ (by decide) (by decide), lex_blank _ (by decide), hq]
    rw [lex_sym _ (by decide) (by decide), lex_blank _ (by decide)]
    repeat rw [lex_sym _ (by decide) (by decide)]
    rw [lex_blank _ (by decide), lex_sym _ (by decide) (by decide), lex_blank _ (by decide)]
    repeat rw [lex_sym _ (by decide) (by decide)]
    rw [lex_blank _ (by decide), lex_blank _ (by decide), lex_blank _ (by decide), lex_quoted (ptr_inner _),
      lex_blank _ (by decide), lex_sym _ (by decide) (by decide), lex_sym _ (by decide) (by decide),
      lex_blank _ (by decide), hart', lex_blank _ (by decide)]
    repeat rw [lex_sym _ (by decide) (by decide)]
    rw [lex_blank _ (by decide), lex_sym _ (by decide) (by decide), lex_blank _ (by decide)]
    have hnone := fun r => lex_quoted (t := ['n', 'o', 'n', 'e']) (.of_plain (by decide)) r
    simp only [List.cons_append, List.nil_append] at hnone
    rw [hnone, lex_sym _ (by decide) (by decide), lex_blank _ (by decide)]
    rfl

/-- The label of the next build after an event, if it was `c` before. -/
def next (c : Nat × Nat) (e : DocEv) : Nat × Nat :=
  if e.isReset then (c.1 + 1, 0) else (c.1, c.2 + if e.isBuild then 1 else 0)

theorem labelOf_eq (past : List DocEv) : labelOf past = past.foldl next (0, 0) := by
  induction past using List.reverseRecOn with
  | nil => rfl
  | append_singleton past e ih => rw [labelOf_snoc, List.foldl_append, ← ih]; rfl

/-- The tokens of a sequence of events. -/
def bodyToks (printable : Char → Bool) (o : VisOpts) (r : List Tok) : Nat × Nat → List DocEv → List Tok
  | _, [] => r
  | c, e :: es => evToks printable o c (bodyToks printable o r (next c e) es) e

/-- The text of a sequence of events. -/
def body (printable : Char → Bool) (o : VisOpts) : Nat × Nat → List DocEv → Text
  | _, [] => []
  | c, e :: es => visText printable o c e ++ body printable o (next c e) es

theorem run_body (printable : Char → Bool) (evs : List DocEv) (d : VisgraphDoc) {out : Text}
    (h : d.output = some out) : ∃ c, d.run printable evs =
      some ⟨d.opts, some (out ++ body printable d.opts d.count evs), c⟩ := by
  induction evs generalizing d out with
  | nil => exact ⟨d.count, by simp [VisgraphDoc.run, body, ← h]⟩
  | cons e es ih =>
    simp only [VisgraphDoc.run]
    rw [VisgraphDoc.on_some h]
    simp only [Option.bind_some]
    obtain ⟨c, hc⟩ := ih ⟨d.opts, some (out ++ visText printable d.opts d.count e), next d.count e⟩ rfl
    refine ⟨c, ?_⟩
    simp only [body]
    rw [← List.append_assoc]
    exact hc

theorem lex_body (printable : Char → Bool) (o : VisOpts) (r : Text) (evs : List DocEv) (c : Nat × Nat)
    (he : ∀ e ∈ evs, e.plain) :
    lex none (body printable o c evs ++ r) = bodyToks printable o (lex none r) c evs := by
  induction evs generalizing c with
  | nil => rfl
  | cons e es ih =>
    simp only [body, bodyToks, List.append_assoc]
    rw [lex_visText _ _ _ _ (he e (by simp)), ih _ fun e h => he e (by simp [h])]

/-- No arrow follows. -/
def NoDash (r : List Tok) : Prop := ∀ r', r ≠ .sym '-' :: r'

theorem edges_str (x : Text) {r : List Tok} (hr : NoDash r) : edges (.str x :: r) = edges r := by
  rw [edges.eq_2 _ _ (by intro _ _ _ h1 h2; exact hr _ h2)]

theorem edges_sym (c : Char) (r : List Tok) : edges (.sym c :: r) = edges r := by
  rw [edges.eq_2 _ _ (by simp)]

theorem edges_label (x l : Text) (c : Char) (hc : c ≠ '-') (r : List Tok) :
    edges (labelToks x l (.sym c :: r)) = edges r := by
  simp only [labelToks]
  rw [edges_str _ (by intro r' h; simp at h)]
  simp only [edges_sym]
  rw [edges_str _ (by intro r' h; simp at h; exact hc h.1), edges_sym]

/-- The edges of an event. -/
def evEdges (c : Nat × Nat) : DocEv → List (Text × Text)
  | .resolve b u => [(nodeOf b, nodeOf u)]
  | .build b a => [(nodeOf b, labelText c ++ '-' :: ptr a.addr)]
  | _ => []

theorem edges_ev (printable : Char → Bool) (o : VisOpts) (c : Nat × Nat) (e : DocEv) {r : List Tok}
    (hr : NoDash r) : edges (evToks printable o c r e) = evEdges c e ++ edges r := by
  cases e with
  | clear => rfl
  | invalidate b => rfl
  | resolve b u =>
    simp only [evToks, evEdges]
    rw [edges_label _ _ _ (by decide), edges_label _ _ _ (by decide)]
    rw [edges.eq_1, edges_str _ hr]
    rfl
  | build b a =>
    simp only [evToks, evEdges]
    rw [edges_label _ _ _ (by decide), edges_label _ _ _ (by decide)]
    have h := edges_sym
    simp only [h]
    rw [edges.eq_1, edges_str _ (by intro r' h; cases h)]
    simp only [h]
    rw [edges_str _ (by intro r' h; cases h), h]
    rfl

theorem evToks_noDash (printable : Char → Bool) (o : VisOpts) (c : Nat × Nat) (e : DocEv) {r : List Tok}
    (hr : NoDash r) : NoDash (evToks printable o c r e) := by
  cases e with
  | clear => exact hr
  | invalidate b => exact hr
  | resolve b u => intro r' h; cases h
  | build b a => intro r' h; cases h

theorem bodyToks_noDash (printable : Char → Bool) (o : VisOpts) (c : Nat × Nat) (evs : List DocEv) {r : List Tok}
    (hr : NoDash r) : NoDash (bodyToks printable o r c evs) := by
  induction evs generalizing c with
  | nil => exact hr
  | cons e es ih => exact evToks_noDash _ _ _ _ (ih _)

theorem mem_edges_body (printable : Char → Bool) (o : VisOpts) (c : Nat × Nat) (evs : List DocEv) {r : List Tok}
    (hr : NoDash r) (x y : Text) : (x, y) ∈ edges (bodyToks printable o r c evs) ↔
      (∃ b u, .resolve b u ∈ evs ∧ x = nodeOf b ∧ y = nodeOf u) ∨
      (∃ past b a rest, evs = past ++ .build b a :: rest ∧ x = nodeOf b ∧
        y = labelText (past.foldl next c) ++ '-' :: ptr a.addr) ∨ (x, y) ∈ edges r := by
  induction evs generalizing c with
  | nil => simp [bodyToks]
  | cons e es ih =>
    simp only [bodyToks]
    rw [edges_ev _ _ _ _ (bodyToks_noDash _ _ _ _ hr), List.mem_append, ih]
    constructor
    · rintro (h | ⟨b, u, h, h1⟩ | ⟨past, b, a, rest, h, h1⟩ | h)
      · cases e <;> simp only [evEdges, List.mem_singleton, List.not_mem_nil, Prod.mk.injEq] at h
        · exact .inl ⟨_, _, by simp, h⟩
        · exact .inr (.inl ⟨[], _, _, es, rfl, h⟩)
      · exact .inl ⟨b, u, by simp [h], h1⟩
      · exact .inr (.inl ⟨e :: past, b, a, rest, by rw [h]; rfl, h1⟩)
      · exact .inr (.inr h)
    · rintro (⟨b, u, h, h1⟩ | ⟨past, b, a, rest, h, h1⟩ | h)
      · rcases List.mem_cons.1 h with rfl | h
        · exact .inl (by simp [evEdges, h1])
        · exact .inr (.inl ⟨b, u, h, h1⟩)
      · cases past with
        | nil =>
          simp only [List.nil_append, List.cons.injEq] at h
          obtain ⟨rfl, rfl⟩ := h
          exact .inl (by simpa [evEdges] using h1)
        | cons e' past =>
          simp only [List.cons_append, List.cons.injEq] at h
          obtain ⟨rfl, rfl⟩ := h
          exact .inr (.inr (.inl ⟨past, b, a, rest, rfl, h1⟩))
      · exact .inr (.inr (.inr h))

/-- The labels of an event. -/
def evLabels (printable : Char → Bool) (o : VisOpts) (c : Nat × Nat) : DocEv → List (Text × Text)
  | .resolve b u => [(nodeOf b, (o.builderStr b).flatMap (escChar printable)),
      (nodeOf u, (o.builderStr u).flatMap (escChar printable))]
  | .build b a => [(nodeOf b, (o.builderStr b).flatMap (escChar printable)),
      (labelText c ++ '-' :: ptr a.addr, artLabel o c a)]
  | _ => []

theorem graph_toks (printable : Char → Bool) (o : VisOpts) (evs : List DocEv) (he : ∀ e ∈ evs, e.plain) :
    ∃ text l r, graphText printable o evs = some text ∧ lex none text = l ++
      bodyToks printable o r (0, 0) evs ∧ (∀ k ∈ l, ∃ c, k = .sym c) ∧ r = [.sym '}'] := by
  have hd : (VisgraphDoc.new o []).output = some (lit "strict digraph { graph [labeljust = l];\n") := rfl
  obtain ⟨c, hc⟩ := run_body printable evs (VisgraphDoc.new o []) hd
  have e0 : lit "strict digraph { graph [labeljust = l];\n" = "strict digraph { graph [labeljust = l];\n".toList := by
    unfold lit; rfl
  have e1 : lit "}" = ['}'] := by unfold lit; decide
  have hsym : ∀ (t : Text), (∀ c ∈ t, c ≠ '"') → ∀ k ∈ lex none t, ∃ c, k = .sym c := by
    intro t
    induction t with
    | nil => intro _ k hk; cases hk
    | cons c t ih =>
      intro h k hk
      have := ih fun c hc => h c (by simp [hc])
      simp only [lex] at hk
      rw [if_neg (h c (by simp))] at hk
      split at hk
      · exact this k hk
      · rcases List.mem_cons.1 hk with rfl | hk
        · exact ⟨_, rfl⟩
        · exact this k hk
  refine ⟨lit "strict digraph { graph [labeljust = l];\n" ++ body printable o (0, 0) evs ++ lit "}" ++ ['\n'],
    lex none (lit "strict digraph { graph [labeljust = l];\n"), [.sym '}'], ?_, ?_, ?_, rfl⟩
  · unfold graphText
    rw [hc]
    simp only [Option.bind_some, VisgraphDoc.drop, VisgraphDoc.finish, VisgraphDoc.writeln, Option.isSome_some,
      if_true, Option.map_some, Option.join_some]
    rfl
  · have hpre : ∀ (t : Text), (∀ c ∈ t, c ≠ '"') → ∀ r, lex none (t ++ r) = lex none t ++ lex none r := by
      intro t
      induction t with
      | nil => intro _ r; rfl
      | cons c t ih =>
        intro h r
        have hq := h c (by simp)
        have := ih (fun c hc => h c (by simp [hc])) r
        simp only [List.cons_append, lex]
        rw [if_neg hq, if_neg hq]
        split
        · exact this
        · rw [this]; rfl
    rw [List.append_assoc, List.append_assoc, hpre _ (by rw [e0]; decide)]
    congr 1
    rw [lex_body _ _ _ _ _ he]
    congr 1
    rw [e1]
    decide
  · rw [e0]
    exact hsym _ (by decide)

/-! ## C52 -/

/-- **C52** Reading the text that a `VisgraphDoc` leaves behind: there is an edge for every reported
dependency, from the user to the used builder, and for every reported build, from the builder to the
artifact; and no other edge. -/
theorem C52_edges (printable : Char → Bool) (o : VisOpts) (evs : List DocEv) (he : ∀ e ∈ evs, e.plain) :
    ∃ text, graphText printable o evs = some text ∧ ∀ x y : Text, (x, y) ∈ edges (lex none text) ↔
      (∃ b u, .resolve b u ∈ evs ∧ x = nodeOf b ∧ y = nodeOf u) ∨
      (∃ past b a rest, evs = past ++ .build b a :: rest ∧ x = nodeOf b ∧ y = artNodeOf past a) := by
  obtain ⟨text, l, r, h1, h2, h3, rfl⟩ := graph_toks printable o evs he
  refine ⟨text, h1, fun x y => ?_⟩
  have hl : ∀ r, edges (l ++ r) = edges r := by
    clear h2
    induction l with
    | nil => intro r; rfl
    | cons k l ih =>
      obtain ⟨c, rfl⟩ := h3 k (by simp)
      intro r
      rw [List.cons_append, edges_sym, ih fun k hk => h3 k (by simp [hk])]
  rw [h2, hl, mem_edges_body _ _ _ _ (by intro r' h; simp at h)]
  have h0 : (x, y) ∉ edges [.sym '}'] := by simp [edges]
  simp only [h0, or_false, artNodeOf, labelOf_eq]

theorem digits16_inj {i j : Nat} (h : Nat.toDigits 16 i = Nat.toDigits 16 j) : i = j := by
  have hd : ∀ i j, i < 16 → j < 16 → Nat.digitChar i = Nat.digitChar j → i = j := by
    have : ∀ i, i < 16 → ∀ j, j < 16 → Nat.digitChar i = Nat.digitChar j → i = j := by decide
    exact fun i j hi hj => this i hi j hj
  have hne : ∀ n, Nat.toDigits 16 n ≠ [] := by
    intro n
    by_cases hn : n < 16
    · rw [Nat.toDigits_of_lt_base hn]; simp
    · rw [Nat.toDigits_of_base_le (by decide) (by omega)]; simp
  induction i using Nat.strongRecOn generalizing j with
  | ind i ih =>
    by_cases hi : i < 16 <;> by_cases hj : j < 16
    · rw [Nat.toDigits_of_lt_base hi, Nat.toDigits_of_lt_base hj] at h
      simp only [List.cons.injEq, and_true] at h
      exact hd i j hi hj h
    · rw [Nat.toDigits_of_lt_base hi, Nat.toDigits_of_base_le (n := j) (by decide) (by omega)] at h
      have := congrArg List.length h
      have h2 := List.length_pos_of_ne_nil (hne (j / 16))
      simp only [List.length_append, List.length_singleton] at this
      omega
    · rw [Nat.toDigits_of_lt_base hj, Nat.toDigits_of_base_le (n := i) (by decide) (by omega)] at h
      have := congrArg List.length h
      have h2 := List.length_pos_of_ne_nil (hne (i / 16))
      simp only [List.length_append, List.length_singleton] at this
      omega
    · rw [Nat.toDigits_of_base_le (n := i) (by decide) (by omega),
        Nat.toDigits_of_base_le (n := j) (by decide) (by omega)] at h
      obtain ⟨h1, h2⟩ := List.append_inj' h rfl
      have h1 := ih (i / 16) (by omega) h1
      simp only [List.cons.injEq, and_true] at h2
      have h2 := hd _ _ (Nat.mod_lt _ (by decide)) (Nat.mod_lt _ (by decide)) h2
      omega

/-- Different ids have different texts. -/
theorem ptr_inj {i j : Nat} (h : ptr i = ptr j) : i = j :=
  digits16_inj (List.append_cancel_left h)

/-- No artifact's node has the name of a builder's node. -/
theorem ptr_ne_artNode (i : Nat) (past : List DocEv) (a : AHandle) : ptr i ≠ artNodeOf past a :=
  (C41_visgraph (fun _ => true) ⟨true, true⟩ [] past ⟨0, [], []⟩ a).2 i

/-- **C52** Between the nodes of two builders there is an edge if and only if it was reported that the one
used the other. -/
theorem C52_dependencies (printable : Char → Bool) (o : VisOpts) (evs : List DocEv) (he : ∀ e ∈ evs, e.plain) :
    ∃ text, graphText printable o evs = some text ∧ ∀ b u : BHandle,
      (nodeOf b, nodeOf u) ∈ edges (lex none text) ↔
        ∃ b' u', DocEv.resolve b' u' ∈ evs ∧ b'.id = b.id ∧ u'.id = u.id := by
  obtain ⟨text, h1, h2⟩ := C52_edges printable o evs he
  refine ⟨text, h1, fun b u => ?_⟩
  rw [h2]
  constructor
  · rintro (⟨b', u', h, h3, h4⟩ | ⟨past, b', a, rest, _, _, h⟩)
    · exact ⟨b', u', h, (ptr_inj h3).symm, (ptr_inj h4).symm⟩
    · exact absurd h (ptr_ne_artNode _ _ _)
  · rintro ⟨b', u', h, h3, h4⟩
    exact .inl ⟨b', u', h, by unfold nodeOf; rw [h3], by unfold nodeOf; rw [h4]⟩

/-! ### Labels -/

theorem labels_sym (c : Char) (r : List Tok) : labels (.sym c :: r) = labels r := by
  rw [labels.eq_2 _ _ (by simp)]

theorem labels_ev (printable : Char → Bool) (o : VisOpts) (c : Nat × Nat) (e : DocEv) {r : List Tok}
    (hr : ∀ r', r ≠ .sym '[' :: r') : labels (evToks printable o c r e) = evLabels printable o c e ++ labels r := by
  have hs : ∀ (x : Text) (r : List Tok), (∀ r', r ≠ .sym '[' :: r') → labels (.str x :: r) = labels r := by
    intro x r hr
    rw [labels.eq_2 _ _ (by intro _ _ _ h1 h2; exact hr _ h2)]
  cases e with
  | clear => rfl
  | invalidate b => rfl
  | resolve b u =>
    simp only [evToks, evLabels, labelToks]
    rw [labels.eq_1, labels_sym, labels.eq_1, labels_sym, hs _ _ (by intro r' h; simp at h), labels_sym, labels_sym,
      hs _ _ hr]
    rfl
  | build b a =>
    simp only [evToks, evLabels, labelToks]
    rw [labels.eq_1, labels_sym, labels.eq_1]
    simp only [labels_sym]
    rw [hs _ _ (by intro r' h; simp at h), labels_sym, labels_sym, labels.eq_2 _ _ (by simp)]
    simp only [labels_sym]
    rw [hs _ _ (by intro r' h; simp at h), labels_sym]
    rfl

theorem bodyToks_noOpen (printable : Char → Bool) (o : VisOpts) (c : Nat × Nat) (evs : List DocEv) {r : List Tok}
    (hr : ∀ r', r ≠ .sym '[' :: r') : ∀ r', bodyToks printable o r c evs ≠ .sym '[' :: r' := by
  induction evs generalizing c with
  | nil => exact hr
  | cons e es ih =>
    cases e with
    | clear => exact ih _
    | invalidate b => exact ih _
    | resolve b u => intro r' h; cases h
    | build b a => intro r' h; cases h

/-- **C52** The nodes of the graph: every builder that was reported as user, as used or as built has a node
with its (escaped) text; every artifact has a node with its label and text; and there are no others. -/
theorem C52_labels (printable : Char → Bool) (o : VisOpts) (evs : List DocEv) (he : ∀ e ∈ evs, e.plain) :
    ∃ text, graphText printable o evs = some text ∧ ∀ x l : Text, (x, l) ∈ labels (lex none text) ↔
      (∃ b, ((∃ u, .resolve b u ∈ evs) ∨ (∃ b', .resolve b' b ∈ evs) ∨ ∃ a, .build b a ∈ evs) ∧
        x = nodeOf b ∧ l = (o.who b).flatMap (escChar printable)) ∨
      (∃ past b a rest, evs = past ++ .build b a :: rest ∧ x = artNodeOf past a ∧
        l = artLabel o (labelOf past) a) := by
  obtain ⟨text, l, r, h1, h2, h3, rfl⟩ := graph_toks printable o evs he
  refine ⟨text, h1, fun x y => ?_⟩
  have hl : ∀ r, labels (l ++ r) = labels r := by
    clear h2
    induction l with
    | nil => intro r; rfl
    | cons k l ih =>
      obtain ⟨c, rfl⟩ := h3 k (by simp)
      intro r
      rw [List.cons_append, labels_sym, ih fun k hk => h3 k (by simp [hk])]
  rw [h2, hl]
  have key : ∀ (c : Nat × Nat), (x, y) ∈ labels (bodyToks printable o [.sym '}'] c evs) ↔
      (∃ b, ((∃ u, .resolve b u ∈ evs) ∨ (∃ b', .resolve b' b ∈ evs) ∨ ∃ a, .build b a ∈ evs) ∧
        x = nodeOf b ∧ y = (o.builderStr b).flatMap (escChar printable)) ∨
      (∃ past b a rest, evs = past ++ .build b a :: rest ∧
        x = labelText (past.foldl next c) ++ '-' :: ptr a.addr ∧ y = artLabel o (past.foldl next c) a) := by
    clear h1 h2 he
    induction evs with
    | nil => intro c; simp [bodyToks, labels]
    | cons e es ih =>
      intro c
      simp only [bodyToks]
      rw [labels_ev _ _ _ _ (bodyToks_noOpen _ _ _ _ (by intro r' h; simp at h)), List.mem_append, ih]
      constructor
      · rintro (h | ⟨b, h, h1⟩ | ⟨past, b, a, rest, h, h1⟩)
        · cases e <;> simp only [evLabels, List.mem_cons, List.not_mem_nil, or_false, Prod.mk.injEq] at h
          · rcases h with h | h
            · exact .inl ⟨_, .inl ⟨_, List.mem_cons_self ..⟩, h⟩
            · exact .inl ⟨_, .inr (.inl ⟨_, List.mem_cons_self ..⟩), h⟩
          · rcases h with h | h
            · exact .inl ⟨_, .inr (.inr ⟨_, List.mem_cons_self ..⟩), h⟩
            · exact .inr ⟨[], _, _, es, rfl, h⟩
        · refine .inl ⟨b, ?_, h1⟩
          rcases h with ⟨u, h⟩ | ⟨u, h⟩ | ⟨a, h⟩
          · exact .inl ⟨u, by simp [h]⟩
          · exact .inr (.inl ⟨u, by simp [h]⟩)
          · exact .inr (.inr ⟨a, by simp [h]⟩)
        · exact .inr ⟨e :: past, b, a, rest, by rw [h]; rfl, h1⟩
      · rintro (⟨b, h, h1⟩ | ⟨past, b, a, rest, h, h1⟩)
        · rcases h with ⟨u, h⟩ | ⟨u, h⟩ | ⟨a, h⟩
          · rcases List.mem_cons.1 h with rfl | h
            · exact .inl (by simp [evLabels, h1])
            · exact .inr (.inl ⟨b, .inl ⟨u, h⟩, h1⟩)
          · rcases List.mem_cons.1 h with rfl | h
            · exact .inl (by simp [evLabels, h1])
            · exact .inr (.inl ⟨b, .inr (.inl ⟨u, h⟩), h1⟩)
          · rcases List.mem_cons.1 h with rfl | h
            · exact .inl (by simp [evLabels, h1])
            · exact .inr (.inl ⟨b, .inr (.inr ⟨a, h⟩), h1⟩)
        · cases past with
          | nil =>
            simp only [List.nil_append, List.cons.injEq] at h
            obtain ⟨rfl, rfl⟩ := h
            exact .inl (by simp only [List.foldl_nil] at h1; simp [evLabels, h1])
          | cons e' past =>
            simp only [List.cons_append, List.cons.injEq] at h
            obtain ⟨rfl, rfl⟩ := h
            exact .inr (.inr ⟨past, b, a, rest, rfl, h1⟩)
  rw [key]
  simp only [artNodeOf, labelOf_eq, VisOpts.builderStr, VisOpts.who]

/-! ### Reading labels -/

theorem hexVal_digitChar {d : Nat} (h : d < 16) : hexVal (Nat.digitChar d) = d ∧ Nat.digitChar d ≠ '}' := by
  have : ∀ d : _root_.Fin 16, hexVal (Nat.digitChar d) = d ∧ Nat.digitChar d ≠ '}' := by decide
  exact this ⟨d, h⟩

theorem unesc_hex (n : Nat) : ∀ r, unesc (some 0) (Nat.toDigits 16 n ++ r) = unesc (some n) r := by
  have step : ∀ m d r, d < 16 → unesc (some m) (Nat.digitChar d :: r) = unesc (some (16 * m + d)) r := by
    intro m d r hd
    obtain ⟨h1, h2⟩ := hexVal_digitChar hd
    rw [unesc, if_neg h2, h1]
  induction n using Nat.strongRecOn with
  | ind n ih =>
    intro r
    by_cases hn : n < 16
    · rw [Nat.toDigits_of_lt_base hn, List.singleton_append, step 0 n r hn]
      simp
    · rw [Nat.toDigits_of_base_le (by decide) (by omega), List.append_assoc, ih _ (by omega), List.singleton_append,
        step _ _ _ (Nat.mod_lt _ (by decide)), Nat.div_add_mod]

theorem unesc_escChar (printable : Char → Bool) (c : Char) (r : Text) :
    unesc none (escChar printable c ++ r) = c :: unesc none r := by
  unfold escChar
  have e1 : lit "\\\"" = ['\\', '"'] := by unfold lit; decide
  have e2 : lit "\\\\" = ['\\', '\\'] := by unfold lit; decide
  have e3 : lit "\\n" = ['\\', 'n'] := by unfold lit; decide
  have e4 : lit "\\r" = ['\\', 'r'] := by unfold lit; decide
  have e5 : lit "\\t" = ['\\', 't'] := by unfold lit; decide
  have e6 : lit "\\0" = ['\\', '0'] := by unfold lit; decide
  have e7 : lit "\\u{" = ['\\', 'u', '{'] := by unfold lit; decide
  have e8 : lit "}" = ['}'] := by unfold lit; decide
  rw [e1, e2, e3, e4, e5, e6, e7, e8]
  by_cases h1 : c = '"'
  · subst h1; simp [unesc]
  by_cases h2 : c = '\\'
  · subst h2; simp [unesc]
  by_cases h3 : c = '\n'
  · subst h3; simp [unesc]
  by_cases h4 : c = '\r'
  · subst h4; simp [unesc]
  by_cases h5 : c = '\t'
  · subst h5; simp [unesc]
  by_cases h6 : c = '\x00'
  · subst h6; simp [unesc]
  simp only [h1, h2, h3, h4, h5, h6, if_false]
  by_cases h7 : printable c = true
  · simp only [h7, if_true, List.singleton_append]
    rw [unesc.eq_8]
    all_goals simp_all
  · simp only [h7, Bool.false_eq_true, if_false, List.append_assoc, List.cons_append, List.nil_append]
    rw [unesc, unesc_hex, unesc, if_pos rfl, Char.ofNat_toNat]

/-- Escaping and reading again. -/
theorem unesc_esc (printable : Char → Bool) (t : Text) : unesc none (t.flatMap (escChar printable)) = t := by
  induction t with
  | nil => rfl
  | cons c t ih => rw [List.flatMap_cons, unesc_escChar, ih]

/-- **C52** What a reader of the graph sees at the builders' nodes: every builder that was mentioned has a
label that stands for its text (value or type, as the options say), whatever characters are in it; and every
label of a builder's node stands for the text of a mentioned builder with this id. -/
theorem C52_builder_texts (printable : Char → Bool) (o : VisOpts) (evs : List DocEv) (he : ∀ e ∈ evs, e.plain) :
    ∃ text, graphText printable o evs = some text ∧
      (∀ b, ((∃ u, .resolve b u ∈ evs) ∨ (∃ b', .resolve b' b ∈ evs) ∨ ∃ a, .build b a ∈ evs) →
        ∃ l, (nodeOf b, l) ∈ labels (lex none text) ∧ unesc none l = o.who b) ∧
      (∀ i l, (ptr i, l) ∈ labels (lex none text) →
        ∃ b, ((∃ u, .resolve b u ∈ evs) ∨ (∃ b', .resolve b' b ∈ evs) ∨ ∃ a, .build b a ∈ evs) ∧
          b.id = i ∧ unesc none l = o.who b) := by
  obtain ⟨text, h1, h2⟩ := C52_labels printable o evs he
  refine ⟨text, h1, fun b hb => ⟨_, (h2 _ _).2 (.inl ⟨b, hb, rfl, rfl⟩), unesc_esc _ _⟩, fun i l hl => ?_⟩
  rcases (h2 _ _).1 hl with ⟨b, hb, hx, rfl⟩ | ⟨past, b, a, rest, _, hx, _⟩
  · exact ⟨b, hb, (ptr_inj hx).symm, unesc_esc _ _⟩
  · exact absurd hx (ptr_ne_artNode _ _ _)

/-! ## The graph of a cache -/

open Daab

/-- The doctor is told of the event `e` by the call `d`. -/
inductive ToldAs {σ : Sig} : Event σ → DocEv → Prop
  | resolve {u q : Promise σ} {b b' : BHandle} : b.id = u.id → b'.id = q.id →
      ToldAs (.resolve u q) (.resolve b b')
  | built {p : Promise σ} {v : σ.V} {b : BHandle} (a : AHandle) : b.id = p.id → ToldAs (.built p v) (.build b a)
  | invalidate {p : Promise σ} {b : BHandle} : b.id = p.id → ToldAs (.invalidate p) (.invalidate b)
  | clear : ToldAs .clear .clear

theorem dep_in_log {σ : Sig} {u d : Id} (l : List (Event σ)) (h : (Abs.of l).dep u d) :
    ∃ p q : Promise σ, .resolve p q ∈ l ∧ p.id = u ∧ q.id = d := by
  induction l with
  | nil => exact absurd h id
  | cons e l ih =>
    have old : (Abs.of l).dep u d → ∃ p q : Promise σ, .resolve p q ∈ e :: l ∧ p.id = u ∧ q.id = d := by
      intro h
      obtain ⟨p, q, h1, h2⟩ := ih h
      exact ⟨p, q, by simp [h1], h2⟩
    simp only [Abs.of] at h
    cases e with
    | resolve p q =>
      rcases h with h | ⟨rfl, rfl⟩
      · exact old h
      · exact ⟨p, q, List.mem_cons_self .., rfl, rfl⟩
    | built p v => exact old h
    | invalidate p => exact old h.1
    | clear => exact absurd h id
    | call p => exact old h
    | initDyn p o => cases o <;> exact old h
    | setDyn p o => exact old h
    | purged p => exact old h
    | clearArtifacts => exact absurd h id
    | collect a => exact old h.1
    | mutDeps a => exact old h.1
    | write a v => exact old h

theorem art_in_log {σ : Sig} {a : Id} (l : List (Event σ)) (h : (Abs.of l).art a ≠ none) :
    ∃ (p : Promise σ) (v : σ.V), .built p v ∈ l ∧ p.id = a := by
  induction l with
  | nil => exact absurd rfl h
  | cons e l ih =>
    have old : (Abs.of l).art a ≠ none → ∃ (p : Promise σ) (v : σ.V), .built p v ∈ e :: l ∧ p.id = a := by
      intro h
      obtain ⟨p, q, h1, h2⟩ := ih h
      exact ⟨p, q, by simp [h1], h2⟩
    have drop : ∀ R : Id → Prop, ((Abs.of l).drop R).art a ≠ none → (Abs.of l).art a ≠ none := by
      intro R h h'
      simp only [Abs.drop] at h
      split at h
      · exact h rfl
      · exact h h'
    simp only [Abs.of] at h
    cases e with
    | resolve p q => exact old h
    | built p v =>
      simp only [Abs.apply] at h
      split at h
      · rename_i he; exact ⟨p, v, List.mem_cons_self .., he.symm⟩
      · exact old h
    | invalidate p => exact old (drop _ h)
    | clear => exact absurd rfl h
    | call p => exact old h
    | initDyn p o => cases o <;> exact old h
    | setDyn p o => exact old h
    | purged p => exact old h
    | clearArtifacts => exact absurd rfl h
    | collect a => exact old (drop _ h)
    | mutDeps a => exact old (drop _ h)
    | write b v =>
      simp only [Abs.apply] at h
      split at h
      · rename_i he
        subst he
        exact old fun h' => h (by rw [h']; rfl)
      · exact old h

/-- **C52** A cache with a `VisgraphDoc`, after any history: if the cache knows that a builder uses another
one, there is an edge between their nodes; if it has an artifact for a builder, there is an edge from the
builder's node to a node that is not a builder's; and every edge between builders stands for a use that was
reported (see C40). -/
theorem C52_cache {σ : Sig} {Y : Sys σ} {s : St σ} (h : Reachable Y s) (printable : Char → Bool) (o : VisOpts)
    {evs : List DocEv} (ht : List.Forall₂ ToldAs (reports s) evs) (he : ∀ e ∈ evs, e.plain) :
    ∃ text, graphText printable o evs = some text ∧
      (∀ u d, UsesNow s u d → (ptr u, ptr d) ∈ edges (lex none text)) ∧
      (∀ a v, Cached s a v → ∃ y, (ptr a, y) ∈ edges (lex none text) ∧ ∀ i, y ≠ ptr i) ∧
      (∀ u d, (ptr u, ptr d) ∈ edges (lex none text) →
        ∃ p q : Promise σ, .resolve p q ∈ reports s ∧ p.id = u ∧ q.id = d) := by
  obtain ⟨text, h1, h2⟩ := C52_edges printable o evs he
  obtain ⟨c1, c2, _⟩ := C40_log_determines_cache h
  have left : ∀ e ∈ reports s, ∃ d ∈ evs, ToldAs e d := by
    intro e hm
    obtain ⟨i, hi, rfl⟩ := List.mem_iff_getElem.1 hm
    exact ⟨evs[i]'(ht.length_eq ▸ hi), List.getElem_mem _, ht.get hi (ht.length_eq ▸ hi)⟩
  have right : ∀ d ∈ evs, ∃ e ∈ reports s, ToldAs e d := by
    intro d hm
    obtain ⟨i, hi, rfl⟩ := List.mem_iff_getElem.1 hm
    exact ⟨(reports s)[i]'(ht.length_eq ▸ hi), List.getElem_mem _, ht.get (ht.length_eq ▸ hi) hi⟩
  refine ⟨text, h1, ?_, ?_, ?_⟩
  · intro u d hu
    obtain ⟨p, q, hm, rfl, rfl⟩ := dep_in_log _ ((c2 u d).1 hu)
    obtain ⟨e, he, ht⟩ := left (.resolve p q) (by simp [reports, hm, Event.reported])
    cases ht with
    | resolve hb hb' => rw [h2]; exact .inl ⟨_, _, he, by rw [nodeOf, hb], by rw [nodeOf, hb']⟩
  · intro a v hv
    obtain ⟨b, hb⟩ := (c1 a v).1 hv
    obtain ⟨p, v', hm, rfl⟩ := art_in_log (a := a) s.c.log (by rw [hb]; simp)
    obtain ⟨e, he, ht⟩ := left (.built p v') (by simp [reports, hm, Event.reported])
    cases ht with
    | built x hx =>
      obtain ⟨past, rest, hs⟩ := List.append_of_mem he
      exact ⟨artNodeOf past x, (h2 _ _).2 (.inr ⟨past, _, x, rest, hs, by rw [nodeOf, hx], rfl⟩),
        fun i hi => ptr_ne_artNode i past x hi.symm⟩
  · intro u d hu
    rcases (h2 _ _).1 hu with ⟨b, b', hm, hx, hy⟩ | ⟨past, b, a, rest, _, _, hy⟩
    · obtain ⟨e, he, ht⟩ := right _ hm
      cases ht with
      | resolve hb hb' =>
        exact ⟨_, _, he, by rw [← hb]; exact (ptr_inj hx).symm, by rw [← hb']; exact (ptr_inj hy).symm⟩
    · exact absurd hy (ptr_ne_artNode _ _ _)

/-- The handle of a builder of the demo system. -/
def demoHandle (b : Nat) : BHandle := ⟨10 + b, "my::Builder".toList, "B \"x\"".toList⟩

/-- The handle of an artifact. -/
def demoArt : AHandle := ⟨0, "Leaf".toList, "Leaf".toList⟩

/-- What the doctor is told in the demo history. -/
def demoEvs : List DocEv :=
  [.invalidate (demoHandle 0), .resolve (demoHandle 2) (demoHandle 1), .resolve (demoHandle 1) (demoHandle 0),
    .build (demoHandle 0) demoArt, .build (demoHandle 1) demoArt, .resolve (demoHandle 2) (demoHandle 0),
    .build (demoHandle 2) demoArt]

unseal lit in
/-- The hypotheses are met: builder 2 of the demo system is got; it uses 1 and 0, and 1 uses 0. -/
example : List.Forall₂ ToldAs (reports Demo.s1) demoEvs ∧ (∀ e ∈ demoEvs, e.plain) ∧
    (graphText (fun _ => true) ⟨true, true⟩ demoEvs).map (fun t => edges (lex none t)) = some [
      ("0xc".toList, "0xb".toList), ("0xb".toList, "0xa".toList), ("0xa".toList, "1.0-0x0".toList),
      ("0xb".toList, "1.1-0x0".toList), ("0xc".toList, "0xa".toList), ("0xc".toList, "1.2-0x0".toList)] ∧
    (graphText (fun _ => true) ⟨true, true⟩ demoEvs).map (fun t => (labels (lex none t)).take 1) = some [
      ("0xc".toList, "B \\\"x\\\"".toList)] := by
  refine ⟨?_, ?_, ?_, ?_⟩
  · have : reports Demo.s1 = [.invalidate (Demo.P 0), .resolve (Demo.P 2) (Demo.P 1),
      .resolve (Demo.P 1) (Demo.P 0), .built (Demo.P 0) (5 : Nat), .built (Demo.P 1) (105 : Nat),
      .resolve (Demo.P 2) (Demo.P 0), .built (Demo.P 2) (110 : Nat)] := rfl
    rw [this]
    exact .cons (.invalidate rfl) (.cons (.resolve rfl rfl) (.cons (.resolve rfl rfl) (.cons (.built _ rfl)
      (.cons (.built _ rfl) (.cons (.resolve rfl rfl) (.cons (.built _ rfl) .nil))))))
  · intro e he
    simp only [demoEvs, List.mem_cons, List.not_mem_nil, or_false] at he
    rcases he with rfl | rfl | rfl | rfl | rfl | rfl | rfl
    all_goals trivial
  · decide
  · decide

/-! ## C53: the lines of `TextualDoc` -/

/-- How a builder is written: its address, if wanted, and its text. -/
def TextOpts.who (o : TextOpts) (b : BHandle) : Text :=
  (if o.showAddr then lit "[" ++ ptr b.id ++ lit "] " else []) ++
    if o.showBuilder then b.dbg else o.tynm b.typeName

/-- How an artifact is written: its address, if wanted, and its text. -/
def TextOpts.what (o : TextOpts) (a : AHandle) : Text :=
  (if o.showAddr then lit "[" ++ ptr a.addr ++ lit "] " else []) ++
    if o.showArtifact then a.dbg else o.tynm a.typeName

/-- What is written for an event after the events `past`. -/
def told (o : TextOpts) (past : List DocEv) : DocEv → Text
  | .resolve b u => lit "resolves " ++ o.who b ++ lit " -> " ++ o.who u ++ lit "\n"
  | .build b a => lit "built #" ++ labelText (labelOf past) ++ (if o.showAddr then lit " " else lit "  ") ++
      o.who b ++ lit " => " ++ o.what a ++ lit "\n"
  | .clear => lit "Clears generation #" ++ dec (labelOf past).1 ++ lit "\n"
  | .invalidate b => lit "Invalidates generation #" ++ dec (labelOf past).1 ++ lit " targeting " ++ o.who b

/-- **C53** What `TextualDoc` writes for each event: who used whom, who was built to what, which builder was
invalidated, in the words of `told`. -/
theorem C53_told (o : TextOpts) (t : Text) (past : List DocEv) (e : DocEv) :
    ((TextualDoc.new o t).run (past ++ [e])).output =
      ((TextualDoc.new o t).run past).output ++ told o past e := by
  have e1 : lit "\n" = ['\n'] := by unfold lit; decide
  have e2 : lit "resolves [" = lit "resolves " ++ lit "[" := by unfold lit; decide
  have e3 : lit " -> [" = lit " -> " ++ lit "[" := by unfold lit; decide
  have e4 : lit " [" = lit " " ++ lit "[" := by unfold lit; decide
  have e5 : lit " => [" = lit " => " ++ lit "[" := by unfold lit; decide
  rw [TextualDoc.run_output]
  congr 1
  cases e <;> simp only [textText, told, TextOpts.who, TextOpts.what, TextOpts.builderStr, e1, e2, e3, e4, e5] <;>
  by_cases h1 : o.showAddr = true <;>
  simp only [h1, if_true, if_false, Bool.false_eq_true, List.append_assoc, List.nil_append]

/-- What is written for a sequence of events after the events `past`. -/
def toldAll (o : TextOpts) : List DocEv → List DocEv → Text
  | _, [] => []
  | past, e :: es => told o past e ++ toldAll o (past ++ [e]) es

/-- **C53** The whole text: what the `Write` held before, and the events' texts, oldest first. -/
theorem C53_whole (o : TextOpts) (t : Text) (evs : List DocEv) :
    ((TextualDoc.new o t).run evs).output = t ++ toldAll o [] evs := by
  have key : ∀ past, ((TextualDoc.new o t).run (past ++ evs)).output =
      ((TextualDoc.new o t).run past).output ++ toldAll o past evs := by
    induction evs with
    | nil => intro past; simp [toldAll]
    | cons e es ih =>
      intro past
      have h := ih (past ++ [e])
      rw [List.append_assoc, List.singleton_append] at h
      rw [h, C53_told, toldAll, List.append_assoc]
  exact key []

unseal lit in
example : ((TextualDoc.new ⟨true, true, true, id⟩ []).run [.resolve (demoHandle 2) (demoHandle 1)]).output =
    "resolves [0xc] B \"x\" -> [0xb] B \"x\"\n".toList := by decide

end Daab.Doc
