import Verif.Props11

/-!
# Properties: exactly which artifacts are quoted properly in the `VisgraphDoc`'s output

`C45_build_partial` gives a sufficient condition.  Here: the exact one.
-/

namespace Daab.Doc

/-- Where a reader of a text in DOT format is: outside of any quoted string, inside of one, or inside of one right after a backslash. -/
inductive Mode
  | out | inn | esc

/-- `skeleton` from any place. -/
def skel : Mode → Text → Text
  | .out, t => skeleton false t
  | .inn, t => skeleton true t
  | .esc, [] => []
  | .esc, _ :: t => skeleton true t

/-- What is left of a text, and where the reader is then. -/
def scan : Mode → Text → Text × Mode
  | m, [] => ([], m)
  | .out, c :: t => if c = '"' then ('"' :: (scan .inn t).1, (scan .inn t).2) else (c :: (scan .out t).1, (scan .out t).2)
  | .inn, c :: t => if c = '\\' then scan .esc t else if c = '"' then scan .out t else scan .inn t
  | .esc, _ :: t => scan .inn t

theorem skel_inn (c : Char) (t : Text) :
    skeleton true (c :: t) = if c = '\\' then skel .esc t else if c = '"' then skeleton false t else skeleton true t := by
  by_cases h : c = '\\'
  · subst h
    cases t with
    | nil => simp [skeleton, skel]
    | cons d t => simp [skeleton, skel]
  · rw [skeleton.eq_3 _ _ (by simp_all), if_neg h]

theorem skel_append (m : Mode) (t u : Text) : skel m (t ++ u) = (scan m t).1 ++ skel (scan m t).2 u := by
  induction t generalizing m with
  | nil => cases m <;> simp [scan]
  | cons c t ih =>
    cases m with
    | out =>
      simp only [List.cons_append, skel, skeleton, scan]
      split
      · have := ih .inn; simp only [skel] at this; simp [this]
      · have := ih .out; simp only [skel] at this; simp [this]
    | inn =>
      simp only [List.cons_append, skel, skel_inn, scan]
      split
      · exact ih .esc
      · split
        · exact ih .out
        · exact ih .inn
    | esc =>
      simp only [List.cons_append, skel, scan]
      exact ih .inn

theorem scan_inner {t : Text} (h : scan .inn t = ([], .inn)) : Inner t := by
  have key : ∀ t : Text, (scan .inn t = ([], .inn) → Inner t) ∧ (∀ c : Char, scan .esc t = ([], .inn) → Inner ('\\' :: t)) ∧
      ((scan .out t).1 = [] → t = []) := by
    intro t
    induction t with
    | nil => exact ⟨fun _ => .nil, fun _ h => by simp [scan] at h, fun _ => rfl⟩
    | cons c t ih =>
      obtain ⟨h1, h2, h3⟩ := ih
      refine ⟨?_, ?_, ?_⟩
      · intro h
        simp only [scan] at h
        split at h
        · next e => subst e; exact h2 'x' h
        · next e =>
          split at h
          · have := h3 (by rw [h])
            subst this
            simp [scan] at h
          · next e' => exact .plain c t e' e (h1 h)
      · intro d h
        simp only [scan] at h
        exact .esc c t (h1 h)
      · intro h
        simp only [scan] at h
        split at h <;> simp at h
  exact (key t).1 h

theorem ptr_noQuote (n : Nat) : ∀ c ∈ ptr n, c ≠ '"' := by
  have e : lit "0x" = ['0', 'x'] := by unfold lit; decide
  unfold ptr
  rw [e]
  intro c hc
  rcases List.mem_append.1 hc with h | h
  · clear hc; revert c; decide
  · exact (hex_plain h).1

theorem artNode_noQuote (n : Nat × Nat) (a : AHandle) : ∀ c ∈ artNode n a, c ≠ '"' := by
  have e1 : lit "." = ['.'] := by unfold lit; decide
  have e2 : lit "-" = ['-'] := by unfold lit; decide
  have hd : ∀ k, ∀ c ∈ dec k, c ≠ '"' := by
    intro k c hc
    have := dec_digit hc
    rintro rfl
    revert this; decide
  unfold artNode
  rw [e1, e2]
  intro c hc
  simp only [List.mem_append, List.mem_singleton] at hc
  rcases hc with (((h | h) | h) | h) | h
  · exact hd _ c h
  · rw [h]; decide
  · exact hd _ c h
  · rw [h]; decide
  · exact ptr_noQuote _ c h

/-- What `VisgraphDoc` puts into the label of an artifact after its number: the type name and, if asked to, the debug text. -/
def labelled (o : VisOpts) (a : AHandle) : Text := a.typeName ++ if o.showArtifact then lit " :\n" ++ a.dbg else []

/-- **C45** exactly when it holds for builds: the lines for a build are two node statements and an edge statement with nothing but
quoted strings as names and labels, whatever follows them, if and only if the artifact's type name and (if shown) debug text may
stand in a quoted string: every quotation mark has a backslash before it, and there is no lonely backslash at the end. -/
theorem C45_build_iff_partial (printable : Char → Bool) (o : VisOpts) (count : Nat × Nat) (b : BHandle) (a : AHandle) :
    (∀ r, skeleton false (visText printable o count (.build b a) ++ r) =
      lit "  \" [label = \"]\n  \" [label = \", shape = box]\n  \" -> \" [arrowhead = \"]\n" ++ skeleton false r) ↔
    Inner (labelled o a) := by
  have e0 : lit "  \" [label = \"]\n  \" [label = \", shape = box]\n  \" -> \" [arrowhead = \"]\n" =
      lit "  \" [label = \"]" ++ '\n' :: (' ' :: ' ' :: '"' :: ([' ', '[', 'l', 'a', 'b', 'e', 'l', ' ', '=', ' '] ++
        '"' :: ([',', ' ', 's', 'h', 'a', 'p', 'e', ' ', '=', ' ', 'b', 'o', 'x', ']', '\n', ' ', ' '] ++
        '"' :: ([' ', '-', '>', ' '] ++ '"' :: ([' ', '[', 'a', 'r', 'r', 'o', 'w', 'h', 'e', 'a', 'd', ' ',
          '=', ' '] ++ '"' :: [']', '\n']))))) := by
    unfold lit; decide
  have e1 : lit "  \"" = [' ', ' ', '"'] := by unfold lit; decide
  have e2 : lit "\" -> \"" = '"' :: ([' ', '-', '>', ' '] ++ ['"']) := by unfold lit; decide
  have e3 : lit "\" [label = \"#" = '"' :: ([' ', '[', 'l', 'a', 'b', 'e', 'l', ' ', '=', ' '] ++ ['"', '#']) := by
    unfold lit; decide
  have e4 : lit "\", shape = box]" = '"' :: [',', ' ', 's', 'h', 'a', 'p', 'e', ' ', '=', ' ', 'b', 'o', 'x', ']'] := by
    unfold lit; decide
  have e5 : lit "\" [arrowhead = \"none\"]" = '"' :: ([' ', '[', 'a', 'r', 'r', 'o', 'w', 'h', 'e', 'a', 'd', ' ',
      '=', ' '] ++ '"' :: (['n', 'o', 'n', 'e'] ++ '"' :: [']'])) := by unfold lit; decide
  have e6 : lit "." = ['.'] := by unfold lit; decide
  have e7 : lit " " = [' '] := by unfold lit; decide
  have hnum : Inner ('#' :: (dec count.1 ++ ('.' :: (dec count.2 ++ [' '])))) :=
    .plain _ _ (by decide) (by decide) (.append (dec_inner _) (.plain _ _ (by decide) (by decide)
      (.append (dec_inner _) (.of_plain (by decide)))))
  -- the text after the label
  let T : Text := '"' :: ([',', ' ', 's', 'h', 'a', 'p', 'e', ' ', '=', ' ', 'b', 'o', 'x', ']', '\n', ' ', ' '] ++
    '"' :: (ptr b.id ++ '"' :: ([' ', '-', '>', ' '] ++ '"' :: (artNode count a ++ '"' :: ([' ', '[', 'a', 'r', 'r', 'o', 'w', 'h',
      'e', 'a', 'd', ' ', '=', ' '] ++ '"' :: (['n', 'o', 'n', 'e'] ++ '"' :: [']', '\n']))))))
  let E : Text := [',', ' ', 's', 'h', 'a', 'p', 'e', ' ', '=', ' ', 'b', 'o', 'x', ']', '\n', ' ', ' '] ++
        '"' :: ([' ', '-', '>', ' '] ++ '"' :: ([' ', '[', 'a', 'r', 'r', 'o', 'w', 'h', 'e', 'a', 'd', ' ',
          '=', ' '] ++ '"' :: [']', '\n']))
  have inner_scan : ∀ {t : Text}, Inner t → ∀ u, skeleton true (t ++ u) = skeleton true u := by
    intro t ht u
    induction ht with
    | nil => rfl
    | plain c t hq hb _ ih => rw [List.cons_append, skel_inn, if_neg hb, if_neg hq, ih]
    | esc c t _ ih => simp only [List.cons_append, skeleton]; exact ih
  have hline : ∀ r, skeleton false (visText printable o count (.build b a) ++ r) =
      lit "  \" [label = \"]" ++ '\n' :: (' ' :: ' ' :: '"' :: ([' ', '[', 'l', 'a', 'b', 'e', 'l', ' ', '=', ' '] ++
        '"' :: skeleton true (labelled o a ++ (T ++ r)))) := by
    intro r
    unfold visText artLine labelled
    rw [e1, e2, e3, e4, e5, e6, e7]
    simp only [List.append_assoc, List.cons_append, List.nil_append]
    rw [skeleton_nodeLine]
    have h1 := skeleton_outer (t := ['\n', ' ', ' ']) (by decide)
    have h2 := skeleton_outer (t := [' ', '[', 'l', 'a', 'b', 'e', 'l', ' ', '=', ' ']) (by decide)
    simp only [List.cons_append, List.nil_append] at h1 h2
    rw [h1, skeleton_quoted (artNode_inner _ _), h2]
    simp only [skeleton, if_true]
    have h3 := inner_scan hnum
    simp only [List.append_assoc, List.cons_append, List.nil_append] at h3
    rw [h3]
    simp only [T, List.append_assoc, List.cons_append, List.nil_append]
  have hT : ∀ r, skeleton true (T ++ r) = E ++ skeleton false r := by
    intro r
    have h3 := skeleton_outer (t := [',', ' ', 's', 'h', 'a', 'p', 'e', ' ', '=', ' ', 'b', 'o', 'x', ']', '\n',
      ' ', ' ']) (by decide)
    have h4 := skeleton_outer (t := [' ', '-', '>', ' ']) (by decide)
    have h5 := skeleton_outer (t := [' ', '[', 'a', 'r', 'r', 'o', 'w', 'h', 'e', 'a', 'd', ' ', '=', ' ']) (by decide)
    have h6 := fun r => skeleton_quoted (t := ['n', 'o', 'n', 'e']) (.of_plain (by decide)) r
    have h7 := skeleton_outer (t := [']', '\n']) (by decide)
    simp only [T, E, List.append_assoc, List.cons_append, List.nil_append] at h3 h4 h5 h6 h7 ⊢
    rw [skel_inn, if_neg (by decide), if_pos rfl, h3, skeleton_quoted (ptr_inner _), h4, skeleton_quoted (artNode_inner _ _), h5, h6, h7]
  -- read from outside, or with the first quotation mark escaped, it ends inside of a string
  have hin : ∀ {t : Text}, (∀ c ∈ t, c ≠ '"' ∧ c ≠ '\\') → ∀ r, skeleton true (t ++ '"' :: r) = skeleton false r :=
    fun ht r => skeleton_inner (.of_plain ht) r
  have hodd : ∃ Z, skeleton true ([',', ' ', 's', 'h', 'a', 'p', 'e', ' ', '=', ' ', 'b', 'o', 'x', ']', '\n', ' ', ' '] ++
    '"' :: (ptr b.id ++ '"' :: ([' ', '-', '>', ' '] ++ '"' :: (artNode count a ++ '"' :: ([' ', '[', 'a', 'r', 'r', 'o', 'w', 'h',
      'e', 'a', 'd', ' ', '=', ' '] ++ '"' :: (['n', 'o', 'n', 'e'] ++ '"' :: [']', '\n'])))))) = Z ++ ['"'] := by
    rw [hin (by decide), skeleton_outer (ptr_noQuote _), skeleton_quoted (.of_plain (by decide)), skeleton_outer (artNode_noQuote _ _),
      skeleton_quoted (.of_plain (by decide)), skeleton_outer (t := ['n', 'o', 'n', 'e']) (by decide)]
    exact ⟨ptr b.id ++ '"' :: (artNode count a ++ '"' :: ['n', 'o', 'n', 'e']), by simp [skeleton]⟩
  obtain ⟨Z, hZ⟩ := hodd
  have hEnd : ∀ X : Text, X ++ ['"'] ≠ E := by
    intro X h
    have := congrArg List.getLast? h
    simp [E] at this
  constructor
  · intro h
    have h0 := h []
    rw [hline, e0] at h0
    simp only [List.append_nil, List.cons_append, List.append_cancel_left_eq, List.cons.injEq, true_and,
      List.nil_append, skeleton] at h0
    have h0 : skel .inn (labelled o a ++ T) = E := by
      simpa only [E, skel, List.cons_append, List.nil_append] using h0
    rw [skel_append] at h0
    refine scan_inner ?_
    generalize scan .inn (labelled o a) = x at h0 ⊢
    obtain ⟨out, m⟩ := x
    cases m with
    | inn =>
      have hT0 := hT []
      simp only [List.append_nil, skeleton] at hT0
      simp only [skel, hT0] at h0
      have : out = [] := by simpa using h0
      rw [this]
    | out =>
      exfalso
      refine hEnd (out ++ '"' :: Z) ?_
      rw [← h0]
      simp only [skel, T, skeleton, if_true, hZ]
      simp
    | esc =>
      exfalso
      refine hEnd (out ++ Z) ?_
      rw [← h0]
      simp only [skel, T, hZ]
      simp
  · intro h r
    rw [hline, inner_scan h, hT, e0]
    simp only [E, List.append_assoc, List.cons_append, List.nil_append]

/-- **C45 fails** for every artifact whose debug text is shown and begins with a quotation mark, such as that of any `String`,
unless its type name were odd: the lines of its build are not what they should be. -/
theorem C45_strings_unquoted (printable : Char → Bool) (o : VisOpts) (count : Nat × Nat) (b : BHandle) (a : AHandle)
    (hs : o.showArtifact = true) (ht : ∀ c ∈ a.typeName, c ≠ '"' ∧ c ≠ '\\') {t : Text} (hd : a.dbg = '"' :: t) :
    ∃ r, skeleton false (visText printable o count (.build b a) ++ r) ≠
      lit "  \" [label = \"]\n  \" [label = \", shape = box]\n  \" -> \" [arrowhead = \"]\n" ++ skeleton false r := by
  have e8 : lit " :\n" = [' ', ':', '\n'] := by unfold lit; decide
  refine Classical.byContradiction fun hn => ?_
  have h := (C45_build_iff_partial printable o count b a).1 fun r => Classical.byContradiction fun h => hn ⟨r, h⟩
  unfold labelled at h
  rw [if_pos hs, e8, hd] at h
  have key : ∀ t : Text, (∀ c ∈ t, c ≠ '"' ∧ c ≠ '\\') → ∀ u, ¬ Inner (t ++ '"' :: u) := by
    intro t ht u
    induction t with
    | nil =>
      intro h
      cases h with
      | plain _ _ hq => exact hq rfl
    | cons c t ih =>
      intro h
      have hc := ht c (by simp)
      rw [List.cons_append] at h
      generalize hv : t ++ '"' :: u = v at h ih
      cases h with
      | plain _ _ _ _ h => exact ih (fun c hc => ht c (by simp [hc])) h
      | esc => exact hc.2 rfl
  refine key (a.typeName ++ [' ', ':', '\n']) ?_ t (by simpa using h)
  intro c hc
  rcases List.mem_append.1 hc with h | h
  · exact ht c h
  · clear hc; revert c; decide

/-- A `String`, and a text with escaped quotation marks. -/
example : ∃ r, skeleton false (visText (fun _ => true) ⟨true, true⟩ (0, 0)
      (.build ⟨1, ['B'], []⟩ ⟨2, ['S'], ['"', 'a', '"']⟩) ++ r) ≠
      lit "  \" [label = \"]\n  \" [label = \", shape = box]\n  \" -> \" [arrowhead = \"]\n" ++ skeleton false r :=
  C45_strings_unquoted _ _ _ _ _ rfl (by decide) rfl

example : Inner (labelled ⟨true, true⟩ ⟨2, ['S'], ['\\', '"', 'a', '\\', '"']⟩) := by
  have e8 : lit " :\n" = [' ', ':', '\n'] := by unfold lit; decide
  unfold labelled
  rw [e8]
  exact .append (.of_plain (by decide)) (.append (.of_plain (by decide))
    (.esc _ _ (.plain _ _ (by decide) (by decide) (.esc _ _ .nil))))

end Daab.Doc
