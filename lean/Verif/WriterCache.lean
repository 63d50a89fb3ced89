import Verif.Writer
import Verif.Notebook

/-!
# C61: a cache with a `TextualDoc` or a `VisgraphDoc` on a `Write` that may fail

The doctors of `Writer.lean` as hooks of the cache.  The doctor, with its `Write`, is somewhere in the outside world.
-/

open Std

namespace Daab.Doc

/-! ## Vocabulary -/

/-- A doctor that may panic is called a number of times, panics being caught. -/
def callAll {δ : Type} (on : δ → DocEv → δ × Bool) (d : δ) : List DocEv → δ × List (DocEv × Bool)
  | [] => (d, [])
  | e :: es => ((callAll on (on d e).1 es).1, (e, (on d e).2) :: (callAll on (on d e).1 es).2)

/-- The hooks of a cache with this doctor (`doc`: where it is): for each event the doctor is called, with some handles of
the builder and artifact; if it panics, the panic goes on.  `Debug`, `Clone` and destructors do not touch the doctor, but
`Clone`, destructors, and `Debug` before a build, may panic. -/
structure Attending {σ : Sig} {δ : Type} (on : δ → DocEv → δ × Bool) (doc : σ.W → δ) (D : Hooks σ) : Prop where
  report : ∀ w e, e.reported = true → ∃ e', ToldAs e e' ∧ doc (D w (.report e)).1 = (on (doc w) e').1 ∧
    (D w (.report e)).2 = (on (doc w) e').2
  handle : ∀ w p, doc (D w (.handle p)).1 = doc w
  clone : ∀ w v, doc (D w (.clone v)).1 = doc w
  drop : ∀ w v, doc (D w (.drop v)).1 = doc w

/-- The calls the doctor got when these were the reports: they are the same; but if it panicked in a call for an artifact,
the artifact has not been stored. -/
inductive Heard {σ : Sig} : List (Event σ) → List (DocEv × Bool) → Prop
  | nil : Heard [] []
  | call {l : List (Event σ)} {c : List (DocEv × Bool)} {e : Event σ} {e' : DocEv} (f : Bool) :
      Heard l c → ToldAs e e' → Heard (l ++ [e]) (c ++ [(e', f)])
  | lost {l : List (Event σ)} {c : List (DocEv × Bool)} {p : Promise σ} {v : σ.V} {e' : DocEv} :
      Heard l c → ToldAs (.built p v) e' → Heard l (c ++ [(e', true)])

/-- A builder's code does not touch the doctor. -/
def Leaves {σ : Sig} {δ : Type} (doc : σ.W → δ) : Prog σ → Prop
  | .ret _ => True
  | .panic => True
  | .resolve _ _ k => ∀ r, Leaves doc (k r)
  | .myState _ k => ∀ d, Leaves doc (k d)
  | .world f k => (∀ w, doc (f w) = doc w) ∧ ∀ w, Leaves doc (k w)
  | .alloc _ k => Leaves doc k
  | .free _ k => Leaves doc k

/-- No builder touches the doctor. -/
structure LeaveAlone {σ : Sig} {δ : Type} (Y : Sys σ) (doc : σ.W → δ) : Prop where
  code : ∀ b, Leaves doc (Y.code b)
  init : ∀ b w, doc (Y.init b w).1 = doc w

/-- The program does not, either. -/
def LeavesOp {σ : Sig} {δ : Type} (doc : σ.W → δ) : Op σ → Prop
  | .world f => ∀ w, doc (f w) = doc w
  | _ => True

/-! ## Proofs -/

section
variable {σ : Sig} {Y : Sys σ} {s s' : St σ} {δ : Type} {on : δ → DocEv → δ × Bool} {doc : σ.W → δ} {d0 : δ}
  {D : Hooks σ}

theorem callAll_append (d : δ) (es es' : List DocEv) : callAll on d (es ++ es') =
    ((callAll on (callAll on d es).1 es').1, (callAll on d es).2 ++ (callAll on (callAll on d es).1 es').2) := by
  induction es generalizing d with
  | nil => rfl
  | cons e es ih => simp only [List.cons_append, callAll, ih]

/-- The relation between the doctor and the reports. -/
def InTouch (on : δ → DocEv → δ × Bool) (doc : σ.W → δ) (d0 : δ) (w : σ.W) (l : List (Event σ)) : Prop :=
  ∃ evs, doc w = (callAll on d0 evs).1 ∧ Heard l (callAll on d0 evs).2

theorem InTouch.congr {w w' : σ.W} {l : List (Event σ)} (h : InTouch on doc d0 w l) (e : doc w' = doc w) :
    InTouch on doc d0 w' l := by
  obtain ⟨evs, h1, h2⟩ := h
  exact ⟨evs, e.trans h1, h2⟩

theorem Attending.keeper (hD : Attending on doc D) : Keeper (InTouch on doc d0) D where
  report w l e he h := by
    obtain ⟨evs, h1, h2⟩ := h
    obtain ⟨e', a1, a2, a3⟩ := hD.report w e he
    refine ⟨evs ++ [e'], ?_, ?_⟩
    · rw [a2, h1, callAll_append]; rfl
    · rw [callAll_append]; exact .call _ h2 a1
  handle w l p h := h.congr (hD.handle w p)
  clone w l v h := h.congr (hD.clone w v)
  drop w l v h := h.congr (hD.drop w v)

theorem Leaves.keeps : ∀ {c : Prog σ}, Leaves doc c → c.upholds (InTouch on doc d0)
  | .ret _, _ => trivial
  | .panic, _ => trivial
  | .resolve _ _ _, h => fun r => Leaves.keeps (h r)
  | .myState _ _, h => fun r => Leaves.keeps (h r)
  | .world _ _, h => ⟨fun w _ e => e.congr (h.1 w), fun w => Leaves.keeps (h.2 w)⟩
  | .alloc _ k, h => Leaves.keeps (c := k) h
  | .free _ k, h => Leaves.keeps (c := k) h

theorem LeaveAlone.keeps (h : LeaveAlone Y doc) : Y.Upholds (InTouch on doc d0) :=
  ⟨fun b => (h.code b).keeps, fun b w _ e => e.congr (h.init b w)⟩

theorem LeavesOp.keeps {op : Op σ} (h : LeavesOp doc op) : op.upholds (InTouch on doc d0) := by
  cases op <;> first | trivial | exact fun w _ e => e.congr (h w)

/-- One operation. -/
theorem stepH_inTouch (h : Reachable Y s) (hY : LeaveAlone Y doc) (hD : Attending on doc D) (n : Nat)
    (ord : HashOrder) {op : Op σ} (hop : LeavesOp doc op) (hg : (stepH Y D n ord s op).2.goesOn)
    (hs : InTouch on doc d0 s.w (reports s)) :
    InTouch on doc d0 (stepH Y D n ord s op).1.w (reports (stepH Y D n ord s op).1) := by
  rcases stepH_kept h hY.keeps hD.keeper n ord hop.keeps hg hs with h1 | ⟨_, p, v, w, h2, ⟨evs, h3, h4⟩, _⟩
  · exact h1
  · obtain ⟨e', a1, a2, a3⟩ := hD.report w (.built p v) rfl
    refine ⟨evs ++ [e'], ?_, ?_⟩
    · rw [h2] at a2
      rw [a2, h3, callAll_append]; rfl
    · rw [h2, h3] at a3
      simp only at a3
      rw [callAll_append]
      simp only [callAll, ← a3]
      exact .lost h4 a1

theorem playH_inTouch (hY : LeaveAlone Y doc) (hist : HistoryH σ)
    (hD : ∀ x ∈ hist, Attending on doc x.1 ∧ LeavesOp doc x.2.2.2)
    (h : Reachable Y s) (hg : ∀ r ∈ (playH Y hist s).2, r.goesOn) (hs : InTouch on doc d0 s.w (reports s)) :
    InTouch on doc d0 (playH Y hist s).1.w (reports (playH Y hist s).1) := by
  induction hist generalizing s with
  | nil => exact hs
  | cons x hist ih =>
    obtain ⟨D, n, ord, op⟩ := x
    simp only [playH, List.mem_cons, forall_eq_or_imp] at hg ⊢
    obtain ⟨h1, h2⟩ := hD _ (List.mem_cons_self ..)
    exact ih (fun x hx => hD x (List.mem_cons_of_mem _ hx)) (.hooked D n ord op h hg.1) hg.2
      (stepH_inTouch h hY h1 n ord h2 hg.1 hs)

end

theorem TextualW.run_callAll {D : Device} (d : TextualW D) (evs : List DocEv) :
    callAll TextualW.on d evs = d.run evs := by
  induction evs generalizing d with
  | nil => rfl
  | cons e es ih => simp only [callAll, TextualW.run, ih]

theorem VisgraphW.run_callAll {D : Device} (printable : Char → Bool) (d : VisgraphW D) (evs : List DocEv) :
    callAll (VisgraphW.on printable) d evs = d.run printable evs := by
  induction evs generalizing d with
  | nil => rfl
  | cons e es ih => simp only [callAll, VisgraphW.run, ih]

theorem heard_all {σ : Sig} {l : List (Event σ)} {c : List (DocEv × Bool)} (h : Heard l c)
    (hc : ∀ x ∈ c, x.2 = false) : List.Forall₂ ToldAs l (c.map (·.1)) := by
  induction h with
  | nil => exact .nil
  | call f _ a ih =>
    rw [List.map_append]
    exact List.rel_append (R := ToldAs) (ih fun x hx => hc x (List.mem_append_left _ hx)) (.cons a .nil)
  | lost _ _ _ => exact absurd (hc _ (List.mem_append_right _ (List.mem_singleton_self _))) (by simp)

/-! ## The properties -/

section
variable {σ : Sig} {Y : Sys σ} {D : Device}

/-- **C61** A new cache with a `TextualDoc` on an arbitrary `Write`, after any history in which panics (of the doctor,
builders, `Clone`, ...) were caught: the doctor was called for the reports (`Heard`), and the `Write` has taken for each
call that returned the text of the event, and for each that panicked a beginning of it. -/
theorem C61_cache_textual (doc : σ.W → TextualW D) (hY : LeaveAlone Y doc) (hist : HistoryH σ)
    (hD : ∀ x ∈ hist, Attending TextualW.on doc x.1 ∧ LeavesOp doc x.2.2.2)
    {w0 : σ.W} {o : TextOpts} {out : Sink D} (h0 : doc w0 = TextualW.new o out)
    (hg : ∀ r ∈ (playH Y hist (St.new w0)).2, r.goesOn) :
    let s := (playH Y hist (St.new w0)).1
    ∃ calls, Heard (reports s) calls ∧ Received (told o) calls out.got (doc s.w).output.got ∧
      (doc s.w).output.errors = out.errors + calls.countP (·.2) := by
  obtain ⟨evs, h1, h2⟩ := playH_inTouch (on := TextualW.on) (d0 := TextualW.new o out) hY hist hD (.new w0) hg
    ⟨[], h0, .nil⟩
  rw [TextualW.run_callAll] at h1 h2
  exact ⟨_, h2, by rw [h1]; exact (C61_textual o out evs).2, by rw [h1]; exact C61_errors o out evs⟩

/-- **C61** In particular: as long as the `Write` has reported no error, it has taken exactly the text of the events that
were reported, in order (C40, C53); and no event is missing. -/
theorem C61_cache_told (doc : σ.W → TextualW D) (hY : LeaveAlone Y doc) (hist : HistoryH σ)
    (hD : ∀ x ∈ hist, Attending TextualW.on doc x.1 ∧ LeavesOp doc x.2.2.2)
    {w0 : σ.W} {o : TextOpts} {out : Sink D} (h0 : doc w0 = TextualW.new o out)
    (hg : ∀ r ∈ (playH Y hist (St.new w0)).2, r.goesOn)
    (he : (doc (playH Y hist (St.new w0)).1.w).output.errors = out.errors) :
    let s := (playH Y hist (St.new w0)).1
    ∃ evs, List.Forall₂ ToldAs (reports s) evs ∧ (doc s.w).output.got = out.got ++ toldAll o [] evs := by
  obtain ⟨calls, h1, h2, h3⟩ := C61_cache_textual doc hY hist hD h0 hg
  have hc : ∀ x ∈ calls, x.2 = false := by
    have : calls.countP (·.2) = 0 := by omega
    simpa using List.countP_eq_zero.1 this
  refine ⟨_, heard_all h1 hc, ?_⟩
  rw [received_all h2 hc (fun evs => ((TextualDoc.new o out.got).run evs).output) rfl
    (fun past e => C53_told o out.got past e), C53_whole]

/-- **C61** The same for a `VisgraphDoc`. -/
theorem C61_cache_visgraph (printable : Char → Bool) (doc : σ.W → VisgraphW D) (hY : LeaveAlone Y doc)
    (hist : HistoryH σ)
    (hD : ∀ x ∈ hist, Attending (VisgraphW.on printable) doc x.1 ∧ LeavesOp doc x.2.2.2)
    {w0 : σ.W} {o : VisOpts} {out : Sink D} (h0 : VisgraphW.new o out = .ok (doc w0))
    (hg : ∀ r ∈ (playH Y hist (St.new w0)).2, r.goesOn) :
    let s := (playH Y hist (St.new w0)).1
    ∃ calls w, Heard (reports s) calls ∧ (doc s.w).output = some w ∧
      Received (fun past e => visText printable o (labelOf past) e) calls (out.got ++ header) w.got ∧
      w.errors = out.errors + calls.countP (·.2) := by
  obtain ⟨evs, h1, h2⟩ := playH_inTouch (on := VisgraphW.on printable) (d0 := doc w0) hY hist hD (.new w0) hg
    ⟨[], rfl, .nil⟩
  rw [VisgraphW.run_callAll] at h1 h2
  have h3 := C61_visgraph printable o out evs
  rw [h0] at h3
  obtain ⟨_, w, h4, h5, h6⟩ := h3
  exact ⟨_, w, h2, by rw [h1]; exact h4, h5, h6⟩

/-- **C61** In particular: if the `Write` has reported no error when the cache is dropped, and takes the end, it has got
the graph of the reports (C52). -/
theorem C61_cache_graph (printable : Char → Bool) (doc : σ.W → VisgraphW D) (hY : LeaveAlone Y doc)
    (hist : HistoryH σ)
    (hD : ∀ x ∈ hist, Attending (VisgraphW.on printable) doc x.1 ∧ LeavesOp doc x.2.2.2)
    {w0 : σ.W} {o : VisOpts} {out : Sink D} (h0 : VisgraphW.new o out = .ok (doc w0)) (ht : out.got = [])
    (hg : ∀ r ∈ (playH Y hist (St.new w0)).2, r.goesOn) {w : Sink D}
    (hw : (doc (playH Y hist (St.new w0)).1.w).drop.1 = some w) (he : w.errors = out.errors) :
    let s := (playH Y hist (St.new w0)).1
    ∃ evs, List.Forall₂ ToldAs (reports s) evs ∧ graphText printable o evs = some w.got := by
  obtain ⟨calls, w1, h1, h2, h3, h4⟩ := C61_cache_visgraph printable doc hY hist hD h0 hg
  obtain ⟨w2, h5, h6⟩ := C61_drop h2
  rw [hw] at h5
  obtain rfl := Option.some.inj h5
  have hd : (doc (playH Y hist (St.new w0)).1.w).drop.2 = false := by
    cases hd : (doc (playH Y hist (St.new w0)).1.w).drop.2 with
    | false => rfl
    | true => simp only [hd, if_true] at h6; omega
  simp only [hd, Bool.false_eq_true, if_false] at h6
  have hc : ∀ x ∈ calls, x.2 = false := by
    have : calls.countP (·.2) = 0 := by omega
    simpa using List.countP_eq_zero.1 this
  refine ⟨_, heard_all h1 hc, ?_⟩
  obtain ⟨out', ho⟩ := VisgraphDoc.run_some printable o [] (calls.map (·.1))
  have h7 := received_all h3 hc (fun evs => (visOutput printable o [] evs).getD []) (by rw [ht]; rfl) (fun past e => by
    obtain ⟨x, hx, hx'⟩ := visOutput_snoc printable o [] past e
    simp only [hx, hx', Option.getD_some])
  simp only [visOutput, ho, Option.bind_some, Option.getD_some] at h7
  rw [h6.1, h7, graphText, ho, footer_eq]
  simp [VisgraphDoc.drop, VisgraphDoc.finish, VisgraphDoc.writeln]

end

/-! ## A concrete cache -/

namespace Demo

set_option smartUnfolding false

/-- The outside world is a `TextualDoc` on a `Write` with limited room. -/
abbrev sigW : Sig := ⟨Nat, Nat, Nat, Nat, TextualW paper, Nat, inferInstance, inferInstance⟩

/-- The handle of a builder. -/
def handleOf (p : Promise sigW) : BHandle := ⟨p.id, "B".toList, dec p.b⟩

/-- What the doctor is called for. -/
def evOf : Event sigW → DocEv
  | .resolve p q => .resolve (handleOf p) (handleOf q)
  | .built p v => .build (handleOf p) ⟨0, "A".toList, dec v⟩
  | .invalidate p => .invalidate (handleOf p)
  | _ => .clear

/-- The hooks. -/
def hooksW : Hooks sigW
  | w, .report e => w.on (evOf e)
  | w, _ => (w, false)

theorem hooksW_attending : Attending TextualW.on (id : TextualW paper → _) hooksW where
  report w e he := by
    refine ⟨evOf e, ?_, rfl, rfl⟩
    cases e <;> first | exact Bool.noConfusion he | skip
    · exact .resolve rfl rfl
    · exact .built _ rfl
    · exact .invalidate rfl
    · exact .clear
  handle _ _ := rfl
  clone _ _ := rfl
  drop _ _ := rfl

/-- Builder `b` lives at address `10 + b`. -/
def PW (b : Nat) : Promise sigW := ⟨10 + b, b⟩

/-- 0 returns 5; 1 returns the artifact of 0, plus 100. -/
def codeW : Nat → Prog sigW
  | 0 => .ret (.ok (5 : Nat))
  | 1 => .resolve .bin (PW 0) fun r => match r with
    | .ok v => .ret (.ok (v + 100 : Nat))
    | .error e => .ret (.error e)
  | b => .ret (.ok b)

/-- The system of these builders. -/
def YW : Sys sigW where
  code := codeW
  init b w := (w, some b)
  vty _ := 0
  sty _ := 0
  artTy _ := 0
  stTy _ := 0
  clone v := v
  debug := true

theorem YW_leaves : LeaveAlone YW (id : TextualW paper → _) := by
  refine ⟨fun b => ?_, fun b w => rfl⟩
  match b with
  | 0 => exact trivial
  | 1 => intro r; rcases r with e | v <;> exact trivial
  | b + 2 => exact trivial

/-- A `TextualDoc` that shows values, on a paper with room for `n` characters. -/
def docW (n : Nat) : TextualW paper := TextualW.new ⟨true, true, false, id⟩ ⟨n, [], 0⟩

/-- Get 1 (which uses 0); get it again; forget everything. -/
def histW : HistoryH sigW :=
  ([.alloc (PW 0), .alloc (PW 1), .get .bin (PW 1), .get .bin (PW 1), .clearAll] : List (Op sigW)).map
    fun op => (hooksW, 9, Daab.Demo.ord, op)

set_option maxRecDepth 4000 in
unseal lit in
/-- With enough room: -/
example :
    let x := playH YW histW (St.new (docW 1000))
    x.2 = [.val .unit, .val .unit, .val (.art (.ok (105 : Nat))), .val (.art (.ok (105 : Nat))), .val .unit] ∧
    x.1.w.output.errors = 0 ∧
    x.1.w.output.got =
      "resolves 1 -> 0\nbuilt #0.0  0 => 5\nbuilt #0.1  1 => 105\nClears generation #0\n".toList := ⟨rfl, rfl, rfl⟩

unseal lit in
/-- With room for 40 characters: the artifact of 0 was reported and is cached; the report of the one of 1 failed, it is not
cached, and was built twice. -/
example :
    let x := playH YW histW (St.new (docW 40))
    x.2 = [.val .unit, .val .unit, .panic .user, .panic .user, .panic .user] ∧
    x.1.w.output.errors = 3 ∧
    x.1.w.output.got = "resolves 1 -> 0\nbuilt #0.0  0 => 5\nbuilt".toList := ⟨rfl, rfl, rfl⟩

unseal lit in
/-- The hypotheses are met in both cases. -/
example : (∀ x ∈ histW, Attending TextualW.on (id : TextualW paper → _) x.1 ∧ LeavesOp (id : TextualW paper → _) x.2.2.2) ∧
    (∀ r ∈ (playH YW histW (St.new (docW 1000))).2, r.goesOn) ∧
    ∀ r ∈ (playH YW histW (St.new (docW 40))).2, r.goesOn := by
  refine ⟨?_, ?_, ?_⟩
  · intro x hx
    obtain ⟨op, hop, rfl⟩ := List.mem_map.1 hx
    refine ⟨hooksW_attending, ?_⟩
    simp only [List.mem_cons, List.not_mem_nil, or_false] at hop
    rcases hop with rfl | rfl | rfl | rfl | rfl <;> exact trivial
  · intro r hr
    have : (playH YW histW (St.new (docW 1000))).2 = [.val .unit, .val .unit, .val (.art (.ok (105 : Nat))),
      .val (.art (.ok (105 : Nat))), .val .unit] := rfl
    rw [this] at hr
    simp only [List.mem_cons, List.not_mem_nil, or_false] at hr
    rcases hr with rfl | rfl | rfl | rfl | rfl <;> exact trivial
  · intro r hr
    have : (playH YW histW (St.new (docW 40))).2 = [.val .unit, .val .unit, .panic .user, .panic .user,
      .panic .user] := rfl
    rw [this] at hr
    simp only [List.mem_cons, List.not_mem_nil, or_false] at hr
    rcases hr with rfl | rfl | rfl | rfl | rfl <;> first | exact trivial | exact nofun

end Demo

end Daab.Doc
