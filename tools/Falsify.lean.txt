import Verif.Model
import Verif.Spec
/-! Executable transcriptions of the property statements, run on random histories.  Not a proof and not
part of the development: used on *edited* models, to see whether the edit really makes a statement
false (a statement that survives an edit which breaks its English claim is too weak). -/
open Std Daab
namespace Falsify

abbrev sig : Sig := ⟨Nat, Nat, Nat, Nat, Nat, Nat, inferInstance, inferInstance⟩
abbrev P (b : Nat) : Promise sig := ⟨10 + b % 12, b⟩
abbrev S := St sig

def mk (b x : Nat) : Nat := 3 * x + b % 3
/-- builder `b`: kind `b % 12`, address `10 + b % 12`; `pur`: only pure builders. -/
def code (pur : Bool) (b : Nat) : Prog sig :=
  let g := 12 * (b / 12)
  let Q := fun k => P (k + g)
  match (if pur then b % 3 else b % 12) with
  | 0 => if pur && b % 12 ≠ 0 then .resolve .bin (Q (b % 12 - 3)) fun r => .myState id fun d => .ret (match r with
      | .ok v => .ok (mk b (v + d)) | .error e => if d % 4 < 2 then .error (e + 1) else .ok (mk b d))
    else .myState id fun d => if pur && d % 5 == 0 then .ret (.error d) else .ret (.ok (mk b d))
  | 1 => .resolve .bin (Q (b % 12 - 1)) fun r => match r with
    | .ok v => .ret (.ok (mk b (v + 1)))
    | .error e => .ret (.error e)
  | 2 => .resolve .ref (Q (b % 12 - 1)) fun r => match r with
    | .ok v => .resolve .cloned (Q (b % 12 - 2)) fun r => match r with
      | .ok w => .ret (.ok (mk b (v + w)))
      | .error e => .ret (.error e)
    | .error e => .ret (.error e)
  | 3 => .world (· + 1) fun w => match w % 2 with
    | 0 => .resolve .bin (Q 0) fun _ => .ret (.error w)
    | _ => .ret (.ok (mk b w))
  | 4 => .resolve .bin (Q 4) .ret
  | 5 => .world (· + 1) fun w => match w % 2 with
    | 0 => .panic
    | _ => .resolve .cloned (Q 3) fun _ => .ret (.ok (mk b w))
  | 6 => .resolve .bin (Q 0) fun _ => .ret (.error 6)
  | 7 => .resolve .bin (Q 2) fun _ => .resolve .bin (Q 0) fun _ => .myState (· + 2) fun d => .ret (.ok (mk b d))
  | 8 => .alloc (P (b + 13)) (.resolve .bin (Q 7) fun _ => .ret (.ok (mk b 1)))
  | 9 => .world (· + 1) fun w => match w % 2 with
    | 0 => .resolve .bin (Q 9) fun r => .ret (match r with | .ok v => .ok (v + 3) | e => e)
    | _ => .resolve .bin (Q 1) fun _ => .ret (.ok (mk b w))
  | 10 => .resolve .bin (Q 2) fun r => match r with | .ok v => .ret (.ok (mk b v)) | .error e => .ret (.error e)
  | _ => .resolve .bin (Q 3) fun _ => .resolve .bin (Q 1) fun _ => .myState (· + 2) fun d => .ret (.ok (mk b d))

def Y (pur dbg : Bool) : Sys sig where
  code := code pur
  init b w := if !pur && b % 12 == 10 then (w + 1, if w % 2 == 0 then none else some (2 * (b + 2) + b % 2))
    else (w, some (2 * b + b % 2))
  vty b := b % 3
  sty b := b % 2
  artTy v := v % 3
  stTy d := d % 2
  clone v := v + 3000
  debug := dbg

def ordA : HashOrder := ⟨fun _ l => l, fun _ _ => List.Perm.refl _⟩
def ordB : HashOrder := ⟨fun _ l => l.reverse, fun _ l => List.reverse_perm l⟩

/-! observations -/
def ids : List Nat := List.range 12 |>.map (· + 10)
def bs : List Nat := List.range 37
def art (s : S) (a : Nat) : Option Nat := s.c.artifacts[a]?
def dst (s : S) (a : Nat) : Option Nat := s.c.dynStates[a]?
def known (s : S) (a : Nat) : Bool := s.c.known.contains a
def uses (s : S) (u d : Nat) : Bool := match s.c.dependents[d]? with | some us => us.contains u | none => false
def dead (s : S) (a : Nat) : Bool := !s.heap.contains a
def sh (e : Event sig) : String := match e with
  | .resolve u d => s!"R{u.id},{u.b},{d.id},{d.b}" | .built p v => s!"B{p.id},{p.b},{v}" | .invalidate p => s!"I{p.id},{p.b}"
  | .clear => "C" | .call p => s!"L{p.id},{p.b}" | .initDyn p d => s!"D{p.id},{p.b},{d}" | .setDyn p d => s!"S{p.id},{p.b},{d}"
  | .purged p => s!"P{p.id},{p.b}" | .clearArtifacts => "A" | .collect a => s!"G{a}" | .mutDeps a => s!"M{a}" | .write a v => s!"W{a},{v}"
def view (s : S) : String :=
  s!"{s.c.artifacts.toList}{s.c.dynStates.toList}{s.c.dependents.toList.map fun x => (x.1, x.2.toList)}{s.c.dependencies.toList.map fun x => (x.1, x.2.toList)}{s.c.leafs.toList}{s.c.known.toList}{s.w}{s.heap.toList}{s.born}"
def viewLog (s : S) : String := view s ++ toString (s.c.log.map sh)
def pk (k : Panic) : String := match k with
  | .user => "user" | .init => "init" | .leafUnknown => "leafUnknown" | .noCounterpart => "noCounterpart"
  | .badArt => "badArt" | .badDyn => "badDyn" | .badFresh => "badFresh" | _ => "other"
def shE (r : Except Nat Nat) : String := match r with | .ok v => s!"ok {v}" | .error e => s!"err {e}"
def shA (r : Res (Ans sig)) : String := match r with
  | .val .unit => "()" | .val (.art r) => shE r | .val (.optArt o) => s!"oa {o}" | .val (.state d) => s!"st {d}"
  | .val (.optState o) => s!"os {o}" | .val (.bool b) => s!"{b}" | .val (.nat n) => s!"n {n}"
  | .panic k => "panic " ++ pk k | .stuck => "stuck" | .overflow => "overflow"
def goes (r : Res (Ans sig)) : Bool := match r with
  | .val _ => true | .panic k => k ≠ .noCounterpart | _ => false
def since (s s' : S) : List (Event sig) := s'.c.log.take (s'.c.log.length - s.c.log.length)
def extends_ (s s' : S) : Bool := (s'.c.log.drop (s'.c.log.length - s.c.log.length)).map sh == s.c.log.map sh

/-! abstract cache, computable -/
structure A where
  art : List (Nat × Nat × Nat) := []   -- id, builder, value
  st : List (Nat × Nat × Nat) := []
  dep : List (Nat × Nat) := []
def closure (dep : List (Nat × Nat)) : Nat → List Nat → List Nat
  | 0, l => l
  | n + 1, l => closure dep n (l ++ (dep.filter fun x => l.contains x.2 && !l.contains x.1).map (·.1)).eraseDups
def hit (dep : List (Nat × Nat)) (a : Nat) : List Nat := closure dep 30 [a]
def strict (dep : List (Nat × Nat)) (a : Nat) : List Nat := closure dep 30 ((dep.filter (·.2 == a)).map (·.1))
def A.drop (x : A) (R : List Nat) : A := { x with art := x.art.filter fun y => !R.contains y.1, dep := x.dep.filter fun y => !R.contains y.1 }
def A.apply (x : A) : Event sig → A
  | .resolve u d => { x with dep := (u.id, d.id) :: x.dep }
  | .built p v => { x with art := (p.id, p.b, v) :: x.art.filter (·.1 != p.id) }
  | .invalidate p => x.drop (hit x.dep p.id)
  | .mutDeps a => x.drop (strict x.dep a)
  | .collect a => { x.drop (hit x.dep a) with st := x.st.filter (·.1 != a) }
  | .clear => {}
  | .clearArtifacts => { st := x.st }
  | .initDyn p (some d) => { x with st := (p.id, p.b, d) :: x.st.filter (·.1 != p.id) }
  | .initDyn _ none => x
  | .setDyn p d => { x with st := (p.id, p.b, d) :: x.st.filter (·.1 != p.id) }
  | .purged p => { x with st := x.st.filter (·.1 != p.id) }
  | .write a v => { x with art := x.art.map fun y => if y.1 == a then (a, y.2.1, v) else y }
  | .call _ => x
def absOf (l : List (Event sig)) : A := l.reverse.foldl A.apply {}

/-- all ways to write the log as `post ++ e :: pre` -/
def splits : List (Event sig) → List (List (Event sig) × Event sig × List (Event sig))
  | [] => []
  | e :: l => ([], e, l) :: (splits l).map fun (a, b, c) => (e :: a, b, c)

def usesList (s : S) : List (Nat × Nat) := ids.flatMap fun u => (ids.filter (uses s u)).map fun d => (u, d)
def all (l : List Nat) (f : Nat → Bool) : Bool := l.all f
def reports (s : S) : List String := (s.c.log.filter fun e => match e with
  | .resolve .. | .built .. | .invalidate _ | .clear => true | _ => false).reverse.map sh

/-- builders all of whose runs resolve the given one, from the code's text -/
def demanded (pur : Bool) (b : Nat) : List Nat :=
  let g := 12 * (b / 12)
  if pur then (match b % 3 with | 0 => if b % 12 = 0 then [] else [b - 3] | _ => [b - 1]) else
  match b % 12 with
  | 1 => [g] | 2 => [1 + g] | 6 => [g] | 7 => [2 + g, g] | 8 => [7 + g] | 10 => [2 + g] | 11 => [3 + g, 1 + g] | _ => []
/-- what the code returns from scratch, for the pure system (`none`: state missing is the initial one) -/
partial def scratch (s : S) : Nat → Nat → Option (Except Nat Nat)
  | 0, _ => none
  | n + 1, b =>
    let rec run : Prog sig → Nat → Option (Except Nat Nat)
      | .ret r, _ => some r
      | .resolve how q k, f => match scratch s n q.b with
        | some (.ok v) => run (k (.ok (seen (Y true true) how v))) f
        | some (.error e) => run (k (.error e)) f
        | none => none
      | .myState _ k, f => run (k ((dst s (P b).id).getD (2 * b + b % 2))) f
      | _, _ => none
    run (code true b) 0

/-- no purge, no invalidation, no mutable access, but builders die and are collected -/
def opsCalm (x y : Nat) : Op sig :=
  let b := if y % 5 == 0 then 12 + (y / 11) % 12 else (y / 7) % 12
  match x % 16 with
  | 0 | 1 | 2 | 3 | 4 | 5 | 6 => .get .bin (P b)
  | 7 => .dynState (P b)
  | 8 | 9 => .gc
  | 10 | 11 => .alloc (P (12 + (y / 7) % 12))
  | 12 | 13 | 14 => .free (10 + (y / 7) % 12)
  | _ => .world (· + 1)

def ops (pur : Bool) (x y : Nat) (calm : Bool := false) : Op sig :=
  if calm then opsCalm x y else
  let b := if y % 11 == 0 then 12 + (y / 11) % 12 else (y / 7) % 12
  let p := P b
  let how : Access := match (y / 300) % 3 with | 0 => .bin | 1 => .ref | _ => .cloned
  match x % 30 with
  | 0 | 1 | 2 | 3 | 4 | 5 | 6 => .get how p
  | 7 => if pur then .get how p else .getMut p (· + 6)
  | 8 => .lookup how p
  | 9 => if pur then .invalidate p else .lookupMut p (· + 3)
  | 10 | 11 => .dynState p
  | 12 => .getDynState p
  | 13 | 14 => .dynStateMut p (· + 2)
  | 15 => .isKnown p
  | 16 => .numKnown
  | 17 | 18 | 19 => .invalidate p
  | 20 => .purge p
  | 21 => .clearArtifacts
  | 22 => if (x / 30) % 3 == 0 then .clearAll else .invalidate p
  | 23 | 24 => .gc
  | 25 | 26 => .alloc (P (12 + (y / 7) % 12))
  | 27 => .free (10 + (y / 7) % 12)
  | 28 => if pur then .numKnown else .world (· + 1)
  | _ => .get how p

structure Env where
  pur : Bool
  dbg : Bool
  s : S
  r : Nat

def lcg (x : Nat) : Nat := (x * 6364136223846793005 + 1442695040888963407) % 18446744073709551616
def rnd (x : Nat) : Nat := x / 65536

def hist (pur : Bool) : Nat → Nat → List (Op sig)
  | 0, _ => []
  | n + 1, r => let r1 := lcg r; let r2 := lcg r1; ops pur (rnd r1) (rnd r2) :: hist pur n r2

/-- the checks; `imp a b` = a → b -/
def imp (a b : Bool) : Bool := !a || b

set_option linter.unusedVariables false
def C01_hit_is_free (pur dbg : Bool) (s : S) (r : Nat) : Bool :=
  let Y := Y pur dbg
  let st : Op sig → S × Res (Ans sig) := fun op => step Y 40 ordA s op
  let livebs : List Nat := bs.filter fun b => s.live (P b)
  let allLive : (Nat → Bool) → Bool := fun f => livebs.all f
  let hows : List Access := [.bin, .ref, .cloned]
  let ab := absOf s.c.log
  let depU := usesList s
  let plays : List (Op sig) → HashOrder → S → S × List (Res (Ans sig)) := fun h o s => play Y (h.map fun x => (40, o, x)) s
  let h20 := hist pur 12 r
  let okPlay : List (Op sig) → S → Bool := fun h s => (plays h ordA s).2.all goes
  let sameExcept : (Nat → Option Nat) → (Nat → Option Nat) → List Nat → Bool := fun f g R => ids.all fun a => f a == if R.contains a then none else g a
  allLive fun b => match (st (.lookup .bin (P b))).2 with
      | .val (.optArt (some v)) => hows.all fun how => let x := st (.get how (P b))
        viewLog x.1 == viewLog s && shA x.2 == shE (.ok (seen Y how v))
      | _ => true

def C02_get_memoizes (pur dbg : Bool) (s : S) (r : Nat) : Bool :=
  let Y := Y pur dbg
  let st : Op sig → S × Res (Ans sig) := fun op => step Y 40 ordA s op
  let livebs : List Nat := bs.filter fun b => s.live (P b)
  let allLive : (Nat → Bool) → Bool := fun f => livebs.all f
  let hows : List Access := [.bin, .ref, .cloned]
  let ab := absOf s.c.log
  let depU := usesList s
  let plays : List (Op sig) → HashOrder → S → S × List (Res (Ans sig)) := fun h o s => play Y (h.map fun x => (40, o, x)) s
  let h20 := hist pur 12 r
  let okPlay : List (Op sig) → S → Bool := fun h s => (plays h ordA s).2.all goes
  let sameExcept : (Nat → Option Nat) → (Nat → Option Nat) → List Nat → Bool := fun f g R => ids.all fun a => f a == if R.contains a then none else g a
  allLive fun b => let x := st (.get .bin (P b)); match x.2 with
      | .val (.art (.ok v)) => art x.1 (P b).id == some v && known x.1 (P b).id &&
          imp (x.1.live (P b)) (shA (step Y 40 ordB x.1 (.lookup .bin (P b))).2 == s!"oa {some v}")
      | _ => true

def C02_get_memoizes_all (pur dbg : Bool) (s : S) (r : Nat) : Bool :=
  let Y := Y pur dbg
  let st : Op sig → S × Res (Ans sig) := fun op => step Y 40 ordA s op
  let livebs : List Nat := bs.filter fun b => s.live (P b)
  let allLive : (Nat → Bool) → Bool := fun f => livebs.all f
  let hows : List Access := [.bin, .ref, .cloned]
  let ab := absOf s.c.log
  let depU := usesList s
  let plays : List (Op sig) → HashOrder → S → S × List (Res (Ans sig)) := fun h o s => play Y (h.map fun x => (40, o, x)) s
  let h20 := hist pur 12 r
  let okPlay : List (Op sig) → S → Bool := fun h s => (plays h ordA s).2.all goes
  let sameExcept : (Nat → Option Nat) → (Nat → Option Nat) → List Nat → Bool := fun f g R => ids.all fun a => f a == if R.contains a then none else g a
  allLive fun b => hows.all fun how => let x := st (.get how (P b)); match x.2 with
      | .val (.art (.ok w)) => (art x.1 (P b).id).any fun v => w == seen Y how v
      | _ => true

def C03_err_only_uncached (pur dbg : Bool) (s : S) (r : Nat) : Bool :=
  let Y := Y pur dbg
  let st : Op sig → S × Res (Ans sig) := fun op => step Y 40 ordA s op
  let livebs : List Nat := bs.filter fun b => s.live (P b)
  let allLive : (Nat → Bool) → Bool := fun f => livebs.all f
  let hows : List Access := [.bin, .ref, .cloned]
  let ab := absOf s.c.log
  let depU := usesList s
  let plays : List (Op sig) → HashOrder → S → S × List (Res (Ans sig)) := fun h o s => play Y (h.map fun x => (40, o, x)) s
  let h20 := hist pur 12 r
  let okPlay : List (Op sig) → S → Bool := fun h s => (plays h ordA s).2.all goes
  let sameExcept : (Nat → Option Nat) → (Nat → Option Nat) → List Nat → Bool := fun f g R => ids.all fun a => f a == if R.contains a then none else g a
  allLive fun b => match (st (.get .ref (P b))).2 with
      | .val (.art (.error _)) => art s (P b).id == none | _ => true

def C03_err_not_cached (pur dbg : Bool) (s : S) (r : Nat) : Bool :=
  let Y := Y pur dbg
  let st : Op sig → S × Res (Ans sig) := fun op => step Y 40 ordA s op
  let livebs : List Nat := bs.filter fun b => s.live (P b)
  let allLive : (Nat → Bool) → Bool := fun f => livebs.all f
  let hows : List Access := [.bin, .ref, .cloned]
  let ab := absOf s.c.log
  let depU := usesList s
  let plays : List (Op sig) → HashOrder → S → S × List (Res (Ans sig)) := fun h o s => play Y (h.map fun x => (40, o, x)) s
  let h20 := hist pur 12 r
  let okPlay : List (Op sig) → S → Bool := fun h s => (plays h ordA s).2.all goes
  let sameExcept : (Nat → Option Nat) → (Nat → Option Nat) → List Nat → Bool := fun f g R => ids.all fun a => f a == if R.contains a then none else g a
  allLive fun b => let x := st (.get .ref (P b))
      let c := art x.1 (P b).id == none || (since s x.1).any fun e => match e with | .built q _ => q.id == (P b).id | _ => false
      match x.2 with | .val (.art (.error _)) => c | .panic _ => c | _ => true

def C03_retry (pur dbg : Bool) (s : S) (r : Nat) : Bool :=
  let Y := Y pur dbg
  let st : Op sig → S × Res (Ans sig) := fun op => step Y 40 ordA s op
  let livebs : List Nat := bs.filter fun b => s.live (P b)
  let allLive : (Nat → Bool) → Bool := fun f => livebs.all f
  let hows : List Access := [.bin, .ref, .cloned]
  let ab := absOf s.c.log
  let depU := usesList s
  let plays : List (Op sig) → HashOrder → S → S × List (Res (Ans sig)) := fun h o s => play Y (h.map fun x => (40, o, x)) s
  let h20 := hist pur 12 r
  let okPlay : List (Op sig) → S → Bool := fun h s => (plays h ordA s).2.all goes
  let sameExcept : (Nat → Option Nat) → (Nat → Option Nat) → List Nat → Bool := fun f g R => ids.all fun a => f a == if R.contains a then none else g a
  allLive fun b => match (st (.get .ref (P b))) with
      | (s', .val (.art (.error _))) => imp (art s' (P b).id == none && s'.live (P b)) (let x := step Y 40 ordB s' (.get .bin (P b))
        ((since s' x.1).any fun e => sh e == sh (.call (P b))) || shA x.2 == "panic init" || shA x.2 == "stuck") | _ => true

def C04_artifacts_kept (pur dbg : Bool) (s : S) (r : Nat) : Bool :=
  let Y := Y pur dbg
  let st : Op sig → S × Res (Ans sig) := fun op => step Y 40 ordA s op
  let livebs : List Nat := bs.filter fun b => s.live (P b)
  let allLive : (Nat → Bool) → Bool := fun f => livebs.all f
  let hows : List Access := [.bin, .ref, .cloned]
  let ab := absOf s.c.log
  let depU := usesList s
  let plays : List (Op sig) → HashOrder → S → S × List (Res (Ans sig)) := fun h o s => play Y (h.map fun x => (40, o, x)) s
  let h20 := hist pur 12 r
  let okPlay : List (Op sig) → S → Bool := fun h s => (plays h ordA s).2.all goes
  let sameExcept : (Nat → Option Nat) → (Nat → Option Nat) → List Nat → Bool := fun f g R => ids.all fun a => f a == if R.contains a then none else g a
  (bs.flatMap fun b => [Op.get .bin (P b), .get .cloned (P b), .lookup .ref (P b), .dynState (P b), .getDynState (P b), .isKnown (P b), .numKnown]).all fun op =>
      let x := st op; ids.all fun a => imp (art s a).isSome (art x.1 a == art s a)

def C05_invalidate_exact (pur dbg : Bool) (s : S) (r : Nat) : Bool :=
  let Y := Y pur dbg
  let st : Op sig → S × Res (Ans sig) := fun op => step Y 40 ordA s op
  let livebs : List Nat := bs.filter fun b => s.live (P b)
  let allLive : (Nat → Bool) → Bool := fun f => livebs.all f
  let hows : List Access := [.bin, .ref, .cloned]
  let ab := absOf s.c.log
  let depU := usesList s
  let plays : List (Op sig) → HashOrder → S → S × List (Res (Ans sig)) := fun h o s => play Y (h.map fun x => (40, o, x)) s
  let h20 := hist pur 12 r
  let okPlay : List (Op sig) → S → Bool := fun h s => (plays h ordA s).2.all goes
  let sameExcept : (Nat → Option Nat) → (Nat → Option Nat) → List Nat → Bool := fun f g R => ids.all fun a => f a == if R.contains a then none else g a
  allLive fun b => let x := st (.invalidate (P b))
      shA x.2 == "()" && sameExcept (art x.1) (art s) (hit ab.dep (P b).id)

def C05_invalidate_uses (pur dbg : Bool) (s : S) (r : Nat) : Bool :=
  let Y := Y pur dbg
  let st : Op sig → S × Res (Ans sig) := fun op => step Y 40 ordA s op
  let livebs : List Nat := bs.filter fun b => s.live (P b)
  let allLive : (Nat → Bool) → Bool := fun f => livebs.all f
  let hows : List Access := [.bin, .ref, .cloned]
  let ab := absOf s.c.log
  let depU := usesList s
  let plays : List (Op sig) → HashOrder → S → S × List (Res (Ans sig)) := fun h o s => play Y (h.map fun x => (40, o, x)) s
  let h20 := hist pur 12 r
  let okPlay : List (Op sig) → S → Bool := fun h s => (plays h ordA s).2.all goes
  let sameExcept : (Nat → Option Nat) → (Nat → Option Nat) → List Nat → Bool := fun f g R => ids.all fun a => f a == if R.contains a then none else g a
  allLive fun b => let x := st (.invalidate (P b)); let R := hit depU (P b).id
      ids.all fun u => ids.all fun d => uses x.1 u d == (uses s u d && !R.contains u)

def C06_invalidate_keeps (pur dbg : Bool) (s : S) (r : Nat) : Bool :=
  let Y := Y pur dbg
  let st : Op sig → S × Res (Ans sig) := fun op => step Y 40 ordA s op
  let livebs : List Nat := bs.filter fun b => s.live (P b)
  let allLive : (Nat → Bool) → Bool := fun f => livebs.all f
  let hows : List Access := [.bin, .ref, .cloned]
  let ab := absOf s.c.log
  let depU := usesList s
  let plays : List (Op sig) → HashOrder → S → S × List (Res (Ans sig)) := fun h o s => play Y (h.map fun x => (40, o, x)) s
  let h20 := hist pur 12 r
  let okPlay : List (Op sig) → S → Bool := fun h s => (plays h ordA s).2.all goes
  let sameExcept : (Nat → Option Nat) → (Nat → Option Nat) → List Nat → Bool := fun f g R => ids.all fun a => f a == if R.contains a then none else g a
  allLive fun b => let x := (st (.invalidate (P b))).1
      (ids.all fun a => dst x a == dst s a && known x a == known s a) && x.w == s.w && x.heap.toList == s.heap.toList &&
      shA (step Y 9 ordA x .numKnown).2 == shA (st .numKnown).2

def C07_unavoidable_use_on_record (pur dbg : Bool) (s : S) (r : Nat) : Bool :=
  let Y := Y pur dbg
  let st : Op sig → S × Res (Ans sig) := fun op => step Y 40 ordA s op
  let livebs : List Nat := bs.filter fun b => s.live (P b)
  let allLive : (Nat → Bool) → Bool := fun f => livebs.all f
  let hows : List Access := [.bin, .ref, .cloned]
  let ab := absOf s.c.log
  let depU := usesList s
  let plays : List (Op sig) → HashOrder → S → S × List (Res (Ans sig)) := fun h o s => play Y (h.map fun x => (40, o, x)) s
  let h20 := hist pur 12 r
  let okPlay : List (Op sig) → S → Bool := fun h s => (plays h ordA s).2.all goes
  let sameExcept : (Nat → Option Nat) → (Nat → Option Nat) → List Nat → Bool := fun f g R => ids.all fun a => f a == if R.contains a then none else g a
  allLive fun b => imp (art s (P b).id).isSome ((demanded pur b).all fun d => uses s (P b).id (P d).id)

def C07_unavoidable_invalidated (pur dbg : Bool) (s : S) (r : Nat) : Bool :=
  let Y := Y pur dbg
  let st : Op sig → S × Res (Ans sig) := fun op => step Y 40 ordA s op
  let livebs : List Nat := bs.filter fun b => s.live (P b)
  let allLive : (Nat → Bool) → Bool := fun f => livebs.all f
  let hows : List Access := [.bin, .ref, .cloned]
  let ab := absOf s.c.log
  let depU := usesList s
  let plays : List (Op sig) → HashOrder → S → S × List (Res (Ans sig)) := fun h o s => play Y (h.map fun x => (40, o, x)) s
  let h20 := hist pur 12 r
  let okPlay : List (Op sig) → S → Bool := fun h s => (plays h ordA s).2.all goes
  let sameExcept : (Nat → Option Nat) → (Nat → Option Nat) → List Nat → Bool := fun f g R => ids.all fun a => f a == if R.contains a then none else g a
  allLive fun b => (demanded pur b).all fun d =>
      imp (s.live (P d)) (art (st (.invalidate (P d))).1 (P b).id == none)

def C09_order_irrelevant (pur dbg : Bool) (s : S) (r : Nat) : Bool :=
  let Y := Y pur dbg
  let st : Op sig → S × Res (Ans sig) := fun op => step Y 40 ordA s op
  let livebs : List Nat := bs.filter fun b => s.live (P b)
  let allLive : (Nat → Bool) → Bool := fun f => livebs.all f
  let hows : List Access := [.bin, .ref, .cloned]
  let ab := absOf s.c.log
  let depU := usesList s
  let plays : List (Op sig) → HashOrder → S → S × List (Res (Ans sig)) := fun h o s => play Y (h.map fun x => (40, o, x)) s
  let h20 := hist pur 12 r
  let okPlay : List (Op sig) → S → Bool := fun h s => (plays h ordA s).2.all goes
  let sameExcept : (Nat → Option Nat) → (Nat → Option Nat) → List Nat → Bool := fun f g R => ids.all fun a => f a == if R.contains a then none else g a
  h20.all fun op => let x := st op; let y := step Y 40 ordB s op
      imp (shA x.2 != "panic noCounterpart") (shA x.2 == shA y.2 && view x.1 == view y.1 && imp (match op with | .gc => false | _ => true) (viewLog x.1 == viewLog y.1))

def C09_order_irrelevant_history (pur dbg : Bool) (s : S) (r : Nat) : Bool :=
  let Y := Y pur dbg
  let st : Op sig → S × Res (Ans sig) := fun op => step Y 40 ordA s op
  let livebs : List Nat := bs.filter fun b => s.live (P b)
  let allLive : (Nat → Bool) → Bool := fun f => livebs.all f
  let hows : List Access := [.bin, .ref, .cloned]
  let ab := absOf s.c.log
  let depU := usesList s
  let plays : List (Op sig) → HashOrder → S → S × List (Res (Ans sig)) := fun h o s => play Y (h.map fun x => (40, o, x)) s
  let h20 := hist pur 12 r
  let okPlay : List (Op sig) → S → Bool := fun h s => (plays h ordA s).2.all goes
  let sameExcept : (Nat → Option Nat) → (Nat → Option Nat) → List Nat → Bool := fun f g R => ids.all fun a => f a == if R.contains a then none else g a
  imp (okPlay h20 s) (let x := plays h20 ordA s; let y := plays h20 ordB s
      x.2.map shA == y.2.map shA && view x.1 == view y.1)

def C10_invalidation_total (pur dbg : Bool) (s : S) (r : Nat) : Bool :=
  let Y := Y pur dbg
  let st : Op sig → S × Res (Ans sig) := fun op => step Y 40 ordA s op
  let livebs : List Nat := bs.filter fun b => s.live (P b)
  let allLive : (Nat → Bool) → Bool := fun f => livebs.all f
  let hows : List Access := [.bin, .ref, .cloned]
  let ab := absOf s.c.log
  let depU := usesList s
  let plays : List (Op sig) → HashOrder → S → S × List (Res (Ans sig)) := fun h o s => play Y (h.map fun x => (40, o, x)) s
  let h20 := hist pur 12 r
  let okPlay : List (Op sig) → S → Bool := fun h s => (plays h ordA s).2.all goes
  let sameExcept : (Nat → Option Nat) → (Nat → Option Nat) → List Nat → Bool := fun f g R => ids.all fun a => f a == if R.contains a then none else g a
  allLive fun b => shA (st (.invalidate (P b))).2 == "()" && shA (st (.purge (P b))).2 == "()" &&
      (match (st (.dynStateMut (P b) (· + 2))).2 with | .val (.state _) => true | .panic .init => true | .stuck => true | _ => false)

def C11_dyn_state_mut (pur dbg : Bool) (s : S) (r : Nat) : Bool :=
  let Y := Y pur dbg
  let st : Op sig → S × Res (Ans sig) := fun op => step Y 40 ordA s op
  let livebs : List Nat := bs.filter fun b => s.live (P b)
  let allLive : (Nat → Bool) → Bool := fun f => livebs.all f
  let hows : List Access := [.bin, .ref, .cloned]
  let ab := absOf s.c.log
  let depU := usesList s
  let plays : List (Op sig) → HashOrder → S → S × List (Res (Ans sig)) := fun h o s => play Y (h.map fun x => (40, o, x)) s
  let h20 := hist pur 12 r
  let okPlay : List (Op sig) → S → Bool := fun h s => (plays h ordA s).2.all goes
  let sameExcept : (Nat → Option Nat) → (Nat → Option Nat) → List Nat → Bool := fun f g R => ids.all fun a => f a == if R.contains a then none else g a
  allLive fun b => let p := P b; let x := st (.dynStateMut p (· + 2)); match x.2 with
      | .val (.state d) => ((dst s p.id == some d && x.1.w == s.w) || (dst s p.id == none && Y.init b s.w == (x.1.w, some d))) &&
          dst x.1 p.id == some (d + 2) && sameExcept (art x.1) (art s) (hit ab.dep p.id) &&
          (ids.all fun a => (a == p.id || dst x.1 a == dst s a) && known x.1 a == (known s a || a == p.id)) && x.1.heap.toList == s.heap.toList
      | _ => true

def C12_state_persists (pur dbg : Bool) (s : S) (r : Nat) : Bool :=
  let Y := Y pur dbg
  let st : Op sig → S × Res (Ans sig) := fun op => step Y 40 ordA s op
  let livebs : List Nat := bs.filter fun b => s.live (P b)
  let allLive : (Nat → Bool) → Bool := fun f => livebs.all f
  let hows : List Access := [.bin, .ref, .cloned]
  let ab := absOf s.c.log
  let depU := usesList s
  let plays : List (Op sig) → HashOrder → S → S × List (Res (Ans sig)) := fun h o s => play Y (h.map fun x => (40, o, x)) s
  let h20 := hist pur 12 r
  let okPlay : List (Op sig) → S → Bool := fun h s => (plays h ordA s).2.all goes
  let sameExcept : (Nat → Option Nat) → (Nat → Option Nat) → List Nat → Bool := fun f g R => ids.all fun a => f a == if R.contains a then none else g a
  h20.all fun op => let x := st op; imp (goes x.2) (ids.all fun a => imp (dst s a).isSome (
      dst x.1 a == dst s a || ((dst x.1 a).isSome && ((match op with | .dynStateMut p _ => p.id == a | _ => false) ||
        (since s x.1).any fun e => match e with | .call p => p.id == a | _ => false)) ||
      (match op with | .purge p => p.id == a | .clearAll => true | .gc => dead s a | _ => false)))

def C13_purge (pur dbg : Bool) (s : S) (r : Nat) : Bool :=
  let Y := Y pur dbg
  let st : Op sig → S × Res (Ans sig) := fun op => step Y 40 ordA s op
  let livebs : List Nat := bs.filter fun b => s.live (P b)
  let allLive : (Nat → Bool) → Bool := fun f => livebs.all f
  let hows : List Access := [.bin, .ref, .cloned]
  let ab := absOf s.c.log
  let depU := usesList s
  let plays : List (Op sig) → HashOrder → S → S × List (Res (Ans sig)) := fun h o s => play Y (h.map fun x => (40, o, x)) s
  let h20 := hist pur 12 r
  let okPlay : List (Op sig) → S → Bool := fun h s => (plays h ordA s).2.all goes
  let sameExcept : (Nat → Option Nat) → (Nat → Option Nat) → List Nat → Bool := fun f g R => ids.all fun a => f a == if R.contains a then none else g a
  allLive fun b => let p := P b; let x := (st (.purge p)).1; let R := hit depU p.id
      art x p.id == none && dst x p.id == none && !known x p.id && sameExcept (art x) (art s) (hit ab.dep p.id) &&
      (ids.all fun a => a == p.id || (dst x a == dst s a && known x a == known s a)) &&
      (ids.all fun u => ids.all fun d => uses x u d == (uses s u d && !R.contains u)) && x.w == s.w && x.heap.toList == s.heap.toList

def C14_clear_artifacts (pur dbg : Bool) (s : S) (r : Nat) : Bool :=
  let Y := Y pur dbg
  let st : Op sig → S × Res (Ans sig) := fun op => step Y 40 ordA s op
  let livebs : List Nat := bs.filter fun b => s.live (P b)
  let allLive : (Nat → Bool) → Bool := fun f => livebs.all f
  let hows : List Access := [.bin, .ref, .cloned]
  let ab := absOf s.c.log
  let depU := usesList s
  let plays : List (Op sig) → HashOrder → S → S × List (Res (Ans sig)) := fun h o s => play Y (h.map fun x => (40, o, x)) s
  let h20 := hist pur 12 r
  let okPlay : List (Op sig) → S → Bool := fun h s => (plays h ordA s).2.all goes
  let sameExcept : (Nat → Option Nat) → (Nat → Option Nat) → List Nat → Bool := fun f g R => ids.all fun a => f a == if R.contains a then none else g a
  let y := st .clearArtifacts; let x := y.1; shA y.2 == "()" && (ids.all fun a => art x a == none && dst x a == dst s a && known x a == known s a &&
      ids.all fun d => !uses x a d) && x.w == s.w && x.heap.toList == s.heap.toList

def C15_clear_all (pur dbg : Bool) (s : S) (r : Nat) : Bool :=
  let Y := Y pur dbg
  let st : Op sig → S × Res (Ans sig) := fun op => step Y 40 ordA s op
  let livebs : List Nat := bs.filter fun b => s.live (P b)
  let allLive : (Nat → Bool) → Bool := fun f => livebs.all f
  let hows : List Access := [.bin, .ref, .cloned]
  let ab := absOf s.c.log
  let depU := usesList s
  let plays : List (Op sig) → HashOrder → S → S × List (Res (Ans sig)) := fun h o s => play Y (h.map fun x => (40, o, x)) s
  let h20 := hist pur 12 r
  let okPlay : List (Op sig) → S → Bool := fun h s => (plays h ordA s).2.all goes
  let sameExcept : (Nat → Option Nat) → (Nat → Option Nat) → List Nat → Bool := fun f g R => ids.all fun a => f a == if R.contains a then none else g a
  let y := st .clearAll; let x := y.1; let n : S := St.new s.w; shA y.2 == "()" && view x == view { n with heap := s.heap, born := s.born }

def C15_clear_all_history (pur dbg : Bool) (s : S) (r : Nat) : Bool :=
  let Y := Y pur dbg
  let st : Op sig → S × Res (Ans sig) := fun op => step Y 40 ordA s op
  let livebs : List Nat := bs.filter fun b => s.live (P b)
  let allLive : (Nat → Bool) → Bool := fun f => livebs.all f
  let hows : List Access := [.bin, .ref, .cloned]
  let ab := absOf s.c.log
  let depU := usesList s
  let plays : List (Op sig) → HashOrder → S → S × List (Res (Ans sig)) := fun h o s => play Y (h.map fun x => (40, o, x)) s
  let h20 := hist pur 12 r
  let okPlay : List (Op sig) → S → Bool := fun h s => (plays h ordA s).2.all goes
  let sameExcept : (Nat → Option Nat) → (Nat → Option Nat) → List Nat → Bool := fun f g R => ids.all fun a => f a == if R.contains a then none else g a
  let n : S := St.new s.w; (plays h20 ordA (st .clearAll).1).2.map shA == (plays h20 ordA { n with heap := s.heap, born := s.born }).2.map shA

def C16_unknown_means_nothing (pur dbg : Bool) (s : S) (r : Nat) : Bool :=
  let Y := Y pur dbg
  let st : Op sig → S × Res (Ans sig) := fun op => step Y 40 ordA s op
  let livebs : List Nat := bs.filter fun b => s.live (P b)
  let allLive : (Nat → Bool) → Bool := fun f => livebs.all f
  let hows : List Access := [.bin, .ref, .cloned]
  let ab := absOf s.c.log
  let depU := usesList s
  let plays : List (Op sig) → HashOrder → S → S × List (Res (Ans sig)) := fun h o s => play Y (h.map fun x => (40, o, x)) s
  let h20 := hist pur 12 r
  let okPlay : List (Op sig) → S → Bool := fun h s => (plays h ordA s).2.all goes
  let sameExcept : (Nat → Option Nat) → (Nat → Option Nat) → List Nat → Bool := fun f g R => ids.all fun a => f a == if R.contains a then none else g a
  allLive fun b => imp (shA (st (.isKnown (P b))).2 == "false") (art s (P b).id == none && dst s (P b).id == none &&
      ids.all fun x => !uses s (P b).id x && !uses s x (P b).id)

def C16_known_means_state (pur dbg : Bool) (s : S) (r : Nat) : Bool :=
  let Y := Y pur dbg
  let st : Op sig → S × Res (Ans sig) := fun op => step Y 40 ordA s op
  let livebs : List Nat := bs.filter fun b => s.live (P b)
  let allLive : (Nat → Bool) → Bool := fun f => livebs.all f
  let hows : List Access := [.bin, .ref, .cloned]
  let ab := absOf s.c.log
  let depU := usesList s
  let plays : List (Op sig) → HashOrder → S → S × List (Res (Ans sig)) := fun h o s => play Y (h.map fun x => (40, o, x)) s
  let h20 := hist pur 12 r
  let okPlay : List (Op sig) → S → Bool := fun h s => (plays h ordA s).2.all goes
  let sameExcept : (Nat → Option Nat) → (Nat → Option Nat) → List Nat → Bool := fun f g R => ids.all fun a => f a == if R.contains a then none else g a
  allLive fun b => imp (shA (st (.isKnown (P b))).2 == "true") ((dst s (P b).id).isSome ||
      s.c.log.any fun e => match e with | .initDyn q none => q.id == (P b).id | .resolve _ q => pur && dbg && q.id == (P b).id | _ => false)

def C16_cached_means_known (pur dbg : Bool) (s : S) (r : Nat) : Bool :=
  let Y := Y pur dbg
  let st : Op sig → S × Res (Ans sig) := fun op => step Y 40 ordA s op
  let livebs : List Nat := bs.filter fun b => s.live (P b)
  let allLive : (Nat → Bool) → Bool := fun f => livebs.all f
  let hows : List Access := [.bin, .ref, .cloned]
  let ab := absOf s.c.log
  let depU := usesList s
  let plays : List (Op sig) → HashOrder → S → S × List (Res (Ans sig)) := fun h o s => play Y (h.map fun x => (40, o, x)) s
  let h20 := hist pur 12 r
  let okPlay : List (Op sig) → S → Bool := fun h s => (plays h ordA s).2.all goes
  let sameExcept : (Nat → Option Nat) → (Nat → Option Nat) → List Nat → Bool := fun f g R => ids.all fun a => f a == if R.contains a then none else g a
  allLive fun b => imp (art s (P b).id).isSome (shA (st (.isKnown (P b))).2 == "true" && (dst s (P b).id).isSome)

def C17_number_of_known (pur dbg : Bool) (s : S) (r : Nat) : Bool :=
  let Y := Y pur dbg
  let st : Op sig → S × Res (Ans sig) := fun op => step Y 40 ordA s op
  let livebs : List Nat := bs.filter fun b => s.live (P b)
  let allLive : (Nat → Bool) → Bool := fun f => livebs.all f
  let hows : List Access := [.bin, .ref, .cloned]
  let ab := absOf s.c.log
  let depU := usesList s
  let plays : List (Op sig) → HashOrder → S → S × List (Res (Ans sig)) := fun h o s => play Y (h.map fun x => (40, o, x)) s
  let h20 := hist pur 12 r
  let okPlay : List (Op sig) → S → Bool := fun h s => (plays h ordA s).2.all goes
  let sameExcept : (Nat → Option Nat) → (Nat → Option Nat) → List Nat → Bool := fun f g R => ids.all fun a => f a == if R.contains a then none else g a
  let x := st .numKnown; viewLog x.1 == viewLog s && shA x.2 == s!"n {(List.range 60).countP (known s)}"

def C17_is_known (pur dbg : Bool) (s : S) (r : Nat) : Bool :=
  let Y := Y pur dbg
  let st : Op sig → S × Res (Ans sig) := fun op => step Y 40 ordA s op
  let livebs : List Nat := bs.filter fun b => s.live (P b)
  let allLive : (Nat → Bool) → Bool := fun f => livebs.all f
  let hows : List Access := [.bin, .ref, .cloned]
  let ab := absOf s.c.log
  let depU := usesList s
  let plays : List (Op sig) → HashOrder → S → S × List (Res (Ans sig)) := fun h o s => play Y (h.map fun x => (40, o, x)) s
  let h20 := hist pur 12 r
  let okPlay : List (Op sig) → S → Bool := fun h s => (plays h ordA s).2.all goes
  let sameExcept : (Nat → Option Nat) → (Nat → Option Nat) → List Nat → Bool := fun f g R => ids.all fun a => f a == if R.contains a then none else g a
  allLive fun b => (shA (st (.isKnown (P b))).2 == "true") == known s (P b).id

def C18_lookups_pure (pur dbg : Bool) (s : S) (r : Nat) : Bool :=
  let Y := Y pur dbg
  let st : Op sig → S × Res (Ans sig) := fun op => step Y 40 ordA s op
  let livebs : List Nat := bs.filter fun b => s.live (P b)
  let allLive : (Nat → Bool) → Bool := fun f => livebs.all f
  let hows : List Access := [.bin, .ref, .cloned]
  let ab := absOf s.c.log
  let depU := usesList s
  let plays : List (Op sig) → HashOrder → S → S × List (Res (Ans sig)) := fun h o s => play Y (h.map fun x => (40, o, x)) s
  let h20 := hist pur 12 r
  let okPlay : List (Op sig) → S → Bool := fun h s => (plays h ordA s).2.all goes
  let sameExcept : (Nat → Option Nat) → (Nat → Option Nat) → List Nat → Bool := fun f g R => ids.all fun a => f a == if R.contains a then none else g a
  allLive fun b => (hows.all fun how => let x := st (.lookup how (P b)); viewLog x.1 == viewLog s && shA x.2 == s!"oa {(art s (P b).id).map (seen Y how)}") &&
      (let x := st (.getDynState (P b)); viewLog x.1 == viewLog s && shA x.2 == s!"os {dst s (P b).id}") &&
      viewLog (st (.isKnown (P b))).1 == viewLog s && viewLog (st .numKnown).1 == viewLog s

def C19_gc_keeps_live (pur dbg : Bool) (s : S) (r : Nat) : Bool :=
  let Y := Y pur dbg
  let st : Op sig → S × Res (Ans sig) := fun op => step Y 40 ordA s op
  let livebs : List Nat := bs.filter fun b => s.live (P b)
  let allLive : (Nat → Bool) → Bool := fun f => livebs.all f
  let hows : List Access := [.bin, .ref, .cloned]
  let ab := absOf s.c.log
  let depU := usesList s
  let plays : List (Op sig) → HashOrder → S → S × List (Res (Ans sig)) := fun h o s => play Y (h.map fun x => (40, o, x)) s
  let h20 := hist pur 12 r
  let okPlay : List (Op sig) → S → Bool := fun h s => (plays h ordA s).2.all goes
  let sameExcept : (Nat → Option Nat) → (Nat → Option Nat) → List Nat → Bool := fun f g R => ids.all fun a => f a == if R.contains a then none else g a
  let x := (st .gc).1; (allLive fun b => let a := (P b).id; x.live (P b) && art x a == art s a && dst x a == dst s a &&
      known x a == known s a && ids.all fun d => uses x a d == uses s a d) && x.w == s.w && x.heap.toList == s.heap.toList &&
      (since s x).all fun e => match e with | .collect a => dead s a | _ => false

def C20_gc_collects (pur dbg : Bool) (s : S) (r : Nat) : Bool :=
  let Y := Y pur dbg
  let st : Op sig → S × Res (Ans sig) := fun op => step Y 40 ordA s op
  let livebs : List Nat := bs.filter fun b => s.live (P b)
  let allLive : (Nat → Bool) → Bool := fun f => livebs.all f
  let hows : List Access := [.bin, .ref, .cloned]
  let ab := absOf s.c.log
  let depU := usesList s
  let plays : List (Op sig) → HashOrder → S → S × List (Res (Ans sig)) := fun h o s => play Y (h.map fun x => (40, o, x)) s
  let h20 := hist pur 12 r
  let okPlay : List (Op sig) → S → Bool := fun h s => (plays h ordA s).2.all goes
  let sameExcept : (Nat → Option Nat) → (Nat → Option Nat) → List Nat → Bool := fun f g R => ids.all fun a => f a == if R.contains a then none else g a
  match st .gc with
      | (x, .val _) => let G := fun a => known s a && dead s a && ids.all fun u => !uses s u a
        ids.all fun a => known x a == (known s a && !G a) && art x a == (if G a then none else art s a) && dst x a == (if G a then none else dst s a) &&
          ids.all fun d => uses x a d == (uses s a d && !G a)
      | _ => true

def C20_gc_chain (pur dbg : Bool) (s : S) (r : Nat) : Bool :=
  let Y := Y pur dbg
  let st : Op sig → S × Res (Ans sig) := fun op => step Y 40 ordA s op
  let livebs : List Nat := bs.filter fun b => s.live (P b)
  let allLive : (Nat → Bool) → Bool := fun f => livebs.all f
  let hows : List Access := [.bin, .ref, .cloned]
  let ab := absOf s.c.log
  let depU := usesList s
  let plays : List (Op sig) → HashOrder → S → S × List (Res (Ans sig)) := fun h o s => play Y (h.map fun x => (40, o, x)) s
  let h20 := hist pur 12 r
  let okPlay : List (Op sig) → S → Bool := fun h s => (plays h ordA s).2.all goes
  let sameExcept : (Nat → Option Nat) → (Nat → Option Nat) → List Nat → Bool := fun f g R => ids.all fun a => f a == if R.contains a then none else g a
  imp (shA (st .gc).2 == "()") (let e := plays (List.replicate 13 .gc) ordA s; e.2.all (fun r => shA r == "()") &&
      ids.all fun a => imp ((hit depU a).all (dead s) && (hit depU a).all fun x => !(strict depU x).contains x) (!known e.1 a))

def C20_cycles_stay (pur dbg : Bool) (s : S) (r : Nat) : Bool :=
  let Y := Y pur dbg
  let st : Op sig → S × Res (Ans sig) := fun op => step Y 40 ordA s op
  let livebs : List Nat := bs.filter fun b => s.live (P b)
  let allLive : (Nat → Bool) → Bool := fun f => livebs.all f
  let hows : List Access := [.bin, .ref, .cloned]
  let ab := absOf s.c.log
  let depU := usesList s
  let plays : List (Op sig) → HashOrder → S → S × List (Res (Ans sig)) := fun h o s => play Y (h.map fun x => (40, o, x)) s
  let h20 := hist pur 12 r
  let okPlay : List (Op sig) → S → Bool := fun h s => (plays h ordA s).2.all goes
  let sameExcept : (Nat → Option Nat) → (Nat → Option Nat) → List Nat → Bool := fun f g R => ids.all fun a => f a == if R.contains a then none else g a
  let x := (plays [.gc, .gc] ordA s).1; ids.all fun a => imp ((strict depU a).contains a) (known x a && art x a == art s a && dst x a == dst s a &&
      (strict (usesList x) a).contains a)

def C21_gc_panics_after_purge (pur dbg : Bool) (s : S) (r : Nat) : Bool :=
  let Y := Y pur dbg
  let st : Op sig → S × Res (Ans sig) := fun op => step Y 40 ordA s op
  let livebs : List Nat := bs.filter fun b => s.live (P b)
  let allLive : (Nat → Bool) → Bool := fun f => livebs.all f
  let hows : List Access := [.bin, .ref, .cloned]
  let ab := absOf s.c.log
  let depU := usesList s
  let plays : List (Op sig) → HashOrder → S → S × List (Res (Ans sig)) := fun h o s => play Y (h.map fun x => (40, o, x)) s
  let h20 := hist pur 12 r
  let okPlay : List (Op sig) → S → Bool := fun h s => (plays h ordA s).2.all goes
  let sameExcept : (Nat → Option Nat) → (Nat → Option Nat) → List Nat → Bool := fun f g R => ids.all fun a => f a == if R.contains a then none else g a
  allLive fun b => shA (step Y 40 ordA (st (.purge (P b))).1 .gc).2 == "panic leafUnknown"

def C21_gc_panics_iff_partial (pur dbg : Bool) (s : S) (r : Nat) : Bool :=
  let Y := Y pur dbg
  let st : Op sig → S × Res (Ans sig) := fun op => step Y 40 ordA s op
  let livebs : List Nat := bs.filter fun b => s.live (P b)
  let allLive : (Nat → Bool) → Bool := fun f => livebs.all f
  let hows : List Access := [.bin, .ref, .cloned]
  let ab := absOf s.c.log
  let depU := usesList s
  let plays : List (Op sig) → HashOrder → S → S × List (Res (Ans sig)) := fun h o s => play Y (h.map fun x => (40, o, x)) s
  let h20 := hist pur 12 r
  let okPlay : List (Op sig) → S → Bool := fun h s => (plays h ordA s).2.all goes
  let sameExcept : (Nat → Option Nat) → (Nat → Option Nat) → List Nat → Bool := fun f g R => ids.all fun a => f a == if R.contains a then none else g a
  let x := st .gc; shA x.2 == "()" || (shA x.2 == "panic leafUnknown" && viewLog x.1 == viewLog s)

def C22_mut_panics_iff (pur dbg : Bool) (s : S) (r : Nat) : Bool :=
  let Y := Y pur dbg
  let st : Op sig → S × Res (Ans sig) := fun op => step Y 40 ordA s op
  let livebs : List Nat := bs.filter fun b => s.live (P b)
  let allLive : (Nat → Bool) → Bool := fun f => livebs.all f
  let hows : List Access := [.bin, .ref, .cloned]
  let ab := absOf s.c.log
  let depU := usesList s
  let plays : List (Op sig) → HashOrder → S → S × List (Res (Ans sig)) := fun h o s => play Y (h.map fun x => (40, o, x)) s
  let h20 := hist pur 12 r
  let okPlay : List (Op sig) → S → Bool := fun h s => (plays h ordA s).2.all goes
  let sameExcept : (Nat → Option Nat) → (Nat → Option Nat) → List Nat → Bool := fun f g R => ids.all fun a => f a == if R.contains a then none else g a
  allLive fun b => let u := ids.any fun x => x != (P b).id && uses s x (P b).id
      (shA (st (.lookupMut (P b) (· + 3))).2 == "panic noCounterpart") == u && (shA (st (.getMut (P b) (· + 3))).2 == "panic noCounterpart") == u

def C22_lookup_mut_partial (pur dbg : Bool) (s : S) (r : Nat) : Bool :=
  let Y := Y pur dbg
  let st : Op sig → S × Res (Ans sig) := fun op => step Y 40 ordA s op
  let livebs : List Nat := bs.filter fun b => s.live (P b)
  let allLive : (Nat → Bool) → Bool := fun f => livebs.all f
  let hows : List Access := [.bin, .ref, .cloned]
  let ab := absOf s.c.log
  let depU := usesList s
  let plays : List (Op sig) → HashOrder → S → S × List (Res (Ans sig)) := fun h o s => play Y (h.map fun x => (40, o, x)) s
  let h20 := hist pur 12 r
  let okPlay : List (Op sig) → S → Bool := fun h s => (plays h ordA s).2.all goes
  let sameExcept : (Nat → Option Nat) → (Nat → Option Nat) → List Nat → Bool := fun f g R => ids.all fun a => f a == if R.contains a then none else g a
  allLive fun b => let p := P b; imp (ids.all fun x => !uses s x p.id) (let y := st (.lookupMut p (· + 3)); let x := y.1
      shA y.2 == s!"oa {art s p.id}" && (ids.all fun a => art x a == (if a == p.id then (art s a).map (· + 3) else art s a) && dst x a == dst s a && known x a == known s a &&
        ids.all fun d => uses x a d == uses s a d) && x.w == s.w && x.heap.toList == s.heap.toList)

def C22_get_mut_partial (pur dbg : Bool) (s : S) (r : Nat) : Bool :=
  let Y := Y pur dbg
  let st : Op sig → S × Res (Ans sig) := fun op => step Y 40 ordA s op
  let livebs : List Nat := bs.filter fun b => s.live (P b)
  let allLive : (Nat → Bool) → Bool := fun f => livebs.all f
  let hows : List Access := [.bin, .ref, .cloned]
  let ab := absOf s.c.log
  let depU := usesList s
  let plays : List (Op sig) → HashOrder → S → S × List (Res (Ans sig)) := fun h o s => play Y (h.map fun x => (40, o, x)) s
  let h20 := hist pur 12 r
  let okPlay : List (Op sig) → S → Bool := fun h s => (plays h ordA s).2.all goes
  let sameExcept : (Nat → Option Nat) → (Nat → Option Nat) → List Nat → Bool := fun f g R => ids.all fun a => f a == if R.contains a then none else g a
  allLive fun b => let p := P b; imp (ids.all fun x => !uses s x p.id) (let y := st (.getMut p (· + 3)); let x := y.1
      (match art s p.id with | some v => shA y.2 == shE (.ok v) && x.w == s.w && ((since s x).all fun e => match e with | .call _ => false | _ => true) | none => true) &&
      (match y.2 with | .val (.art (.ok v)) => art x p.id == some (v + 3) | .val (.art (.error _)) => art s p.id == none | _ => true) &&
      ids.all fun a => a == p.id || imp (art s a).isSome (art x a == art s a))

def C22_clearing_recovers (pur dbg : Bool) (s : S) (r : Nat) : Bool :=
  let Y := Y pur dbg
  let st : Op sig → S × Res (Ans sig) := fun op => step Y 40 ordA s op
  let livebs : List Nat := bs.filter fun b => s.live (P b)
  let allLive : (Nat → Bool) → Bool := fun f => livebs.all f
  let hows : List Access := [.bin, .ref, .cloned]
  let ab := absOf s.c.log
  let depU := usesList s
  let plays : List (Op sig) → HashOrder → S → S × List (Res (Ans sig)) := fun h o s => play Y (h.map fun x => (40, o, x)) s
  let h20 := hist pur 12 r
  let okPlay : List (Op sig) → S → Bool := fun h s => (plays h ordA s).2.all goes
  let sameExcept : (Nat → Option Nat) → (Nat → Option Nat) → List Nat → Bool := fun f g R => ids.all fun a => f a == if R.contains a then none else g a
  allLive fun b => [Op.lookupMut (P b) (· + 3), .getMut (P b) (· + 3)].all fun op => match st op with
      | (x, .panic .noCounterpart) => [Op.clearArtifacts, .clearAll].all fun c => view (step Y 9 ordA x c).1 == view (st c).1
      | _ => true

def C23_no_bad_cast (pur dbg : Bool) (s : S) (r : Nat) : Bool :=
  let Y := Y pur dbg
  let st : Op sig → S × Res (Ans sig) := fun op => step Y 40 ordA s op
  let livebs : List Nat := bs.filter fun b => s.live (P b)
  let allLive : (Nat → Bool) → Bool := fun f => livebs.all f
  let hows : List Access := [.bin, .ref, .cloned]
  let ab := absOf s.c.log
  let depU := usesList s
  let plays : List (Op sig) → HashOrder → S → S × List (Res (Ans sig)) := fun h o s => play Y (h.map fun x => (40, o, x)) s
  let h20 := hist pur 12 r
  let okPlay : List (Op sig) → S → Bool := fun h s => (plays h ordA s).2.all goes
  let sameExcept : (Nat → Option Nat) → (Nat → Option Nat) → List Nat → Bool := fun f g R => ids.all fun a => f a == if R.contains a then none else g a
  (h20 ++ (livebs.flatMap fun b => [Op.get .bin (P b), .lookup .bin (P b), .dynState (P b), .getDynState (P b)])).all fun op => match (st op).2 with | .panic .badArt => false | .panic .badDyn => false | .panic .badFresh => false | _ => true

def C23_types (pur dbg : Bool) (s : S) (r : Nat) : Bool :=
  let Y := Y pur dbg
  let st : Op sig → S × Res (Ans sig) := fun op => step Y 40 ordA s op
  let livebs : List Nat := bs.filter fun b => s.live (P b)
  let allLive : (Nat → Bool) → Bool := fun f => livebs.all f
  let hows : List Access := [.bin, .ref, .cloned]
  let ab := absOf s.c.log
  let depU := usesList s
  let plays : List (Op sig) → HashOrder → S → S × List (Res (Ans sig)) := fun h o s => play Y (h.map fun x => (40, o, x)) s
  let h20 := hist pur 12 r
  let okPlay : List (Op sig) → S → Bool := fun h s => (plays h ordA s).2.all goes
  let sameExcept : (Nat → Option Nat) → (Nat → Option Nat) → List Nat → Bool := fun f g R => ids.all fun a => f a == if R.contains a then none else g a
  allLive fun b => hows.all fun how => (match (st (.get how (P b))).2 with | .val (.art (.ok w)) => w % 3 == b % 3 | _ => true) &&
      (match (st (.lookup how (P b))).2 with | .val (.optArt (some w)) => w % 3 == b % 3 | _ => true) &&
      (match (st (.getDynState (P b))).2 with | .val (.optState (some w)) => w % 2 == b % 2 | _ => true) &&
      (match (st (.dynState (P b))).2 with | .val (.state w) => w % 2 == b % 2 | _ => true)

def C24_artifact_is_own (pur dbg : Bool) (s : S) (r : Nat) : Bool :=
  let Y := Y pur dbg
  let st : Op sig → S × Res (Ans sig) := fun op => step Y 40 ordA s op
  let livebs : List Nat := bs.filter fun b => s.live (P b)
  let allLive : (Nat → Bool) → Bool := fun f => livebs.all f
  let hows : List Access := [.bin, .ref, .cloned]
  let ab := absOf s.c.log
  let depU := usesList s
  let plays : List (Op sig) → HashOrder → S → S × List (Res (Ans sig)) := fun h o s => play Y (h.map fun x => (40, o, x)) s
  let h20 := hist pur 12 r
  let okPlay : List (Op sig) → S → Bool := fun h s => (plays h ordA s).2.all goes
  let sameExcept : (Nat → Option Nat) → (Nat → Option Nat) → List Nat → Bool := fun f g R => ids.all fun a => f a == if R.contains a then none else g a
  allLive fun b => let p := P b; match art s p.id with
      | none => true
      | some v => (splits s.c.log).any fun (post, e, _) => (match e with | .built q v0 => sh (.built q v0) == sh (.built p v0) && (v0 == v || post.any fun e => sh e == sh (.write p.id v)) | _ => false) &&
          post.all fun e => match e with | .built q _ => q.id != p.id | .clear => false | .clearArtifacts => false | .collect a => a != p.id | .invalidate q => q.id != p.id | _ => true

def C24_state_is_own (pur dbg : Bool) (s : S) (r : Nat) : Bool :=
  let Y := Y pur dbg
  let st : Op sig → S × Res (Ans sig) := fun op => step Y 40 ordA s op
  let livebs : List Nat := bs.filter fun b => s.live (P b)
  let allLive : (Nat → Bool) → Bool := fun f => livebs.all f
  let hows : List Access := [.bin, .ref, .cloned]
  let ab := absOf s.c.log
  let depU := usesList s
  let plays : List (Op sig) → HashOrder → S → S × List (Res (Ans sig)) := fun h o s => play Y (h.map fun x => (40, o, x)) s
  let h20 := hist pur 12 r
  let okPlay : List (Op sig) → S → Bool := fun h s => (plays h ordA s).2.all goes
  let sameExcept : (Nat → Option Nat) → (Nat → Option Nat) → List Nat → Bool := fun f g R => ids.all fun a => f a == if R.contains a then none else g a
  allLive fun b => let p := P b; match dst s p.id with
      | none => true
      | some d => (splits s.c.log).any fun (post, e, _) => (sh e == sh (.initDyn p (some d)) || sh e == sh (.setDyn p d)) &&
          post.all fun e => match e with | .clear => false | .collect a => a != p.id | .purged q => q.id != p.id | .setDyn q _ => q.id != p.id | .initDyn q (some _) => q.id != p.id | _ => true

def C25_panics (pur dbg : Bool) (s : S) (r : Nat) : Bool :=
  let Y := Y pur dbg
  let st : Op sig → S × Res (Ans sig) := fun op => step Y 40 ordA s op
  let livebs : List Nat := bs.filter fun b => s.live (P b)
  let allLive : (Nat → Bool) → Bool := fun f => livebs.all f
  let hows : List Access := [.bin, .ref, .cloned]
  let ab := absOf s.c.log
  let depU := usesList s
  let plays : List (Op sig) → HashOrder → S → S × List (Res (Ans sig)) := fun h o s => play Y (h.map fun x => (40, o, x)) s
  let h20 := hist pur 12 r
  let okPlay : List (Op sig) → S → Bool := fun h s => (plays h ordA s).2.all goes
  let sameExcept : (Nat → Option Nat) → (Nat → Option Nat) → List Nat → Bool := fun f g R => ids.all fun a => f a == if R.contains a then none else g a
  (h20 ++ (livebs.flatMap fun b => [Op.get .bin (P b), .purge (P b), .getMut (P b) (· + 3), .dynStateMut (P b) (· + 2)])).all fun op => match (st op).2 with
      | .panic .user => (match op with | .get .. => true | .getMut .. => true | _ => false)
      | .panic .init => (match op with | .get .. => true | .getMut .. => true | .dynState _ => true | .dynStateMut .. => true | _ => false)
      | .panic .leafUnknown => (match op with | .gc => true | _ => false)
      | .panic .noCounterpart => (match op with | .getMut .. => true | .lookupMut .. => true | _ => false)
      | .panic _ => false | _ => true

def C26_more_stack (pur dbg : Bool) (s : S) (r : Nat) : Bool :=
  let Y := Y pur dbg
  let st : Op sig → S × Res (Ans sig) := fun op => step Y 40 ordA s op
  let livebs : List Nat := bs.filter fun b => s.live (P b)
  let allLive : (Nat → Bool) → Bool := fun f => livebs.all f
  let hows : List Access := [.bin, .ref, .cloned]
  let ab := absOf s.c.log
  let depU := usesList s
  let plays : List (Op sig) → HashOrder → S → S × List (Res (Ans sig)) := fun h o s => play Y (h.map fun x => (40, o, x)) s
  let h20 := hist pur 12 r
  let okPlay : List (Op sig) → S → Bool := fun h s => (plays h ordA s).2.all goes
  let sameExcept : (Nat → Option Nat) → (Nat → Option Nat) → List Nat → Bool := fun f g R => ids.all fun a => f a == if R.contains a then none else g a
  allLive fun b => [1, 2, 3].all fun n => let x := step Y n ordA s (.get .bin (P b)); imp (shA x.2 != "overflow") (let y := st (.get .bin (P b)); shA x.2 == shA y.2 && viewLog x.1 == viewLog y.1)

def C27_call_only_uncached (pur dbg : Bool) (s : S) (r : Nat) : Bool :=
  let Y := Y pur dbg
  let st : Op sig → S × Res (Ans sig) := fun op => step Y 40 ordA s op
  let livebs : List Nat := bs.filter fun b => s.live (P b)
  let allLive : (Nat → Bool) → Bool := fun f => livebs.all f
  let hows : List Access := [.bin, .ref, .cloned]
  let ab := absOf s.c.log
  let depU := usesList s
  let plays : List (Op sig) → HashOrder → S → S × List (Res (Ans sig)) := fun h o s => play Y (h.map fun x => (40, o, x)) s
  let h20 := hist pur 12 r
  let okPlay : List (Op sig) → S → Bool := fun h s => (plays h ordA s).2.all goes
  let sameExcept : (Nat → Option Nat) → (Nat → Option Nat) → List Nat → Bool := fun f g R => ids.all fun a => f a == if R.contains a then none else g a
  ((splits s.c.log).take 12).all fun (_, e, pre) => match e with | .call p => !((absOf pre).art.any fun x => x.1 == p.id) | _ => true

def C27_call_needs_invalidation (pur dbg : Bool) (s : S) (r : Nat) : Bool :=
  let Y := Y pur dbg
  let st : Op sig → S × Res (Ans sig) := fun op => step Y 40 ordA s op
  let livebs : List Nat := bs.filter fun b => s.live (P b)
  let allLive : (Nat → Bool) → Bool := fun f => livebs.all f
  let hows : List Access := [.bin, .ref, .cloned]
  let ab := absOf s.c.log
  let depU := usesList s
  let plays : List (Op sig) → HashOrder → S → S × List (Res (Ans sig)) := fun h o s => play Y (h.map fun x => (40, o, x)) s
  let h20 := hist pur 12 r
  let okPlay : List (Op sig) → S → Bool := fun h s => (plays h ordA s).2.all goes
  let sameExcept : (Nat → Option Nat) → (Nat → Option Nat) → List Nat → Bool := fun f g R => ids.all fun a => f a == if R.contains a then none else g a
  ((splits s.c.log).take 12).all fun (_, e, pre) => match e with
      | .call q => (splits pre).all fun (mid, e2, _) => (match e2 with | .built p _ => imp (p.id == q.id) (mid.any fun e => match e with | .invalidate _ => true | .clear => true | .clearArtifacts => true | .collect _ => true | .mutDeps _ => true | _ => false) | _ => true)
      | _ => true

def C28_get_is_from_scratch (pur dbg : Bool) (s : S) (r : Nat) : Bool :=
  let Y := Y pur dbg
  let st : Op sig → S × Res (Ans sig) := fun op => step Y 40 ordA s op
  let livebs : List Nat := bs.filter fun b => s.live (P b)
  let allLive : (Nat → Bool) → Bool := fun f => livebs.all f
  let hows : List Access := [.bin, .ref, .cloned]
  let ab := absOf s.c.log
  let depU := usesList s
  let plays : List (Op sig) → HashOrder → S → S × List (Res (Ans sig)) := fun h o s => play Y (h.map fun x => (40, o, x)) s
  let h20 := hist pur 12 r
  let okPlay : List (Op sig) → S → Bool := fun h s => (plays h ordA s).2.all goes
  let sameExcept : (Nat → Option Nat) → (Nat → Option Nat) → List Nat → Bool := fun f g R => ids.all fun a => f a == if R.contains a then none else g a
  imp pur (allLive fun b => hows.all fun how => match (st (.get how (P b))).2 with
      | .val (.art r) => (match scratch s 40 b with | some r0 => shE r == shE (r0.map (seen Y how)) | none => false) | _ => true)

def C28_lookup_is_from_scratch (pur dbg : Bool) (s : S) (r : Nat) : Bool :=
  let Y := Y pur dbg
  let st : Op sig → S × Res (Ans sig) := fun op => step Y 40 ordA s op
  let livebs : List Nat := bs.filter fun b => s.live (P b)
  let allLive : (Nat → Bool) → Bool := fun f => livebs.all f
  let hows : List Access := [.bin, .ref, .cloned]
  let ab := absOf s.c.log
  let depU := usesList s
  let plays : List (Op sig) → HashOrder → S → S × List (Res (Ans sig)) := fun h o s => play Y (h.map fun x => (40, o, x)) s
  let h20 := hist pur 12 r
  let okPlay : List (Op sig) → S → Bool := fun h s => (plays h ordA s).2.all goes
  let sameExcept : (Nat → Option Nat) → (Nat → Option Nat) → List Nat → Bool := fun f g R => ids.all fun a => f a == if R.contains a then none else g a
  imp pur (allLive fun b => match (st (.lookup .cloned (P b))).2 with
      | .val (.optArt (some v)) => (match scratch s 40 b with | some (.ok v0) => v == v0 + 3000 | _ => false) | _ => true)

def C28_clear_artifacts_transparent (pur dbg : Bool) (s : S) (r : Nat) : Bool :=
  let Y := Y pur dbg
  let st : Op sig → S × Res (Ans sig) := fun op => step Y 40 ordA s op
  let livebs : List Nat := bs.filter fun b => s.live (P b)
  let allLive : (Nat → Bool) → Bool := fun f => livebs.all f
  let hows : List Access := [.bin, .ref, .cloned]
  let ab := absOf s.c.log
  let depU := usesList s
  let plays : List (Op sig) → HashOrder → S → S × List (Res (Ans sig)) := fun h o s => play Y (h.map fun x => (40, o, x)) s
  let h20 := hist pur 12 r
  let okPlay : List (Op sig) → S → Bool := fun h s => (plays h ordA s).2.all goes
  let sameExcept : (Nat → Option Nat) → (Nat → Option Nat) → List Nat → Bool := fun f g R => ids.all fun a => f a == if R.contains a then none else g a
  imp pur (allLive fun b => imp (allLive fun b => demanded pur b |>.all fun d => s.live (P d)) (shA (st (.get .bin (P b))).2 == shA (step Y 40 ordB (st .clearArtifacts).1 (.get .bin (P b))).2))

def C30_panic_get (pur dbg : Bool) (s : S) (r : Nat) : Bool :=
  let Y := Y pur dbg
  let st : Op sig → S × Res (Ans sig) := fun op => step Y 40 ordA s op
  let livebs : List Nat := bs.filter fun b => s.live (P b)
  let allLive : (Nat → Bool) → Bool := fun f => livebs.all f
  let hows : List Access := [.bin, .ref, .cloned]
  let ab := absOf s.c.log
  let depU := usesList s
  let plays : List (Op sig) → HashOrder → S → S × List (Res (Ans sig)) := fun h o s => play Y (h.map fun x => (40, o, x)) s
  let h20 := hist pur 12 r
  let okPlay : List (Op sig) → S → Bool := fun h s => (plays h ordA s).2.all goes
  let sameExcept : (Nat → Option Nat) → (Nat → Option Nat) → List Nat → Bool := fun f g R => ids.all fun a => f a == if R.contains a then none else g a
  allLive fun b => match st (.get .bin (P b)) with
      | (x, .panic _) => (ids.all fun a => imp (art s a).isSome (art x a == art s a) && imp (known s a) (known x a) && imp (dst s a).isSome (dst x a).isSome) &&
          ((art x (P b).id == none && imp (x.live (P b)) (let y := step Y 40 ordB x (.get .ref (P b)); ((since x y.1).any fun e => sh e == sh (.call (P b))) || shA y.2 == "panic init" || shA y.2 == "stuck")) ||
            (since s x).any fun e => match e with | .built q _ => q.id == (P b).id | _ => false)
      | _ => true

def C31_variants_agree (pur dbg : Bool) (s : S) (r : Nat) : Bool :=
  let Y := Y pur dbg
  let st : Op sig → S × Res (Ans sig) := fun op => step Y 40 ordA s op
  let livebs : List Nat := bs.filter fun b => s.live (P b)
  let allLive : (Nat → Bool) → Bool := fun f => livebs.all f
  let hows : List Access := [.bin, .ref, .cloned]
  let ab := absOf s.c.log
  let depU := usesList s
  let plays : List (Op sig) → HashOrder → S → S × List (Res (Ans sig)) := fun h o s => play Y (h.map fun x => (40, o, x)) s
  let h20 := hist pur 12 r
  let okPlay : List (Op sig) → S → Bool := fun h s => (plays h ordA s).2.all goes
  let sameExcept : (Nat → Option Nat) → (Nat → Option Nat) → List Nat → Bool := fun f g R => ids.all fun a => f a == if R.contains a then none else g a
  allLive fun b => hows.all fun how => (let x := st (.get how (P b)); let y := st (.get .bin (P b)); viewLog x.1 == viewLog y.1 &&
      shA x.2 == (match y.2 with | .val (.art (.ok v)) => shE (.ok (seen Y how v)) | r => shA r)) &&
      (let x := st (.lookup how (P b)); let y := st (.lookup .bin (P b)); shA x.2 == (match y.2 with | .val (.optArt (some v)) => s!"oa {some (seen Y how v)}" | r => shA r))

def C32_cycle_never_returns (pur dbg : Bool) (s : S) (r : Nat) : Bool :=
  let Y := Y pur dbg
  let st : Op sig → S × Res (Ans sig) := fun op => step Y 40 ordA s op
  let livebs : List Nat := bs.filter fun b => s.live (P b)
  let allLive : (Nat → Bool) → Bool := fun f => livebs.all f
  let hows : List Access := [.bin, .ref, .cloned]
  let ab := absOf s.c.log
  let depU := usesList s
  let plays : List (Op sig) → HashOrder → S → S × List (Res (Ans sig)) := fun h o s => play Y (h.map fun x => (40, o, x)) s
  let h20 := hist pur 12 r
  let okPlay : List (Op sig) → S → Bool := fun h s => (plays h ordA s).2.all goes
  let sameExcept : (Nat → Option Nat) → (Nat → Option Nat) → List Nat → Bool := fun f g R => ids.all fun a => f a == if R.contains a then none else g a
  imp (!pur) ([4, 16].all fun b => imp (s.live (P b) && art s (P b).id == none) (match (st (.get .bin (P b))).2 with | .val _ => false | _ => true))

def C39_init_only_without_state (pur dbg : Bool) (s : S) (r : Nat) : Bool :=
  let Y := Y pur dbg
  let st : Op sig → S × Res (Ans sig) := fun op => step Y 40 ordA s op
  let livebs : List Nat := bs.filter fun b => s.live (P b)
  let allLive : (Nat → Bool) → Bool := fun f => livebs.all f
  let hows : List Access := [.bin, .ref, .cloned]
  let ab := absOf s.c.log
  let depU := usesList s
  let plays : List (Op sig) → HashOrder → S → S × List (Res (Ans sig)) := fun h o s => play Y (h.map fun x => (40, o, x)) s
  let h20 := hist pur 12 r
  let okPlay : List (Op sig) → S → Bool := fun h s => (plays h ordA s).2.all goes
  let sameExcept : (Nat → Option Nat) → (Nat → Option Nat) → List Nat → Bool := fun f g R => ids.all fun a => f a == if R.contains a then none else g a
  ((splits s.c.log).take 12).all fun (_, e, pre) => match e with | .initDyn p _ => !((absOf pre).st.any fun x => x.1 == p.id) | _ => true

def C39_init_once (pur dbg : Bool) (s : S) (r : Nat) : Bool :=
  let Y := Y pur dbg
  let st : Op sig → S × Res (Ans sig) := fun op => step Y 40 ordA s op
  let livebs : List Nat := bs.filter fun b => s.live (P b)
  let allLive : (Nat → Bool) → Bool := fun f => livebs.all f
  let hows : List Access := [.bin, .ref, .cloned]
  let ab := absOf s.c.log
  let depU := usesList s
  let plays : List (Op sig) → HashOrder → S → S × List (Res (Ans sig)) := fun h o s => play Y (h.map fun x => (40, o, x)) s
  let h20 := hist pur 12 r
  let okPlay : List (Op sig) → S → Bool := fun h s => (plays h ordA s).2.all goes
  let sameExcept : (Nat → Option Nat) → (Nat → Option Nat) → List Nat → Bool := fun f g R => ids.all fun a => f a == if R.contains a then none else g a
  ((splits s.c.log).take 12).all fun (_, e, pre) => match e with
      | .initDyn q _ => (splits pre).all fun (mid, e2, _) => (match e2 with | .initDyn p (some _) => imp (p.id == q.id) (mid.any fun e => match e with | .purged p' => p'.id == p.id | .clear => true | .collect a => a == p.id | _ => false) | _ => true)
      | _ => true

def C40_log_determines_cache (pur dbg : Bool) (s : S) (r : Nat) : Bool :=
  let Y := Y pur dbg
  let st : Op sig → S × Res (Ans sig) := fun op => step Y 40 ordA s op
  let livebs : List Nat := bs.filter fun b => s.live (P b)
  let allLive : (Nat → Bool) → Bool := fun f => livebs.all f
  let hows : List Access := [.bin, .ref, .cloned]
  let ab := absOf s.c.log
  let depU := usesList s
  let plays : List (Op sig) → HashOrder → S → S × List (Res (Ans sig)) := fun h o s => play Y (h.map fun x => (40, o, x)) s
  let h20 := hist pur 12 r
  let okPlay : List (Op sig) → S → Bool := fun h s => (plays h ordA s).2.all goes
  let sameExcept : (Nat → Option Nat) → (Nat → Option Nat) → List Nat → Bool := fun f g R => ids.all fun a => f a == if R.contains a then none else g a
  ids.all fun a => art s a == ((ab.art.find? (·.1 == a)).map (·.2.2)) && dst s a == ((ab.st.find? (·.1 == a)).map (·.2.2)) &&
      ids.all fun d => uses s a d == ab.dep.contains (a, d)

def C40_get_reports (pur dbg : Bool) (s : S) (r : Nat) : Bool :=
  let Y := Y pur dbg
  let st : Op sig → S × Res (Ans sig) := fun op => step Y 40 ordA s op
  let livebs : List Nat := bs.filter fun b => s.live (P b)
  let allLive : (Nat → Bool) → Bool := fun f => livebs.all f
  let hows : List Access := [.bin, .ref, .cloned]
  let ab := absOf s.c.log
  let depU := usesList s
  let plays : List (Op sig) → HashOrder → S → S × List (Res (Ans sig)) := fun h o s => play Y (h.map fun x => (40, o, x)) s
  let h20 := hist pur 12 r
  let okPlay : List (Op sig) → S → Bool := fun h s => (plays h ordA s).2.all goes
  let sameExcept : (Nat → Option Nat) → (Nat → Option Nat) → List Nat → Bool := fun f g R => ids.all fun a => f a == if R.contains a then none else g a
  allLive fun b => let p := P b; let x := st (.get .bin p); let n := reports s; let m := reports x.1
      if (art s p.id).isSome then n == m else n.isPrefixOf m && (match x.2 with
        | .val (.art (.ok v)) => m.getLast? == some (sh (.built p v)) && m.length > n.length
        | _ => m.length == n.length || m.getLast? != some (sh (.built p 0)))

def C40_other_reports (pur dbg : Bool) (s : S) (r : Nat) : Bool :=
  let Y := Y pur dbg
  let st : Op sig → S × Res (Ans sig) := fun op => step Y 40 ordA s op
  let livebs : List Nat := bs.filter fun b => s.live (P b)
  let allLive : (Nat → Bool) → Bool := fun f => livebs.all f
  let hows : List Access := [.bin, .ref, .cloned]
  let ab := absOf s.c.log
  let depU := usesList s
  let plays : List (Op sig) → HashOrder → S → S × List (Res (Ans sig)) := fun h o s => play Y (h.map fun x => (40, o, x)) s
  let h20 := hist pur 12 r
  let okPlay : List (Op sig) → S → Bool := fun h s => (plays h ordA s).2.all goes
  let sameExcept : (Nat → Option Nat) → (Nat → Option Nat) → List Nat → Bool := fun f g R => ids.all fun a => f a == if R.contains a then none else g a
  h20.all fun op => let x := st op; imp (goes x.2) (match op with
      | .invalidate p | .purge p | .dynStateMut p _ => reports x.1 == reports s ++ [sh (.invalidate p)]
      | .clearAll => reports x.1 == reports s ++ [sh .clear]
      | .get .. | .getMut .. => true
      | _ => reports x.1 == reports s)

def C44_doctor_no_influence (pur dbg : Bool) (s : S) (r : Nat) : Bool :=
  let Y := Y pur dbg
  let st : Op sig → S × Res (Ans sig) := fun op => step Y 40 ordA s op
  let livebs : List Nat := bs.filter fun b => s.live (P b)
  let allLive : (Nat → Bool) → Bool := fun f => livebs.all f
  let hows : List Access := [.bin, .ref, .cloned]
  let ab := absOf s.c.log
  let depU := usesList s
  let plays : List (Op sig) → HashOrder → S → S × List (Res (Ans sig)) := fun h o s => play Y (h.map fun x => (40, o, x)) s
  let h20 := hist pur 12 r
  let okPlay : List (Op sig) → S → Bool := fun h s => (plays h ordA s).2.all goes
  let sameExcept : (Nat → Option Nat) → (Nat → Option Nat) → List Nat → Bool := fun f g R => ids.all fun a => f a == if R.contains a then none else g a
  let x := plays h20 ordA s; let y := plays h20 ordA { s with c := { s.c with log := [] } }; x.2.map shA == y.2.map shA && view x.1 == view y.1

def C46_gc_same_answers (pur dbg : Bool) (s : S) (r : Nat) : Bool :=
  let Y := Y pur dbg
  let st : Op sig → S × Res (Ans sig) := fun op => step Y 40 ordA s op
  let livebs : List Nat := bs.filter fun b => s.live (P b)
  let allLive : (Nat → Bool) → Bool := fun f => livebs.all f
  let hows : List Access := [.bin, .ref, .cloned]
  let ab := absOf s.c.log
  let depU := usesList s
  let plays : List (Op sig) → HashOrder → S → S × List (Res (Ans sig)) := fun h o s => play Y (h.map fun x => (40, o, x)) s
  let h20 := hist pur 12 r
  let okPlay : List (Op sig) → S → Bool := fun h s => (plays h ordA s).2.all goes
  let sameExcept : (Nat → Option Nat) → (Nat → Option Nat) → List Nat → Bool := fun f g R => ids.all fun a => f a == if R.contains a then none else g a
  let h := h20.filter fun op => match op with | .numKnown => false | _ => true
  imp (okPlay h s) ((plays h ordB (st .gc).1).2.map shA == (plays h ordA s).2.map shA)

def C47_invalidations_commute (pur dbg : Bool) (s : S) (r : Nat) : Bool :=
  let Y := Y pur dbg
  let st : Op sig → S × Res (Ans sig) := fun op => step Y 40 ordA s op
  let livebs : List Nat := bs.filter fun b => s.live (P b)
  let allLive : (Nat → Bool) → Bool := fun f => livebs.all f
  let hows : List Access := [.bin, .ref, .cloned]
  let ab := absOf s.c.log
  let depU := usesList s
  let plays : List (Op sig) → HashOrder → S → S × List (Res (Ans sig)) := fun h o s => play Y (h.map fun x => (40, o, x)) s
  let h20 := hist pur 12 r
  let okPlay : List (Op sig) → S → Bool := fun h s => (plays h ordA s).2.all goes
  let sameExcept : (Nat → Option Nat) → (Nat → Option Nat) → List Nat → Bool := fun f g R => ids.all fun a => f a == if R.contains a then none else g a
  let b := livebs.getD (r % 7) 0; allLive fun b2 => imp (s.live (P b)) (
      let x := (plays [.invalidate (P b), .invalidate (P b2)] ordA s).1; let y := (plays [.invalidate (P b2), .invalidate (P b)] ordA s).1
      imp (okPlay h20 x) ((plays h20 ordA x).2.map shA == (plays h20 ordB y).2.map shA))

def C47_only_the_sets_matter (pur dbg : Bool) (s : S) (r : Nat) : Bool :=
  let Y := Y pur dbg
  let st : Op sig → S × Res (Ans sig) := fun op => step Y 40 ordA s op
  let livebs : List Nat := bs.filter fun b => s.live (P b)
  let allLive : (Nat → Bool) → Bool := fun f => livebs.all f
  let hows : List Access := [.bin, .ref, .cloned]
  let ab := absOf s.c.log
  let depU := usesList s
  let plays : List (Op sig) → HashOrder → S → S × List (Res (Ans sig)) := fun h o s => play Y (h.map fun x => (40, o, x)) s
  let h20 := hist pur 12 r
  let okPlay : List (Op sig) → S → Bool := fun h s => (plays h ordA s).2.all goes
  let sameExcept : (Nat → Option Nat) → (Nat → Option Nat) → List Nat → Bool := fun f g R => ids.all fun a => f a == if R.contains a then none else g a
  let b := livebs.getD (r % 7) 0; allLive fun b2 => imp (s.live (P b)) (
      let x := (plays [.purge (P b), .invalidate (P b2)] ordA s).1; let y := (plays [.invalidate (P b2), .invalidate (P b), .purge (P b), .purge (P b)] ordA s).1
      imp (okPlay h20 x) ((plays h20 ordA x).2.map shA == (plays h20 ordB y).2.map shA))

def C49_infallible (pur dbg : Bool) (s : S) (r : Nat) : Bool :=
  let Y := Y pur dbg
  let st : Op sig → S × Res (Ans sig) := fun op => step Y 40 ordA s op
  let livebs : List Nat := bs.filter fun b => s.live (P b)
  let allLive : (Nat → Bool) → Bool := fun f => livebs.all f
  let hows : List Access := [.bin, .ref, .cloned]
  let ab := absOf s.c.log
  let depU := usesList s
  let plays : List (Op sig) → HashOrder → S → S × List (Res (Ans sig)) := fun h o s => play Y (h.map fun x => (40, o, x)) s
  let h20 := hist pur 12 r
  let okPlay : List (Op sig) → S → Bool := fun h s => (plays h ordA s).2.all goes
  let sameExcept : (Nat → Option Nat) → (Nat → Option Nat) → List Nat → Bool := fun f g R => ids.all fun a => f a == if R.contains a then none else g a
  imp (!pur) (allLive fun b => imp ([0, 1, 2, 5, 7, 8, 10, 11].contains (b % 12)) ([Op.get .bin (P b), .getMut (P b) (· + 3)].all fun op => match (st op).2 with | .val (.art (.error _)) => false | _ => true))
deriving instance BEq for Access
/-! with hooks: a doctor, handles, `Clone`s and destructors that act on the world and may panic -/
def hookNo (h : Hook sig) : Nat := match h with
  | .report (.resolve u d) => u.id + d.id | .report (.built p _) => p.id + 1 | .report (.invalidate p) => p.id + 2 | .report _ => 3
  | .handle p => p.id + 4 | .clone v => v + 5 | .drop v => v + 6
/-- hooks number `r`; with `m = 0` they never panic -/
def hookOf (m r : Nat) : Hooks sig := fun w h => (w * 7 + 3 + hookNo h, m != 0 && (w * 5 + r + hookNo h) % m == 0)
/-- hooks that tell the calls: the world counts them -/
def countH : Hooks sig := fun w h => (w + 1000 * (1 + (match h with | .clone _ => 1000 | _ => 0)), false)
/-- the same, but not panicking when told about a use -/
def hookU (m r : Nat) : Hooks sig := fun w h => match h with | .report (.resolve ..) => (w + 3, false) | _ => hookOf m r w h
def sW (s : S) : S := { s with w := 0 }

def C01_any_hooks (pur dbg : Bool) (s : S) (r : Nat) : Bool :=
  let Y := Y pur dbg
  let D := hookOf ([0, 3, 7, 2][r / 8 % 4]!) (r / 32)
  let sh : Op sig → S × Res (Ans sig) := fun op => stepH Y D 40 ordA s op
  let livebs : List Nat := bs.filter fun b => s.live (P b)
  let allLive : (Nat → Bool) → Bool := fun f => livebs.all f
  let hows : List Access := [.bin, .ref, .cloned]
  let depU := usesList s
  let user := "panic user"
  let calls : S → S → List Nat := fun s s' => (since s s').filterMap fun e => match e with | .call q => some q.id | _ => none
  let builts : S → S → List Nat := fun s s' => (since s s').filterMap fun e => match e with | .built q _ => some q.id | _ => none
  let cut : S → List Nat → Bool := fun x R => ids.all fun a => art x a == (if R.contains a then none else art s a) &&
    ids.all fun d => uses x a d == (uses s a d && !R.contains a)
  allLive fun b => match art s (P b).id with
    | some v => hows.all fun how => let x := sh (.get how (P b)); viewLog (sW x.1) == viewLog (sW s) &&
        imp (how != .cloned) (x.1.w == s.w) && (shA x.2 == shE (.ok (seen Y how v)) || (how == .cloned && shA x.2 == user))
    | none => true

def C02_any_hooks (pur dbg : Bool) (s : S) (r : Nat) : Bool :=
  let Y := Y pur dbg
  let D := hookOf ([0, 3, 7, 2][r / 8 % 4]!) (r / 32)
  let sh : Op sig → S × Res (Ans sig) := fun op => stepH Y D 40 ordA s op
  let livebs : List Nat := bs.filter fun b => s.live (P b)
  let allLive : (Nat → Bool) → Bool := fun f => livebs.all f
  let hows : List Access := [.bin, .ref, .cloned]
  let depU := usesList s
  let user := "panic user"
  let calls : S → S → List Nat := fun s s' => (since s s').filterMap fun e => match e with | .call q => some q.id | _ => none
  let builts : S → S → List Nat := fun s s' => (since s s').filterMap fun e => match e with | .built q _ => some q.id | _ => none
  let cut : S → List Nat → Bool := fun x R => ids.all fun a => art x a == (if R.contains a then none else art s a) &&
    ids.all fun d => uses x a d == (uses s a d && !R.contains a)
  allLive fun b => hows.all fun how => match sh (.get how (P b)) with
    | (s', .val (.art (.ok x))) => known s' (P b).id && (match art s' (P b).id with
        | some v => x == seen Y how v && imp (s'.live (P b)) (hows.all fun how' => let a := shA (stepH Y D 40 ordB s' (.lookup how' (P b))).2
            a == s!"oa {some (seen Y how' v)}" || (how' == .cloned && a == user))
        | none => false)
    | _ => true

def C03_any_hooks (pur dbg : Bool) (s : S) (r : Nat) : Bool :=
  let Y := Y pur dbg
  let D := hookOf ([0, 3, 7, 2][r / 8 % 4]!) (r / 32)
  let sh : Op sig → S × Res (Ans sig) := fun op => stepH Y D 40 ordA s op
  let livebs : List Nat := bs.filter fun b => s.live (P b)
  let allLive : (Nat → Bool) → Bool := fun f => livebs.all f
  let hows : List Access := [.bin, .ref, .cloned]
  let depU := usesList s
  let user := "panic user"
  let calls : S → S → List Nat := fun s s' => (since s s').filterMap fun e => match e with | .call q => some q.id | _ => none
  let builts : S → S → List Nat := fun s s' => (since s s').filterMap fun e => match e with | .built q _ => some q.id | _ => none
  let cut : S → List Nat → Bool := fun x R => ids.all fun a => art x a == (if R.contains a then none else art s a) &&
    ids.all fun d => uses x a d == (uses s a d && !R.contains a)
  allLive fun b => hows.all fun how => let x := sh (.get how (P b))
    (match x.2 with | .val (.art (.error _)) => art s (P b).id == none | _ => true) &&
    imp (goes x.2 && art s (P b).id == none) (art x.1 (P b).id == none || (builts s x.1).contains (P b).id)

def C04_any_hooks (pur dbg : Bool) (s : S) (r : Nat) : Bool :=
  let Y := Y pur dbg
  let D := hookOf ([0, 3, 7, 2][r / 8 % 4]!) (r / 32)
  let sh : Op sig → S × Res (Ans sig) := fun op => stepH Y D 40 ordA s op
  let livebs : List Nat := bs.filter fun b => s.live (P b)
  let allLive : (Nat → Bool) → Bool := fun f => livebs.all f
  let hows : List Access := [.bin, .ref, .cloned]
  let depU := usesList s
  let user := "panic user"
  let calls : S → S → List Nat := fun s s' => (since s s').filterMap fun e => match e with | .call q => some q.id | _ => none
  let builts : S → S → List Nat := fun s s' => (since s s').filterMap fun e => match e with | .built q _ => some q.id | _ => none
  let cut : S → List Nat → Bool := fun x R => ids.all fun a => art x a == (if R.contains a then none else art s a) &&
    ids.all fun d => uses x a d == (uses s a d && !R.contains a)
  allLive fun b => hows.all fun how => let x := sh (.get how (P b))
    ids.all fun a => imp (art s a).isSome (art x.1 a == art s a)

def C05_any_hooks (pur dbg : Bool) (s : S) (r : Nat) : Bool :=
  let Y := Y pur dbg
  let D := hookOf ([0, 3, 7, 2][r / 8 % 4]!) (r / 32)
  let sh : Op sig → S × Res (Ans sig) := fun op => stepH Y D 40 ordA s op
  let livebs : List Nat := bs.filter fun b => s.live (P b)
  let allLive : (Nat → Bool) → Bool := fun f => livebs.all f
  let hows : List Access := [.bin, .ref, .cloned]
  let depU := usesList s
  let user := "panic user"
  let calls : S → S → List Nat := fun s s' => (since s s').filterMap fun e => match e with | .call q => some q.id | _ => none
  let builts : S → S → List Nat := fun s s' => (since s s').filterMap fun e => match e with | .built q _ => some q.id | _ => none
  let cut : S → List Nat → Bool := fun x R => ids.all fun a => art x a == (if R.contains a then none else art s a) &&
    ids.all fun d => uses x a d == (uses s a d && !R.contains a)
  allLive fun b => let x := sh (.invalidate (P b)); (shA x.2 == "()" || shA x.2 == user) && cut x.1 (hit depU (P b).id) &&
    (ids.all fun a => dst x.1 a == dst s a && known x.1 a == known s a) && x.1.heap.toList == s.heap.toList

def C13_any_hooks (pur dbg : Bool) (s : S) (r : Nat) : Bool :=
  let Y := Y pur dbg
  let D := hookOf ([0, 3, 7, 2][r / 8 % 4]!) (r / 32)
  let sh : Op sig → S × Res (Ans sig) := fun op => stepH Y D 40 ordA s op
  let livebs : List Nat := bs.filter fun b => s.live (P b)
  let allLive : (Nat → Bool) → Bool := fun f => livebs.all f
  let hows : List Access := [.bin, .ref, .cloned]
  let depU := usesList s
  let user := "panic user"
  let calls : S → S → List Nat := fun s s' => (since s s').filterMap fun e => match e with | .call q => some q.id | _ => none
  let builts : S → S → List Nat := fun s s' => (since s s').filterMap fun e => match e with | .built q _ => some q.id | _ => none
  let cut : S → List Nat → Bool := fun x R => ids.all fun a => art x a == (if R.contains a then none else art s a) &&
    ids.all fun d => uses x a d == (uses s a d && !R.contains a)
  allLive fun b => let p := P b; let x := sh (.purge p); (shA x.2 == "()" || shA x.2 == user) && cut x.1 (hit depU p.id) &&
    (ids.all fun a => dst x.1 a == (if a == p.id then none else dst s a) && known x.1 a == (known s a && a != p.id)) && x.1.heap.toList == s.heap.toList

def C11_any_hooks (pur dbg : Bool) (s : S) (r : Nat) : Bool :=
  let Y := Y pur dbg
  let D := hookOf ([0, 3, 7, 2][r / 8 % 4]!) (r / 32)
  let sh : Op sig → S × Res (Ans sig) := fun op => stepH Y D 40 ordA s op
  let livebs : List Nat := bs.filter fun b => s.live (P b)
  let allLive : (Nat → Bool) → Bool := fun f => livebs.all f
  let hows : List Access := [.bin, .ref, .cloned]
  let depU := usesList s
  let user := "panic user"
  let calls : S → S → List Nat := fun s s' => (since s s').filterMap fun e => match e with | .call q => some q.id | _ => none
  let builts : S → S → List Nat := fun s s' => (since s s').filterMap fun e => match e with | .built q _ => some q.id | _ => none
  let cut : S → List Nat → Bool := fun x R => ids.all fun a => art x a == (if R.contains a then none else art s a) &&
    ids.all fun d => uses x a d == (uses s a d && !R.contains a)
  allLive fun b => let p := P b; match sh (.dynStateMut p (· + 2)) with
    | (x, .val (.state d)) => (dst s p.id == some d || (dst s p.id == none && (List.range 1).all fun _ => true)) && cut x (hit depU p.id) &&
      (ids.all fun a => dst x a == (if a == p.id then some (d + 2) else dst s a) && known x a == (known s a || a == p.id))
    | (_, y) => shA y == user || shA y == "panic init" || shA y == "stuck"

def C15_any_hooks (pur dbg : Bool) (s : S) (r : Nat) : Bool :=
  let Y := Y pur dbg
  let D := hookOf ([0, 3, 7, 2][r / 8 % 4]!) (r / 32)
  let sh : Op sig → S × Res (Ans sig) := fun op => stepH Y D 40 ordA s op
  let livebs : List Nat := bs.filter fun b => s.live (P b)
  let allLive : (Nat → Bool) → Bool := fun f => livebs.all f
  let hows : List Access := [.bin, .ref, .cloned]
  let depU := usesList s
  let user := "panic user"
  let calls : S → S → List Nat := fun s s' => (since s s').filterMap fun e => match e with | .call q => some q.id | _ => none
  let builts : S → S → List Nat := fun s s' => (since s s').filterMap fun e => match e with | .built q _ => some q.id | _ => none
  let cut : S → List Nat → Bool := fun x R => ids.all fun a => art x a == (if R.contains a then none else art s a) &&
    ids.all fun d => uses x a d == (uses s a d && !R.contains a)
  let x := sh .clearAll; (shA x.2 == "()" || shA x.2 == user) &&
    ids.all fun a => art x.1 a == none && dst x.1 a == none && !known x.1 a && ids.all fun d => !uses x.1 a d

def C18_any_hooks (pur dbg : Bool) (s : S) (r : Nat) : Bool :=
  let Y := Y pur dbg
  let D := hookOf ([0, 3, 7, 2][r / 8 % 4]!) (r / 32)
  let sh : Op sig → S × Res (Ans sig) := fun op => stepH Y D 40 ordA s op
  let livebs : List Nat := bs.filter fun b => s.live (P b)
  let allLive : (Nat → Bool) → Bool := fun f => livebs.all f
  let hows : List Access := [.bin, .ref, .cloned]
  let depU := usesList s
  let user := "panic user"
  let calls : S → S → List Nat := fun s s' => (since s s').filterMap fun e => match e with | .call q => some q.id | _ => none
  let builts : S → S → List Nat := fun s s' => (since s s').filterMap fun e => match e with | .built q _ => some q.id | _ => none
  let cut : S → List Nat → Bool := fun x R => ids.all fun a => art x a == (if R.contains a then none else art s a) &&
    ids.all fun d => uses x a d == (uses s a d && !R.contains a)
  allLive fun b => let p := P b
    (hows.all fun how => let x := sh (.lookup how p); viewLog (sW x.1) == viewLog (sW s) &&
      imp (how != .cloned || art s p.id == none) (x.1.w == s.w) &&
      (shA x.2 == s!"oa {(art s p.id).map (seen Y how)}" || (how == .cloned && art s p.id != none && shA x.2 == user))) &&
    (let x := sh (.getDynState p); viewLog x.1 == viewLog s && shA x.2 == s!"os {dst s p.id}") &&
    (let x := sh (.isKnown p); viewLog x.1 == viewLog s && shA x.2 == s!"{known s p.id}") &&
    (let x := sh .numKnown; viewLog x.1 == viewLog s && shA x.2 == s!"n {s.c.known.size}")

def C22_any_hooks (pur dbg : Bool) (s : S) (r : Nat) : Bool :=
  let Y := Y pur dbg
  let D := hookOf ([0, 3, 7, 2][r / 8 % 4]!) (r / 32)
  let sh : Op sig → S × Res (Ans sig) := fun op => stepH Y D 40 ordA s op
  let livebs : List Nat := bs.filter fun b => s.live (P b)
  let allLive : (Nat → Bool) → Bool := fun f => livebs.all f
  let hows : List Access := [.bin, .ref, .cloned]
  let depU := usesList s
  let user := "panic user"
  let calls : S → S → List Nat := fun s s' => (since s s').filterMap fun e => match e with | .call q => some q.id | _ => none
  let builts : S → S → List Nat := fun s s' => (since s s').filterMap fun e => match e with | .built q _ => some q.id | _ => none
  let cut : S → List Nat → Bool := fun x R => ids.all fun a => art x a == (if R.contains a then none else art s a) &&
    ids.all fun d => uses x a d == (uses s a d && !R.contains a)
  allLive fun b => let p := P b; (shA (sh (.getMut p (· + 3))).2 == "panic noCounterpart") == ids.any fun x => x != p.id && uses s x p.id

def C26_any_hooks (pur dbg : Bool) (s : S) (r : Nat) : Bool :=
  let Y := Y pur dbg
  let D := hookOf ([0, 3, 7, 2][r / 8 % 4]!) (r / 32)
  let sh : Op sig → S × Res (Ans sig) := fun op => stepH Y D 40 ordA s op
  let livebs : List Nat := bs.filter fun b => s.live (P b)
  let allLive : (Nat → Bool) → Bool := fun f => livebs.all f
  let hows : List Access := [.bin, .ref, .cloned]
  let depU := usesList s
  let user := "panic user"
  let calls : S → S → List Nat := fun s s' => (since s s').filterMap fun e => match e with | .call q => some q.id | _ => none
  let builts : S → S → List Nat := fun s s' => (since s s').filterMap fun e => match e with | .built q _ => some q.id | _ => none
  let cut : S → List Nat → Bool := fun x R => ids.all fun a => art x a == (if R.contains a then none else art s a) &&
    ids.all fun d => uses x a d == (uses s a d && !R.contains a)
  imp pur (allLive fun b => hows.all fun how => shA (sh (.get how (P b))).2 != "overflow" &&
    let x := stepH Y D 3 ordB s (.get how (P b)); let y := sh (.get how (P b)); imp (shA x.2 != "overflow") (shA x.2 == shA y.2 && viewLog x.1 == viewLog y.1))

def C32_any_hooks (pur dbg : Bool) (s : S) (r : Nat) : Bool :=
  let Y := Y pur dbg
  let D := hookOf ([0, 3, 7, 2][r / 8 % 4]!) (r / 32)
  let sh : Op sig → S × Res (Ans sig) := fun op => stepH Y D 40 ordA s op
  let livebs : List Nat := bs.filter fun b => s.live (P b)
  let allLive : (Nat → Bool) → Bool := fun f => livebs.all f
  let hows : List Access := [.bin, .ref, .cloned]
  let depU := usesList s
  let user := "panic user"
  let calls : S → S → List Nat := fun s s' => (since s s').filterMap fun e => match e with | .call q => some q.id | _ => none
  let builts : S → S → List Nat := fun s s' => (since s s').filterMap fun e => match e with | .built q _ => some q.id | _ => none
  let cut : S → List Nat → Bool := fun x R => ids.all fun a => art x a == (if R.contains a then none else art s a) &&
    ids.all fun d => uses x a d == (uses s a d && !R.contains a)
  imp (!pur) ([4, 16].all fun b => imp (s.live (P b) && art s (P b).id == none) (match (sh (.get .bin (P b))).2 with | .val _ => false | _ => true))

def C49_any_hooks (pur dbg : Bool) (s : S) (r : Nat) : Bool :=
  let Y := Y pur dbg
  let D := hookOf ([0, 3, 7, 2][r / 8 % 4]!) (r / 32)
  let sh : Op sig → S × Res (Ans sig) := fun op => stepH Y D 40 ordA s op
  let livebs : List Nat := bs.filter fun b => s.live (P b)
  let allLive : (Nat → Bool) → Bool := fun f => livebs.all f
  let hows : List Access := [.bin, .ref, .cloned]
  let depU := usesList s
  let user := "panic user"
  let calls : S → S → List Nat := fun s s' => (since s s').filterMap fun e => match e with | .call q => some q.id | _ => none
  let builts : S → S → List Nat := fun s s' => (since s s').filterMap fun e => match e with | .built q _ => some q.id | _ => none
  let cut : S → List Nat → Bool := fun x R => ids.all fun a => art x a == (if R.contains a then none else art s a) &&
    ids.all fun d => uses x a d == (uses s a d && !R.contains a)
  imp (!pur) (allLive fun b => imp ([0, 1, 2, 5, 7, 8, 10, 11].contains (b % 12)) ([Op.get .bin (P b), .get .cloned (P b), .getMut (P b) (· + 3)].all fun op =>
    match (sh op).2 with | .val (.art (.error _)) => false | _ => true))

def C59_panics (pur dbg : Bool) (s : S) (r : Nat) : Bool :=
  let Y := Y pur dbg
  let D := hookOf ([0, 3, 7, 2][r / 8 % 4]!) (r / 32)
  let sh : Op sig → S × Res (Ans sig) := fun op => stepH Y D 40 ordA s op
  let livebs : List Nat := bs.filter fun b => s.live (P b)
  let allLive : (Nat → Bool) → Bool := fun f => livebs.all f
  let hows : List Access := [.bin, .ref, .cloned]
  let depU := usesList s
  let user := "panic user"
  let calls : S → S → List Nat := fun s s' => (since s s').filterMap fun e => match e with | .call q => some q.id | _ => none
  let builts : S → S → List Nat := fun s s' => (since s s').filterMap fun e => match e with | .built q _ => some q.id | _ => none
  let cut : S → List Nat → Bool := fun x R => ids.all fun a => art x a == (if R.contains a then none else art s a) &&
    ids.all fun d => uses x a d == (uses s a d && !R.contains a)
  (allLive fun b => let p := P b; let ok : List String → Op sig → Bool := fun l op => match (sh op).2 with | .panic k => l.contains (pk k) | _ => true
    (hows.all fun how => ok ["user", "init"] (.get how p) && ok ["user"] (.lookup how p)) && ok ["user", "init", "noCounterpart"] (.getMut p (· + 3)) &&
    ok ["user", "noCounterpart"] (.lookupMut p (· + 3)) && ok ["user", "init"] (.dynStateMut p (· + 2)) && ok ["user", "init"] (.dynState p) &&
    ok ["user"] (.invalidate p) && ok ["user"] (.purge p)) && (match (sh .gc).2 with | .panic k => pk k == "leafUnknown" | _ => true)

def C09_any_hooks (pur dbg : Bool) (s : S) (r : Nat) : Bool :=
  let Y := Y pur dbg
  let D := hookOf ([0, 3, 7, 2][r / 8 % 4]!) (r / 32)
  let sh : Op sig → S × Res (Ans sig) := fun op => stepH Y D 40 ordA s op
  let livebs : List Nat := bs.filter fun b => s.live (P b)
  let allLive : (Nat → Bool) → Bool := fun f => livebs.all f
  let hows : List Access := [.bin, .ref, .cloned]
  let depU := usesList s
  let user := "panic user"
  let calls : S → S → List Nat := fun s s' => (since s s').filterMap fun e => match e with | .call q => some q.id | _ => none
  let builts : S → S → List Nat := fun s s' => (since s s').filterMap fun e => match e with | .built q _ => some q.id | _ => none
  let cut : S → List Nat → Bool := fun x R => ids.all fun a => art x a == (if R.contains a then none else art s a) &&
    ids.all fun d => uses x a d == (uses s a d && !R.contains a)
  (allLive fun b => [Op.get .cloned (P b), .invalidate (P b), .purge (P b), .dynStateMut (P b) (· + 2)].all fun op =>
    let x := stepH Y D 40 ordA s op; let y := stepH Y D 40 ordB s op
    shA x.2 == shA y.2 && (ids.all fun a => art x.1 a == art y.1 a && dst x.1 a == dst y.1 a && known x.1 a == known y.1 a && ids.all fun d => uses x.1 a d == uses y.1 a d) && x.1.w == y.1.w)

def C44_silent_hooks (pur dbg : Bool) (s : S) (r : Nat) : Bool :=
  let Y := Y pur dbg
  let D := hookOf ([0, 3, 7, 2][r / 8 % 4]!) (r / 32)
  let sh : Op sig → S × Res (Ans sig) := fun op => stepH Y D 40 ordA s op
  let livebs : List Nat := bs.filter fun b => s.live (P b)
  let allLive : (Nat → Bool) → Bool := fun f => livebs.all f
  let hows : List Access := [.bin, .ref, .cloned]
  let depU := usesList s
  let user := "panic user"
  let calls : S → S → List Nat := fun s s' => (since s s').filterMap fun e => match e with | .call q => some q.id | _ => none
  let builts : S → S → List Nat := fun s s' => (since s s').filterMap fun e => match e with | .built q _ => some q.id | _ => none
  let cut : S → List Nat → Bool := fun x R => ids.all fun a => art x a == (if R.contains a then none else art s a) &&
    ids.all fun d => uses x a d == (uses s a d && !R.contains a)
  -- hooks that do nothing are no hooks
  let Q : Hooks sig := fun w _ => (w, false)
  allLive fun b => let p := P b
    [Op.get .bin p, .get .cloned p, .lookup .cloned p, .invalidate p, .purge p, .dynStateMut p (· + 2), .getMut p (· + 3), .clearAll, .gc].all fun op =>
      let x := stepH Y Q 40 ordA s op; let y := step Y 40 ordA s op; shA x.2 == shA y.2 && viewLog x.1 == viewLog y.1

def C72_changes_exact (pur dbg : Bool) (s : S) (r : Nat) : Bool :=
  let Y := Y pur dbg
  let D := hookOf ([0, 3, 7, 2][r / 8 % 4]!) (r / 32)
  let sh : Op sig → S × Res (Ans sig) := fun op => stepH Y D 40 ordA s op
  let livebs : List Nat := bs.filter fun b => s.live (P b)
  let allLive : (Nat → Bool) → Bool := fun f => livebs.all f
  let hows : List Access := [.bin, .ref, .cloned]
  let depU := usesList s
  let user := "panic user"
  let calls : S → S → List Nat := fun s s' => (since s s').filterMap fun e => match e with | .call q => some q.id | _ => none
  let builts : S → S → List Nat := fun s s' => (since s s').filterMap fun e => match e with | .built q _ => some q.id | _ => none
  let cut : S → List Nat → Bool := fun x R => ids.all fun a => art x a == (if R.contains a then none else art s a) &&
    ids.all fun d => uses x a d == (uses s a d && !R.contains a)
  let b1 := (r / 100) % 12; let b2 := (r / 1200) % 12
  let run : S → List (Op sig) → Option S := fun s l => l.foldl (fun s op => s.bind fun s => let x := stepH Y D 40 ordA s op; if goes x.2 then some x.1 else none) (some s)
  match run s [.dynStateMut (P b1) (· + 2), .invalidate (P b2)] with
  | some x => imp (s.live (P b1) && s.live (P b2)) (cut x (hit depU (P b1).id ++ hit depU (P b2).id))
  | none => true

def C72_rebuilds (pur dbg : Bool) (s : S) (r : Nat) : Bool :=
  let Y := Y pur dbg
  let D := hookOf ([0, 3, 7, 2][r / 8 % 4]!) (r / 32)
  let sh : Op sig → S × Res (Ans sig) := fun op => stepH Y D 40 ordA s op
  let livebs : List Nat := bs.filter fun b => s.live (P b)
  let allLive : (Nat → Bool) → Bool := fun f => livebs.all f
  let hows : List Access := [.bin, .ref, .cloned]
  let depU := usesList s
  let user := "panic user"
  let calls : S → S → List Nat := fun s s' => (since s s').filterMap fun e => match e with | .call q => some q.id | _ => none
  let builts : S → S → List Nat := fun s s' => (since s s').filterMap fun e => match e with | .built q _ => some q.id | _ => none
  let cut : S → List Nat → Bool := fun x R => ids.all fun a => art x a == (if R.contains a then none else art s a) &&
    ids.all fun d => uses x a d == (uses s a d && !R.contains a)
  let b1 := (r / 100) % 12; let b2 := (r / 1200) % 12
  let run : S → List (Op sig) → Option S := fun s l => l.foldl (fun s op => s.bind fun s => let x := stepH Y D 40 ordA s op; if goes x.2 then some x.1 else none) (some s)
  match run s [.purge (P b1), .invalidate (P b2)] with
  | some x =>
    let R := hit depU (P b1).id ++ hit depU (P b2).id
    livebs.all fun g => match run x [.get .ref (P g), .dynState (P b1), .get .bin (P 2)] with
      | none => true
      | some y => ((calls x y).all fun a => R.contains a || art s a == none) &&
        (ids.all fun a => imp ((art s a).isSome && !R.contains a) (art y a == art s a)) &&
        (ids.all fun a => imp (R.contains a) (art x a == none && imp (art y a).isSome ((calls x y).contains a && (builts x y).contains a))) &&
        imp pur (let l := builts x y; l.eraseDups.length == l.length)
  | none => true

def C72_only_needed (pur dbg : Bool) (s : S) (r : Nat) : Bool :=
  let Y := Y pur dbg
  let D := hookOf ([0, 3, 7, 2][r / 8 % 4]!) (r / 32)
  let sh : Op sig → S × Res (Ans sig) := fun op => stepH Y D 40 ordA s op
  let livebs : List Nat := bs.filter fun b => s.live (P b)
  let allLive : (Nat → Bool) → Bool := fun f => livebs.all f
  let hows : List Access := [.bin, .ref, .cloned]
  let depU := usesList s
  let user := "panic user"
  let calls : S → S → List Nat := fun s s' => (since s s').filterMap fun e => match e with | .call q => some q.id | _ => none
  let builts : S → S → List Nat := fun s s' => (since s s').filterMap fun e => match e with | .built q _ => some q.id | _ => none
  let cut : S → List Nat → Bool := fun x R => ids.all fun a => art x a == (if R.contains a then none else art s a) &&
    ids.all fun d => uses x a d == (uses s a d && !R.contains a)
  allLive fun b => let x := (sh (.get .ref (P b))).1; (calls s x ++ builts s x).all fun q => (hit (usesList x) q).contains (P b).id

def checks (pur dbg : Bool) (s : S) (r : Nat) : List (String × (Unit → Bool)) :=
  [("C01_hit_is_free", fun _ => C01_hit_is_free pur dbg s r),
   ("C02_get_memoizes", fun _ => C02_get_memoizes pur dbg s r),
   ("C02_get_memoizes_all", fun _ => C02_get_memoizes_all pur dbg s r),
   ("C03_err_only_uncached", fun _ => C03_err_only_uncached pur dbg s r),
   ("C03_err_not_cached", fun _ => C03_err_not_cached pur dbg s r),
   ("C03_retry", fun _ => C03_retry pur dbg s r),
   ("C04_artifacts_kept", fun _ => C04_artifacts_kept pur dbg s r),
   ("C05_invalidate_exact", fun _ => C05_invalidate_exact pur dbg s r),
   ("C05_invalidate_uses", fun _ => C05_invalidate_uses pur dbg s r),
   ("C06_invalidate_keeps", fun _ => C06_invalidate_keeps pur dbg s r),
   ("C07_unavoidable_use_on_record", fun _ => C07_unavoidable_use_on_record pur dbg s r),
   ("C07_unavoidable_invalidated", fun _ => C07_unavoidable_invalidated pur dbg s r),
   ("C09_order_irrelevant", fun _ => C09_order_irrelevant pur dbg s r),
   ("C09_order_irrelevant_history", fun _ => C09_order_irrelevant_history pur dbg s r),
   ("C10_invalidation_total", fun _ => C10_invalidation_total pur dbg s r),
   ("C11_dyn_state_mut", fun _ => C11_dyn_state_mut pur dbg s r),
   ("C12_state_persists", fun _ => C12_state_persists pur dbg s r),
   ("C13_purge", fun _ => C13_purge pur dbg s r),
   ("C14_clear_artifacts", fun _ => C14_clear_artifacts pur dbg s r),
   ("C15_clear_all", fun _ => C15_clear_all pur dbg s r),
   ("C15_clear_all_history", fun _ => C15_clear_all_history pur dbg s r),
   ("C16_unknown_means_nothing", fun _ => C16_unknown_means_nothing pur dbg s r),
   ("C16_known_means_state", fun _ => C16_known_means_state pur dbg s r),
   ("C16_cached_means_known", fun _ => C16_cached_means_known pur dbg s r),
   ("C17_number_of_known", fun _ => C17_number_of_known pur dbg s r),
   ("C17_is_known", fun _ => C17_is_known pur dbg s r),
   ("C18_lookups_pure", fun _ => C18_lookups_pure pur dbg s r),
   ("C19_gc_keeps_live", fun _ => C19_gc_keeps_live pur dbg s r),
   ("C20_gc_collects", fun _ => C20_gc_collects pur dbg s r),
   ("C20_gc_chain", fun _ => C20_gc_chain pur dbg s r),
   ("C20_cycles_stay", fun _ => C20_cycles_stay pur dbg s r),
   ("C21_gc_panics_after_purge", fun _ => C21_gc_panics_after_purge pur dbg s r),
   ("C21_gc_panics_iff_partial", fun _ => C21_gc_panics_iff_partial pur dbg s r),
   ("C22_mut_panics_iff", fun _ => C22_mut_panics_iff pur dbg s r),
   ("C22_lookup_mut_partial", fun _ => C22_lookup_mut_partial pur dbg s r),
   ("C22_get_mut_partial", fun _ => C22_get_mut_partial pur dbg s r),
   ("C22_clearing_recovers", fun _ => C22_clearing_recovers pur dbg s r),
   ("C23_no_bad_cast", fun _ => C23_no_bad_cast pur dbg s r),
   ("C23_types", fun _ => C23_types pur dbg s r),
   ("C24_artifact_is_own", fun _ => C24_artifact_is_own pur dbg s r),
   ("C24_state_is_own", fun _ => C24_state_is_own pur dbg s r),
   ("C25_panics", fun _ => C25_panics pur dbg s r),
   ("C26_more_stack", fun _ => C26_more_stack pur dbg s r),
   ("C27_call_only_uncached", fun _ => C27_call_only_uncached pur dbg s r),
   ("C27_call_needs_invalidation", fun _ => C27_call_needs_invalidation pur dbg s r),
   ("C28_get_is_from_scratch", fun _ => C28_get_is_from_scratch pur dbg s r),
   ("C28_lookup_is_from_scratch", fun _ => C28_lookup_is_from_scratch pur dbg s r),
   ("C28_clear_artifacts_transparent", fun _ => C28_clear_artifacts_transparent pur dbg s r),
   ("C30_panic_get", fun _ => C30_panic_get pur dbg s r),
   ("C31_variants_agree", fun _ => C31_variants_agree pur dbg s r),
   ("C32_cycle_never_returns", fun _ => C32_cycle_never_returns pur dbg s r),
   ("C39_init_only_without_state", fun _ => C39_init_only_without_state pur dbg s r),
   ("C39_init_once", fun _ => C39_init_once pur dbg s r),
   ("C40_log_determines_cache", fun _ => C40_log_determines_cache pur dbg s r),
   ("C40_get_reports", fun _ => C40_get_reports pur dbg s r),
   ("C40_other_reports", fun _ => C40_other_reports pur dbg s r),
   ("C44_doctor_no_influence", fun _ => C44_doctor_no_influence pur dbg s r),
   ("C46_gc_same_answers", fun _ => C46_gc_same_answers pur dbg s r),
   ("C47_invalidations_commute", fun _ => C47_invalidations_commute pur dbg s r),
   ("C47_only_the_sets_matter", fun _ => C47_only_the_sets_matter pur dbg s r),
   ("C49_infallible", fun _ => C49_infallible pur dbg s r),
   ("C01_any_hooks", fun _ => C01_any_hooks pur dbg s r),
   ("C02_any_hooks", fun _ => C02_any_hooks pur dbg s r),
   ("C03_any_hooks", fun _ => C03_any_hooks pur dbg s r),
   ("C04_any_hooks", fun _ => C04_any_hooks pur dbg s r),
   ("C05_any_hooks", fun _ => C05_any_hooks pur dbg s r),
   ("C13_any_hooks", fun _ => C13_any_hooks pur dbg s r),
   ("C11_any_hooks", fun _ => C11_any_hooks pur dbg s r),
   ("C15_any_hooks", fun _ => C15_any_hooks pur dbg s r),
   ("C18_any_hooks", fun _ => C18_any_hooks pur dbg s r),
   ("C22_any_hooks", fun _ => C22_any_hooks pur dbg s r),
   ("C26_any_hooks", fun _ => C26_any_hooks pur dbg s r),
   ("C32_any_hooks", fun _ => C32_any_hooks pur dbg s r),
   ("C49_any_hooks", fun _ => C49_any_hooks pur dbg s r),
   ("C59_panics", fun _ => C59_panics pur dbg s r),
   ("C09_any_hooks", fun _ => C09_any_hooks pur dbg s r),
   ("C44_silent_hooks", fun _ => C44_silent_hooks pur dbg s r),
   ("C72_changes_exact", fun _ => C72_changes_exact pur dbg s r),
   ("C72_rebuilds", fun _ => C72_rebuilds pur dbg s r),
   ("C72_only_needed", fun _ => C72_only_needed pur dbg s r)]

def start : S := (play (Y true true) ((List.range 12).map fun b => (9, ordA, Op.alloc (P b))) (St.new (0 : Nat))).1

partial def go (calm pur dbg hooked : Bool) (maxLog : Nat) : Nat → Nat → S → List String → List String
  | 0, _, _, bad => bad
  | n + 1, r, s, bad =>
    let r1 := lcg r; let r2 := lcg r1
    let x := if hooked then stepH (Y pur dbg) ((if pur then hookOf else hookU) (2 + r1 / 64 % 9) (r1 / 8 % 7)) 40 ordA s (ops pur (rnd r1) (rnd r2) calm)
      else step (Y pur dbg) 40 ordA s (ops pur (rnd r1) (rnd r2) calm)
    let s' := if goes x.2 then x.1 else s
    let s' := if s'.c.log.length > maxLog then { start with w := s.w } else s'
    let new := (checks pur dbg s' r2).filter (fun c => !bad.contains c.1 && !(c.2 ())) |>.map (·.1)
    go calm pur dbg hooked maxLog n r2 s' (bad ++ new)

def main : IO Unit := do
  let mut bad : List String := []
  for seed in [1, 2, 3, 4, 5, 6] do
    bad := go false false (seed % 3 != 0) false 70 40 (seed * 7919) start bad
  for seed in [7, 8, 9] do
    bad := go false true true false 70 40 (seed * 7919) start bad
  for seed in [10, 11, 12, 13] do
    bad := go true false (seed % 2 == 0) false 90 50 (seed * 7919) start bad
  for seed in [14, 15, 16] do
    bad := go false false (seed % 2 != 0) true 70 40 (seed * 7919) start bad
  for seed in [17, 18] do
    bad := go false true true true 70 40 (seed * 7919) start bad
  IO.println s!"REFUTED {" ".intercalate bad}"
end Falsify
def main : IO Unit := Falsify.main
