import Verif.Model

/-!
# The builders of `src/utils.rs`

Each `build` method as builder code, and a predicate saying that the builder of a promise is such a
builder.
-/

open Std

namespace Daab

variable {σ : Sig}

/-- `src/utils.rs` 622-646 `ForwardingBuilder::build`: `resolver.resolve(&self.inner)`. -/
def forwardingCode (q : Promise σ) : Prog σ := .resolve .bin q fun r => .ret r

/-- `src/utils.rs` 682-706 `FeigningBuilder::build`:
`resolver.resolve(&self.inner).map_err(|n| n.into_any())`.  Simplification: errors are all of one type
here; `into_any` of `Never` is never called. -/
def feigningCode (q : Promise σ) : Prog σ :=
  .resolve .bin q fun r => .ret (match r with | .ok v => .ok v | .error n => .error n)

/-- `src/utils.rs` 553-578 `ClonedBuilder::build`:
`resolver.resolve_cloned(&self.inner).map(ArtCan::into_bin)`. -/
def clonedCode (intoBin : σ.V → σ.V) (q : Promise σ) : Prog σ :=
  .resolve .cloned q fun r => .ret (match r with | .ok v => .ok (intoBin v) | .error e => .error e)

/-- `src/utils.rs` 103-114 `RedeemingBuilder::build`, what follows `let value = resolver.resolve(..)`.
`enc`/`dec` store an `Option<ArtCan::Bin>` as dynamic state. -/
def redeemingRest (enc : Option σ.V → σ.S) (dec : σ.S → Option σ.V) : Except σ.E σ.V → Prog σ
  | .ok v => .myState (fun _ => enc (some v)) fun _ => .ret (.ok v)
  | .error _ => .myState id fun d =>
    match dec d with
    | some v => .ret (.ok v)
    | none => .panic

/-- `src/utils.rs` 98-115 `RedeemingBuilder::build`. -/
def redeemingCode (enc : Option σ.V → σ.S) (dec : σ.S → Option σ.V) (q : Promise σ) : Prog σ :=
  .resolve .bin q (redeemingRest enc dec)

/-- `src/utils.rs` 390-410 `ConstBuilder::build`: `Ok(self.inner.clone())`. -/
def constCode (v : σ.V) : Prog σ := .ret (.ok v)

/-- `src/utils.rs` 487-507 `ConfigurableBuilder::build`:
`Ok(ArtCan::into_bin(resolver.my_state().clone()))`. -/
def configurableCode (intoBin : σ.S → σ.V) : Prog σ := .myState id fun d => .ret (.ok (intoBin d))

/-- The closure of a `FunctionalBuilder` (`src/utils.rs` 283-310), `Fn(&mut S) -> Result<Bin, E>`: from
the state and the outside world to the new world, the new state, and the result (`none`: it
panics). -/
abbrev Closure (σ : Sig) := σ.S → σ.W → σ.W × σ.S × Option (Except σ.E σ.V)

/-- `src/utils.rs` 297-305 `FunctionalBuilder::build`: call the closure with `my_state()`. -/
def functionalCode (f : Closure σ) : Prog σ :=
  .myState id fun d => .world (fun w => (f d w).1) fun w => .myState (fun _ => (f d w).2.1) fun _ =>
    match (f d w).2.2 with
    | some r => .ret r
    | none => .panic

/-- `init_dyn_state` of the builder of `p` returns (a clone of) `d`, of the right type, and does
nothing else. -/
def StartsWith (Y : Sys σ) (p : Promise σ) (d : σ.S) : Prop :=
  Y.stTy d = Y.sty p.b ∧ ∀ w, Y.init p.b w = (w, some d)

/-- `p` is a `ForwardingBuilder` of `q`. -/
structure Forwarding (Y : Sys σ) (p q : Promise σ) : Prop where
  code : Y.code p.b = forwardingCode q
  ty : Y.vty p.b = Y.vty q.b
  init : ∃ d, StartsWith Y p d

/-- `p` is a `FeigningBuilder` of `q`. -/
structure Feigning (Y : Sys σ) (p q : Promise σ) : Prop where
  code : Y.code p.b = feigningCode q
  ty : Y.vty p.b = Y.vty q.b
  init : ∃ d, StartsWith Y p d

/-- `p` is a `ClonedBuilder` of `q`. -/
structure Cloning (Y : Sys σ) (intoBin : σ.V → σ.V) (p q : Promise σ) : Prop where
  code : Y.code p.b = clonedCode intoBin q
  ty : ∀ v, Y.artTy v = Y.vty q.b → Y.artTy (intoBin (Y.clone v)) = Y.vty p.b
  init : ∃ d, StartsWith Y p d

/-- `p` is a `RedeemingBuilder` of `q` with the default value `dflt`. -/
structure Redeeming (Y : Sys σ) (enc : Option σ.V → σ.S) (dec : σ.S → Option σ.V) (dflt : Option σ.V)
    (p q : Promise σ) : Prop where
  code : Y.code p.b = redeemingCode enc dec q
  ty : Y.vty p.b = Y.vty q.b
  dfltTy : ∀ v, dflt = some v → Y.artTy v = Y.vty p.b
  decEnc : ∀ o, dec (enc o) = o
  encTy : ∀ o, Y.stTy (enc o) = Y.sty p.b
  init : StartsWith Y p (enc dflt)

/-- `p` is a `ConstBuilder` of `v`. -/
structure Constant (Y : Sys σ) (v : σ.V) (p : Promise σ) : Prop where
  code : Y.code p.b = constCode v
  ty : Y.artTy v = Y.vty p.b
  init : ∃ d, StartsWith Y p d

/-- `p` is a `ConfigurableBuilder` with the initial value `d`. -/
structure Configurable (Y : Sys σ) (intoBin : σ.S → σ.V) (d : σ.S) (p : Promise σ) : Prop where
  code : Y.code p.b = configurableCode intoBin
  ty : ∀ d, Y.stTy d = Y.sty p.b → Y.artTy (intoBin d) = Y.vty p.b
  init : StartsWith Y p d

/-- `p` is a `FunctionalBuilder` with the closure `f` and the initial state `d`. -/
structure Functional (Y : Sys σ) (f : Closure σ) (d : σ.S) (p : Promise σ) : Prop where
  code : Y.code p.b = functionalCode f
  tyS : ∀ d w, Y.stTy d = Y.sty p.b → Y.stTy (f d w).2.1 = Y.sty p.b
  tyV : ∀ d w v, (f d w).2.2 = some (.ok v) → Y.artTy v = Y.vty p.b
  init : StartsWith Y p d

end Daab
