import Verif.Model.HoconParse

/-!
# The `hocon` crate: lookup, resolution, durations, loading

Models `has_path`, `get_value` and `resolve` of `/repo/hocon/src/model/config_value.rs`, the conversions of
`/repo/hocon/src/model/config_duration_value.rs` and `ConfigFactory` of `/repo/hocon/src/model.rs`.
-/

namespace OniComb.Hocon
open OniComb
open OniComb.Uri (Bytes byte bytes)

/-- Outcome of a call: it returns, it panics, or it does not return. -/
inductive Out (A : Type) where
  | ok (a : A)
  | panic
  | diverge
deriving DecidableEq, Repr

/-- Sequencing: a panic or a call that does not return ends the caller, too. -/
def Out.bind {A B : Type} (o : Out A) (f : A → Out B) : Out B :=
  match o with
  | .ok a => f a
  | .panic => .panic
  | .diverge => .diverge

/-- `key().parse(path).to_result().expect("Illegal path format.")`, config_value.rs:295, 313. -/
def checkPath (p : Bytes) : Out Unit :=
  match parse key p with
  | .ok _ => .ok ()
  | .err _ => .panic
  | .panic => .panic
  | .diverge => .diverge

/-- `get_value`, config_value.rs:312-329. The first argument bounds the recursion; `getValue` below
supplies enough of it, because every call has a shorter path. -/
def getValueN : Nat → Value → Bytes → Out (Option Value)
  | 0, _, _ => .diverge
  | n + 1, self, p =>
    (checkPath p).bind fun _ =>
      match splitDot p with
      | [] => .panic
      | k :: ks =>
        match self with
        | .obj es =>
          match get k es with
          | some cv =>
            if 0 < ks.length then getValueN n (latest cv) (p.drop (k.length + 1))
            else .ok (some (latest cv))
          | none => .ok none
        | _ => .ok none

/-- `get_value`, config_value.rs:312-329. -/
def getValue (self : Value) (p : Bytes) : Out (Option Value) := getValueN (p.length + 1) self p

/-- `has_path`, config_value.rs:294-310, with the recursion bounded as for `getValueN`. -/
def hasPathN : Nat → Value → Bytes → Out Bool
  | 0, _, _ => .diverge
  | n + 1, self, p =>
    (checkPath p).bind fun _ =>
      match splitDot p with
      | [] => .panic
      | k :: ks =>
        match self with
        | .obj es =>
          match get k es with
          | some cv => if 0 < ks.length then hasPathN n (latest cv) (p.drop (k.length + 1)) else .ok true
          | none => .ok false
        | _ => .ok false

/-- `has_path`, config_value.rs:294-310. -/
def hasPath (self : Value) (p : Bytes) : Out Bool := hasPathN (p.length + 1) self p

/-- The environment of a run: `std::env::var(name).ok()` and the effect of
`ConfigFactory::new().load_from_file(name).unwrap()` followed by `to_config_value` (config_value.rs:96-100). -/
structure Env where
  var : Bytes → Option Bytes
  load : Bytes → Out Value

/-- The nested objects made of a dotted key, config_value.rs:130-142: the first segment and the value to
be put under it. -/
def nestKey (key : Bytes) (mcv : Value) : Bytes × Value :=
  match (splitDot key).reverse with
  | [] => ([], mcv)
  | k0 :: ks => ((k0 :: ks).getLastD [],
      ks.dropLast.foldl (fun o k => .obj [(k, o)]) (.obj [(k0, mcv)]))

mutual
/-- `resolve(None)`, config_value.rs:95-101 and 126-156. -/
def expand (env : Env) (v : Value) : Out Value :=
  match v with
  | .incl _ fileName => env.load fileName
  | .obj es =>
    (expandEntries env es []).bind fun new => .ok (if new.isEmpty then .obj es else .obj new)
  | v => .ok v

/-- The loop of `resolve(None)` over the entries, config_value.rs:128-152. -/
def expandEntries (env : Env) (es : List (Bytes × Value)) (new : Entries) : Out Entries :=
  match es with
  | [] => .ok new
  | e :: es => (expandEntry env e new).bind fun new => expandEntries env es new

/-- One turn of that loop. -/
def expandEntry (env : Env) (e : Bytes × Value) (new : Entries) : Out Entries :=
  match e with
  | (k, v) =>
    if byte '.' ∈ k then
      (expand env v).bind fun mcv =>
        let (first, o) := nestKey k mcv
        match get first new with
        | none => .ok (insertNew first o new)
        | some entry => .ok (set first (merge o entry) new)
    else .ok new
end

/-- Resolves the elements of a `Vec` or the values of a map in turn. -/
def mapOut {A B : Type} (f : A → Out B) : List A → Out (List B)
  | [] => .ok []
  | a :: as => (f a).bind fun b => (mapOut f as).bind fun bs => .ok (b :: bs)

/-- `head.push(ee)` for the resolved later values of a link, config_value.rs:107-111. -/
def pushAll (f : Value → Out Value) : Value → List Value → Out Value
  | head, [] => .ok head
  | head, e :: es => (f e).bind fun ee => pushAll f (push head ee) es

/-- `resolve(Some(source))`, config_value.rs:92-218; the number bounds the recursion depth. -/
def resolve (env : Env) (source : Value) : Nat → Value → Out Value
  | 0, _ => .diverge
  | n + 1, v =>
    match v with
    | .incl _ fileName => env.load fileName
    | .link p v =>
      match toVec (.link p v) with
      | [] => .ok (.link p v)
      | c :: cs => (resolve env source n c).bind fun head => pushAll (resolve env source n) head cs
    | .arr vs => (mapOut (resolve env source n) vs).bind fun vs => .ok (.arr vs)
    | .obj es =>
      (mapOut (fun e => (resolve env source n e.2).bind fun v => .ok (e.1, v)) es).bind fun es => .ok (.obj es)
    | .enumeration prev vs =>
      (mapOut (resolve env source n) vs).bind fun vs =>
        let result := vs.flatMap fun v => match v with
          | .str s => s
          | _ => []
        if result.isEmpty then
          match prev with
          | some p => .ok (prevLatest p)
          | none => .panic
        else .ok (.str result)
    | .ref prev path missing =>
      (getValue source path).bind fun found =>
        match found.or ((env.var path).map .str) with
        | some v => resolve env source n v
        | none =>
          if missing then
            match prev with
            | some p => .ok (prevLatest p)
            | none => .panic
          else .panic
    | v => .ok v

/-! ## Durations -/

/-- `Decimal::trunc` as an integer. -/
def Decimal.trunc (d : Decimal) : Int := d.mantissa.tdiv (10 ^ d.scale)

/-- `Decimal::to_u64`: truncates; negative or too large numbers give `None`. -/
def Decimal.toU64 (d : Decimal) : Option Nat :=
  if 0 ≤ d.mantissa ∧ d.trunc < 2 ^ 64 then some d.trunc.toNat else none

/-- `Decimal::to_i64`: truncates. -/
def Decimal.toI64 (d : Decimal) : Option Int :=
  if -2 ^ 63 ≤ d.trunc ∧ d.trunc < 2 ^ 63 then some d.trunc else none

/-- Result of a conversion: a number of nanoseconds, an `Err`, or a panic. -/
inductive Conv where
  | ok (ns : Int)
  | err
  | panic
deriving DecidableEq, Repr

/-- `u64` multiplication: panics on overflow in a build with overflow checks and wraps otherwise. -/
def mulU64 (overflowChecks : Bool) (a b : Nat) : Option Nat :=
  if a * b < 2 ^ 64 then some (a * b) else if overflowChecks then none else some (a * b % 2 ^ 64)

/-- `Duration::from_secs` of a product that may have panicked. -/
def fromSecs : Option Nat → Conv
  | some s => .ok (s * 1000000000)
  | none => .panic

/-- `to_std_duration`, config_duration_value.rs:39-53. -/
def toStdDuration (overflowChecks : Bool) (d : Decimal) (u : TimeUnit) : Conv :=
  match d.toU64 with
  | none => .err
  | some v =>
    match u with
    | .nanoseconds => .ok v
    | .microseconds => .ok (v * 1000)
    | .milliseconds => .ok (v * 1000000)
    | .seconds => fromSecs (some v)
    | .minutes => fromSecs (mulU64 overflowChecks v 60)
    | .hours => fromSecs ((mulU64 overflowChecks v 60).bind fun x => mulU64 overflowChecks x 60)
    | .days => fromSecs (((mulU64 overflowChecks v 60).bind fun x => mulU64 overflowChecks x 60).bind
        fun x => mulU64 overflowChecks x 24)

/-- The constructors of `chrono::Duration`: panic when the result is not within ±(2^63-1) milliseconds. -/
def chronoDuration (ns : Int) : Conv :=
  if -((2 ^ 63 - 1) * 1000000) ≤ ns ∧ ns ≤ (2 ^ 63 - 1) * 1000000 then .ok ns else .panic

/-- `to_duration`, config_duration_value.rs:55-69. -/
def toDuration (d : Decimal) (u : TimeUnit) : Conv :=
  match d.toI64 with
  | none => .err
  | some v =>
    match u with
    | .nanoseconds => chronoDuration v
    | .microseconds => chronoDuration (v * 1000)
    | .milliseconds => chronoDuration (v * 1000000)
    | .seconds => chronoDuration (v * 1000000000)
    | .minutes => chronoDuration (v * 60000000000)
    | .hours => chronoDuration (v * 3600000000000)
    | .days => chronoDuration (v * 86400000000000)

/-- `From<std::time::Duration>`, config_duration_value.rs:20-25, for a duration of `ns` nanoseconds;
`Decimal::from(u128)` panics from `2^96` on (`none`). -/
def durationFromStd (ns : Nat) : Option (Decimal × TimeUnit) :=
  if ns < 2 ^ 96 then some (⟨ns, 0⟩, .nanoseconds) else none

/-- `From<chrono::Duration>`, config_duration_value.rs:27-32; `num_nanoseconds` gives `None` outside of
`i64` and is unwrapped. -/
def durationFromChrono (ns : Int) : Option (Decimal × TimeUnit) :=
  if -2 ^ 63 ≤ ns ∧ ns < 2 ^ 63 then some (⟨ns, 0⟩, .nanoseconds) else none

/-! ## Loading -/

/-- The rest of `resolve_stage0` after the first value, model.rs:100-104. -/
def mergeAll (env : Env) : Value → List Value → Out Value
  | cur, [] => .ok cur
  | cur, cv :: cvs => (expand env cv).bind fun t => mergeAll env (merge t cur) cvs

/-- `resolve_stage0`, model.rs:97-106; `config_values[0]` panics on an empty vector. -/
def resolveStage0 (env : Env) : List Value → Out Value
  | [] => .panic
  | v :: vs => (expand env v).bind fun cur => mergeAll env cur vs

/-- `resolve_stage1`, model.rs:91-95. -/
def resolveStage1 (env : Env) (fuel : Nat) (v : Value) : Out Value := resolve env v fuel v

/-- `parse_from_string`, model.rs:77-89; `none` is `Err`.  `fuel` bounds the unrolling of the grammar and
the depth of the resolution.  The message of the error shows `pe.input_string()` (model.rs:86), for which
`inputExcerpt` gives no text if the slice panics. -/
def parseFromString (S : Std) (env : Env) (fuel : Nat) (t : Bytes) : Out (Option Value) :=
  match parse (hocon S fuel) t with
  | .ok vs => ((resolveStage0 env vs).bind (resolveStage1 env fuel)).bind fun v => .ok (some v)
  | .err e =>
    match e.inputExcerpt with
    | some _ => .ok none
    | none => .panic
  | .panic => .panic
  | .diverge => .diverge

/-- The file system and the variables seen by a run: the contents of the readable UTF-8 files. -/
structure World where
  file : Bytes → Option Bytes
  var : Bytes → Option Bytes

/-- `load_from_file(name)`, model.rs:71-75 (a file that cannot be read is the empty text); the number
bounds the nesting of includes, and the depth of grammar and resolution. -/
def loadFromFile (S : Std) (w : World) : Nat → Bytes → Out (Option Value)
  | 0, _ => .diverge
  | n + 1, name =>
    let env : Env := ⟨w.var, fun f => (loadFromFile S w n f).bind fun r => match r with
      | some v => .ok v
      | none => .panic⟩
    parseFromString S env (n + 1) ((w.file name).getD [])

/-- The environment of the includes of a document. -/
def World.env (S : Std) (w : World) (n : Nat) : Env :=
  ⟨w.var, fun f => (loadFromFile S w n f).bind fun r => match r with
    | some v => .ok v
    | none => .panic⟩

/-- `ConfigFactory::new().parse_from_string(text)` in a world. -/
def parseDocument (S : Std) (w : World) (n : Nat) (t : Bytes) : Out (Option Value) :=
  parseFromString S (w.env S n) n t

end OniComb.Hocon
