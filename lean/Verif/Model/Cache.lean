import Verif.Model.Combinators
import Verif.Model.Elements

/-!
# `cache`

Models `/repo/parser/src/internal/parsers_impl/cache_parsers_impl.rs`.  The cached parser is the only
stateful parser of the library, so it is modelled as a machine that answers a history of calls.
-/

namespace OniComb
variable {I A : Type}

/-- One call of the cached parser: the state, and the address the state has in memory
(cache_parsers_impl.rs:22, `parser_state as *const _ as usize`).  Addresses are arbitrary numbers: the
states live on the stack of the caller, so later calls may reuse an address. -/
structure CacheCall (I : Type) where
  state : State I
  addr : Nat
deriving DecidableEq, Repr

/-- The key, cache_parsers_impl.rs:21-25.  The third component, the address of the captured closure, is
the same for all calls of one cached parser and left out. -/
def CacheCall.key (c : CacheCall I) : Nat × Nat := (c.addr, c.state.lastOffset)

/-- The hash map: association list, a key occurs at most once. -/
abbrev CacheMap (I A : Type) := List ((Nat × Nat) × Res I A)

/-- Lookup in the map. -/
def CacheMap.find (m : CacheMap I A) (k : Nat × Nat) : Option (Res I A) :=
  match m with
  | [] => none
  | (k', r) :: m => if k' = k then some r else CacheMap.find m k

/-- One call, cache_parsers_impl.rs:19-35: `entry(key).or_insert_with(..).clone()`.  A panic of the
wrapped parser unwinds before anything is inserted. -/
def cacheStep (p : Parser I A) (m : CacheMap I A) (c : CacheCall I) : CacheMap I A × Res I A :=
  match m.find c.key with
  | some r => (m, r)
  | none =>
    match p c.state with
    | .panic => (m, .panic)
    | .diverge => (m, .diverge)
    | r => ((c.key, r) :: m, r)

/-- The answers of the cached parser to a history of calls, from a given map. -/
def cacheRun (p : Parser I A) : CacheMap I A → List (CacheCall I) → List (Res I A)
  | _, [] => []
  | m, c :: cs => (cacheStep p m c).2 :: cacheRun p (cacheStep p m c).1 cs

/-- The answers of a freshly built `p.cache()` to a history of calls. -/
def cached (p : Parser I A) (calls : List (CacheCall I)) : List (Res I A) := cacheRun p [] calls

/-- The map after a history of calls. -/
def cacheAfter (p : Parser I A) : CacheMap I A → List (CacheCall I) → CacheMap I A
  | m, [] => m
  | m, c :: cs => cacheAfter p (cacheStep p m c).1 cs

/-- The calls of a history in which the wrapped parser is run: `or_insert_with` runs it exactly if the map has no entry,
cache_parsers_impl.rs:28-31. -/
def cacheRuns (p : Parser I A) : CacheMap I A → List (CacheCall I) → List (CacheCall I)
  | _, [] => []
  | m, c :: cs => (if (m.find c.key).isNone then [c] else []) ++ cacheRuns p (cacheStep p m c).1 cs

/-- A cached recursive grammar `p = F(lazy(|| p)).cache()` with one shared cache, first call (empty
map): cache_parsers_impl.rs:28-31 runs the wrapped parser while the `RefCell` is mutably borrowed, so
the nested call panics in `borrow_mut`. -/
def cachedRecursive (F : Parser I A → Parser I A) : Parser I A := F (fun _ => .panic)

end OniComb
