import Verif.Model.CacheGrammar
import Verif.Spec.PegTicks

/-!
# Caches and a clock

The store of a grammar with caches (`Model/CacheGrammar`) together with a clock, which stands in front. Finding a stored result
is one step; what is not found is run.
-/

namespace OniComb.Stateful.Ticking
open OniComb
variable {I A S X : Type}

/-- A parser without parts, with the steps that it takes. -/
def tick (k : Nat) (p : Parser I A) : SParser (Nat × S) I A := fun s σ r σ' => r = p s ∧ σ' = (σ.1 + k, σ.2)

/-- `opt`, extension/parsers/operator_parsers.rs:14-18. -/
def opt (p : SParser (Nat × S) I A) : SParser (Nat × S) I (Option A) :=
  Stateful.or (Stateful.unary (fun p => map p some) (Stateful.unary attempt p)) (tick 1 (successful none))

/-- A grammar without caches. -/
def bare (p : SParser Nat I A) : SParser (Nat × Unit) I A := fun s σ r σ' => p s σ.1 r σ'.1

/-- `cache`, cache_parsers_impl.rs:13-38, as in `Model/CacheGrammar`. -/
def cache (p : SParser (Nat × S) I A) : SParser (Nat × CacheMap I A × S) I A := fun s σ r σ' =>
  ∃ addr : Nat,
    match σ.2.1.find (addr, s.lastOffset) with
    | some r0 => r = r0 ∧ σ' = (σ.1 + 1, σ.2)
    | none => ∃ k σ1, p s (σ.1, σ.2.2) r (k, σ1) ∧
      σ' = (k, match r with
        | .panic => (σ.2.1, σ1)
        | .diverge => (σ.2.1, σ1)
        | r => (((addr, s.lastOffset), r) :: σ.2.1, σ1))

/-- The first of two grammars with their own caches. -/
def left (p : SParser (Nat × S) I A) : SParser (Nat × S × X) I A := fun s σ r σ' =>
  p s (σ.1, σ.2.1) r (σ'.1, σ'.2.1) ∧ σ'.2.2 = σ.2.2

/-- The second of two grammars with their own caches. -/
def right (p : SParser (Nat × S) I A) : SParser (Nat × X × S) I A := fun s σ r σ' =>
  p s (σ.1, σ.2.2) r (σ'.1, σ'.2.2) ∧ σ'.2.1 = σ.2.1

/-- `|` between grammars with their own caches. -/
def either (p : SParser (Nat × S) I A) (q : SParser (Nat × X) I A) : SParser (Nat × S × X) I A :=
  Stateful.or (left p) (right q)

/-- A parser that is built anew for every run, with its newest cache, as in `Model/CacheGrammar`. -/
def fresh {B : Type} (p : SParser (Nat × CacheMap I B × S) I A) : SParser (Nat × S) I A := fun s σ r σ' =>
  ∃ m, p s (σ.1, [], σ.2) r (σ'.1, m, σ'.2)

/-- A grammar whose caches are new. -/
def built [New S] (p : SParser (Nat × S) I A) : SParser Nat I A := fun s k r k' => ∃ σ, p s (k, New.new) r (k', σ)

end OniComb.Stateful.Ticking
