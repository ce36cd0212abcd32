import Verif.Model.Cache
import Verif.Model.Repeat
import Verif.Model.Chain

/-!
# Grammars with `cache` in them

`Cache.lean` models one cached parser that answers a history of calls.  Here whole grammars with cached parsers in
them are modelled, so that the calls are those which the combinators make.  A parser with caches changes a store.
The addresses of the states that are passed around, which are part of the keys, are left open, so that a parser is a
relation: every choice of addresses is one of its runs.

Simplified: a cached parser cannot be used inside itself (see `cachedRecursive` in `Cache.lean` for what happens
then), and loops end after the number of turns that suffices without caches.
-/

namespace OniComb.Stateful
variable {I A B S X Y : Type}

/-- A computation that may change the store: store before, result, store after. -/
abbrev Comp (S X : Type) := S → X → S → Prop

/-- Only a result. -/
def Comp.pure (x : X) : Comp S X := fun σ y σ' => y = x ∧ σ' = σ

/-- One after the other. -/
def Comp.bind (m : Comp S X) (k : X → Comp S Y) : Comp S Y := fun σ y σ' => ∃ x σ1, m σ x σ1 ∧ k x σ1 y σ'

/-- `Parser` (core/parser.rs:10-20) with interior mutability. -/
abbrev SParser (S I A : Type) := State I → Comp S (Res I A)

/-- A parser without caches. -/
def ofParser (p : Parser I A) : SParser S I A := fun s => .pure (p s)

/-- A combinator with one argument that it runs once, on its own state: `map`, `filter`, `map_res`, `attempt`,
`peek`, `collect`, … (`Combinators.lean`). -/
def unary (C : Parser I A → Parser I B) (p : SParser S I A) : SParser S I B := fun s =>
  .bind (p s) fun r => .pure (C (fun _ => r) s)

/-- `or`, operator_parsers_impl.rs:39-51. -/
def or (p q : SParser S I A) : SParser S I A := fun s =>
  .bind (p s) fun r => match r with
    | .failure _ .uncommitted => q s
    | r => .pure r

/-- `flat_map`, parsers_impl.rs:90-106. -/
def flatMap (p : SParser S I A) (f : A → SParser S I B) : SParser S I B := fun s =>
  .bind (p s) fun r => match r with
    | .success v n => .bind (f v (s.advanceBy n)) fun r' => .pure ((r'.addCommit (n != 0)).advanceSuccess n)
    | .failure e c => .pure (.failure e c)
    | .panic => .pure .panic
    | .diverge => .pure .diverge

/-- `and_then`, operator_parsers_impl.rs:54-76; `skip_left` and `skip_right`, skip_parser_impl.rs:21-69, make the same
calls. -/
def andThen (p : SParser S I A) (q : SParser S I B) : SParser S I (A × B) := fun s =>
  .bind (p s) fun r => match r with
    | .success v n => .bind (q (s.advanceBy n)) fun r' => .pure (match r' with
      | .success w m => .success (v, w) (n + m)
      | .failure e c => .failure e c
      | .panic => .panic
      | .diverge => .diverge)
    | .failure e c => .pure (.failure e c)
    | .panic => .pure .panic
    | .diverge => .pure .diverge

/-- `skip_left`, skip_parser_impl.rs:21-43. -/
def skipLeft (p : SParser S I A) (q : SParser S I B) : SParser S I B := unary (fun r => map r Prod.snd) (andThen p q)

/-- `skip_right`, skip_parser_impl.rs:46-69. -/
def skipRight (p : SParser S I A) (q : SParser S I B) : SParser S I A := unary (fun r => map r Prod.fst) (andThen p q)

/-- `surround`, skip_parser_impl.rs:71-81. -/
def surround {C : Type} (l : SParser S I A) (p : SParser S I B) (r : SParser S I C) : SParser S I B :=
  skipLeft l (skipRight p r)

/-- One item, repeat_parsers_impl.rs:104-110. -/
def repItem (p : SParser S I A) (st : LoopState I A) : Comp S (Turn I A) :=
  .bind (p st.cur) fun r => .pure (OniComb.repItem (fun _ => r) st)

/-- One turn, repeat_parsers_impl.rs:81-111. -/
def repTurn (p : SParser S I A) (sep : Option (SParser S I B)) (stop : Bound) (st : LoopState I A) :
    Comp S (Turn I A) :=
  if boundReached stop st.items.length then .pure (.exit st.items st.length)
  else
    match sep with
    | none => repItem p st
    | some q => .bind (q st.cur) fun r => match r with
      | .success _ n => repItem p ⟨st.cur.advanceBy n, st.items, st.length + n⟩
      | .failure _ _ => .pure (.exit st.items st.length)
      | .panic => .pure .panic
      | .diverge => .pure .diverge

/-- The loop. -/
def repLoop (p : SParser S I A) (sep : Option (SParser S I B)) (stop : Bound) :
    Nat → LoopState I A → Comp S (LoopOut A)
  | 0, _ => .pure .diverge
  | k + 1, st => .bind (repTurn p sep stop st) fun r => match r with
    | .again st' => repLoop p sep stop k st'
    | .exit items n => .pure (.exit items n)
    | .panic => .pure .panic
    | .diverge => .pure .diverge

/-- `repeat_sep`, repeat_parsers_impl.rs:60-132; `many0`, `many1`, `count`, … are instances (`Repeat.lean`). -/
def repeatSep (p : SParser S I A) (range : Range) (sep : Option (SParser S I B)) : SParser S I (List A) := fun s =>
  .bind (p s) fun r => match r with
    | .success v n =>
      .bind (repLoop p sep range.stop (repFuel range.stop s) ⟨s.advanceBy n, [v], n⟩) fun o => .pure (match o with
        | .exit items len => repFinish range s items len
        | .panic => .panic
        | .diverge => .diverge)
    | .failure _ _ => .pure (repFinish range s [] 0)
    | .panic => .pure .panic
    | .diverge => .pure .diverge

/-- `rest_left1`, operator_parsers_impl.rs:117-153. -/
def restLeft1N (p : SParser S I A) (op : SParser S I (A → A → A)) : Nat → A → SParser S I A
  | 0, _ => fun _ => .pure .diverge
  | k + 1, x =>
    or
      (fun s => .bind (op (s.advanceBy 0)) fun r => match r with
        | .success f n1 =>
          .bind (p ((s.advanceBy 0).advanceBy n1)) fun r' => match r' with
          | .success y n2 =>
            .bind (restLeft1N p op k (f x y) (((s.advanceBy 0).advanceBy n1).advanceBy n2)) fun r'' =>
              .pure (((r''.advanceSuccess n2).addCommit (n1 != 0)).advanceSuccess n1)
          | .failure e c => .pure (((Res.failure e c).addCommit (n1 != 0)).advanceSuccess n1)
          | .panic => .pure .panic
          | .diverge => .pure .diverge
        | .failure e c => .pure (.failure e c)
        | .panic => .pure .panic
        | .diverge => .pure .diverge)
      (ofParser (successful x))

/-- `rest_left1`, operator_parsers_impl.rs:117-153. -/
def restLeft1 (p : SParser S I A) (op : SParser S I (A → A → A)) (x : A) : SParser S I A := fun s =>
  restLeft1N p op (s.input.length - s.offset + 2) x s

/-- `chain_left1`, operator_parsers_impl.rs:94-99. -/
def chainLeft1 (p : SParser S I A) (op : SParser S I (A → A → A)) : SParser S I A :=
  flatMap p fun x => restLeft1 p op x

/-! ## Caches

The store of a grammar in which the cached parsers `c₁`, `c₂`, … have been built, each perhaps with the earlier ones
in it, is `m₂ × m₁ × …`. -/

/-- `cache`, cache_parsers_impl.rs:13-38, for a parser whose own caches are in the store `S`.  The address of the state
is arbitrary.  `entry(key).or_insert_with(..)`; a panic unwinds before anything is inserted. -/
def cache (p : SParser S I A) : SParser (CacheMap I A × S) I A := fun s σ r σ' =>
  ∃ addr : Nat,
    match σ.1.find (addr, s.lastOffset) with
    | some r0 => r = r0 ∧ σ' = σ
    | none => ∃ σ1, p s σ.2 r σ1 ∧
      σ' = (match r with
        | .panic => (σ.1, σ1)
        | .diverge => (σ.1, σ1)
        | r => (((addr, s.lastOffset), r) :: σ.1, σ1))

/-- A parser that does not use the newest cache. -/
def lift (p : SParser S I A) : SParser (X × S) I A := fun s σ r σ' => p s σ.2 r σ'.2 ∧ σ'.1 = σ.1

/-- A parser that is built anew for every run (`lazy`, lazy_parsers_impl.rs:8-16, or in the closure of a `flat_map`):
its newest cache is empty at the beginning and is dropped. -/
def fresh (p : SParser (CacheMap I B × S) I A) : SParser S I A := fun s σ r σ' => ∃ m, p s ([], σ) r (m, σ')

/-! A combinator takes its arguments, so that the store of a grammar made of two grammars with caches is the pair of
their stores. -/

/-- The first of two grammars with their own caches; `lift` is the second. -/
def left (p : SParser S I A) : SParser (S × X) I A := fun s σ r σ' => p s σ.1 r σ'.1 ∧ σ'.2 = σ.2

/-- `|` between grammars with their own caches. -/
def either (p : SParser S I A) (q : SParser X I A) : SParser (S × X) I A := or (left p) (lift q)

/-- Stores that can be built. -/
class New (S : Type) where
  /-- All caches are empty. -/
  new : S

instance : New Unit := ⟨()⟩
instance [New S] [New X] : New (S × X) := ⟨(New.new, New.new)⟩
instance : New (CacheMap I A) := ⟨[]⟩

/-- `lazy` (lazy_parsers_impl.rs:8-16) with a function that builds a grammar with caches: they are new in every run and
are dropped. -/
def built {T : Type} [New T] (p : SParser T I A) : SParser S I A := fun s σ r σ' =>
  σ' = σ ∧ ∃ τ, p s New.new r τ

/-- A possible outcome of `parse` with a grammar whose caches are new. -/
def Parses (p : SParser Unit I A) (t : List I) (o : Res.Out I A) : Prop := ∃ r, p ⟨t, 0⟩ () r () ∧ o = r.toOut

end OniComb.Stateful
