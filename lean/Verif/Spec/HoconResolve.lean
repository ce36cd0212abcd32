import Verif.Spec.Hocon

/-!
# Specification of reference resolution

`Resolved var doc v w`: `w` is `v` with every reference replaced by what it refers to in the document
`doc`, or, if there is nothing in the document, by the variable of that name; a concatenation is replaced by the strings of
its parts in a row.  An optional reference that leads to nothing, and has no variable, is the value that the key had before
(as far as this is a value of its own without references).
-/

namespace OniComb.Hocon.Spec
open OniComb OniComb.Hocon
open OniComb.Uri (Bytes byte bytes)

/-- A value without parts and without references. -/
def Constant : Value → Prop
  | .null => True
  | .bool _ => True
  | .str _ => True
  | .num _ => True
  | .dur _ _ => True
  | _ => False

/-- The path of a reference leads to a value in the document. -/
def Leads (doc : Value) (path : Bytes) (x : Value) : Prop :=
  ∃ ss, ss ≠ [] ∧ (∀ s ∈ ss, Segment s) ∧ path = joinDot ss ∧ descend ss doc = some x

/-- The path of a reference leads to nothing in the document. -/
def Missing (doc : Value) (path : Bytes) : Prop :=
  ∃ ss, ss ≠ [] ∧ (∀ s ∈ ss, Segment s) ∧ path = joinDot ss ∧ descend ss doc = none

/-- No references, concatenations and includes anywhere in the value. -/
inductive Settled : Value → Prop where
  | constant {v : Value} (h : Constant v) : Settled v
  | arr {vs : List Value} (h : ∀ v ∈ vs, Settled v) : Settled (.arr vs)
  | obj {es : Entries} (h : ∀ e ∈ es, Settled e.2) : Settled (.obj es)
  | link {p v : Value} (hp : Settled p) (hv : Settled v) : Settled (.link p v)

/-- An optional reference that can do without a target: the key had one value before, without references in it. -/
def HasDefault (prev : Option Value) (optional : Bool) : Prop :=
  optional = true ∧ ∃ p, prev = some p ∧ Settled p ∧ ¬ IsLink p

/-- `w` is `v` with its references replaced. -/
inductive Resolved (var : Bytes → Option Bytes) (doc : Value) : Value → Value → Prop where
  | constant {v : Value} (h : Constant v) : Resolved var doc v v
  | nil : Resolved var doc (.arr []) (.arr [])
  | cons {v w : Value} {vs ws : List Value} (h : Resolved var doc v w) (hs : Resolved var doc (.arr vs) (.arr ws)) :
      Resolved var doc (.arr (v :: vs)) (.arr (w :: ws))
  | empty : Resolved var doc (.obj []) (.obj [])
  | entry {k : Bytes} {v w : Value} {es fs : Entries} (h : Resolved var doc v w)
      (hs : Resolved var doc (.obj es) (.obj fs)) : Resolved var doc (.obj ((k, v) :: es)) (.obj ((k, w) :: fs))
  | link {p q v w : Value} (hp : Resolved var doc p q) (hv : Resolved var doc v w) :
      Resolved var doc (.link p v) (.link q w)
  | found {prev : Option Value} {path : Bytes} {optional : Bool} {x w : Value} (hx : Leads doc path x)
      (h : Resolved var doc x w) : Resolved var doc (.ref prev path optional) w
  | variable {prev : Option Value} {path s : Bytes} {optional : Bool} (hx : Missing doc path)
      (hs : var path = some s) : Resolved var doc (.ref prev path optional) (.str s)
  | fallback {path : Bytes} {p : Value} (hx : Missing doc path) (hs : var path = none) (hp : Settled p)
      (hl : ¬ IsLink p) : Resolved var doc (.ref (some p) path true) p
  | concat {prev : Option Value} {vs : List Value} {text : Value → Bytes} (h : ∀ v ∈ vs, Resolved var doc v (.str (text v)))
      (hne : vs.flatMap text ≠ []) : Resolved var doc (.enumeration prev vs) (.str (vs.flatMap text))

/-- The concatenation of the strings the values are replaced by. -/
inductive Joined (var : Bytes → Option Bytes) (doc : Value) : List Value → Bytes → Prop where
  | nil : Joined var doc [] []
  | cons {v : Value} {vs : List Value} {s r : Bytes} (h : Resolved var doc v (.str s)) (hs : Joined var doc vs r) :
      Joined var doc (v :: vs) (s ++ r)

/-- The value holds a reference with this path somewhere. -/
inductive Mentions : Value → Bytes → Prop where
  | ref {prev : Option Value} {path : Bytes} {optional : Bool} : Mentions (.ref prev path optional) path
  | elem {v : Value} {vs : List Value} {path : Bytes} (hv : v ∈ vs) (h : Mentions v path) : Mentions (.arr vs) path
  | value {e : Bytes × Value} {es : Entries} {path : Bytes} (he : e ∈ es) (h : Mentions e.2 path) :
      Mentions (.obj es) path
  | older {p v : Value} {path : Bytes} (h : Mentions p path) : Mentions (.link p v) path
  | newer {p v : Value} {path : Bytes} (h : Mentions v path) : Mentions (.link p v) path
  | part {prev : Option Value} {v : Value} {vs : List Value} {path : Bytes} (hv : v ∈ vs) (h : Mentions v path) :
      Mentions (.enumeration prev vs) path

/-- The value holds a reference with this path that needs a target or a variable. -/
inductive Demands : Value → Bytes → Prop where
  | ref {prev : Option Value} {path : Bytes} {optional : Bool} (h : ¬ HasDefault prev optional) :
      Demands (.ref prev path optional) path
  | elem {v : Value} {vs : List Value} {path : Bytes} (hv : v ∈ vs) (h : Demands v path) : Demands (.arr vs) path
  | value {e : Bytes × Value} {es : Entries} {path : Bytes} (he : e ∈ es) (h : Demands e.2 path) : Demands (.obj es) path
  | older {p v : Value} {path : Bytes} (h : Demands p path) : Demands (.link p v) path
  | newer {p v : Value} {path : Bytes} (h : Demands v path) : Demands (.link p v) path
  | part {prev : Option Value} {v : Value} {vs : List Value} {path : Bytes} (hv : v ∈ vs) (h : Demands v path) :
      Demands (.enumeration prev vs) path

/-- The value consists of constants, arrays, objects, repeated definitions, references and concatenations only; an
optional reference is present only if it can be replaced, and a concatenation has a string that is not empty and no
part that stands for something other than a string. -/
inductive Plain (var : Bytes → Option Bytes) (doc : Value) : Value → Prop where
  | constant {v : Value} (h : Constant v) : Plain var doc v
  | arr {vs : List Value} (h : ∀ v ∈ vs, Plain var doc v) : Plain var doc (.arr vs)
  | obj {es : Entries} (h : ∀ e ∈ es, Plain var doc e.2) : Plain var doc (.obj es)
  | link {p v : Value} (hp : Plain var doc p) (hv : Plain var doc v) : Plain var doc (.link p v)
  | ref {prev : Option Value} {path : Bytes} {optional : Bool} (hp : PathText path)
      (ho : optional = true → Missing doc path → (∃ s, var path = some s) ∨ HasDefault prev optional) : Plain var doc (.ref prev path optional)
  | concat {prev : Option Value} {vs : List Value} (h : ∀ v ∈ vs, Plain var doc v)
      (hs : ∀ v ∈ vs, ∀ w, Resolved var doc v w → ∃ s, w = .str s) (hne : ∃ s, s ≠ [] ∧ .str s ∈ vs) :
      Plain var doc (.enumeration prev vs)

end OniComb.Hocon.Spec
