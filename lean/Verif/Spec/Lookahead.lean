import Verif.Model.Core

/-!
# How far ahead a parser looks
-/

namespace OniComb
variable {I A : Type}

/-- Two texts, read from the same place, with the same next `m` elements: both go on alike for `m` elements, or both end
alike before that. What was read before may differ. -/
structure SameFor (m : Nat) (s s' : State I) : Prop where
  place : s.offset = s'.offset
  inside : s.offset ≤ s.input.length
  inside' : s'.offset ≤ s'.input.length
  next : (s.input.drop s.offset).take m = (s'.input.drop s'.offset).take m

/-- An error without the copy of the text that it carries. -/
def PError.blank : PError I → PError I
  | .mismatch _ offset length => .mismatch [] offset length
  | .conversion _ offset length => .conversion [] offset length
  | .incomplete => .incomplete
  | .expect offset inner label => .expect offset inner.blank label
  | .custom offset label => .custom offset label
  | .customInner offset inner label => .customInner offset inner.blank label

/-- The same answer: the same value and length, or the same commitment and the same error up to the copy of the text. -/
def SameAnswer : Res I A → Res I A → Prop
  | .success v n, .success v' n' => v = v' ∧ n = n'
  | .failure e c, .failure e' c' => e.blank = e'.blank ∧ c = c'
  | .panic, .panic => True
  | .diverge, .diverge => True
  | _, _ => False

/-- What has been read does not depend on anything more than `k` elements behind it. (And it is a part of the text.) -/
def Ahead (k : Nat) (p : Parser I A) : Prop :=
  ∀ s v n, p s = .success v n → s.offset ≤ s.input.length →
    s.offset + n ≤ s.input.length ∧ ∀ s', SameFor (n + k) s s' → p s' = .success v n

/-- Moreover, the next `k` elements decide that the parser fails in such a way that another one may be tried. -/
def Firm (k : Nat) (p : Parser I A) : Prop :=
  Ahead k p ∧ ∀ s s' e, p s = .failure e .uncommitted → SameFor k s s' → SameAnswer (p s) (p s')

/-- Moreover, the next `k` elements decide that the parser fails, in whatever way. -/
def Settled (k : Nat) (p : Parser I A) : Prop :=
  Ahead k p ∧ ∀ s s' e c, p s = .failure e c → SameFor k s s' → SameAnswer (p s) (p s')

/-- The next `k` elements decide everything. -/
def Within (k : Nat) (p : Parser I A) : Prop :=
  (∀ s v n, p s = .success v n → s.offset ≤ s.input.length → s.offset + n ≤ s.input.length) ∧
  ∀ s s', SameFor k s s' → SameAnswer (p s) (p s')

end OniComb
