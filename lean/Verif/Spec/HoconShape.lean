import Verif.Spec.HoconLoad
import Verif.Spec.HoconResolve

/-!
# Specification: what a parsed hocon document can consist of
-/

namespace OniComb.Hocon.Spec
open OniComb OniComb.Hocon
open OniComb.Uri (Bytes byte bytes)

/-- What the parser takes for a path: segments joined with dots, and perhaps one more dot behind them. -/
def RefText (p : Bytes) : Prop := PathText p ∨ ∃ q, PathText q ∧ p = q ++ [byte '.']

/-- What is so for every part of a parsed value: an object has each key once and no empty key, no string is empty, the
path of a reference is a path, includes do not occur, and a concatenation has no earlier value and consists of strings
and references, the first of which is a string. -/
def Shape : Value → Prop
  | .obj es => (keys es).Nodup ∧ ∀ e ∈ es, e.1 ≠ [] ∧ IsText e.1
  | .str s => s ≠ [] ∧ IsText s
  | .ref _ p _ => RefText p
  | .incl _ _ => False
  | .enumeration prev vs => prev = none ∧
      ∃ s ws, vs = .str s :: ws ∧ ∀ w ∈ ws, (∃ t, w = .str t) ∨ ∃ p o, w = .ref none p o
  | _ => True

/-- All parts of the value have the shape. -/
def Made (v : Value) : Prop := ∀ u, Part u v → Shape u

/-- An include: its method and its name in quotes. -/
def IsInclude (v : Value) : Prop :=
  ∃ m p, (m = bytes "file" ∨ m = bytes "url") ∧ RefText p ∧ v = .incl m (byte '"' :: p ++ [byte '"'])

/-- An object or an array. -/
def IsBlock : Value → Prop
  | .obj _ => True
  | .arr _ => True
  | _ => False

/-- What a whole document can be: one object of settings, or some includes, or any number of objects and arrays. -/
inductive Document : List Value → Prop where
  | settings {es : Entries} (hne : es ≠ []) (h : Made (.obj es)) : Document [.obj es]
  | includes {vs : List Value} (hne : vs ≠ []) (h : ∀ v ∈ vs, IsInclude v) : Document vs
  | blocks {vs : List Value} (h : ∀ v ∈ vs, IsBlock v ∧ Made v) : Document vs

end OniComb.Hocon.Spec
