import Verif.Spec.HoconLoad

/-!
# Specification: the document that parsed values stand for before references are replaced

Includes are replaced by what the file holds, dotted keys are written out, and the values at top level are merged.
-/

namespace OniComb.Hocon.Spec
open OniComb OniComb.Hocon
open OniComb.Uri (Bytes byte bytes)

/-- Not an object with a dotted key. -/
def Undotted (v : Value) : Prop := ∀ es, v = .obj es → ∀ e ∈ es, byte '.' ∉ e.1

mutual
/-- `w` is `v` with an include replaced by what the file holds, and with the dotted keys of an object written out.  An
object that has a dotted key has nothing else afterwards. -/
inductive Expanded (load : Bytes → Value → Prop) : Value → Value → Prop where
  | same {v : Value} (hi : ∀ m f, v ≠ .incl m f) (hu : Undotted v) : Expanded load v v
  | file {m f : Bytes} {w : Value} (h : load f w) : Expanded load (.incl m f) w
  | dotted {es ps fs : Entries} (hd : ∃ e ∈ es, byte '.' ∈ e.1) (h : Nested load es ps) (hc : Combined ps fs) :
      Expanded load (.obj es) (.obj fs)
/-- `ps` are the dotted entries of `es`, each as its first segment and the value below the other segments. -/
inductive Nested (load : Bytes → Value → Prop) : Entries → Entries → Prop where
  | nil : Nested load [] []
  | skip {k : Bytes} {v : Value} {es ps : Entries} (hk : byte '.' ∉ k) (h : Nested load es ps) :
      Nested load ((k, v) :: es) ps
  | dotted {k s : Bytes} {ss : List Bytes} {v w : Value} {es ps : Entries} (hk : k = joinDot (s :: ss)) (hne : ss ≠ [])
      (hs : ∀ x ∈ s :: ss, byte '.' ∉ x) (hv : Expanded load v w) (h : Nested load es ps) :
      Nested load ((k, v) :: es) ((s, nest ss w) :: ps)
end

/-- The values one by one. -/
inductive ExpandedAll (load : Bytes → Value → Prop) : List Value → List Value → Prop where
  | nil : ExpandedAll load [] []
  | cons {v w : Value} {vs ws : List Value} (h : Expanded load v w) (hs : ExpandedAll load vs ws) :
      ExpandedAll load (v :: vs) (w :: ws)

/-- What the values of a document stand for: the first one with the others merged into it. -/
def Meaning (load : Bytes → Value → Prop) (vs : List Value) (doc : Value) : Prop :=
  ∃ w ws, ExpandedAll load vs (w :: ws) ∧ MergedAll w ws doc

end OniComb.Hocon.Spec
