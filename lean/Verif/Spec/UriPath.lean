import Verif.Spec.Uri

/-!
# Specification for the path parsers of the `uri` crate: the paths of RFC 3986, section 3.3
-/

namespace OniComb.Uri.Rfc
open OniComb.Uri

/-- *( "/" segment ) -/
def Segments (t : Bytes) : Prop := ∃ ps : List Bytes, t = ps.flatten ∧ ∀ s ∈ ps, SegmentPart s

/-- pchar without the colon -/
def NcByte (b : UInt8) : Prop := RegByte b ∨ OneOf ['@'] b

instance : DecidablePred NcByte := fun _ => inferInstanceAs (Decidable (_ ∨ _))

/-- path-rootless = segment-nz *( "/" segment ) -/
def RootlessText (t : Bytes) : Prop := ∃ s r, t = s ++ r ∧ s ≠ [] ∧ Enc PcharByte s ∧ Segments r

/-- path-noscheme = segment-nz-nc *( "/" segment ) -/
def NoschemeText (t : Bytes) : Prop := ∃ s r, t = s ++ r ∧ s ≠ [] ∧ Enc NcByte s ∧ Segments r

/-- path-absolute = "/" [ segment-nz *( "/" segment ) ] -/
def AbsoluteText (t : Bytes) : Prop := ∃ r, t = byte '/' :: r ∧ (r = [] ∨ RootlessText r)

/-- path = path-abempty / path-absolute / path-noscheme / path-rootless / path-empty -/
def RfcPath (t : Bytes) : Prop :=
  Segments t ∨ AbsoluteText t ∨ NoschemeText t ∨ RootlessText t ∨ t = []

end OniComb.Uri.Rfc
