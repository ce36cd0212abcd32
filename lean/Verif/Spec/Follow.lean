/-! # Specification vocabulary: what a text begins with -/

namespace OniComb
variable {I : Type}

/-- The text does not begin with an element of the class. -/
def NoHead (P : I → Prop) (r : List I) : Prop := ∀ b r', r = b :: r' → ¬ P b

end OniComb
