import Verif.Spec.RFC3986

/-!
Queries as lists of pairs.
-/

namespace Url.Spec

/-- Every piece of the query between ampersands, the last excepted, contains `=`. -/
def Regular (q : Str) : Prop := ∀ x ∈ (splitAt c!"&" q).dropLast, c!"=" ∈ x

instance (q : Str) : Decidable (Regular q) := inferInstanceAs (Decidable (∀ x ∈ _, _))

end Url.Spec
