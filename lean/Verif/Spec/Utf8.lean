/-!
# UTF-8

The bytes of a text: the encodings of its characters one after the other. `String.utf8EncodeChar` is
Lean's, and knows nothing of the model.
-/

set_option autoImplicit false

namespace Hidefix.Spec

/-- The bytes are some text in UTF-8. -/
def IsUtf8 (l : List UInt8) : Prop := ∃ cs : List Char, l = cs.flatMap String.utf8EncodeChar

end Hidefix.Spec
