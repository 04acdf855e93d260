import Verif.SpecRaw

/-!
# Texts without blocks

When block tags are turned off the text is neither put into a paragraph nor are
its lines broken; only its marked parts become elements.
-/

namespace Spec

def ClassText.inlineHtml (restricted : Bool) (t : ClassText) : Text :=
  t.lead ++ t.parts.flatMap (fun p => p.html restricted ++ p.after)

end Spec
