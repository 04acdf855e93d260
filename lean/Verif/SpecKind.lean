import Verif.SpecRaw

/-!
# HTML that is the same but for some tags
-/

namespace Spec

/-- Two texts are the same, except that parts of one are replaced by others. -/
inductive SameBut (R : Text → Text → Prop) : Text → Text → Prop where
  | same (t : Text) : SameBut R t t
  | part {a b : Text} : R a b → SameBut R a b
  | append {a b c d : Text} : SameBut R a b → SameBut R c d → SameBut R (a ++ c) (b ++ d)

/-- The element of acronyms in HTML5 and in XHTML. -/
inductive AcronymKind : Text → Text → Prop where
  | opens : AcronymKind ['<', 'a', 'b', 'b', 'r', ' '] ['<', 'a', 'c', 'r', 'o', 'n', 'y', 'm', ' ']
  | closes : AcronymKind ['<', '/', 'a', 'b', 'b', 'r', '>'] ['<', '/', 'a', 'c', 'r', 'o', 'n', 'y', 'm', '>']

/-- How images are aligned: by a class in HTML5, by an attribute in XHTML. -/
inductive ImageKind : Text → Text → Prop where
  | alone {w x y : Text} : w ∈ [['l', 'e', 'f', 't'], ['r', 'i', 'g', 'h', 't'], ['c', 'e', 'n', 't', 'e', 'r']] →
      ImageKind (['<', 'i', 'm', 'g'] ++ (x ++ (attr ['c', 'l', 'a', 's', 's'] (some (['a', 'l', 'i', 'g', 'n', '-'] ++ w)) ++ y)))
        (['<', 'i', 'm', 'g'] ++ (attr ['a', 'l', 'i', 'g', 'n'] (some w) ++ (x ++ y)))
  | more {w c x y : Text} : w ∈ [['l', 'e', 'f', 't'], ['r', 'i', 'g', 'h', 't'], ['c', 'e', 'n', 't', 'e', 'r']] →
      ImageKind (['<', 'i', 'm', 'g'] ++ (x ++ (attr ['c', 'l', 'a', 's', 's'] (some (c ++ ([' ', 'a', 'l', 'i', 'g', 'n', '-'] ++ w))) ++ y)))
        (['<', 'i', 'm', 'g'] ++ (attr ['a', 'l', 'i', 'g', 'n'] (some w) ++ (x ++ (attr ['c', 'l', 'a', 's', 's'] (some c) ++ y))))

/-- What is written differently in HTML5 and in XHTML: line breaks, acronyms and the alignment of images. -/
inductive OtherKind : Text → Text → Prop where
  | break_ : OtherKind ['<', 'b', 'r', '>'] ['<', 'b', 'r', ' ', '/', '>']
  | acronym {a b : Text} : AcronymKind a b → OtherKind a b
  | image {a b : Text} : ImageKind a b → OtherKind a b

end Spec
