import Verif.SpecInline

/-!
# HTML that consists of Textile's own elements

Elements with names that Textile uses, properly nested, with attributes that Textile uses, whose
values are closed by the quotes that open them, and text without tags.
-/

namespace Spec

def elementNames : List Text :=
  [['p'], ['h', '1'], ['h', '2'], ['h', '3'], ['h', '4'], ['h', '5'], ['h', '6'],
   ['b', 'l', 'o', 'c', 'k', 'q', 'u', 'o', 't', 'e'], ['p', 'r', 'e'], ['c', 'o', 'd', 'e'],
   ['s', 't', 'r', 'o', 'n', 'g'], ['b'], ['e', 'm'], ['i'], ['c', 'i', 't', 'e'], ['d', 'e', 'l'], ['i', 'n', 's'],
   ['s', 'u', 'p'], ['s', 'u', 'b'], ['s', 'p', 'a', 'n'], ['a'], ['a', 'b', 'b', 'r'], ['a', 'c', 'r', 'o', 'n', 'y', 'm'],
   ['u', 'l'], ['o', 'l'], ['l', 'i'], ['d', 'l'], ['d', 't'], ['d', 'd'],
   ['t', 'a', 'b', 'l', 'e'], ['c', 'a', 'p', 't', 'i', 'o', 'n'], ['t', 'h', 'e', 'a', 'd'], ['t', 'b', 'o', 'd', 'y'],
   ['t', 'f', 'o', 'o', 't'], ['t', 'r'], ['t', 'd'], ['t', 'h']]

/-- There are no attributes for event handlers. -/
def attrNames : List Text :=
  [['a', 'l', 'i', 'g', 'n'], ['a', 'l', 't'], ['c', 'i', 't', 'e'], ['c', 'l', 'a', 's', 's'], ['c', 'o', 'l', 's', 'p', 'a', 'n'],
   ['h', 'r', 'e', 'f'], ['i', 'd'], ['l', 'a', 'n', 'g'], ['r', 'e', 'l'], ['r', 'o', 'w', 's', 'p', 'a', 'n'], ['s', 'r', 'c'],
   ['s', 't', 'a', 'r', 't'], ['s', 't', 'y', 'l', 'e'], ['s', 'u', 'm', 'm', 'a', 'r', 'y'], ['t', 'i', 't', 'l', 'e']]

/-- Attributes with such names; no quote or tag is in a value. -/
inductive SafeAtts : Text → Prop where
  | nil : SafeAtts []
  | cons {name v r : Text} : name ∈ attrNames → '"' ∉ v → '<' ∉ v → SafeAtts r →
      SafeAtts ([' '] ++ (name ++ (['=', '"'] ++ (v ++ ['"'] ++ r))))

inductive SafeHtml : Text → Prop where
  | text {t : Text} : '<' ∉ t → SafeHtml t
  | break_ {t : Text} : IsBreak t → SafeHtml t
  | image {a : Text} : SafeAtts a → SafeHtml (['<', 'i', 'm', 'g'] ++ (a ++ [' ', '/', '>']))
  | element {name a h : Text} : name ∈ elementNames → SafeAtts a → SafeHtml h →
      SafeHtml (['<'] ++ (name ++ (a ++ (['>'] ++ (h ++ (['<', '/'] ++ (name ++ ['>'])))))))
  | append {h k : Text} : SafeHtml h → SafeHtml k → SafeHtml (h ++ k)

/-- How the tags of such HTML start. -/
def safeTags : List Text :=
  (elementNames ++ [['b', 'r'], ['i', 'm', 'g']]).flatMap (fun n => [['<'] ++ n ++ ['>'], ['<'] ++ n ++ [' '], ['<', '/'] ++ n ++ ['>']])

end Spec
