import Verif.SpecLists

/-!
# Documents with blocks of all these kinds

Paragraphs, headings, quotations, code and verbatim blocks, with attributes, and lists.
-/

namespace Spec

/-- The text `t` can follow attributes: if one of them is a padding `(`, no bracket in the
text must be taken for its end. -/
def Atts.Before (a : Atts) (t : Text) : Prop := a.left = 0 ∨ ')' ∈ a.source ∨ ')' ∉ t

/-- Attributes that can be written in restricted mode, where `<` and `>` are escaped
before anything else happens. -/
def Atts.Written (restricted : Bool) (a : Atts) : Prop :=
  restricted = true → match a.align with
    | none => True
    | some .center => True
    | _ => False

/-- The attributes without the language. -/
def Atts.noLang (a : Atts) : Atts :=
  { a with groups := a.groups.filter (fun | .lang _ => false | _ => true) }

/-- An element with attributes. -/
def elementWith (tag atts content : Text) : Text :=
  ['<'] ++ (tag ++ (atts ++ (['>'] ++ (content ++ (['<', '/'] ++ (tag ++ ['>']))))))

/-- Blocks. -/
inductive Node where
  /-- paragraphs, headings, quotations and lists without attributes -/
  | piece (b : Piece)
  /-- paragraphs and headings -/
  | styled (tag : Text) (a : Atts) (t : Marked)
  /-- quotations -/
  | quoted (a : Atts) (t : Marked)
  /-- `bc`, `pre`, `notextile` -/
  | verbatim (tag : Text) (a : Atts) (ls : List Text)

def Node.source : Node → Text
  | .piece b => b.source
  | .styled tag a t => tag ++ (a.source ++ (['.', ' '] ++ t.source))
  | .quoted a t => ['b', 'q'] ++ (a.source ++ (['.', ' '] ++ t.source))
  | .verbatim tag a ls => tag ++ (a.source ++ (['.', ' '] ++ join ['\n'] ls))

/-- What becomes of it when the source is escaped. -/
def Node.escaped : Node → Node
  | .piece b => .piece b.escaped
  | .styled tag a t => .styled tag a t.escaped
  | .quoted a t => .quoted a t.escaped
  | .verbatim tag a ls => .verbatim tag a (ls.map (escape false))

/-- The HTML of a block. -/
def Node.html (br : Text) (restricted : Bool) (N : Numbers) : Node → Text
  | .piece b => b.html br N
  | .styled tag a t => elementWith tag (a.html restricted) (t.html br)
  | .quoted a t => elementWith ['b', 'l', 'o', 'c', 'k', 'q', 'u', 'o', 't', 'e'] (a.html restricted)
      (['\n', '\t'] ++ (elementWith ['p'] (a.html restricted) (t.html br) ++ ['\n']))
  | .verbatim tag a ls =>
    if tag = ['b', 'c'] then
      elementWith ['p', 'r', 'e'] (a.noLang.html restricted)
        (elementWith ['c', 'o', 'd', 'e'] (attr ['c', 'l', 'a', 's', 's'] a.language) (escape true (join ['\n'] ls)))
    else if tag = ['p', 'r', 'e'] then elementWith ['p', 'r', 'e'] (a.html restricted) (escape true (join ['\n'] ls))
    else join ['\n'] ls

def Node.numbers (N : Numbers) : Node → Numbers
  | .piece b => b.numbers N
  | _ => N

/-- The number of texts set aside. -/
def Node.marks : Node → Nat
  | .piece b => b.marks
  | .styled _ _ t => t.parts.length
  | .quoted _ t => t.parts.length
  | .verbatim _ _ _ => 1

def Node.itemChars : Node → Text
  | .piece b => b.itemChars
  | _ => []

def Node.Resolved (R : Text → Text → Prop) (rel : Option Text) : Node → Prop
  | .piece b => b.Resolved R rel
  | .styled _ _ t => t.Resolved R rel
  | .quoted _ t => t.Resolved R rel
  | .verbatim _ _ _ => True

/-- A text that can be left as it is: it has neither break tags nor colons that could
belong to a token. -/
def Untouched (ls : List Text) : Prop :=
  (∀ l ∈ ls, ¬ ['<', 'b', 'r', '>'] <:+: l ∧ ¬ ['<', 'b', 'r', ' ', '/', '>'] <:+: l) ∧ join ['\n'] ls ≠ [] ∧
  (':' ∈ join ['\n'] ls → (∃ c u, join ['\n'] ls = c :: u ∧ tokenChar c = false) ∧ ∃ u c, join ['\n'] ls = u ++ [c] ∧ tokenChar c = false)

def Node.Ok (upper digit : Char → Bool) (lite restricted : Bool) : Node → Prop
  | .piece b => b.Ok upper digit lite
  | .styled tag a t => t.Ok upper lite ∧ a.Ok ∧ a.Written restricted ∧ a.Before t.source ∧
      tag ∈ ['p'] :: (if lite then [] else [['h', '1'], ['h', '2'], ['h', '3'], ['h', '4'], ['h', '5'], ['h', '6']]) ∧
      (tag = ['p'] → ¬ notelistWord <+: t.source)
  | .quoted a t => t.Ok upper lite ∧ a.Ok ∧ a.Written restricted ∧ a.Before t.source ∧ ¬ notelistWord <+: t.source
  | .verbatim tag a ls => RawLines ls ∧ a.Ok ∧ a.Written restricted ∧ a.Before (join ['\n'] ls) ∧
      tag ∈ ['b', 'c'] :: (if lite then [] else [['p', 'r', 'e'], ['n', 'o', 't', 'e', 'x', 't', 'i', 'l', 'e']]) ∧
      (tag = ['n', 'o', 't', 'e', 'x', 't', 'i', 'l', 'e'] → Untouched ls)

def nodeHtml (br : Text) (restricted : Bool) : Numbers → List (Node × Nat) → List (Text × Nat)
  | _, [] => []
  | N, d :: ds => (d.1.html br restricted N, d.2) :: nodeHtml br restricted (d.1.numbers N) ds

/-- The text of a document of such blocks, each with the number of newlines after it (two
more than given), and its HTML. -/
def nodesSource (ds : List (Node × Nat)) : Text := glue (ds.map (fun d => (d.1.source, d.2)))

/-- What is converted: restricted mode escapes the source first. -/
def nodesSeen (restricted : Bool) (ds : List (Node × Nat)) : List (Node × Nat) :=
  if restricted then ds.map (fun d => (d.1.escaped, d.2)) else ds

def nodesHtml (br : Text) (restricted : Bool) (ds : List (Node × Nat)) : Text :=
  glue (nodeHtml br restricted (fun _ => 1) (nodesSeen restricted ds))

def nodesMarks (ds : List (Node × Nat)) : Nat := (ds.map (fun d => d.1.marks)).sum

end Spec
