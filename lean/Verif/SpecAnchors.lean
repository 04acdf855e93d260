import Verif.SpecCite

/-!
# Links with attributes and titles

As in `"(class#id)text(title)":address`.  A link that is written with `$` as its text
shows its address without the scheme.
-/

namespace Spec

/-- A link: attributes, text, title, the address as written and as it is in HTML, and the
relation set for all links.  If `byAddress` is set, the text is not written, but `$`. -/
structure Anchor where
  groups : List Group := []
  byAddress : Bool := false
  text : Text
  title : Option Text := none
  url : Text
  href : Text
  rel : Option Text := none

def Anchor.atts (a : Anchor) : Atts := { groups := a.groups }

def Anchor.written (a : Anchor) : Text := if a.byAddress then ['$'] else a.text

/-- What is between the quotes. -/
def Anchor.inner (a : Anchor) : Text := a.groups.flatMap Group.source ++ (a.written ++ inParens a.title)

def Anchor.source (a : Anchor) : Text := '"' :: (a.inner ++ ('"' :: ':' :: a.url))

/-- The attributes are sorted by name. -/
def Anchor.html (restricted : Bool) (a : Anchor) : Text :=
  ['<', 'a'] ++
  (attr ['c', 'l', 'a', 's', 's'] (if restricted then none else a.atts.cls) ++
  (attr ['h', 'r', 'e', 'f'] (some (escape true a.href)) ++
  (attr ['i', 'd'] (if restricted then none else a.atts.id) ++
  (attr ['l', 'a', 'n', 'g'] a.atts.language ++
  (attr ['r', 'e', 'l'] a.rel ++
  (attr ['s', 't', 'y', 'l', 'e'] (if restricted ∨ a.atts.declarations = [] then none else some (join [';', ' '] a.atts.declarations ++ [';'])) ++
  (attr ['t', 'i', 't', 'l', 'e'] (a.title.map (titleValue restricted)) ++ (['>'] ++ (a.text ++ ['<', '/', 'a', '>'])))))))))

/-- `t` is what is left of an address without its scheme. -/
def WithoutScheme (url t : Text) : Prop :=
  ∃ scheme, ':' ∉ scheme ∧ (url = scheme ++ (':' :: '/' :: '/' :: t) ∨ (url = scheme ++ (':' :: t) ∧ ¬ ['/', '/'] <+: t))

/-- A link with this text after it. -/
structure Anchor.Ok (upper : Char → Bool) (a : Anchor) (after : Text) : Prop where
  link : LinkOk upper a.text a.url a.href a.rel after
  atts : a.atts.Ok
  start : ∀ n i gs, a.groups = .classes n i :: gs → n.head? ≠ some ' '
  title : ∀ t, a.title = some t → t ≠ [] ∧ (∀ c ∈ t, titleChar c = true) ∧ ¬ [' ', '\''] <:+: t
  shown : a.byAddress = true → WithoutScheme a.url a.text

/-- An address that the URL parser understands without a base. -/
def Absolute (parse : Text → Option (Text × Text)) (url : Text) : Prop := (parse url).isSome = true

def Anchor.Resolved (R : Text → Text → Prop) (A : Text → Prop) (rel : Option Text) (a : Anchor) : Prop :=
  R a.url a.href ∧ a.rel = rel ∧ (a.byAddress = true → A a.url)

/-- A text with links, each with the text after it. -/
structure AnText where
  lead : Text
  parts : List (Anchor × Text)

def anParts (ps : List (Anchor × Text)) : Text := ps.flatMap (fun p => p.1.source ++ p.2)

def AnText.source (t : AnText) : Text := t.lead ++ anParts t.parts

def AnText.html (br : Text) (restricted : Bool) (t : AnText) : Text :=
  breakLines br t.lead ++ t.parts.flatMap (fun p => p.1.html restricted ++ breakLines br p.2)

structure AnText.Ok (upper : Char → Bool) (t : AnText) : Prop where
  lead : Prose upper t.lead
  before : t.parts ≠ [] → t.lead = [] ∨ EndsInSpace t.lead
  parts : ∀ p ∈ t.parts, p.1.Ok upper p.2 ∧ Prose upper p.2
  between : ∀ p ∈ t.parts.dropLast, EndsInSpace p.2
  first : ∃ c u, t.source = c :: u ∧ c ≠ '\n'
  last : ¬ EndsInSpace t.source

def AnText.Resolved (R : Text → Text → Prop) (A : Text → Prop) (rel : Option Text) (t : AnText) : Prop := ∀ p ∈ t.parts, p.1.Resolved R A rel

/-- How many placeholders are needed at most, in pairs. -/
def AnText.marks (t : AnText) : Nat := 2 * t.parts.length

/-- Paragraphs, headings and quotations with such links, and all other blocks. -/
inductive AnBlock where
  | other (b : CiteBlock)
  | para (t : AnText)
  | styled (tag : Text) (a : Atts) (t : AnText)
  | quoted (a : Atts) (t : AnText)

def AnBlock.source : AnBlock → Text
  | .other b => b.source
  | .para t => t.source
  | .styled tag a t => tag ++ (a.source ++ (['.', ' '] ++ t.source))
  | .quoted a t => ['b', 'q'] ++ (a.source ++ (['.', ' '] ++ t.source))

def AnBlock.html (html5 : Bool) (br : Text) (restricted asClass : Bool) (base : Text) (N : Numbers) (M : Notes) : AnBlock → Text
  | .other b => b.html html5 br restricted asClass base N M
  | .para t => elementWith ['p'] [] (t.html br restricted)
  | .styled tag a t => elementWith tag (a.html restricted) (t.html br restricted)
  | .quoted a t => elementWith ['b', 'l', 'o', 'c', 'k', 'q', 'u', 'o', 't', 'e'] (a.html restricted)
      (['\n', '\t'] ++ (elementWith ['p'] (a.html restricted) (t.html br restricted) ++ ['\n']))

def AnBlock.numbers (N : Numbers) (restricted : Bool) : AnBlock → Numbers
  | .other b => b.numbers N restricted
  | _ => N

def AnBlock.notes (M : Notes) (restricted : Bool) : AnBlock → Notes
  | .other b => b.notes M restricted
  | _ => M

def AnBlock.marks : AnBlock → Nat
  | .other b => b.marks
  | .para t | .styled _ _ t | .quoted _ t => t.marks

def AnBlock.chars : AnBlock → Text
  | .other b => b.chars
  | _ => []

def AnBlock.Resolved (R L : Text → Text → Prop) (A : Text → Prop) (rel : Option Text) : AnBlock → Prop
  | .other b => b.Resolved R L rel
  | .para t | .styled _ _ t | .quoted _ t => t.Resolved R A rel

def AnBlock.Ok (upper digit : Char → Bool) (lite restricted : Bool) : AnBlock → Prop
  | .other b => b.Ok upper digit lite restricted
  | .para t => t.Ok upper ∧ NoBlockStart digit lite t.source ∧ ¬ notelistWord <+: t.lead ∧ t.source.head? ≠ some ' '
  | .styled tag a t => t.Ok upper ∧ a.Ok ∧ a.Written restricted ∧ a.left = 0 ∧ tag ∈ imageBlockTags lite ∧
      (tag = ['p'] → ¬ notelistWord <+: t.lead) ∧ t.source.head? ≠ some ' '
  | .quoted a t => t.Ok upper ∧ a.Ok ∧ a.Written restricted ∧ a.left = 0 ∧ ¬ notelistWord <+: t.lead ∧ t.source.head? ≠ some ' '

def anHtml (html5 : Bool) (br : Text) (restricted asClass : Bool) (base : Text) : Numbers → Notes → List (AnBlock × Nat) → List (Text × Nat)
  | _, _, [] => []
  | N, M, d :: ds => (d.1.html html5 br restricted asClass base N M, d.2) ::
      anHtml html5 br restricted asClass base (d.1.numbers N restricted) (d.1.notes M restricted) ds

/-- The text of a document of such blocks, each with the number of newlines after it (two
more than given), and its HTML. -/
def anSource (ds : List (AnBlock × Nat)) : Text := glue (ds.map (fun d => (d.1.source, d.2)))

def anDocHtml (html5 : Bool) (br : Text) (restricted asClass : Bool) (base : Text) (ds : List (AnBlock × Nat)) : Text :=
  glue (anHtml html5 br restricted asClass base (fun _ => 1) ⟨[], 0⟩ ds)

def anMarks (ds : List (AnBlock × Nat)) : Nat := (ds.map (fun d => d.1.marks)).sum

end Spec
