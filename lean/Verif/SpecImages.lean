import Verif.SpecSigns

/-!
# Images

Images as in `!>(photo){border:none}/cat.png(A cat)!:/cats`, with alignment, attributes, a
title and a link.
-/

namespace Spec

inductive ImAlign where
  | left | center | right
  deriving DecidableEq

def ImAlign.mark : ImAlign → Text
  | .left => ['<']
  | .center => ['=']
  | .right => ['>']

def ImAlign.word : ImAlign → Text
  | .left => ['l', 'e', 'f', 't']
  | .center => ['c', 'e', 'n', 't', 'e', 'r']
  | .right => ['r', 'i', 'g', 'h', 't']

/-- An image: where it is, and the address in HTML; a title; and where it leads, with the address in HTML. -/
structure Image where
  align : Option ImAlign := none
  groups : List Group := []
  url : Text
  src : Text
  title : Option Text := none
  link : Option (Text × Text) := none

def Image.atts (i : Image) : Atts := { groups := i.groups }

def imageLink : Option (Text × Text) → Text
  | none => []
  | some l => ':' :: l.1

def inParens : Option Text → Text
  | none => []
  | some t => '(' :: (t ++ [')'])

def Image.source (i : Image) : Text :=
  '!' :: ((match i.align with | none => [] | some a => a.mark) ++ (i.groups.flatMap Group.source ++ (i.url ++ (inParens i.title ++ ('!' :: imageLink i.link)))))

/-- The source after the characters that are special in HTML have been escaped, which is done first in restricted mode. -/
def Image.seen (restricted : Bool) (i : Image) : Text := if restricted then escape false i.source else i.source

/-- Characters of titles: ordinary ones and some more. -/
def titleChar (c : Char) : Bool :=
  ordinaryChar c || ['-', ';', ':', '?', '!', '\'', '&', '_', '+', '%', '#', '*'].contains c

/-- Addresses: not empty, and no `==`. -/
structure UrlOk (url : Text) : Prop where
  chars : ∀ c ∈ url, urlChar c = true
  noeq : ¬ ['=', '='] <:+: url
  first : ∃ c u, url = c :: u ∧ c ≠ '='

def NoSpacers (t : Text) : Prop := ∀ c ∈ t, c ≠ '\n' ∧ c ≠ '\r' ∧ c ≠ '\t'

/-- An image with this text after it. -/
structure Image.Ok (i : Image) (after : Text) : Prop where
  atts : i.atts.Ok
  url : UrlOk i.url
  src : NoSpacers i.src
  title : ∀ t, i.title = some t → t ≠ [] ∧ (∀ c ∈ t, titleChar c = true) ∧ ¬ [' ', '\''] <:+: t
  link : ∀ l, i.link = some l → UrlOk l.1 ∧ NoSpacers l.2 ∧ ∃ u c, l.1 = u ++ [c] ∧ c ∉ ['.', ',', '=']
  after : StartsIn (if i.link.isSome then [' ', '\n'] else [' ', '\n', '.', ',']) after

/-- The address of a link is normalised like others, but its scheme can be any. -/
def Reads (parse : Text → Option (Text × Text)) (relative : Text → Option Text) (url href : Text) : Prop :=
  (∃ scheme, parse url = some (scheme, href)) ∨
  (parse url = none ∧ (relative url).isSome ∧ '?' ∉ url ∧ '#' ∉ url ∧ href = url)

def Image.Resolved (R L : Text → Text → Prop) (i : Image) : Prop :=
  R i.url i.src ∧ ∀ l, i.link = some l → L l.1 l.2

/-- Names of the classes with that for the alignment at the end. -/
def Image.classes (restricted asClass : Bool) (i : Image) : Option Text :=
  let own := if restricted then none else i.atts.cls
  if asClass then
    match i.align with
    | none => own
    | some a =>
      let name := ['a', 'l', 'i', 'g', 'n', '-'] ++ a.word
      some (match own with | none => name | some c => c ++ (' ' :: name))
  else own

/-- The title as a value of attributes; in restricted mode it has been escaped before. -/
def titleValue (restricted : Bool) (t : Text) : Text := escape false (if restricted then escape false t else t)

/-- The attributes are sorted by name.  `asClass` says whether the alignment is given by a class. -/
def Image.element (restricted asClass : Bool) (i : Image) : Text :=
  ['<', 'i', 'm', 'g'] ++
  (attr ['a', 'l', 'i', 'g', 'n'] (if asClass then none else i.align.map ImAlign.word) ++
  (attr ['a', 'l', 't'] (some (match i.title with | none => [] | some t => titleValue restricted t)) ++
  (attr ['c', 'l', 'a', 's', 's'] (i.classes restricted asClass) ++
  (attr ['i', 'd'] (if restricted then none else i.atts.id) ++
  (attr ['l', 'a', 'n', 'g'] i.atts.language ++
  (attr ['s', 'r', 'c'] (some (escape true i.src)) ++
  (attr ['s', 't', 'y', 'l', 'e'] (if restricted ∨ i.atts.declarations = [] then none else some (join [';', ' '] i.atts.declarations ++ [';'])) ++
  (attr ['t', 'i', 't', 'l', 'e'] (i.title.map (titleValue restricted)) ++ [' ', '/', '>']))))))))

def Image.html (restricted asClass : Bool) (i : Image) : Text :=
  match i.link with
  | none => i.element restricted asClass
  | some l => ['<', 'a'] ++ (attr ['h', 'r', 'e', 'f'] (some (escape true l.2)) ++ (['>'] ++ (i.element restricted asClass ++ ['<', '/', 'a', '>'])))

/-- A text with images, each with the text after it. -/
structure ImText where
  lead : Text
  parts : List (Image × Text)

def imParts (ps : List (Image × Text)) : Text := ps.flatMap (fun p => p.1.source ++ p.2)

def ImText.source (t : ImText) : Text := t.lead ++ imParts t.parts

def ImText.html (br : Text) (restricted asClass : Bool) (t : ImText) : Text :=
  breakLines br t.lead ++ t.parts.flatMap (fun p => p.1.html restricted asClass ++ breakLines br p.2)

structure ImText.Ok (upper : Char → Bool) (t : ImText) : Prop where
  lead : Prose upper t.lead
  before : t.parts ≠ [] → t.lead = [] ∨ EndsInSpace t.lead
  parts : ∀ p ∈ t.parts, p.1.Ok p.2 ∧ Prose upper p.2
  between : ∀ p ∈ t.parts.dropLast, EndsInSpace p.2
  first : ∃ c u, t.source = c :: u ∧ c ≠ ' ' ∧ c ≠ '\n'
  last : ¬ EndsInSpace t.source

def ImText.Resolved (R L : Text → Text → Prop) (t : ImText) : Prop := ∀ p ∈ t.parts, p.1.Resolved R L

/-- How many placeholders are needed at most, in pairs. -/
def ImText.marks (t : ImText) : Nat := 2 * t.parts.length

def imageBlockTags (lite : Bool) : List Text :=
  ['p'] :: (if lite then [] else [['h', '1'], ['h', '2'], ['h', '3'], ['h', '4'], ['h', '5'], ['h', '6']])

/-- Paragraphs, headings and quotations with images, and all other blocks. -/
inductive ImBlock where
  | other (b : SgBlock)
  | para (t : ImText)
  | styled (tag : Text) (a : Atts) (t : ImText)
  | quoted (a : Atts) (t : ImText)

def ImBlock.source : ImBlock → Text
  | .other b => b.source
  | .para t => t.source
  | .styled tag a t => tag ++ (a.source ++ (['.', ' '] ++ t.source))
  | .quoted a t => ['b', 'q'] ++ (a.source ++ (['.', ' '] ++ t.source))

/-- The block as it is after escaping. -/
def SgBlock.seen (restricted : Bool) (b : SgBlock) : SgBlock := if restricted then b.escaped else b

def ImBlock.html (br : Text) (restricted asClass : Bool) (base : Text) (N : Numbers) (M : Notes) : ImBlock → Text
  | .other b => (b.seen restricted).html br restricted base N M
  | .para t => elementWith ['p'] [] (t.html br restricted asClass)
  | .styled tag a t => elementWith tag (a.html restricted) (t.html br restricted asClass)
  | .quoted a t => elementWith ['b', 'l', 'o', 'c', 'k', 'q', 'u', 'o', 't', 'e'] (a.html restricted)
      (['\n', '\t'] ++ (elementWith ['p'] (a.html restricted) (t.html br restricted asClass) ++ ['\n']))

def ImBlock.numbers (N : Numbers) (restricted : Bool) : ImBlock → Numbers
  | .other b => (b.seen restricted).numbers N
  | _ => N

def ImBlock.notes (M : Notes) (restricted : Bool) : ImBlock → Notes
  | .other b => (b.seen restricted).notes M
  | _ => M

def ImBlock.marks : ImBlock → Nat
  | .other b => b.marks
  | .para t | .styled _ _ t | .quoted _ t => t.marks

def ImBlock.chars : ImBlock → Text
  | .other b => b.chars
  | _ => []

def ImBlock.Resolved (R L : Text → Text → Prop) (rel : Option Text) : ImBlock → Prop
  | .other b => b.Resolved R rel
  | .para t | .styled _ _ t | .quoted _ t => t.Resolved R L

def ImBlock.Ok (upper digit : Char → Bool) (lite restricted : Bool) : ImBlock → Prop
  | .other b => b.Ok upper digit lite restricted
  | .para t => t.Ok upper ∧ NoBlockStart digit lite t.source ∧ ¬ notelistWord <+: t.lead
  | .styled tag a t => t.Ok upper ∧ a.Ok ∧ a.Written restricted ∧ a.left = 0 ∧ tag ∈ imageBlockTags lite ∧
      (tag = ['p'] → ¬ notelistWord <+: t.lead)
  | .quoted a t => t.Ok upper ∧ a.Ok ∧ a.Written restricted ∧ a.left = 0 ∧ ¬ notelistWord <+: t.lead

def imHtml (br : Text) (restricted asClass : Bool) (base : Text) : Numbers → Notes → List (ImBlock × Nat) → List (Text × Nat)
  | _, _, [] => []
  | N, M, d :: ds => (d.1.html br restricted asClass base N M, d.2) ::
      imHtml br restricted asClass base (d.1.numbers N restricted) (d.1.notes M restricted) ds

/-- The text of a document of such blocks, each with the number of newlines after it (two
more than given), and its HTML. -/
def imSource (ds : List (ImBlock × Nat)) : Text := glue (ds.map (fun d => (d.1.source, d.2)))

def imDocHtml (br : Text) (restricted asClass : Bool) (base : Text) (ds : List (ImBlock × Nat)) : Text :=
  glue (imHtml br restricted asClass base (fun _ => 1) ⟨[], 0⟩ ds)

def imMarks (ds : List (ImBlock × Nat)) : Nat := (ds.map (fun d => d.1.marks)).sum

end Spec
