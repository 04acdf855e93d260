import Verif.SpecDocs

/-!
# Footnotes

A reference `[1]` becomes a link to the footnote, a block `fn1. ...` becomes the footnote.  The
identifiers are made of numbers that are given to the footnotes when they are mentioned first.
-/

namespace Spec

/-- Ordinary text with references to footnotes, each given by its label and the text after it. -/
structure FnText where
  lead : Text
  refs : List (Text × Text)

def FnText.source (t : FnText) : Text := t.lead ++ t.refs.flatMap (fun r => '[' :: (r.1 ++ ']' :: r.2))

/-- The texts between the references. -/
def FnText.texts (t : FnText) : List Text := t.lead :: t.refs.map (·.2)

/-- The numbers of the footnotes referred to so far, and the last number given. -/
structure Notes where
  seen : List (Text × Nat)
  last : Nat

def Notes.number (N : Notes) (label : Text) : Option Nat := (N.seen.find? (fun e => e.1 == label)).map (·.2)

/-- A reference: a number is given to the footnote if it has none. -/
def Notes.refer (N : Notes) (label : Text) : Notes :=
  match N.number label with
  | some _ => N
  | none => ⟨(label, N.last + 1) :: N.seen, N.last + 1⟩

/-- The identifier with a number. -/
def noteId (base : Text) (k : Nat) : Text := base ++ '-' :: numeral k

def supTag : Text := ['s', 'u', 'p']
def classAttr : Text := ['c', 'l', 'a', 's', 's']
def idAttr : Text := ['i', 'd']
def hrefAttr : Text := ['h', 'r', 'e', 'f']
def footnoteWord : Text := ['f', 'o', 'o', 't', 'n', 'o', 't', 'e']

/-- Where a reference points to, and the identifier of the reference itself. -/
def fnName (base : Text) (k : Nat) : Text := ['f', 'n'] ++ noteId base k
def fnrevName (base : Text) (k : Nat) : Text := ['f', 'n', 'r', 'e', 'v'] ++ noteId base k

/-- The HTML of a reference: a link to the footnote; the first one gets an identifier. -/
def refHtml (base : Text) (N : Notes) (label : Text) : Text :=
  match N.number label with
  | some k => elementWith supTag (attr classAttr (some footnoteWord))
      (elementWith ['a'] (attr hrefAttr (some ('#' :: fnName base k))) label)
  | none => elementWith supTag (attr classAttr (some footnoteWord) ++ attr idAttr (some (fnrevName base (N.last + 1))))
      (elementWith ['a'] (attr hrefAttr (some ('#' :: fnName base (N.last + 1)))) label)

/-- The references and the texts after them. -/
def refsHtml (br base : Text) : Notes → List (Text × Text) → Text
  | _, [] => []
  | N, r :: rs => refHtml base N r.1 ++ (breakLines br r.2 ++ refsHtml br base (N.refer r.1) rs)

def FnText.html (br base : Text) (N : Notes) (t : FnText) : Text := breakLines br t.lead ++ refsHtml br base N t.refs

def FnText.notes (N : Notes) (t : FnText) : Notes := t.refs.foldl (fun N r => N.refer r.1) N

/-- A reference must directly follow something other than white space. -/
structure FnText.Ok (upper : Char → Bool) (t : FnText) : Prop where
  texts : ∀ p ∈ t.texts, Prose upper p ∧ ¬ EndsInSpace p
  first : ∃ c u, t.lead = c :: u ∧ c ≠ ' ' ∧ c ≠ '\n'
  labels : ∀ r ∈ t.refs, r.1 ≠ [] ∧ ∀ c ∈ r.1, isDecimal c = true

/-- A footnote: its number is that of the references before it; if there are none, it takes a
number of its own, which references after it do not use. -/
def Notes.ofNote (N : Notes) (label : Text) : Nat :=
  match N.number label with
  | some k => k
  | none => N.last + 1

def Notes.define (N : Notes) (label : Text) : Notes :=
  match N.number label with
  | some _ => N
  | none => ⟨N.seen, N.last + 1⟩

/-- What can follow the word for a block: a full stop, or attributes. -/
def blockNext : Text := ['.', '(', ')', '[', '{', '<', '>', '=', '-', '^', '~']

/-- The text does not start with a word for a block followed by a full stop or attributes. -/
def NoBlockStart (digit : Char → Bool) (lite : Bool) (t : Text) : Prop :=
  ∀ w c u, t = w ++ c :: u → c ∈ blockNext → ¬ blockWord digit lite w

/-- Blocks with references, and footnotes, which can have a link back to the reference. -/
inductive FnBlock where
  | node (b : Node)
  | para (t : FnText)
  | styled (tag : Text) (a : Atts) (t : FnText)
  | note (label : Text) (back : Bool) (t : FnText)

def FnBlock.source : FnBlock → Text
  | .node b => b.source
  | .para t => t.source
  | .styled tag a t => tag ++ (a.source ++ (['.', ' '] ++ t.source))
  | .note label back t => ['f', 'n'] ++ (label ++ ((if back then ['^'] else []) ++ (['.', ' '] ++ t.source)))

def FnBlock.escaped : FnBlock → FnBlock
  | .node b => .node b.escaped
  | b => b

/-- The number before the text of a footnote. -/
def noteMark (base : Text) (k : Nat) (label : Text) (back : Bool) : Text :=
  elementWith supTag []
    (if back then elementWith ['a'] (attr hrefAttr (some ('#' :: fnrevName base k))) label else label)

def FnBlock.html (br : Text) (restricted : Bool) (base : Text) (N : Numbers) (M : Notes) : FnBlock → Text
  | .node b => b.html br restricted N
  | .para t => elementWith ['p'] [] (t.html br base M)
  | .styled tag a t => elementWith tag (a.html restricted) (t.html br base M)
  | .note label back t =>
    elementWith ['p'] (attr classAttr (some footnoteWord) ++ attr idAttr (some (fnName base (M.ofNote label))))
      (noteMark base (M.ofNote label) label back ++ (' ' :: t.html br base (M.define label)))

def FnBlock.numbers (N : Numbers) : FnBlock → Numbers
  | .node b => b.numbers N
  | _ => N

def FnBlock.notes (M : Notes) : FnBlock → Notes
  | .node _ => M
  | .para t => t.notes M
  | .styled _ _ t => t.notes M
  | .note label _ t => t.notes (M.define label)

def FnBlock.marks : FnBlock → Nat
  | .node b => b.marks
  | _ => 0

def FnBlock.itemChars : FnBlock → Text
  | .node b => b.itemChars
  | _ => []

def FnBlock.Resolved (R : Text → Text → Prop) (rel : Option Text) : FnBlock → Prop
  | .node b => b.Resolved R rel
  | _ => True

def FnBlock.Ok (upper digit : Char → Bool) (lite restricted : Bool) : FnBlock → Prop
  | .node b => b.Ok upper digit lite restricted
  | .para t => t.Ok upper ∧ NoBlockStart digit lite t.source ∧ ¬ notelistWord <+: t.lead
  | .styled tag a t => t.Ok upper ∧ a.Ok ∧ a.Written restricted ∧ a.left = 0 ∧
      tag ∈ ['p'] :: (if lite then [] else [['h', '1'], ['h', '2'], ['h', '3'], ['h', '4'], ['h', '5'], ['h', '6']]) ∧
      (tag = ['p'] → ¬ notelistWord <+: t.lead)
  | .note label _ t => t.Ok upper ∧ label ≠ [] ∧ (∀ c ∈ label, isDecimal c = true) ∧ lite = false

def fnHtml (br : Text) (restricted : Bool) (base : Text) : Numbers → Notes → List (FnBlock × Nat) → List (Text × Nat)
  | _, _, [] => []
  | N, M, d :: ds => (d.1.html br restricted base N M, d.2) :: fnHtml br restricted base (d.1.numbers N) (d.1.notes M) ds

/-- The text of a document of such blocks, each with the number of newlines after it (two
more than given), and its HTML. -/
def fnSource (ds : List (FnBlock × Nat)) : Text := glue (ds.map (fun d => (d.1.source, d.2)))

def fnSeen (restricted : Bool) (ds : List (FnBlock × Nat)) : List (FnBlock × Nat) :=
  if restricted then ds.map (fun d => (d.1.escaped, d.2)) else ds

def fnDocHtml (br : Text) (restricted : Bool) (base : Text) (ds : List (FnBlock × Nat)) : Text :=
  glue (fnHtml br restricted base (fun _ => 1) ⟨[], 0⟩ (fnSeen restricted ds))

def fnMarks (ds : List (FnBlock × Nat)) : Nat := (ds.map (fun d => d.1.marks)).sum

/-- The footnotes that a block refers to. -/
def FnBlock.labels : FnBlock → List Text
  | .node _ => []
  | .para t => t.refs.map (·.1)
  | .styled _ _ t => t.refs.map (·.1)
  | .note _ _ t => t.refs.map (·.1)

/-- A link with the label of a footnote to an identifier, and the start of the element with
an identifier that is the footnote. -/
def linkTo (name label : Text) : Text := ['<', 'a', ' ', 'h', 'r', 'e', 'f', '=', '"', '#'] ++ (name ++ (['"', '>'] ++ (label ++ ['<', '/', 'a', '>'])))
def noteStart (name : Text) : Text :=
  ['<', 'p', ' ', 'c', 'l', 'a', 's', 's', '=', '"', 'f', 'o', 'o', 't', 'n', 'o', 't', 'e', '"', ' ', 'i', 'd', '=', '"'] ++ (name ++ ['"', '>'])

end Spec
