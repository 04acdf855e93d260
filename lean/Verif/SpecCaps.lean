import Verif.SpecDefs

/-!
# Words in capitals

Words in capitals get an element of their own, and acronyms also an explanation, as in
`HTML(Hypertext markup language)`.
-/

namespace Spec

def isCapital (c : Char) : Bool := decide (65 ≤ c.toNat ∧ c.toNat ≤ 90)

/-- A word in capitals, with lower-case letters after it or with an explanation. -/
inductive Caps where
  | word (w tail : Text)
  | acronym (w title : Text)

def Caps.source : Caps → Text
  | .word w tail => w ++ tail
  | .acronym w title => w ++ '(' :: (title ++ [')'])

def capsTag : Text := ['s', 'p', 'a', 'n']
def capsClass : Text := [' ', 'c', 'l', 'a', 's', 's', '=', '"', 'c', 'a', 'p', 's', '"']
def acronymTag (html5 : Bool) : Text := if html5 then ['a', 'b', 'b', 'r'] else ['a', 'c', 'r', 'o', 'n', 'y', 'm']
def titleStart : Text := [' ', 't', 'i', 't', 'l', 'e', '=', '"']

def Caps.html (html5 : Bool) : Caps → Text
  | .word w tail => elementWith capsTag capsClass w ++ tail
  | .acronym w title => elementWith (acronymTag html5) (titleStart ++ (title ++ ['"'])) (elementWith capsTag capsClass w)

/-- At least three capitals; the explanation is long enough not to be a sign as `(TM)` or `(1/2)`. -/
def Caps.Ok (after : Text) : Caps → Prop
  | .word w tail => 3 ≤ w.length ∧ (∀ c ∈ w, isCapital c = true) ∧ (∀ c ∈ tail, isLowerLetter c = true) ∧
      StartsIn [' ', '\n', ',', '.', '/'] after
  | .acronym w title => 3 ≤ w.length ∧ (∀ c ∈ w, isCapital c = true) ∧ 4 ≤ title.length ∧ ∀ c ∈ title, ordinaryChar c = true

/-- A text with words in capitals, each with the text after it. -/
structure CapText where
  lead : Text
  parts : List (Caps × Text)

def capSource (ps : List (Caps × Text)) : Text := ps.flatMap (fun p => p.1.source ++ p.2)
def capHtml (html5 : Bool) (ps : List (Caps × Text)) : Text := ps.flatMap (fun p => p.1.html html5 ++ p.2)

def CapText.source (t : CapText) : Text := t.lead ++ capSource t.parts
def CapText.html (html5 : Bool) (br : Text) (t : CapText) : Text := breakLines br (t.lead ++ capHtml html5 t.parts)

/-- White space is before each of the words. -/
def AllApart : List (Caps × Text) → Prop
  | [] => True
  | p :: ps => p.1.Ok p.2 ∧ (ps ≠ [] → EndsInSpace p.2) ∧ AllApart ps

structure CapText.Ok (upper : Char → Bool) (t : CapText) : Prop where
  lead : Prose upper t.lead
  texts : ∀ p ∈ t.parts, Prose upper p.2
  apart : AllApart t.parts
  start : t.parts ≠ [] → t.lead = [] ∨ EndsInSpace t.lead
  dots : ∀ a b, t.source ≠ a ++ '.' :: '.' :: '.' :: b
  /-- No multiplication, as in `3 x`, not even behind a bracket. -/
  dims : ∀ a d e b, isDecimal d = true → e = [] ∨ e = [')'] →
    ∀ x, x = 'x' ∨ x = 'X' → t.source ≠ a ++ d :: (e ++ x :: b) ∧ t.source ≠ a ++ d :: (e ++ ' ' :: x :: b)
  first : ∃ c u, t.source = c :: u ∧ c ≠ ' ' ∧ c ≠ '\n'
  last : ¬ EndsInSpace t.source

/-- Paragraphs, headings with words in capitals, and all other blocks. -/
inductive CapBlock where
  | other (b : DlBlock)
  | para (t : CapText)
  | styled (tag : Text) (a : Atts) (t : CapText)

def CapBlock.source : CapBlock → Text
  | .other b => b.source
  | .para t => t.source
  | .styled tag a t => tag ++ (a.source ++ (['.', ' '] ++ t.source))

def CapBlock.html (html5 : Bool) (br : Text) (restricted asClass : Bool) (base : Text) (N : Numbers) (M : Notes) : CapBlock → Text
  | .other b => b.html br restricted asClass base N M
  | .para t => elementWith ['p'] [] (t.html html5 br)
  | .styled tag a t => elementWith tag (a.html restricted) (t.html html5 br)

def CapBlock.numbers (N : Numbers) (restricted : Bool) : CapBlock → Numbers
  | .other b => b.numbers N restricted
  | _ => N

def CapBlock.notes (M : Notes) (restricted : Bool) : CapBlock → Notes
  | .other b => b.notes M restricted
  | _ => M

def CapBlock.marks : CapBlock → Nat
  | .other b => b.marks
  | _ => 0

def CapBlock.chars : CapBlock → Text
  | .other b => b.chars
  | _ => []

def CapBlock.Resolved (R L : Text → Text → Prop) (rel : Option Text) : CapBlock → Prop
  | .other b => b.Resolved R L rel
  | _ => True

def CapBlock.Ok (upper digit : Char → Bool) (lite restricted : Bool) : CapBlock → Prop
  | .other b => b.Ok upper digit lite restricted
  | .para t => t.Ok upper ∧ NoBlockStart digit lite t.source ∧ ¬ notelistWord <+: t.lead
  | .styled tag a t => t.Ok upper ∧ a.Ok ∧ a.Written restricted ∧ a.left = 0 ∧
      tag ∈ ['p'] :: (if lite then [] else [['h', '1'], ['h', '2'], ['h', '3'], ['h', '4'], ['h', '5'], ['h', '6']]) ∧
      (tag = ['p'] → ¬ notelistWord <+: t.lead)

def capsHtml (html5 : Bool) (br : Text) (restricted asClass : Bool) (base : Text) : Numbers → Notes → List (CapBlock × Nat) → List (Text × Nat)
  | _, _, [] => []
  | N, M, d :: ds => (d.1.html html5 br restricted asClass base N M, d.2) ::
      capsHtml html5 br restricted asClass base (d.1.numbers N restricted) (d.1.notes M restricted) ds

/-- The text of a document of such blocks, each with the number of newlines after it (two
more than given), and its HTML. -/
def capsSource (ds : List (CapBlock × Nat)) : Text := glue (ds.map (fun d => (d.1.source, d.2)))

def capsDocHtml (html5 : Bool) (br : Text) (restricted asClass : Bool) (base : Text) (ds : List (CapBlock × Nat)) : Text :=
  glue (capsHtml html5 br restricted asClass base (fun _ => 1) ⟨[], 0⟩ ds)

def capsMarks (ds : List (CapBlock × Nat)) : Nat := (ds.map (fun d => d.1.marks)).sum

end Spec
