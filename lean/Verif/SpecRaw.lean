import Verif.SpecAnchors

/-!
# HTML rules and images on lines of their own, and indented texts

HTML tags of rules and images are kept as they are.  A text that starts with a space is not put
into a paragraph, and its lines are not broken.
-/

namespace Spec

/-- An HTML tag of a rule or an image: the name, and what is between it and the final bracket. -/
structure RawTag where
  name : Text
  rest : Text

def RawTag.source (t : RawTag) : Text := '<' :: (t.name ++ (t.rest ++ ['>']))

structure RawTag.Ok (t : RawTag) : Prop where
  name : t.name = ['h', 'r'] ∨ t.name = ['i', 'm', 'g']
  rest : t.rest = [] ∨ t.rest = ['/'] ∨ ∃ u, t.rest = ' ' :: u
  chars : ∀ c ∈ t.rest, c ≠ '<' ∧ c ≠ '>' ∧ c ≠ '\n' ∧ c ≠ '\r'

def rawSource (ts : List RawTag) : Text := ts.flatMap RawTag.source

/-- The HTML of a text with links whose newlines are kept. -/
def AnText.flat (restricted : Bool) (t : AnText) : Text := t.lead ++ t.parts.flatMap (fun p => p.1.html restricted ++ p.2)

/-- Rules and images, indented texts with links, and all other blocks. -/
inductive RawBlock where
  | other (b : AnBlock)
  | rule (ts : List RawTag)
  | indented (t : AnText)

def RawBlock.source : RawBlock → Text
  | .other b => b.source
  | .rule ts => rawSource ts
  | .indented t => t.source

def RawBlock.html (html5 : Bool) (br : Text) (restricted asClass : Bool) (base : Text) (N : Numbers) (M : Notes) : RawBlock → Text
  | .other b => b.html html5 br restricted asClass base N M
  | .rule ts => rawSource ts
  | .indented t => t.flat restricted

def RawBlock.numbers (N : Numbers) (restricted : Bool) : RawBlock → Numbers
  | .other b => b.numbers N restricted
  | _ => N

def RawBlock.notes (M : Notes) (restricted : Bool) : RawBlock → Notes
  | .other b => b.notes M restricted
  | _ => M

def RawBlock.marks : RawBlock → Nat
  | .other b => b.marks
  | .rule _ => 1
  | .indented t => t.marks

def RawBlock.chars : RawBlock → Text
  | .other b => b.chars
  | _ => []

def RawBlock.Resolved (R L : Text → Text → Prop) (A : Text → Prop) (rel : Option Text) : RawBlock → Prop
  | .other b => b.Resolved R L A rel
  | .rule _ => True
  | .indented t => t.Resolved R A rel

/-- In restricted mode tags are shown as text. -/
def RawBlock.Ok (upper digit : Char → Bool) (lite restricted : Bool) : RawBlock → Prop
  | .other b => b.Ok upper digit lite restricted
  | .rule ts => ts ≠ [] ∧ (∀ t ∈ ts, t.Ok) ∧ restricted = false
  | .indented t => t.Ok upper ∧ ∃ n c u, t.source = ' ' :: (List.replicate n ' ' ++ c :: u) ∧ c ≠ ' ' ∧ c ≠ '\n'

def rawHtml (html5 : Bool) (br : Text) (restricted asClass : Bool) (base : Text) : Numbers → Notes → List (RawBlock × Nat) → List (Text × Nat)
  | _, _, [] => []
  | N, M, d :: ds => (d.1.html html5 br restricted asClass base N M, d.2) ::
      rawHtml html5 br restricted asClass base (d.1.numbers N restricted) (d.1.notes M restricted) ds

/-- The text of a document of such blocks, each with the number of newlines after it (two
more than given), and its HTML. -/
def rawDocSource (ds : List (RawBlock × Nat)) : Text := glue (ds.map (fun d => (d.1.source, d.2)))

def rawDocHtml (html5 : Bool) (br : Text) (restricted asClass : Bool) (base : Text) (ds : List (RawBlock × Nat)) : Text :=
  glue (rawHtml html5 br restricted asClass base (fun _ => 1) ⟨[], 0⟩ ds)

def rawMarks (ds : List (RawBlock × Nat)) : Nat := (ds.map (fun d => d.1.marks)).sum

end Spec
