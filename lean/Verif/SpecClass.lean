import Verif.SpecCaps

/-!
# Marked parts with classes

A class and an id can be given to a marked part, as in `*(name#id)text*`.
-/

namespace Spec

/-- A marked part, the class and the id given to it, and the text after it. -/
structure ClassPart where
  marker : Text
  group : Option (Text × Option Text)
  text : Text
  after : Text

def ClassPart.atts (p : ClassPart) : Atts :=
  { groups := match p.group with | none => [] | some (n, i) => [.classes n i] }

def ClassPart.source (p : ClassPart) : Text := p.marker ++ (p.atts.source ++ (p.text ++ p.marker))

def ClassPart.html (restricted : Bool) (p : ClassPart) : Text :=
  elementWith (inlineElement p.marker) (p.atts.html restricted) p.text

/-- A text with such parts. -/
structure ClassText where
  lead : Text
  parts : List ClassPart

def ClassText.source (t : ClassText) : Text := t.lead ++ t.parts.flatMap (fun p => p.source ++ p.after)

def ClassText.html (br : Text) (restricted : Bool) (t : ClassText) : Text :=
  breakLines br t.lead ++ t.parts.flatMap (fun p => p.html restricted ++ breakLines br p.after)

/-- The same text without the classes. -/
def ClassText.plain (t : ClassText) : Marked := ⟨t.lead, t.parts.map (fun p => ⟨.marked p.marker p.text, p.after⟩)⟩

/-- Letters and digits, and spaces between the names of classes. -/
def GroupOk (n : Text) (i : Option Text) : Prop :=
  (n = [] → i ≠ none) ∧ (∀ c ∈ n, isLetterOrDigit c = true ∨ c = ' ') ∧ ∀ j, i = some j → j ≠ [] ∧ ∀ c ∈ j, isLetterOrDigit c = true

structure ClassText.Ok (upper : Char → Bool) (lite : Bool) (t : ClassText) : Prop where
  plain : t.plain.Ok upper lite
  groups : ∀ p ∈ t.parts, ∀ n i, p.group = some (n, i) → GroupOk n i

/-- Paragraphs and headings with such parts, and all other blocks. -/
inductive ClassBlock where
  | other (b : CapBlock)
  | para (t : ClassText)
  | styled (tag : Text) (a : Atts) (t : ClassText)

def ClassBlock.source : ClassBlock → Text
  | .other b => b.source
  | .para t => t.source
  | .styled tag a t => tag ++ (a.source ++ (['.', ' '] ++ t.source))

def ClassBlock.html (html5 : Bool) (br : Text) (restricted asClass : Bool) (base : Text) (N : Numbers) (M : Notes) : ClassBlock → Text
  | .other b => b.html html5 br restricted asClass base N M
  | .para t => elementWith ['p'] [] (t.html br restricted)
  | .styled tag a t => elementWith tag (a.html restricted) (t.html br restricted)

def ClassBlock.numbers (N : Numbers) (restricted : Bool) : ClassBlock → Numbers
  | .other b => b.numbers N restricted
  | _ => N

def ClassBlock.notes (M : Notes) (restricted : Bool) : ClassBlock → Notes
  | .other b => b.notes M restricted
  | _ => M

def ClassBlock.marks : ClassBlock → Nat
  | .other b => b.marks
  | .para t => t.parts.length
  | .styled _ _ t => t.parts.length

def ClassBlock.chars : ClassBlock → Text
  | .other b => b.chars
  | _ => []

def ClassBlock.Resolved (R L : Text → Text → Prop) (rel : Option Text) : ClassBlock → Prop
  | .other b => b.Resolved R L rel
  | _ => True

def ClassBlock.Ok (upper digit : Char → Bool) (lite restricted : Bool) : ClassBlock → Prop
  | .other b => b.Ok upper digit lite restricted
  | .para t => t.Ok upper lite ∧ NoBlockStart digit lite t.source ∧ ¬ notelistWord <+: t.lead
  | .styled tag a t => t.Ok upper lite ∧ a.Ok ∧ a.Written restricted ∧ a.left = 0 ∧
      tag ∈ ['p'] :: (if lite then [] else [['h', '1'], ['h', '2'], ['h', '3'], ['h', '4'], ['h', '5'], ['h', '6']]) ∧
      (tag = ['p'] → ¬ notelistWord <+: t.lead)

def classHtml (html5 : Bool) (br : Text) (restricted asClass : Bool) (base : Text) : Numbers → Notes → List (ClassBlock × Nat) → List (Text × Nat)
  | _, _, [] => []
  | N, M, d :: ds => (d.1.html html5 br restricted asClass base N M, d.2) ::
      classHtml html5 br restricted asClass base (d.1.numbers N restricted) (d.1.notes M restricted) ds

/-- The text of a document of such blocks, each with the number of newlines after it (two
more than given), and its HTML. -/
def classSource (ds : List (ClassBlock × Nat)) : Text := glue (ds.map (fun d => (d.1.source, d.2)))

def classDocHtml (html5 : Bool) (br : Text) (restricted asClass : Bool) (base : Text) (ds : List (ClassBlock × Nat)) : Text :=
  glue (classHtml html5 br restricted asClass base (fun _ => 1) ⟨[], 0⟩ ds)

def classMarks (ds : List (ClassBlock × Nat)) : Nat := (ds.map (fun d => d.1.marks)).sum

end Spec
