import Verif.SpecImages

/-!
# Extended blocks

Blocks with two full stops after the tag, as in `bc.. text`.  The blocks that follow belong to
them, up to the next one that starts with a tag, or to the end of the document.
-/

namespace Spec

/-- A text with the texts that follow it, each with the number of newlines before it (two more than given);
`k` is the number of newlines after the last. -/
def chain (x : Text) : List (Nat × Text) → Nat → List (Text × Nat)
  | [], k => [(x, k)]
  | p :: ps, k => (x, p.1) :: chain p.2 ps k

/-- Words that can start a block. -/
def blockNames (lite : Bool) : List Text :=
  if lite then [['b', 'q'], ['b', 'c'], ['p']]
  else [['b', 'q'], ['b', 'c'], ['n', 'o', 't', 'e', 'x', 't', 'i', 'l', 'e'], ['p', 'r', 'e'], ['p'], ['#', '#', '#'],
    ['h', '1'], ['h', '2'], ['h', '3'], ['h', '4'], ['h', '5'], ['h', '6']]

/-- A text that starts with such a word, with attributes, a full stop and a space. -/
def Headed (lite restricted : Bool) (t : Text) : Prop :=
  ∃ tag a r, tag ∈ blockNames lite ∧ Atts.Ok a ∧ a.Written restricted ∧ a.Before r ∧ t = tag ++ (a.source ++ (['.', ' '] ++ r))

/-- A block of a document, or an extended block with all the texts that belong to it. -/
inductive ExItem where
  | one (b : ImBlock)
  /-- `bc`, `pre`, `notextile` -/
  | verbatim (tag : Text) (a : Atts) (ls : List Text) (more : List (Nat × List Text))
  /-- paragraphs and headings -/
  | styled (tag : Text) (a : Atts) (t : Marked) (more : List (Nat × Marked))
  /-- quotations -/
  | quoted (a : Atts) (t : Marked) (more : List (Nat × Marked))

def linesOf (more : List (Nat × List Text)) : List (Nat × Text) := more.map (fun p => (p.1, join ['\n'] p.2))

def sourcesOf (more : List (Nat × Marked)) : List (Nat × Text) := more.map (fun p => (p.1, p.2.source))

/-- The texts of the source, with the number of newlines after each. -/
def ExItem.pieces (k : Nat) : ExItem → List (Text × Nat)
  | .one b => [(b.source, k)]
  | .verbatim tag a ls more => chain (tag ++ (a.source ++ (['.', '.', ' '] ++ join ['\n'] ls))) (linesOf more) k
  | .styled tag a t more => chain (tag ++ (a.source ++ (['.', '.', ' '] ++ t.source))) (sourcesOf more) k
  | .quoted a t more => chain (['b', 'q'] ++ (a.source ++ (['.', '.', ' '] ++ t.source))) (sourcesOf more) k

/-- The texts in a verbatim block, with all newlines between them. -/
def verbatimText (ls : List Text) (more : List (Nat × List Text)) : Text := glue (chain (join ['\n'] ls) (linesOf more) 0)

def escapedLines (restricted : Bool) (ls : List Text) : List Text := if restricted then ls.map (escape false) else ls

def escapedMore (restricted : Bool) (more : List (Nat × List Text)) : List (Nat × List Text) :=
  if restricted then more.map (fun p => (p.1, p.2.map (escape false))) else more

def Marked.seen (restricted : Bool) (t : Marked) : Marked := if restricted then t.escaped else t

/-- The HTML of texts in elements of the same kind. -/
def elementsOf (tag atts br : Text) (restricted : Bool) (more : List (Nat × Marked)) : List (Nat × Text) :=
  more.map (fun p => (p.1, elementWith tag atts ((p.2.seen restricted).html br)))

def ExItem.html (br : Text) (restricted asClass : Bool) (base : Text) (N : Numbers) (M : Notes) : ExItem → Text
  | .one b => b.html br restricted asClass base N M
  | .verbatim tag a ls more =>
    let text := verbatimText (escapedLines restricted ls) (escapedMore restricted more)
    if tag = ['b', 'c'] then
      elementWith ['p', 'r', 'e'] (a.noLang.html restricted)
        (elementWith ['c', 'o', 'd', 'e'] (attr ['c', 'l', 'a', 's', 's'] a.language) (escape true text))
    else if tag = ['p', 'r', 'e'] then elementWith ['p', 'r', 'e'] (a.html restricted) (escape true text)
    else text
  | .styled tag a t more =>
    glue (chain (elementWith tag (a.html restricted) ((t.seen restricted).html br)) (elementsOf tag (a.html restricted) br restricted more) 0)
  | .quoted a t more =>
    elementWith ['b', 'l', 'o', 'c', 'k', 'q', 'u', 'o', 't', 'e'] (a.html restricted)
      (['\n', '\t'] ++ (glue (chain (elementWith ['p'] (a.html restricted) ((t.seen restricted).html br))
        ((elementsOf ['p'] (a.html restricted) br restricted more).map (fun p => (p.1, '\t' :: p.2))) 0) ++ ['\n']))

def ExItem.numbers (N : Numbers) (restricted : Bool) : ExItem → Numbers
  | .one b => b.numbers N restricted
  | _ => N

def ExItem.notes (M : Notes) (restricted : Bool) : ExItem → Notes
  | .one b => b.notes M restricted
  | _ => M

/-- How many placeholders are needed at most, in pairs. -/
def ExItem.marks : ExItem → Nat
  | .one b => b.marks
  | .verbatim _ _ _ more => 1 + more.length
  | .styled _ _ t more | .quoted _ t more => t.parts.length + (more.map (fun p => p.2.parts.length)).sum

def ExItem.chars : ExItem → Text
  | .one b => b.chars
  | _ => []

def ExItem.Resolved (R L : Text → Text → Prop) (rel : Option Text) : ExItem → Prop
  | .one b => b.Resolved R L rel
  | .verbatim _ _ _ _ => True
  | .styled _ _ t more | .quoted _ t more => t.Resolved R rel ∧ ∀ p ∈ more, p.2.Resolved R rel

/-- Lines that are not empty, the first one of which does not start with a tag. -/
def Continues (digit : Char → Bool) (lite : Bool) (ls : List Text) : Prop :=
  ls ≠ [] ∧ (∀ l ∈ ls, RawLine l) ∧ (∃ l ∈ ls, ∃ c ∈ l, isSpace c = false) ∧ NoBlockStart digit lite (join ['\n'] ls)

def ExItem.Ok (upper digit : Char → Bool) (lite restricted : Bool) : ExItem → Prop
  | .one b => b.Ok upper digit lite restricted
  | .verbatim tag a ls more => (Node.verbatim tag a ls).Ok upper digit lite restricted ∧
      ∀ p ∈ more, Continues digit lite p.2 ∧ (tag = ['n', 'o', 't', 'e', 'x', 't', 'i', 'l', 'e'] → Untouched p.2)
  | .styled tag a t more => (Node.styled tag a t).Ok upper digit lite restricted ∧
      ∀ p ∈ more, p.2.Ok upper lite ∧ NoBlockStart digit lite p.2.source ∧ (tag = ['p'] → ¬ notelistWord <+: p.2.source)
  | .quoted a t more => (Node.quoted a t).Ok upper digit lite restricted ∧
      ∀ p ∈ more, p.2.Ok upper lite ∧ NoBlockStart digit lite p.2.source ∧ ¬ notelistWord <+: p.2.source

def ExItem.extended : ExItem → Bool
  | .one _ => false
  | _ => true

/-- It ends an extended block before it. -/
def ExItem.Ends (lite restricted : Bool) : ExItem → Prop
  | .one b => Headed lite restricted b.source
  | _ => True

/-- After an extended block comes one with a tag, if any. -/
def Ended (lite restricted : Bool) : List (ExItem × Nat) → Prop
  | [] => True
  | [_] => True
  | d :: e :: ds => (d.1.extended = true → e.1.Ends lite restricted) ∧ Ended lite restricted (e :: ds)

def exHtml (br : Text) (restricted asClass : Bool) (base : Text) : Numbers → Notes → List (ExItem × Nat) → List (Text × Nat)
  | _, _, [] => []
  | N, M, d :: ds => (d.1.html br restricted asClass base N M, d.2) ::
      exHtml br restricted asClass base (d.1.numbers N restricted) (d.1.notes M restricted) ds

/-- The text of a document, each item with the number of newlines after it (two more than given), and its HTML. -/
def exSource (ds : List (ExItem × Nat)) : Text := glue (ds.flatMap (fun d => d.1.pieces d.2))

def exDocHtml (br : Text) (restricted asClass : Bool) (base : Text) (ds : List (ExItem × Nat)) : Text :=
  glue (exHtml br restricted asClass base (fun _ => 1) ⟨[], 0⟩ ds)

def exMarks (ds : List (ExItem × Nat)) : Nat := (ds.map (fun d => d.1.marks)).sum

end Spec
