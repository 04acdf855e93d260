import Verif.SpecTables

/-!
# Typographic signs

Quotation marks, dashes, dots and signs in brackets that become the characters they stand for.
-/

namespace Spec

def isLetter (c : Char) : Bool := decide (65 ≤ c.toNat ∧ c.toNat ≤ 90) || decide (97 ≤ c.toNat ∧ c.toNat ≤ 122)
def isLowerLetter (c : Char) : Bool := decide (97 ≤ c.toNat ∧ c.toNat ≤ 122)
def isLetterOrDigit (c : Char) : Bool := isLetter c || isDecimal c

/-- What can be written in brackets. -/
inductive Mark where
  | trademark | registered | copyright | half | quarter | threeQuarters | degree | plusMinus
  deriving DecidableEq

/-- The letters can also be capitals, but not that of the degree. -/
def Mark.inside (capital : Bool) : Mark → Text
  | .trademark => if capital then ['T', 'M'] else ['t', 'm']
  | .registered => if capital then ['R'] else ['r']
  | .copyright => if capital then ['C'] else ['c']
  | .half => ['1', '/', '2']
  | .quarter => ['1', '/', '4']
  | .threeQuarters => ['3', '/', '4']
  | .degree => ['o']
  | .plusMinus => ['+', '/', '-']

def Mark.number : Mark → Text
  | .trademark => ['8', '4', '8', '2']
  | .registered => ['1', '7', '4']
  | .copyright => ['1', '6', '9']
  | .half => ['1', '8', '9']
  | .quarter => ['1', '8', '8']
  | .threeQuarters => ['1', '9', '0']
  | .degree => ['1', '7', '6']
  | .plusMinus => ['1', '7', '7']

inductive Sign where
  | apostrophe
  | openSingle
  | closeSingle
  | openDouble
  | closeDouble
  /-- An apostrophe before a number, as in the name of a decade. -/
  | decade (digits : Text)
  | ellipsis
  | ampersand
  /-- A character reference, which is left as it is. -/
  | entity (name : Text)
  | emDash
  | enDash
  | mark (square capital : Bool) (m : Mark)
  deriving DecidableEq

def Sign.source : Sign → Text
  | .apostrophe | .openSingle | .closeSingle => ['\'']
  | .openDouble | .closeDouble => ['"']
  | .decade ds => '\'' :: ds
  | .ellipsis => ['.', '.', '.']
  | .ampersand => ['&']
  | .entity name => '&' :: (name ++ [';'])
  | .emDash => ['-', '-']
  | .enDash => [' ', '-', ' ']
  | .mark sq cap m => (if sq then '[' else '(') :: (m.inside cap ++ [if sq then ']' else ')'])

/-- The reference to the character with a number. -/
def charRef (number : Text) : Text := '&' :: '#' :: (number ++ [';'])

def Sign.html : Sign → Text
  | .apostrophe | .closeSingle => charRef ['8', '2', '1', '7']
  | .openSingle => charRef ['8', '2', '1', '6']
  | .openDouble => charRef ['8', '2', '2', '0']
  | .closeDouble => charRef ['8', '2', '2', '1']
  | .decade ds => charRef ['8', '2', '1', '7'] ++ ds
  | .ellipsis => charRef ['8', '2', '3', '0']
  | .ampersand => ['&', 'a', 'm', 'p', ';']
  | .entity name => '&' :: (name ++ [';'])
  | .emDash => charRef ['8', '2', '1', '2']
  | .enDash => ' ' :: (charRef ['8', '2', '1', '1'] ++ [' '])
  | .mark _ _ m => charRef m.number

/-- The text is not the end of a multiplication. -/
def NoTimes (t : Text) : Prop := ∀ x u, x = 'x' ∨ x = 'X' → t ≠ x :: u ∧ t ≠ ' ' :: x :: u

/-- The text is empty or starts with one of the characters. -/
def StartsIn (l : Text) (t : Text) : Prop := ∀ c u, t = c :: u → c ∈ l

/-- Something is in front, which is not white space. -/
def Behind (p : Char → Prop) (before : Option Char) : Prop := ∃ c, before = some c ∧ p c

/-- When the sign is recognised between a character and a text. -/
def Sign.Fits (before : Option Char) (after : Text) : Sign → Prop
  | .apostrophe => Behind (isLetterOrDigit · = true) before ∧ NoTimes after ∧
      ∃ c u, after = c :: u ∧ isLetterOrDigit c = true ∧ ¬ ∃ d v, u = '\'' :: d :: v ∧ isLetterOrDigit d = true
  | .openSingle => (∀ c, before = some c → c = ' ' ∨ c = '\n') ∧
      ∃ c u, after = c :: u ∧ isLetter c = true ∧ u.head? ≠ some ' '
  | .openDouble => (∀ c, before = some c → c = ' ' ∨ c = '\n') ∧
      ∃ c u, after = c :: u ∧ isLetterOrDigit c = true ∧ u.head? ≠ some ' '
  | .closeSingle | .closeDouble => Behind (fun c => c ≠ ' ' ∧ c ≠ '\n') before ∧ StartsIn [' ', '\n', ',', '.', '/'] after ∧ NoTimes after
  | .decade ds => Behind (fun c => c = ' ' ∨ c = '\n') before ∧ 2 ≤ ds.length ∧ (∀ c ∈ ds, isDecimal c = true) ∧
      StartsIn [' ', '\n', ','] after ∧ NoTimes after
  | .ellipsis => before ≠ some '.' ∧ after.head? ≠ some '.'
  | .ampersand => True
  | .entity name => name ≠ [] ∧ ∀ c ∈ name, isLowerLetter c = true
  | .emDash => True
  | .enDash => Behind (· ≠ '\n') before ∧ ∃ c u, after = c :: u ∧ c ≠ '\n'
  | .mark sq _ m => NoTimes after ∧ (sq = true → ∀ c u, after = c :: u → isLowerLetter c = false ∧ c ≠ '/') ∧ (m = .trademark ∨ m = .registered ∨ m = .copyright →
      ∀ c, before = some c → c = ' ' ∨ c = '\n' ∨ isLetterOrDigit c = true)

/-- A text with signs, each with the text after it. -/
structure SgText where
  lead : Text
  parts : List (Sign × Text)

def partsSource (ps : List (Sign × Text)) : Text := ps.flatMap (fun p => p.1.source ++ p.2)
def partsHtml (ps : List (Sign × Text)) : Text := ps.flatMap (fun p => p.1.html ++ p.2)

def SgText.source (t : SgText) : Text := t.lead ++ partsSource t.parts
/-- The signs are replaced, and lines are broken where they were. -/
def SgText.html (br : Text) (t : SgText) : Text := breakLines br (t.lead ++ partsHtml t.parts)

def SgText.texts (t : SgText) : List Text := t.lead :: t.parts.map (·.2)

/-- Every sign is recognised, given the character before the first one. -/
def AllFit : Option Char → List (Sign × Text) → Prop
  | _, [] => True
  | before, p :: ps => p.1.Fits before (p.2 ++ partsSource ps) ∧ (ps ≠ [] → p.2 ≠ []) ∧ AllFit p.2.getLast? ps

structure SgText.Ok (upper : Char → Bool) (t : SgText) : Prop where
  texts : ∀ w ∈ t.texts, Prose upper w
  fit : AllFit t.lead.getLast? t.parts
  first : ∃ c u, t.source = c :: u ∧ c ≠ ' ' ∧ c ≠ '\n'
  last : ¬ EndsInSpace t.source

/-- Restricted mode escapes ampersands before anything else. -/
def Sign.escaped : Sign → Sign
  | .ampersand => .entity ['a', 'm', 'p']
  | s => s

def SgText.escaped (t : SgText) : SgText := ⟨t.lead, t.parts.map (fun p => (p.1.escaped, p.2))⟩

/-- There are no character references, which are escaped like any other text. -/
def SgText.Bare (t : SgText) : Prop := ∀ p ∈ t.parts, ∀ name, p.1 ≠ .entity name

/-- Paragraphs and headings with signs, and all other blocks. -/
inductive SgBlock where
  | other (b : TbBlock)
  | para (t : SgText)
  | styled (tag : Text) (a : Atts) (t : SgText)

def SgBlock.source : SgBlock → Text
  | .other b => b.source
  | .para t => t.source
  | .styled tag a t => tag ++ (a.source ++ (['.', ' '] ++ t.source))

def SgBlock.escaped : SgBlock → SgBlock
  | .other b => .other b.escaped
  | .para t => .para t.escaped
  | .styled tag a t => .styled tag a t.escaped

def SgBlock.html (br : Text) (restricted : Bool) (base : Text) (N : Numbers) (M : Notes) : SgBlock → Text
  | .other b => b.html br restricted base N M
  | .para t => elementWith ['p'] [] (t.html br)
  | .styled tag a t => elementWith tag (a.html restricted) (t.html br)

def SgBlock.numbers (N : Numbers) : SgBlock → Numbers
  | .other b => b.numbers N
  | _ => N

def SgBlock.notes (M : Notes) : SgBlock → Notes
  | .other b => b.notes M
  | _ => M

def SgBlock.marks : SgBlock → Nat
  | .other b => b.marks
  | _ => 0

def SgBlock.chars : SgBlock → Text
  | .other b => b.chars
  | _ => []

def SgBlock.Resolved (R : Text → Text → Prop) (rel : Option Text) : SgBlock → Prop
  | .other b => b.Resolved R rel
  | _ => True

def SgBlock.Ok (upper digit : Char → Bool) (lite restricted : Bool) : SgBlock → Prop
  | .other b => b.Ok upper digit lite restricted
  | .para t => t.Ok upper ∧ (restricted = true → t.Bare) ∧ NoBlockStart digit lite t.source ∧ ¬ notelistWord <+: t.lead
  | .styled tag a t => t.Ok upper ∧ (restricted = true → t.Bare) ∧ a.Ok ∧ a.Written restricted ∧ a.left = 0 ∧
      tag ∈ ['p'] :: (if lite then [] else [['h', '1'], ['h', '2'], ['h', '3'], ['h', '4'], ['h', '5'], ['h', '6']]) ∧
      (tag = ['p'] → ¬ notelistWord <+: t.lead)

def sgHtml (br : Text) (restricted : Bool) (base : Text) : Numbers → Notes → List (SgBlock × Nat) → List (Text × Nat)
  | _, _, [] => []
  | N, M, d :: ds => (d.1.html br restricted base N M, d.2) :: sgHtml br restricted base (d.1.numbers N) (d.1.notes M) ds

/-- The text of a document of such blocks, each with the number of newlines after it (two
more than given), and its HTML. -/
def sgSource (ds : List (SgBlock × Nat)) : Text := glue (ds.map (fun d => (d.1.source, d.2)))

def sgSeen (restricted : Bool) (ds : List (SgBlock × Nat)) : List (SgBlock × Nat) :=
  if restricted then ds.map (fun d => (d.1.escaped, d.2)) else ds

def sgDocHtml (br : Text) (restricted : Bool) (base : Text) (ds : List (SgBlock × Nat)) : Text :=
  glue (sgHtml br restricted base (fun _ => 1) ⟨[], 0⟩ (sgSeen restricted ds))

def sgMarks (ds : List (SgBlock × Nat)) : Nat := (ds.map (fun d => d.1.marks)).sum

end Spec
