import Verif.SpecAtts

/-!
# Lists, described without the parser

A list as a tree: what the author writes for it, and the HTML it should become.
-/

namespace Spec

/-- Kinds of lists: bullets; numbered from one; numbered from a given number; numbered,
going on where the last list with the same markers ended. -/
inductive ListKind where
  | bullets
  | numbers
  | numbersFrom (n : Nat)
  | numbersOn
  deriving DecidableEq

def ListKind.ordered : ListKind → Bool
  | .bullets => false
  | _ => true

/-- The marker of an item. -/
def ListKind.mark (k : ListKind) : Char := if k.ordered then '#' else '*'

/-- The name of the element. -/
def ListKind.name (k : ListKind) : Text := if k.ordered then ['o', 'l'] else ['u', 'l']

/-- What is written between the markers of the first item and its text. -/
def ListKind.suffix : ListKind → Text
  | .bullets => []
  | .numbers => []
  | .numbersFrom n => numeral n
  | .numbersOn => ['_']

/-- For the markers of a list, the number at which such a list goes on. -/
abbrev Numbers := Text → Nat

def Numbers.set (N : Numbers) (m : Text) (n : Nat) : Numbers := fun k => if k = m then n else N k

/-- At the beginning of a list. -/
def ListKind.start (k : ListKind) (m : Text) (N : Numbers) : Numbers :=
  match k with
  | .bullets => N
  | .numbers => N.set m 1
  | .numbersFrom n => N.set m n
  | .numbersOn => N

/-- The number at which a list starts if it says so or starts anew. -/
def ListKind.first : ListKind → Nat
  | .numbersFrom n => n
  | _ => 1

/-- Attributes of the element; `n` is the number of the first item. -/
def ListKind.attr (k : ListKind) (n : Nat) : Text :=
  match k with
  | .bullets => []
  | .numbers => []
  | .numbersFrom _ => [' ', 's', 't', 'a', 'r', 't', '=', '"'] ++ numeral n ++ ['"']
  | .numbersOn => [' ', 's', 't', 'a', 'r', 't', '=', '"'] ++ numeral n ++ ['"']

/-- The items of a list: texts, each possibly with a list below it (`sub`, which is of
kind `kind`; nothing below it if `sub` is `done`). -/
inductive Items where
  | done
  | item (text : Text) (kind : ListKind) (sub next : Items)
  deriving DecidableEq

def Items.isDone : Items → Bool
  | .done => true
  | _ => false

/-- Number of items, not counting those of the lists below. -/
def Items.count : Items → Nat
  | .done => 0
  | .item _ _ _ next => next.count + 1

/-- The lines of the source; `m` are the markers of the items, `s` follows those of the
first item. -/
def Items.lines (m s : Text) : Items → List Text
  | .done => []
  | .item t k sub next => (m ++ s ++ [' '] ++ t) :: (sub.lines (m ++ [k.mark]) k.suffix ++ next.lines m [])

/-- The depth of the last line; `acc` if there are none. -/
def Items.lastDepth (d acc : Nat) : Items → Nat
  | .done => acc
  | .item _ _ sub next => next.lastDepth d (sub.lastDepth (d + 1) d)

def tabs (n : Nat) : Text := List.replicate n '\t'

/-- The element around the items of a list of depth `d`; the closing tag is indented like
the last item in it. -/
def ListKind.around (k : ListKind) (d n last : Nat) (inside : Text) : Text :=
  tabs (d - 1) ++ ['<'] ++ k.name ++ k.attr n ++ ['>'] ++ inside ++
    ['\n'] ++ tabs (last - 1) ++ ['<', '/'] ++ k.name ++ ['>']

/-- The items in HTML, and the numbers after them. -/
def Items.html (ordered : Bool) (m : Text) (N : Numbers) : Items → Text × Numbers
  | .done => ([], N)
  | .item t k sub next =>
    let N1 := if ordered then N.set m (N m + 1) else N
    let m' := m ++ [k.mark]
    let N2 := if sub.isDone then N1 else k.start m' N1
    let below := sub.html k.ordered m' N2
    let inner := if sub.isDone then [] else
      ['\n'] ++ k.around (m.length + 1) (N2 m') (sub.lastDepth (m.length + 1) (m.length + 1)) below.1
    let rest := next.html ordered m below.2
    (['\n'] ++ tabs m.length ++ ['<', 'l', 'i', '>'] ++ t ++ inner ++ ['<', '/', 'l', 'i', '>'] ++ rest.1, rest.2)

/-- A list that is a block of its own: source, HTML, and numbers after it. -/
def listSource (k : ListKind) (t : Items) : Text := join ['\n'] (t.lines [k.mark] k.suffix)

def listHtml (k : ListKind) (t : Items) (N : Numbers) : Text :=
  k.around 1 (k.start [k.mark] N [k.mark]) (t.lastDepth 1 1) (t.html k.ordered [k.mark] (k.start [k.mark] N)).1

def listNumbers (k : ListKind) (t : Items) (N : Numbers) : Numbers :=
  (t.html k.ordered [k.mark] (k.start [k.mark] N)).2

/-- A list can start with any number; the bound leaves room for counting (machine words). -/
def ListKind.Ok : ListKind → Prop
  | .numbersFrom n => n < 2 ^ 63
  | _ => True

/-- The text of an item: one line of ordinary text, with no blanks around it. -/
structure ItemText (upper : Char → Bool) (t : Text) : Prop extends Words upper t where
  first : ∃ c u, t = c :: u ∧ c ≠ ' '
  last : ∃ u c, t = u ++ [c] ∧ c ≠ ' '

def Items.Ok (upper : Char → Bool) : Items → Prop
  | .done => True
  | .item t k sub next => ItemText upper t ∧ k.Ok ∧ sub.Ok upper ∧ next.Ok upper

/-- The characters of the texts. -/
def Items.chars : Items → Text
  | .done => []
  | .item t _ sub next => t ++ (sub.chars ++ next.chars)

/-! ## Documents with lists -/

/-- Blocks: paragraphs, headings and quotations with inline markup; lists. -/
inductive Piece where
  | rich (b : Rich)
  | list (k : ListKind) (t : Items)

def Piece.source : Piece → Text
  | .rich b => b.source
  | .list k t => listSource k t

/-- What becomes of it when the source is escaped; there is nothing to escape in lists. -/
def Piece.escaped : Piece → Piece
  | .rich b => .rich b.escaped
  | .list k t => .list k t

/-- The HTML of a block, given the numbers at which lists go on. -/
def Piece.html (br : Text) (N : Numbers) : Piece → Text
  | .rich b => b.html br
  | .list k t => listHtml k t N

def Piece.numbers (N : Numbers) : Piece → Numbers
  | .rich _ => N
  | .list k t => listNumbers k t N

/-- Is the block a numbered list? -/
def Piece.numbered : Piece → Bool
  | .list k _ => k.ordered
  | _ => false

/-- There are no lists in lite mode. -/
def Piece.Ok (upper digit : Char → Bool) (lite : Bool) : Piece → Prop
  | .rich b => b.Ok upper digit lite
  | .list k t => lite = false ∧ k.Ok ∧ t ≠ .done ∧ t.Ok upper

/-- Links lead where `R` says, and have this relation. -/
def Piece.Resolved (R : Text → Text → Prop) (rel : Option Text) : Piece → Prop
  | .rich b => b.body.Resolved R rel
  | .list _ _ => True

/-- The characters of the items of a list. -/
def Piece.itemChars : Piece → Text
  | .rich _ => []
  | .list _ t => t.chars

/-- The number of inline elements. -/
def Piece.marks : Piece → Nat
  | .rich b => b.body.parts.length
  | .list _ _ => 0

def pieceHtml (br : Text) : Numbers → List (Piece × Nat) → List (Text × Nat)
  | _, [] => []
  | N, d :: ds => (d.1.html br N, d.2) :: pieceHtml br (d.1.numbers N) ds

/-- The text of a document of such blocks, each with the number of newlines after it (two
more than given), and its HTML. -/
def docSource (ds : List (Piece × Nat)) : Text := glue (ds.map (fun d => (d.1.source, d.2)))

/-- What becomes of a document when its source is escaped; restricted mode does that first. -/
def docEscaped (ds : List (Piece × Nat)) : List (Piece × Nat) := ds.map (fun d => (d.1.escaped, d.2))

def docSeen (restricted : Bool) (ds : List (Piece × Nat)) : List (Piece × Nat) := if restricted then docEscaped ds else ds

def docHtml (br : Text) (ds : List (Piece × Nat)) : Text := glue (pieceHtml br (fun _ => 1) ds)

def docMarks (ds : List (Piece × Nat)) : Nat := (ds.map (fun d => d.1.marks)).sum

end Spec
