import Verif.SpecNotes

/-!
# Tables

Rows of cells written between bars.  A row can start a section of the table (`|^.`, `|-.` or `|~.`
on a line of its own); rows belong to the section started last.
-/

namespace Spec

inductive Sect where
  | head | body | foot

def Sect.mark : Sect → Char
  | .head => '^'
  | .body => '-'
  | .foot => '~'

def Sect.tag : Sect → Text
  | .head => ['t', 'h', 'e', 'a', 'd']
  | .body => ['t', 'b', 'o', 'd', 'y']
  | .foot => ['t', 'f', 'o', 'o', 't']

structure Cell where
  heading : Bool
  text : Text

def Cell.inside (c : Cell) : Text := (if c.heading then ['_', '.', ' '] else []) ++ c.text

def Cell.source (c : Cell) : Text := '|' :: c.inside

def Cell.tag (c : Cell) : Text := if c.heading then ['t', 'h'] else ['t', 'd']

def Cell.html (c : Cell) : Text := ['\n', '\t', '\t', '\t'] ++ elementWith c.tag [] c.text

/-- A row of cells, and the section that starts with it. -/
structure Row where
  sect : Option Sect
  cells : List Cell

/-- The lines of a row: that of the section, and the cells. -/
def Row.lines (r : Row) : List Text :=
  (match r.sect with | none => [] | some s => [['|', s.mark, '.']]) ++ [r.cells.flatMap Cell.source ++ ['|']]

def Row.html (r : Row) : Text := ['\n', '\t', '\t'] ++ elementWith ['t', 'r'] [] (r.cells.flatMap Cell.html ++ ['\n', '\t', '\t'])

def tableSource (rs : List Row) : Text := join ['\n'] (rs.flatMap Row.lines)

/-- The rows before the first section, and the sections. -/
def sections : List Row → List Row × List (Sect × List Row)
  | [] => ([], [])
  | r :: rs =>
    match r.sect with
    | none => (r :: (sections rs).1, (sections rs).2)
    | some s => ([], (s, r :: (sections rs).1) :: (sections rs).2)

def sectionHtml (s : Sect × List Row) : Text :=
  ['\n', '\t'] ++ elementWith s.1.tag [] (s.2.flatMap Row.html ++ ['\n', '\t'])

def tableTag : Text := ['t', 'a', 'b', 'l', 'e']

/-- The HTML of a table.  The rows before the first section come last. -/
def tableHtml (rs : List Row) : Text :=
  '\t' :: elementWith tableTag [] ((sections rs).2.flatMap sectionHtml ++ ((sections rs).1.flatMap Row.html ++ ['\n', '\t']))

/-- Words, which must not look like attributes of the cell. -/
structure Cell.Ok (upper : Char → Bool) (c : Cell) : Prop where
  words : Words upper c.text
  start : c.heading = false → ∀ x u, c.text = x :: u → x ≠ '.' ∧ x ≠ '/'

def TableOk (upper : Char → Bool) (rs : List Row) : Prop :=
  rs ≠ [] ∧ ∀ r ∈ rs, r.cells ≠ [] ∧ ∀ c ∈ r.cells, c.Ok upper

/-- The characters of the cells. -/
def tableChars (rs : List Row) : Text := rs.flatMap (fun r => r.cells.flatMap Cell.text)

/-- Tables and all other blocks. -/
inductive TbBlock where
  | other (b : FnBlock)
  | table (rs : List Row)

def TbBlock.source : TbBlock → Text
  | .other b => b.source
  | .table rs => tableSource rs

def TbBlock.escaped : TbBlock → TbBlock
  | .other b => .other b.escaped
  | b => b

def TbBlock.html (br : Text) (restricted : Bool) (base : Text) (N : Numbers) (M : Notes) : TbBlock → Text
  | .other b => b.html br restricted base N M
  | .table rs => tableHtml rs

def TbBlock.numbers (N : Numbers) : TbBlock → Numbers
  | .other b => b.numbers N
  | _ => N

def TbBlock.notes (M : Notes) : TbBlock → Notes
  | .other b => b.notes M
  | _ => M

def TbBlock.marks : TbBlock → Nat
  | .other b => b.marks
  | _ => 0

/-- The characters of list items and table cells. -/
def TbBlock.chars : TbBlock → Text
  | .other b => b.itemChars
  | .table rs => tableChars rs

def TbBlock.Resolved (R : Text → Text → Prop) (rel : Option Text) : TbBlock → Prop
  | .other b => b.Resolved R rel
  | _ => True

def TbBlock.Ok (upper digit : Char → Bool) (lite restricted : Bool) : TbBlock → Prop
  | .other b => b.Ok upper digit lite restricted
  | .table rs => lite = false ∧ TableOk upper rs

def tbHtml (br : Text) (restricted : Bool) (base : Text) : Numbers → Notes → List (TbBlock × Nat) → List (Text × Nat)
  | _, _, [] => []
  | N, M, d :: ds => (d.1.html br restricted base N M, d.2) :: tbHtml br restricted base (d.1.numbers N) (d.1.notes M) ds

/-- The text of a document of such blocks, each with the number of newlines after it (two
more than given), and its HTML. -/
def tbSource (ds : List (TbBlock × Nat)) : Text := glue (ds.map (fun d => (d.1.source, d.2)))

def tbSeen (restricted : Bool) (ds : List (TbBlock × Nat)) : List (TbBlock × Nat) :=
  if restricted then ds.map (fun d => (d.1.escaped, d.2)) else ds

def tbDocHtml (br : Text) (restricted : Bool) (base : Text) (ds : List (TbBlock × Nat)) : Text :=
  glue (tbHtml br restricted base (fun _ => 1) ⟨[], 0⟩ (tbSeen restricted ds))

def tbMarks (ds : List (TbBlock × Nat)) : Nat := (ds.map (fun d => d.1.marks)).sum

/-- The texts occur one after the other. -/
def InOrder : List Text → Text → Prop
  | [], _ => True
  | x :: xs, t => ∃ a b, t = a ++ (x ++ b) ∧ InOrder xs b

end Spec
