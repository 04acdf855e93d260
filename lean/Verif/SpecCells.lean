import Verif.SpecImages

/-!
# Tables with attributes

Attributes of a table, of its caption, sections, rows and cells, as in `|_\2=(big#a)[en]. text|`.
-/

namespace Spec

inductive VAlign where
  | top | middle | bottom

def VAlign.mark : VAlign → Char
  | .top => '^'
  | .middle => '-'
  | .bottom => '~'

def VAlign.word : VAlign → Text
  | .top => ['t', 'o', 'p']
  | .middle => ['m', 'i', 'd', 'd', 'l', 'e']
  | .bottom => ['b', 'o', 't', 't', 'o', 'm']

/-- Vertical and horizontal alignment, classes with an identifier, and a language. -/
structure Look where
  valign : Option VAlign := none
  align : Option Align := none
  cls : Option (Text × Option Text) := none
  lang : Option Text := none

/-- The attributes besides the vertical alignment. -/
def Look.atts (k : Look) : Atts where
  align := k.align
  groups := (match k.cls with | none => [] | some p => [.classes p.1 p.2]) ++ (match k.lang with | none => [] | some l => [.lang l])

def Look.source (k : Look) : Text := (match k.valign with | none => [] | some v => [v.mark]) ++ k.atts.source

/-- Letters and digits. -/
def Alnum (c : Char) : Prop := ('a' ≤ c ∧ c ≤ 'z') ∨ ('A' ≤ c ∧ c ≤ 'Z') ∨ ('0' ≤ c ∧ c ≤ '9')

/-- Names of letters and digits.  In restricted mode only centring survives the escaping. -/
structure Look.Ok (restricted : Bool) (k : Look) : Prop where
  cls : ∀ p, k.cls = some p → (p.1 = [] → p.2 ≠ none) ∧ (∀ c ∈ p.1, Alnum c ∨ c = ' ') ∧ ∀ j, p.2 = some j → j ≠ [] ∧ ∀ c ∈ j, Alnum c
  lang : ∀ l, k.lang = some l → l ≠ [] ∧ ∀ c ∈ l, Alnum c
  align : restricted = true → k.align = none ∨ k.align = some .center

/-- The HTML attributes, with the numbers of columns and rows of a cell; `v` tells whether the
vertical alignment has an effect. -/
def Look.html (restricted v : Bool) (cols rows : Option Nat) (k : Look) : Text :=
  let style := (if v then (match k.valign with | none => [] | some x => [verticalAlign ++ x.word]) else []) ++
    (match k.align with | none => [] | some x => [textAlign ++ x.word])
  attr ['c', 'l', 'a', 's', 's'] (if restricted then none else k.atts.cls) ++
  (attr ['c', 'o', 'l', 's', 'p', 'a', 'n'] (cols.map numeral) ++
  (attr ['i', 'd'] (if restricted then none else k.atts.id) ++
  (attr ['l', 'a', 'n', 'g'] k.lang ++
  (attr ['r', 'o', 'w', 's', 'p', 'a', 'n'] (rows.map numeral) ++
  attr ['s', 't', 'y', 'l', 'e'] (if style = [] then none else some (join [';', ' '] style ++ [';']))))))

/-- A cell, with the numbers of columns and rows it spans. -/
structure TCell where
  heading : Bool := false
  cols : Option Nat := none
  rows : Option Nat := none
  look : Look := {}
  text : Text

/-- What stands before the vertical alignment. -/
def TCell.before (c : TCell) : Text :=
  (if c.heading then ['_'] else []) ++
  ((match c.cols with | none => [] | some n => '\\' :: numeral n) ++ (match c.rows with | none => [] | some n => '/' :: numeral n))

def TCell.marks (c : TCell) : Text := c.before ++ c.look.source

def TCell.inside (c : TCell) : Text := if c.marks = [] then c.text else c.marks ++ (['.', ' '] ++ c.text)

def TCell.source (c : TCell) : Text := '|' :: c.inside

def TCell.tag (c : TCell) : Text := if c.heading then ['t', 'h'] else ['t', 'd']

/-- The vertical alignment has an effect if nothing stands before it. -/
def TCell.html (restricted : Bool) (c : TCell) : Text :=
  ['\n', '\t', '\t', '\t'] ++ elementWith c.tag (c.look.html restricted (c.before = []) c.cols c.rows) c.text

/-- A row, and the section that starts with it. -/
structure TRow where
  sect : Option (Sect × Look) := none
  look : Look := {}
  cells : List TCell

def TRow.line (r : TRow) : Text :=
  (if r.look.source = [] then [] else r.look.source ++ ['.', ' ']) ++ (r.cells.flatMap TCell.source ++ ['|'])

def TRow.lines (r : TRow) : List Text :=
  (match r.sect with | none => [] | some s => [['|', s.1.mark] ++ (s.2.source ++ ['.'])]) ++ [r.line]

def TRow.html (restricted : Bool) (r : TRow) : Text :=
  ['\n', '\t', '\t'] ++ elementWith ['t', 'r'] (r.look.html restricted true none none) (r.cells.flatMap (TCell.html restricted) ++ ['\n', '\t', '\t'])

/-- A table with an optional first line that gives attributes and a summary, and an optional
caption. -/
structure TTable where
  head : Option (Look × Text) := none
  caption : Option (Look × Text) := none
  rows : List TRow

def TTable.lines (t : TTable) : List Text :=
  (match t.head with
    | none => []
    | some h => [tableTag ++ (h.1.source ++ (['.'] ++ (if h.2 = [] then [] else ' ' :: h.2)))]) ++
  ((match t.caption with
    | none => []
    | some h => [['|', '='] ++ (h.1.source ++ (['.', ' '] ++ h.2))]) ++
  t.rows.flatMap TRow.lines)

def TTable.source (t : TTable) : Text := join ['\n'] t.lines

/-- The rows before the first section, and the sections. -/
def tsections : List TRow → List TRow × List ((Sect × Look) × List TRow)
  | [] => ([], [])
  | r :: rs =>
    match r.sect with
    | none => (r :: (tsections rs).1, (tsections rs).2)
    | some s => ([], (s, r :: (tsections rs).1) :: (tsections rs).2)

def tsectionHtml (restricted : Bool) (s : (Sect × Look) × List TRow) : Text :=
  ['\n', '\t'] ++ elementWith s.1.1.tag (s.1.2.html restricted false none none) (s.2.flatMap (TRow.html restricted) ++ ['\n', '\t'])

/-- The attributes of the table. -/
def TTable.atts (restricted : Bool) (t : TTable) : Text :=
  match t.head with
  | none => []
  | some h => h.1.html restricted false none none ++ attr ['s', 'u', 'm', 'm', 'a', 'r', 'y'] (if h.2 = [] then none else some h.2)

def TTable.top (restricted : Bool) (t : TTable) : Text :=
  match t.caption with
  | none => []
  | some h => ['\n', '\t'] ++ (elementWith ['c', 'a', 'p', 't', 'i', 'o', 'n'] (h.1.html restricted false none none) h.2 ++ ['\n'])

/-- The HTML of a table.  The rows before the first section come last. -/
def TTable.html (restricted : Bool) (t : TTable) : Text :=
  '\t' :: elementWith tableTag (t.atts restricted) (t.top restricted ++
    ((tsections t.rows).2.flatMap (tsectionHtml restricted) ++ ((tsections t.rows).1.flatMap (TRow.html restricted) ++ ['\n', '\t'])))

/-- Words, which must not look like attributes of the cell. -/
structure TCell.Ok (upper : Char → Bool) (restricted : Bool) (c : TCell) : Prop where
  words : Words upper c.text
  look : c.look.Ok restricted
  start : c.marks = [] → ∀ x u, c.text = x :: u → x ≠ '.' ∧ x ≠ '/'

structure TRow.Ok (upper : Char → Bool) (restricted : Bool) (r : TRow) : Prop where
  sect : ∀ s, r.sect = some s → s.2.Ok restricted
  look : r.look.Ok restricted
  some : r.cells ≠ []
  cells : ∀ c ∈ r.cells, c.Ok upper restricted

/-- Words without spaces around them. -/
structure Label (upper : Char → Bool) (t : Text) : Prop where
  words : Words upper t
  first : t.head? ≠ some ' '
  last : t.getLast? ≠ some ' '

structure TTable.Ok (upper : Char → Bool) (restricted : Bool) (t : TTable) : Prop where
  head : ∀ h, t.head = some h → h.1.Ok restricted ∧ Label upper h.2
  /-- A caption that starts with `|==` would be taken for text that is left alone. -/
  caption : ∀ h, t.caption = some h → h.1.Ok restricted ∧ Label upper h.2 ∧ (h.1.valign = none → h.1.align ≠ some .center)
  some : t.rows ≠ []
  rows : ∀ r ∈ t.rows, r.Ok upper restricted
  /-- A centred cell at the very start would be a caption. -/
  first : t.caption = none → ¬ ['|', '='] <+: (t.rows.flatMap TRow.lines).flatten

/-- The characters of the cells. -/
def TTable.chars (t : TTable) : Text := t.rows.flatMap (fun r => r.cells.flatMap TCell.text)

/-- Tables with attributes, and all other blocks. -/
inductive TtBlock where
  | other (b : ImBlock)
  | table (t : TTable)

def TtBlock.source : TtBlock → Text
  | .other b => b.source
  | .table t => t.source

def TtBlock.html (br : Text) (restricted asClass : Bool) (base : Text) (N : Numbers) (M : Notes) : TtBlock → Text
  | .other b => b.html br restricted asClass base N M
  | .table t => t.html restricted

def TtBlock.numbers (N : Numbers) (restricted : Bool) : TtBlock → Numbers
  | .other b => b.numbers N restricted
  | _ => N

def TtBlock.notes (M : Notes) (restricted : Bool) : TtBlock → Notes
  | .other b => b.notes M restricted
  | _ => M

def TtBlock.marks : TtBlock → Nat
  | .other b => b.marks
  | _ => 0

def TtBlock.chars : TtBlock → Text
  | .other b => b.chars
  | .table t => t.chars

def TtBlock.Resolved (R L : Text → Text → Prop) (rel : Option Text) : TtBlock → Prop
  | .other b => b.Resolved R L rel
  | _ => True

def TtBlock.Ok (upper digit : Char → Bool) (lite restricted : Bool) : TtBlock → Prop
  | .other b => b.Ok upper digit lite restricted
  | .table t => lite = false ∧ t.Ok upper restricted

def ttHtml (br : Text) (restricted asClass : Bool) (base : Text) : Numbers → Notes → List (TtBlock × Nat) → List (Text × Nat)
  | _, _, [] => []
  | N, M, d :: ds => (d.1.html br restricted asClass base N M, d.2) ::
      ttHtml br restricted asClass base (d.1.numbers N restricted) (d.1.notes M restricted) ds

/-- The text of a document of such blocks, each with the number of newlines after it (two
more than given), and its HTML. -/
def ttSource (ds : List (TtBlock × Nat)) : Text := glue (ds.map (fun d => (d.1.source, d.2)))

def ttDocHtml (br : Text) (restricted asClass : Bool) (base : Text) (ds : List (TtBlock × Nat)) : Text :=
  glue (ttHtml br restricted asClass base (fun _ => 1) ⟨[], 0⟩ ds)

def ttMarks (ds : List (TtBlock × Nat)) : Nat := (ds.map (fun d => d.1.marks)).sum

end Spec
