import Verif.SpecCells

/-!
# Definition lists

Lists of terms, as in `-(big). term := definition`.
-/

namespace Spec

/-- A term, with its definition if it has one of its own. -/
structure DItem where
  cls : Option (Text × Option Text) := none
  lang : Option Text := none
  term : Text
  definition : Option Text := none

def DItem.look (i : DItem) : Look := { cls := i.cls, lang := i.lang }

def DItem.marks (i : DItem) : Text := if i.look.source = [] then [] else i.look.source ++ ['.']

def DItem.content (i : DItem) : Text :=
  i.term ++ (match i.definition with | none => [] | some d => [' ', ':', '=', ' '] ++ d)

def DItem.source (i : DItem) : Text := '-' :: (i.marks ++ ' ' :: i.content)

def DItem.atts (restricted : Bool) (i : DItem) : Text := i.look.html restricted false none none

def DItem.html (restricted : Bool) (i : DItem) : Text :=
  ['\n', '\t'] ++ (elementWith ['d', 't'] (i.atts restricted) i.term ++
    (match i.definition with | none => [] | some d => ['\n', '\t'] ++ elementWith ['d', 'd'] [] d))

/-- A definition list. -/
abbrev DList := List DItem

def dlSource (l : DList) : Text := join ['\n'] (l.map DItem.source)

/-- The attributes of a first term without definition are repeated for the whole list. -/
def dlAtts (restricted : Bool) : DList → Text
  | [] => []
  | i :: _ => if i.definition = none then i.atts restricted else []

def dlHtml (restricted : Bool) (l : DList) : Text :=
  elementWith ['d', 'l'] (dlAtts restricted l) (l.flatMap (DItem.html restricted) ++ ['\n'])

structure DItem.Ok (upper : Char → Bool) (restricted : Bool) (i : DItem) : Prop where
  look : i.look.Ok restricted
  term : Label upper i.term ∧ i.term ≠ []
  definition : ∀ d, i.definition = some d → Label upper d ∧ d ≠ []

/-- Some term must have a definition: otherwise this is a text with dashes. -/
structure DlOk (upper : Char → Bool) (restricted : Bool) (l : DList) : Prop where
  items : ∀ i ∈ l, i.Ok upper restricted
  some : ∃ i ∈ l, i.definition ≠ none

/-- Definition lists, and all other blocks. -/
inductive DlBlock where
  | other (b : TtBlock)
  | dlist (l : DList)

def DlBlock.source : DlBlock → Text
  | .other b => b.source
  | .dlist l => dlSource l

def DlBlock.html (br : Text) (restricted asClass : Bool) (base : Text) (N : Numbers) (M : Notes) : DlBlock → Text
  | .other b => b.html br restricted asClass base N M
  | .dlist l => dlHtml restricted l

def DlBlock.numbers (N : Numbers) (restricted : Bool) : DlBlock → Numbers
  | .other b => b.numbers N restricted
  | _ => N

def DlBlock.notes (M : Notes) (restricted : Bool) : DlBlock → Notes
  | .other b => b.notes M restricted
  | _ => M

def DlBlock.marks : DlBlock → Nat
  | .other b => b.marks
  | _ => 0

def DlBlock.chars : DlBlock → Text
  | .other b => b.chars
  | _ => []

def DlBlock.Resolved (R L : Text → Text → Prop) (rel : Option Text) : DlBlock → Prop
  | .other b => b.Resolved R L rel
  | _ => True

def DlBlock.Ok (upper digit : Char → Bool) (lite restricted : Bool) : DlBlock → Prop
  | .other b => b.Ok upper digit lite restricted
  | .dlist l => lite = false ∧ DlOk upper restricted l

def dlsHtml (br : Text) (restricted asClass : Bool) (base : Text) : Numbers → Notes → List (DlBlock × Nat) → List (Text × Nat)
  | _, _, [] => []
  | N, M, d :: ds => (d.1.html br restricted asClass base N M, d.2) ::
      dlsHtml br restricted asClass base (d.1.numbers N restricted) (d.1.notes M restricted) ds

/-- The text of a document of such blocks, each with the number of newlines after it (two
more than given), and its HTML. -/
def dlsSource (ds : List (DlBlock × Nat)) : Text := glue (ds.map (fun d => (d.1.source, d.2)))

def dlsDocHtml (br : Text) (restricted asClass : Bool) (base : Text) (ds : List (DlBlock × Nat)) : Text :=
  glue (dlsHtml br restricted asClass base (fun _ => 1) ⟨[], 0⟩ ds)

def dlsMarks (ds : List (DlBlock × Nat)) : Nat := (ds.map (fun d => d.1.marks)).sum

end Spec
