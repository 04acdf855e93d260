import Verif.Spec

/-!
# Attributes of blocks

The attributes written after the tag of a block, as in `p<((foo#bar){color:red}[en]. text`,
and the HTML attributes they stand for.
-/

namespace Spec

/-- Decimal digits of a number. -/
def numeral (n : Nat) : Text := Nat.toDigits 10 n

/-- Horizontal alignments. -/
inductive Align where
  | left | center | right | justify

def Align.mark : Align → Text
  | .left => ['<']
  | .center => ['=']
  | .right => ['>']
  | .justify => ['<', '>']

def Align.word : Align → Text
  | .left => ['l', 'e', 'f', 't']
  | .center => ['c', 'e', 'n', 't', 'e', 'r']
  | .right => ['r', 'i', 'g', 'h', 't']
  | .justify => ['j', 'u', 's', 't', 'i', 'f', 'y']

/-- A group in brackets: classes and an identifier, style declarations, or a language. -/
inductive Group where
  | classes (names : Text) (id : Option Text)
  | style (ds : List Text)
  | lang (l : Text)

def Group.source : Group → Text
  | .classes n none => ['('] ++ (n ++ [')'])
  | .classes n (some i) => ['('] ++ (n ++ (['#'] ++ (i ++ [')'])))
  | .style ds => ['{'] ++ (join [';'] ds ++ ['}'])
  | .lang l => ['['] ++ (l ++ [']'])

inductive Kind where
  | classes | style | lang

def Group.kind : Group → Kind
  | .classes _ _ => .classes
  | .style _ => .style
  | .lang _ => .lang

/-- Letters, digits, `-` and `_`. -/
def NameChar (c : Char) : Prop :=
  ('a' ≤ c ∧ c ≤ 'z') ∨ ('A' ≤ c ∧ c ≤ 'Z') ∨ ('0' ≤ c ∧ c ≤ '9') ∨ c = '-' ∨ c = '_'

/-- Characters of style declarations. -/
def StyleChar (c : Char) : Prop := NameChar c ∨ c = ' ' ∨ c = ':' ∨ c = '#' ∨ c = '%' ∨ c = ',' ∨ c = '!'

def Group.Ok : Group → Prop
  | .classes n i => (∀ c ∈ n, NameChar c ∨ c = ' ') ∧ (n = [] → i ≠ none) ∧
      ∀ j, i = some j → j ≠ [] ∧ ∀ c ∈ j, NameChar c ∨ c = ':'
  | .style ds => ds ≠ [] ∧ ∀ d ∈ ds, d ≠ [] ∧ d.head? ≠ some ' ' ∧ d.getLast? ≠ some ' ' ∧ ∀ c ∈ d, StyleChar c
  | .lang l => l ≠ [] ∧ ∀ c ∈ l, NameChar c

/-- The attributes of a block: alignment, paddings, and groups in any order. -/
structure Atts where
  align : Option Align := none
  left : Nat := 0
  right : Nat := 0
  groups : List Group := []

def Atts.marks (a : Atts) : Text :=
  (match a.align with | none => [] | some x => x.mark) ++ (List.replicate a.left '(' ++ List.replicate a.right ')')

def Atts.source (a : Atts) : Text := a.marks ++ a.groups.flatMap Group.source

/-- Every group is well formed, and there is at most one of each kind. -/
def Atts.Ok (a : Atts) : Prop := (∀ g ∈ a.groups, g.Ok) ∧ (a.groups.map Group.kind).Nodup

/-- The classes, if any are given. -/
def Atts.cls (a : Atts) : Option Text :=
  a.groups.findSome? (fun | .classes n _ => if n = [] then none else some n | _ => none)

def Atts.id (a : Atts) : Option Text :=
  a.groups.findSome? (fun | .classes _ i => i | _ => none)

def Atts.declarations (a : Atts) : List Text :=
  a.groups.flatMap (fun | .style ds => ds | _ => [])

def Atts.language (a : Atts) : Option Text :=
  a.groups.findSome? (fun | .lang l => some l | _ => none)

/-- Declarations for paddings and alignment. -/
def Atts.layout (a : Atts) : List Text :=
  (if a.left = 0 then [] else [paddingLeft ++ (numeral a.left ++ ['e', 'm'])]) ++
  ((if a.right = 0 then [] else [paddingRight ++ (numeral a.right ++ ['e', 'm'])]) ++
  (match a.align with | none => [] | some x => [textAlign ++ x.word]))

/-- One HTML attribute. -/
def attr (name : Text) : Option Text → Text
  | none => []
  | some v => [' '] ++ (name ++ (['=', '"'] ++ (v ++ ['"'])))

/-- The HTML attributes; in restricted mode there are neither classes nor identifiers nor
style declarations. -/
def Atts.html (restricted : Bool) (a : Atts) : Text :=
  let style := (if restricted then [] else a.declarations) ++ a.layout
  attr ['c', 'l', 'a', 's', 's'] (if restricted then none else a.cls) ++
  (attr ['i', 'd'] (if restricted then none else a.id) ++
  (attr ['l', 'a', 'n', 'g'] a.language ++
  attr ['s', 't', 'y', 'l', 'e'] (if style = [] then none else some (join [';', ' '] style ++ [';']))))

end Spec
