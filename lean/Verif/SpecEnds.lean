import Verif.SpecImages

/-!
# Endnotes

A reference `[#label]` becomes a link with the number of the note, a block `note#label. ...` gives the
text of the note and leaves nothing in its place, and a block `notelist.` becomes the list of the
notes that are referred to anywhere in the document.
-/

namespace Spec

/-- Which links back to the references an item of the list gets: `*`, `^` and `!`. -/
inductive Back where
  | every
  | first
  | no

def Back.mark : Back → Char
  | .every => '*'
  | .first => '^'
  | .no => '!'

/-- What a definition says of a note. -/
structure NoteBody where
  back : Option Back
  atts : Text
  text : Text

/-- A note that is referred to: its label, its number in the text, the number that its identifier is
made of, and those of the identifiers of the references. -/
structure EndNote where
  label : Text
  number : Nat
  id : Nat
  refs : List Nat
  body : Option NoteBody

/-- The notes that are referred to, in the order of the first references, and the labels that
have been defined before any reference to them. -/
structure Ends where
  notes : List EndNote
  loose : List Text

def Ends.find (E : Ends) (label : Text) : Option EndNote := E.notes.find? (fun n => n.label == label)

def Ends.change (E : Ends) (label : Text) (f : EndNote → EndNote) : Ends :=
  { E with notes := E.notes.map (fun n => if n.label = label then f n else n) }

/-- The footnotes and the endnotes; the identifiers are made of the same numbers. -/
structure Book where
  foot : Notes
  ends : Ends

def Book.take (B : Book) (k : Nat) : Notes := ⟨B.foot.seen, B.foot.last + k⟩

/-- A reference takes a number, the first one takes another for the note. -/
def Book.refer (B : Book) (label : Text) : Book :=
  match B.ends.find label with
  | some _ => ⟨B.take 1, B.ends.change label (fun n => { n with refs := n.refs ++ [B.foot.last + 1] })⟩
  | none => ⟨B.take 2, { B.ends with notes := B.ends.notes ++ [⟨label, B.ends.notes.length + 1, B.foot.last + 2, [B.foot.last + 1], none⟩] }⟩

/-- A definition replaces the one before, unless that one said which links to give.  The definition
of a note without references takes a number and is lost. -/
def Book.define (B : Book) (label : Text) (d : NoteBody) : Book :=
  match B.ends.find label with
  | some n => if (n.body.bind (·.back)).isSome then B else ⟨B.foot, B.ends.change label (fun n => { n with body := some d })⟩
  | none => if label ∈ B.ends.loose then B else ⟨B.take 1, { B.ends with loose := label :: B.ends.loose }⟩

def spanTag : Text := ['s', 'p', 'a', 'n']

def noteName (id : Text) : Text := ['n', 'o', 't', 'e'] ++ id
def noterefName (id : Text) : Text := ['n', 'o', 't', 'e', 'r', 'e', 'f'] ++ id

/-- The HTML of a reference.  Only the first reference to a note has a link that leads to it. -/
def Book.refHtml (base : Text) (B : Book) (label : Text) : Text :=
  let href := match B.ends.find label with
    | some _ => []
    | none => noteId base (B.foot.last + 2)
  let number := match B.ends.find label with
    | some n => n.number
    | none => B.ends.notes.length + 1
  elementWith supTag [] (elementWith ['a'] (attr hrefAttr (some ('#' :: noteName href)))
    (elementWith spanTag (attr idAttr (some (noterefName (noteId base (B.foot.last + 1))))) (numeral number)))

/-! ## The list -/

/-- The letters of the links back: a, b, c, ... -/
def backLetter (i : Nat) : Char := Char.ofNat (97 + i)

def noteBackLink (base : Text) (r i : Nat) : Text :=
  elementWith supTag [] (elementWith ['a'] (attr hrefAttr (some ('#' :: noterefName (noteId base r)))) [backLetter i])

def backLinksFrom (base : Text) : Nat → List Nat → List Text
  | _, [] => []
  | i, r :: rs => noteBackLink base r i :: backLinksFrom base (i + 1) rs

def EndNote.links (base : Text) (n : EndNote) : Text :=
  match (n.body.bind (·.back)).getD .every with
  | .every => join [' '] (backLinksFrom base 0 n.refs)
  | .first => (n.refs.take 1).flatMap (fun r => noteBackLink base r 0)
  | .no => []

def liTag : Text := ['l', 'i']
def olTag : Text := ['o', 'l']

def undefinedNote : Text := " Undefined Note [#".toList

def EndNote.item (base : Text) (n : EndNote) : Text :=
  match n.body with
  | some d => elementWith liTag d.atts (n.links base ++ (elementWith spanTag (attr idAttr (some (noteName (noteId base n.id)))) [' '] ++ d.text))
  | none => elementWith liTag [] (n.links base ++ (undefinedNote ++ (n.label ++ [']', '.'])))

/-- The order of texts: by the first character in which they differ. -/
def textBefore : Text → Text → Bool
  | _, [] => false
  | [], _ :: _ => true
  | a :: as, b :: bs => decide (a.toNat < b.toNat) || (a == b && textBefore as bs)

def insertByNumeral (n : EndNote) : List EndNote → List EndNote
  | [] => [n]
  | m :: l => if textBefore (numeral n.number) (numeral m.number) then n :: m :: l else m :: insertByNumeral n l

/-- The notes in the order of the list: their numbers are compared as texts. -/
def Ends.listed (E : Ends) : List EndNote := E.notes.foldr insertByNumeral []

def Ends.list (base : Text) (E : Ends) : Text :=
  elementWith olTag [] ('\n' :: (join ['\n'] (E.listed.map (fun n => '\t' :: '\t' :: n.item base)) ++ ['\n', '\t']))

/-! ## Documents -/

/-- Ordinary text with references to notes, each given by its label and the text after it. -/
structure EnText where
  lead : Text
  refs : List (Text × Text)

def EnText.source (t : EnText) : Text := t.lead ++ t.refs.flatMap (fun r => '[' :: '#' :: (r.1 ++ ']' :: r.2))

def EnText.texts (t : EnText) : List Text := t.lead :: t.refs.map (·.2)

def isLabel (l : Text) : Prop := l ≠ [] ∧ ∀ c ∈ l, isLetterOrDigit c = true

structure EnText.Ok (upper : Char → Bool) (t : EnText) : Prop where
  texts : ∀ p ∈ t.texts, Prose upper p ∧ ¬ EndsInSpace p
  first : ∃ c u, t.lead = c :: u ∧ c ≠ ' ' ∧ c ≠ '\n'
  labels : ∀ r ∈ t.refs, isLabel r.1

def endRefsHtml (br base : Text) : Book → List (Text × Text) → Text
  | _, [] => []
  | B, r :: rs => B.refHtml base r.1 ++ (breakLines br r.2 ++ endRefsHtml br base (B.refer r.1) rs)

def EnText.html (br base : Text) (B : Book) (t : EnText) : Text := breakLines br t.lead ++ endRefsHtml br base B t.refs

def EnText.book (B : Book) (t : EnText) : Book := t.refs.foldl (fun B r => B.refer r.1) B

/-- The text of a definition: one line of ordinary text. -/
structure DefText (upper : Char → Bool) (t : Text) : Prop where
  prose : Prose upper t
  line : '\n' ∉ t
  first : ∃ c u, t = c :: u ∧ c ≠ ' '
  last : ¬ EndsInSpace t

inductive EnBlock where
  | other (b : ImBlock)
  | para (t : EnText)
  | styled (tag : Text) (a : Atts) (t : EnText)
  | define (label : Text) (back : Option Back) (groups : List Group) (t : Text)

def EnBlock.source : EnBlock → Text
  | .other b => b.source
  | .para t => t.source
  | .styled tag a t => tag ++ (a.source ++ (['.', ' '] ++ t.source))
  | .define label back groups t =>
    ['n', 'o', 't', 'e', '#'] ++ (label ++ (back.toList.map Back.mark ++ (groups.flatMap Group.source ++ (['.', ' '] ++ t))))

/-- The block `notelist.` -/
def noteListSource : Text := notelistWord ++ ['.']

/-- Definitions have no HTML. -/
def EnBlock.html (br : Text) (restricted asClass : Bool) (base : Text) (N : Numbers) (B : Book) : EnBlock → Option Text
  | .other b => some (b.html br restricted asClass base N B.foot)
  | .para t => some (elementWith ['p'] [] (t.html br base B))
  | .styled tag a t => some (elementWith tag (a.html restricted) (t.html br base B))
  | .define _ _ _ _ => none

def EnBlock.numbers (N : Numbers) (restricted : Bool) : EnBlock → Numbers
  | .other b => b.numbers N restricted
  | _ => N

def EnBlock.book (B : Book) (restricted : Bool) : EnBlock → Book
  | .other b => ⟨b.notes B.foot restricted, B.ends⟩
  | .para t | .styled _ _ t => t.book B
  | .define label back groups t => B.define label ⟨back, Atts.html restricted { groups := groups }, t⟩

def EnBlock.marks : EnBlock → Nat
  | .other b => b.marks
  | _ => 0

def EnBlock.chars : EnBlock → Text
  | .other b => b.chars
  | _ => []

def EnBlock.Resolved (R L : Text → Text → Prop) (rel : Option Text) : EnBlock → Prop
  | .other b => b.Resolved R L rel
  | _ => True

def EnBlock.Ok (upper digit : Char → Bool) (lite restricted : Bool) : EnBlock → Prop
  | .other b => b.Ok upper digit lite restricted
  | .para t => t.Ok upper ∧ NoBlockStart digit lite t.source ∧ ¬ notelistWord <+: t.lead
  | .styled tag a t => t.Ok upper ∧ a.Ok ∧ a.Written restricted ∧ a.left = 0 ∧ tag ∈ imageBlockTags lite ∧
      (tag = ['p'] → ¬ notelistWord <+: t.lead)
  | .define label _ groups t => isLabel label ∧ Atts.Ok { groups := groups } ∧ Atts.Written restricted { groups := groups } ∧ DefText upper t

/-- A document: blocks, and perhaps a list of notes followed by other blocks; each with the number of
newlines after it (two more than given). -/
structure EnDoc where
  before : List (EnBlock × Nat)
  list : Option (Nat × List (EnBlock × Nat))

def EnDoc.blocks (d : EnDoc) : List (EnBlock × Nat) := d.before ++ (match d.list with | none => [] | some (_, after) => after)

def enPieces (ds : List (EnBlock × Nat)) : List (Text × Nat) := ds.map (fun d => (d.1.source, d.2))

def EnDoc.source (d : EnDoc) : Text :=
  glue (enPieces d.before ++ (match d.list with | none => [] | some (k, after) => (noteListSource, k) :: enPieces after))

def enNumbers (restricted : Bool) (N : Numbers) (ds : List (EnBlock × Nat)) : Numbers := ds.foldl (fun N d => d.1.numbers N restricted) N

def enBook (restricted : Bool) (B : Book) (ds : List (EnBlock × Nat)) : Book := ds.foldl (fun B d => d.1.book B restricted) B

def enHtml (br : Text) (restricted asClass : Bool) (base : Text) : Numbers → Book → List (EnBlock × Nat) → List (Text × Nat)
  | _, _, [] => []
  | N, B, d :: ds => (d.1.html br restricted asClass base N B).toList.map (fun h => (h, d.2)) ++
      enHtml br restricted asClass base (d.1.numbers N restricted) (d.1.book B restricted) ds

/-- The notes of the whole document. -/
def EnDoc.book (restricted : Bool) (d : EnDoc) : Book := enBook restricted ⟨⟨[], 0⟩, ⟨[], []⟩⟩ d.blocks

/-- The HTML of a document.  The list has all the notes, also those that are defined or referred to after it. -/
def EnDoc.html (br : Text) (restricted asClass : Bool) (base : Text) (d : EnDoc) : Text :=
  let N0 : Numbers := fun _ => 1
  let B0 : Book := ⟨⟨[], 0⟩, ⟨[], []⟩⟩
  glue (enHtml br restricted asClass base N0 B0 d.before ++
    (match d.list with
    | none => []
    | some (k, after) => ((d.book restricted).ends.list base, k) ::
        enHtml br restricted asClass base (enNumbers restricted N0 d.before) (enBook restricted B0 d.before) after))

def EnDoc.marks (d : EnDoc) : Nat := (d.blocks.map (fun d => d.1.marks)).sum

/-- The blocks are well formed, and if there is a list it has an item, and there are letters for all references. -/
structure EnDoc.Ok (upper digit : Char → Bool) (lite restricted : Bool) (d : EnDoc) : Prop where
  blocks : ∀ b ∈ d.blocks, b.1.Ok upper digit lite restricted
  nonempty : d.blocks ≠ []
  items : d.list.isSome → (d.book restricted).ends.notes ≠ []
  letters : d.list.isSome → ∀ n ∈ (d.book restricted).ends.notes, n.refs.length ≤ 26

end Spec
