/-!
# Specifications

What the theorems of `Verif/Props` compare the model with.  Nothing in this file
refers to the model: only characters, lists and numbers.
-/

namespace Spec

abbrev Text := List Char

/-! ## White space -/

/-- Code points with the Unicode property `White_Space` (PropList.txt). -/
def whiteSpace : List Nat :=
  [0x9, 0xA, 0xB, 0xC, 0xD, 0x20, 0x85, 0xA0, 0x1680,
   0x2000, 0x2001, 0x2002, 0x2003, 0x2004, 0x2005, 0x2006, 0x2007, 0x2008, 0x2009, 0x200A,
   0x2028, 0x2029, 0x202F, 0x205F, 0x3000]

def Blank (s : Text) : Prop := ∀ c ∈ s, c.toNat ∈ whiteSpace

instance (s : Text) : Decidable (Blank s) := inferInstanceAs (Decidable (∀ c ∈ s, _))

/-! ## Break tags -/

/-- The two spellings of a line break. -/
def IsBreak (t : Text) : Prop := t = ['<', 'b', 'r', '>'] ∨ t = ['<', 'b', 'r', ' ', '/', '>']

/-- Replace every break tag that no newline follows by `br` and a newline, from
left to right; leave everything else. -/
def tidyBreaks (br : Text) : Text → Text
  | '<' :: 'b' :: 'r' :: '>' :: t =>
    (if t.head? = some '\n' then ['<', 'b', 'r', '>'] else br ++ ['\n']) ++ tidyBreaks br t
  | '<' :: 'b' :: 'r' :: ' ' :: '/' :: '>' :: t =>
    (if t.head? = some '\n' then ['<', 'b', 'r', ' ', '/', '>'] else br ++ ['\n']) ++ tidyBreaks br t
  | c :: t => c :: tidyBreaks br t
  | [] => []

/-- Drop the newlines at the end. -/
def dropFinalNewlines : Text → Text
  | [] => []
  | c :: t =>
    match dropFinalNewlines t with
    | [] => if c = '\n' then [] else [c]
    | d :: u => c :: d :: u

/-! ## Line endings -/

/-- Every CRLF, and every other CR, replaced by LF. -/
def unixNewlines : Text → Text
  | '\r' :: '\n' :: t => '\n' :: unixNewlines t
  | '\r' :: t => '\n' :: unixNewlines t
  | c :: t => c :: unixNewlines t
  | [] => []

/-- The lines of a text (at least one). -/
def lines : Text → List Text
  | [] => [[]]
  | c :: t =>
    if c = '\n' then [] :: lines t
    else match lines t with
      | [] => [[c]]
      | l :: ls => (c :: l) :: ls

/-- Only spaces and tabs. -/
def BlankLine (l : Text) : Prop := ∀ c ∈ l, c = ' ' ∨ c = '\t'

instance (l : Text) : Decidable (BlankLine l) := inferInstanceAs (Decidable (∀ c ∈ l, _))

/-- The lines put together again; those with only spaces and tabs are emptied, except
that the last one (the one no newline follows) is kept. -/
def clearLines : List Text → Text
  | [] => []
  | [l] => l
  | l :: m :: ls => (if BlankLine l then [] else l) ++ '\n' :: clearLines (m :: ls)

/-- Remove the spaces and tabs of all lines that contain nothing else and are
terminated by a newline. -/
def clearBlankLines (t : Text) : Text := clearLines (lines t)

/-- The last line. -/
def lastLine (t : Text) : Text := (lines t).getLastD []

/-! ## HTML character references -/

/-- Value of a string of decimal digits. -/
def decimal (ds : Text) : Nat := ds.foldl (fun n c => 10 * n + (c.toNat - 48)) 0

def isDecimal (c : Char) : Bool := 48 ≤ c.toNat && c.toNat ≤ 57

/-- The character reference at the start of a text (after the `&`): the character
it stands for and its length. -/
def readRef (t : Text) : Option (Char × Nat) :=
  if ['a', 'm', 'p', ';'].isPrefixOf t then some ('&', 4)
  else if ['l', 't', ';'].isPrefixOf t then some ('<', 3)
  else if ['g', 't', ';'].isPrefixOf t then some ('>', 3)
  else if ['q', 'u', 'o', 't', ';'].isPrefixOf t then some ('"', 5)
  else match t with
    | '#' :: u =>
      let ds := u.takeWhile isDecimal
      if ds ≠ [] ∧ (u.dropWhile isDecimal).head? = some ';' then
        some (Char.ofNat (decimal ds), ds.length + 2)
      else none
    | _ => none

/-- Decoding of character references; the first argument is the number of
characters of the current reference still to be skipped. -/
def decodeFrom : Nat → Text → Text
  | _, [] => []
  | k + 1, _ :: t => decodeFrom k t
  | 0, c :: t =>
    if c = '&' then
      match readRef t with
      | some (d, n) => d :: decodeFrom n t
      | none => c :: decodeFrom 0 t
    else c :: decodeFrom 0 t

/-- The text a piece of HTML text or an attribute value stands for. -/
def decode (t : Text) : Text := decodeFrom 0 t

/-- Every `&` starts a character reference. -/
def AmpsAreRefs : Text → Prop
  | [] => True
  | c :: t => (c = '&' → readRef t ≠ none) ∧ AmpsAreRefs t

instance decAmps : (t : Text) → Decidable (AmpsAreRefs t)
  | [] => isTrue trivial
  | _ :: t => @instDecidableAnd _ _ inferInstance (decAmps t)

/-- CR and LF exchanged. -/
def swapNewlines (c : Char) : Char := if c = '\n' then '\r' else if c = '\r' then '\n' else c

/-! ## Start tags -/

def isSpace (c : Char) : Bool := whiteSpace.contains c.toNat

/-- Characters at which the name of a tag ends. -/
def tagNameEnd (c : Char) : Bool := isSpace c || c == '/' || c == '>'

/-- Characters at which the name of an attribute ends. -/
def attrNameEnd (c : Char) : Bool := isSpace c || c == '/' || c == '>' || c == '='

/-- The attributes and the end of a start tag: names with decoded values, whether
the tag is self-closing, and the text after the tag.  Values have to be quoted, as
they are in generated tags.  The first argument bounds the length. -/
def readAttrs : Nat → Text → Option (List (Text × Text) × Bool × Text)
  | 0, _ => none
  | _ + 1, [] => none
  | n + 1, c :: t =>
    if c = '>' then some ([], false, t)
    else if c = '/' then
      if t.head? = some '>' then some ([], true, t.tail) else none
    else if isSpace c then readAttrs n t
    else
      match (c :: t).dropWhile (fun x => !attrNameEnd x) with
      | '=' :: d :: u =>
        if d = '"' ∨ d = '\'' then
          match u.dropWhile (· != d) with
          | [] => none
          | _ :: r => (readAttrs n r).map (fun (as, b, rest) =>
              (((c :: t).takeWhile (fun x => !attrNameEnd x), decode (u.takeWhile (· != d))) :: as, b, rest))
        else none
      | _ => none

/-- Read the start tag at the beginning of a text. -/
def readTag : Text → Option (Text × List (Text × Text) × Bool × Text)
  | '<' :: t =>
    (readAttrs (t.length + 1) (t.dropWhile (fun c => !tagNameEnd c))).map
      (fun r => (t.takeWhile (fun c => !tagNameEnd c), r))
  | _ => none

/-! ## Elements -/

/-- The names of the tags of a text, from left to right; `true` marks closing tags. -/
def tagNames : Text → List (Bool × Text)
  | [] => []
  | '<' :: '/' :: t => (true, t.takeWhile (fun c => !tagNameEnd c)) :: tagNames t
  | '<' :: t => (false, t.takeWhile (fun c => !tagNameEnd c)) :: tagNames t
  | _ :: t => tagNames t

/-- Every closing tag closes the element opened last, and all elements are closed at the
end; the first argument are the names of the open elements, innermost first. -/
def nested : List Text → List (Bool × Text) → Bool
  | open_, [] => open_.isEmpty
  | open_, (false, n) :: t => nested (n :: open_) t
  | [], (true, _) :: _ => false
  | o :: open_, (true, n) :: t => o == n && nested open_ t

/-- The tags of a text are balanced and properly nested. -/
def balanced (t : Text) : Bool := nested [] (tagNames t)

/-! ## Maps -/

/-- Code point order on texts. -/
def Before : Text → Text → Prop
  | _, [] => False
  | [], _ :: _ => True
  | a :: as, b :: bs => a.toNat < b.toNat ∨ (a = b ∧ Before as bs)

/-- Each name is before the next one. -/
def SortedNames {β : Type} : List (Text × β) → Prop
  | [] => True
  | [_] => True
  | a :: b :: r => Before a.1 b.1 ∧ SortedNames (b :: r)

/-! ## URLs -/

/-- The schemes documented for restricted and for unrestricted use: http, https, ftp,
mailto; also file, tel, callto, sftp, data. -/
def allowedSchemes (restricted : Bool) : List Text :=
  [['h', 't', 't', 'p'], ['h', 't', 't', 'p', 's'], ['f', 't', 'p'], ['m', 'a', 'i', 'l', 't', 'o']] ++
    if restricted then [] else
      [['f', 'i', 'l', 'e'],
       ['t', 'e', 'l'],
       ['c', 'a', 'l', 'l', 't', 'o'],
       ['s', 'f', 't', 'p'],
       ['d', 'a', 't', 'a']]

/-- The URL is relative (the URL parser does not find a scheme) or has an allowed
scheme; `parse` is the URL parser: scheme and serialisation. -/
def SchemeOk (parse : Text → Option (Text × Text)) (restricted : Bool) (src : Text) : Prop :=
  ∀ scheme full, parse src = some (scheme, full) → scheme = [] ∨ scheme ∈ allowedSchemes restricted

/-- The value of an attribute. -/
def attrValue (name : Text) (attrs : List (Text × Text)) : Option Text :=
  (attrs.find? (fun a => a.1 == name)).map (·.2)

/-! ## Ordinary text -/

/-- Quotation marks used by Textile, and two letters that are equal to an ASCII letter
up to case. -/
def quotationMarks : Text := ['‹', '›', '«', '»', '„', '“', '”', '‚', '‘', '’', 'ſ', '\u212A']

/-- ASCII letters and digits, space, comma, full stop, slash, dollar sign, and the
characters outside ASCII other than white space and quotation marks. -/
def ordinaryChar (c : Char) : Bool :=
  (65 ≤ c.toNat && c.toNat ≤ 90) || (97 ≤ c.toNat && c.toNat ≤ 122) || (48 ≤ c.toNat && c.toNat ≤ 57) ||
    [' ', ',', '.', '/', '$'].contains c ||
    (128 ≤ c.toNat && !isSpace c && !quotationMarks.contains c)

/-- Text without markup and without anything Textile replaces: no three capitals in a
row, no ellipsis, no dimension sign (`3x4`, `3 x 4`).  `upper` says what a capital is. -/
structure Words (upper : Char → Bool) (t : Text) : Prop where
  chars : ∀ c ∈ t, ordinaryChar c = true
  caps : ∀ a x y z b, t = a ++ x :: y :: z :: b → ¬ (upper x = true ∧ upper y = true ∧ upper z = true)
  dots : ∀ a b, t ≠ a ++ '.' :: '.' :: '.' :: b
  dims : ∀ a d x b, isDecimal d = true → x = 'x' ∨ x = 'X' →
    t ≠ a ++ d :: x :: b ∧ t ≠ a ++ d :: ' ' :: x :: b

/-- A line of ordinary text: words, not indented. -/
structure Line (upper : Char → Bool) (t : Text) : Prop extends Words upper t where
  start : ∃ c u, t = c :: u ∧ c ≠ ' '

/-- The texts put together with a separator. -/
def join (sep : Text) : List Text → Text
  | [] => []
  | [l] => l
  | l :: m :: ls => l ++ sep ++ join sep (m :: ls)

/-- Words that, followed by a full stop, say what kind of block follows in lite mode. -/
def liteWord (w : Text) : Prop := w ∈ [['b', 'q'], ['b', 'c'], ['p']]

/-- Words that, followed by a full stop, say what kind of block follows; `digit` says
what a digit is. -/
def fullWord (digit : Char → Bool) (w : Text) : Prop :=
  w ∈ [['b', 'q'], ['b', 'c'], ['n', 'o', 't', 'e', 'x', 't', 'i', 'l', 'e'], ['p', 'r', 'e'], ['p'],
       ['#', '#', '#'],
       ['h', '1'], ['h', '2'], ['h', '3'], ['h', '4'], ['h', '5'], ['h', '6']] ∨
    ∃ d ds, w = 'f' :: 'n' :: d :: ds ∧ ∀ c ∈ d :: ds, digit c = true

def blockWord (digit : Char → Bool) (lite : Bool) (w : Text) : Prop :=
  if lite then liteWord w else fullWord digit w

/-- The text does not start with one of these words and a full stop. -/
def NoBlockWord (digit : Char → Bool) (lite : Bool) (t : Text) : Prop :=
  ∀ w u, t = w ++ '.' :: u → ¬ blockWord digit lite w

/-- Bases of the internal token that are not altered by the parser itself: ASCII letters
and digits, no three capitals in a row, no digit before `x`.  Tokens made by
`time_based_uid` are hexadecimal numbers. -/
structure PlainBase (t : Text) : Prop where
  chars : ∀ c ∈ t, (65 ≤ c.toNat ∧ c.toNat ≤ 90) ∨ (97 ≤ c.toNat ∧ c.toNat ≤ 122) ∨ (48 ≤ c.toNat ∧ c.toNat ≤ 57)
  caps : ∀ a x y z b, t = a ++ x :: y :: z :: b →
    ¬ ((65 ≤ x.toNat ∧ x.toNat ≤ 90) ∧ (65 ≤ y.toNat ∧ y.toNat ≤ 90) ∧ (65 ≤ z.toNat ∧ z.toNat ≤ 90))
  dims : ∀ a d x b, isDecimal d = true → x = 'x' ∨ x = 'X' → t ≠ a ++ d :: x :: b

/-- `Omit p a b`: `b` is `a` with some of the characters satisfying `p` left out. -/
inductive Omit (p : Char → Prop) : Text → Text → Prop where
  | nil : Omit p [] []
  | keep (c : Char) {a b : Text} : Omit p a b → Omit p (c :: a) (c :: b)
  | skip {c : Char} {a b : Text} : p c → Omit p a b → Omit p (c :: a) b

/-! ## Documents -/

/-- Escaping of text (with `quotes`: also usable inside attribute values). -/
def escape (quotes : Bool) (t : Text) : Text := t.flatMap (fun c =>
  if c = '&' then ['&', 'a', 'm', 'p', ';']
  else if c = '<' then ['&', 'l', 't', ';']
  else if c = '>' then ['&', 'g', 't', ';']
  else if quotes = true ∧ c = '"' then ['&', 'q', 'u', 'o', 't', ';']
  else if quotes = true ∧ c = '\'' then ['&', '#', '3', '9', ';']
  else [c])

/-- Blocks of a document, as lists of lines. -/
inductive Block where
  | para (ls : List Text)
  /-- `p. `, `h1. `, ..., `h6. ` -/
  | tagged (tag : Text) (ls : List Text)
  /-- `bq. ` -/
  | quote (ls : List Text)
  /-- `bc. `, `pre. `, `notextile. ` -/
  | verbatim (tag : Text) (ls : List Text)
  /-- `###. ` -/
  | comment (ls : List Text)

/-- How a block is written. -/
def Block.source : Block → Text
  | .para ls => join ['\n'] ls
  | .tagged tag ls => tag ++ (['.', ' '] ++ join ['\n'] ls)
  | .quote ls => ['b', 'q'] ++ (['.', ' '] ++ join ['\n'] ls)
  | .verbatim tag ls => tag ++ (['.', ' '] ++ join ['\n'] ls)
  | .comment ls => ['#', '#', '#'] ++ (['.', ' '] ++ join ['\n'] ls)

def element (tag content : Text) : Text := ['<'] ++ tag ++ ['>'] ++ content ++ ['<', '/'] ++ tag ++ ['>']

/-- What a block should become; `br` is the break tag. -/
def Block.html (br : Text) : Block → Text
  | .para ls => element ['p'] (join (br ++ ['\n']) ls)
  | .tagged tag ls => element tag (join (br ++ ['\n']) ls)
  | .quote ls => element ['b', 'l', 'o', 'c', 'k', 'q', 'u', 'o', 't', 'e']
      (['\n', '\t'] ++ element ['p'] (join (br ++ ['\n']) ls) ++ ['\n'])
  | .verbatim tag ls =>
    if tag = ['b', 'c'] then element ['p', 'r', 'e'] (element ['c', 'o', 'd', 'e'] (escape true (join ['\n'] ls)))
    else if tag = ['p', 'r', 'e'] then element ['p', 'r', 'e'] (escape true (join ['\n'] ls))
    else join ['\n'] ls
  | .comment _ => []

def Block.isComment : Block → Bool
  | .comment _ => true
  | _ => false

/-- The block with the content escaped. -/
def Block.escaped : Block → Block
  | .verbatim tag ls => .verbatim tag (ls.map (escape false))
  | .comment ls => .comment (ls.map (escape false))
  | b => b

/-- A line with arbitrary text. -/
def RawLine (l : Text) : Prop := '\n' ∉ l ∧ '\r' ∉ l ∧ ¬ BlankLine l

/-- Arbitrary text without empty lines; the first line, the one with the tag, may be
empty. -/
def RawLines : List Text → Prop
  | [] => False
  | l :: ls => ('\n' ∉ l ∧ '\r' ∉ l) ∧ ∀ m ∈ ls, RawLine m

def notelistWord : Text := ['n', 'o', 't', 'e', 'l', 'i', 's', 't']

/-- Lines that can follow each other in a paragraph. -/
structure Paragraph (upper : Char → Bool) (ls : List Text) : Prop where
  ne : ls ≠ []
  lines : ∀ l ∈ ls, Line upper l

/-- Blocks with ordinary text in paragraphs, headings and quotations, and with arbitrary
text in code blocks, verbatim blocks and comments.  A paragraph must not start with a
block tag or with the word `notelist`, a `notextile` block must not contain break tags. -/
def Block.Ok (upper digit : Char → Bool) (lite : Bool) : Block → Prop
  | .para ls => Paragraph upper ls ∧ NoBlockWord digit lite (join ['\n'] ls) ∧ ¬ notelistWord <+: join ['\n'] ls
  | .tagged tag ls => Paragraph upper ls ∧
      tag ∈ ['p'] :: (if lite then [] else [['h', '1'], ['h', '2'], ['h', '3'], ['h', '4'], ['h', '5'], ['h', '6']]) ∧
      (tag = ['p'] → ¬ notelistWord <+: join ['\n'] ls)
  | .quote ls => Paragraph upper ls ∧ ¬ notelistWord <+: join ['\n'] ls
  | .verbatim tag ls => RawLines ls ∧
      tag ∈ ['b', 'c'] :: (if lite then [] else [['p', 'r', 'e'], ['n', 'o', 't', 'e', 'x', 't', 'i', 'l', 'e']]) ∧
      (tag = ['n', 'o', 't', 'e', 'x', 't', 'i', 'l', 'e'] →
        ∀ l ∈ ls, ¬ ['<', 'b', 'r', '>'] <:+: l ∧ ¬ ['<', 'b', 'r', ' ', '/', '>'] <:+: l)
  | .comment ls => RawLines ls ∧ lite = false

/-- Texts separated by newlines, two more than given after each text; none after the
last. -/
def glue : List (Text × Nat) → Text
  | [] => []
  | [(t, _)] => t
  | (t, k) :: p :: ps => t ++ (List.replicate (k + 2) '\n' ++ glue (p :: ps))

/-- The text of a document: blocks, each with the number of newlines after it (two more
than given). -/
def source (ds : List (Block × Nat)) : Text := glue (ds.map (fun d => (d.1.source, d.2)))

/-- The HTML of a document: comments and the newlines after them vanish, and newlines at
the end. -/
def html (br : Text) (ds : List (Block × Nat)) : Text :=
  dropFinalNewlines (glue ((ds.filter (fun d => !d.1.isComment)).map (fun d => (d.1.html br, d.2))))

/-! ## Attributes -/

/-- All occurrences of a character are next to each other. -/
def OneRun (c : Char) (t : Text) : Prop :=
  ∃ a n b, t = a ++ (List.replicate n c ++ b) ∧ c ∉ a ∧ c ∉ b

def paddingLeft : Text := ['p', 'a', 'd', 'd', 'i', 'n', 'g', '-', 'l', 'e', 'f', 't', ':']
def paddingRight : Text := ['p', 'a', 'd', 'd', 'i', 'n', 'g', '-', 'r', 'i', 'g', 'h', 't', ':']
def textAlign : Text := ['t', 'e', 'x', 't', '-', 'a', 'l', 'i', 'g', 'n', ':']
def verticalAlign : Text := ['v', 'e', 'r', 't', 'i', 'c', 'a', 'l', '-', 'a', 'l', 'i', 'g', 'n', ':']

/-- Style declarations that contain nothing of the user's text but a length. -/
def OwnDeclaration (d : Text) : Prop :=
  (∃ ds, ds ≠ [] ∧ (∀ c ∈ ds, '0' ≤ c ∧ c ≤ '9') ∧
    (d = paddingLeft ++ (ds ++ ['e', 'm']) ∨ d = paddingRight ++ (ds ++ ['e', 'm']))) ∨
  (∃ w, w ∈ [['l', 'e', 'f', 't'], ['c', 'e', 'n', 't', 'e', 'r'], ['r', 'i', 'g', 'h', 't'],
      ['j', 'u', 's', 't', 'i', 'f', 'y']] ∧ d = textAlign ++ w) ∨
  (∃ w, w ∈ [['t', 'o', 'p'], ['m', 'i', 'd', 'd', 'l', 'e'], ['b', 'o', 't', 't', 'o', 'm']] ∧ d = verticalAlign ++ w)

/-- A style made of such declarations. -/
def OwnStyle (s : Text) : Prop :=
  ∃ ds, ds ≠ [] ∧ (∀ d ∈ ds, OwnDeclaration d) ∧ s = join [';', ' '] ds ++ [';']

/-! ## Notes -/

/-- A link back to a reference. -/
def backLink (id caption : Text) : Text :=
  ['<', 's', 'u', 'p', '>', '<', 'a', ' ', 'h', 'r', 'e', 'f', '=', '"', '#', 'n', 'o', 't', 'e', 'r', 'e', 'f'] ++
    (id ++ (['"', '>'] ++ (caption ++ ['<', '/', 'a', '>', '<', '/', 's', 'u', 'p', '>'])))

/-- At most one character, which is not part of markup. -/
def Caption (t : Text) : Prop :=
  t.length ≤ 1 ∧ ∀ c ∈ t, c ≠ '<' ∧ c ≠ '>' ∧ c ≠ '&' ∧ c ≠ '"' ∧ c ≠ '\''

/-! ## Markup -/

/-- Every `<` starts one of these tags. -/
def OnlyTags (tags : List Text) (t : Text) : Prop :=
  ∀ a b, t = a ++ '<' :: b → ∃ tag ∈ tags, tag <+: '<' :: b

/-- The tags of simple documents: breaks and, opening and closing, without attributes,
paragraphs, headings, quotations, preformatted text and code. -/
def simpleTags : List Text :=
  [['<', 'b', 'r', '>'], ['<', 'b', 'r', ' ', '/', '>']] ++
  [['p'], ['h', '1'], ['h', '2'], ['h', '3'], ['h', '4'], ['h', '5'], ['h', '6'],
    ['b', 'l', 'o', 'c', 'k', 'q', 'u', 'o', 't', 'e'], ['p', 'r', 'e'], ['c', 'o', 'd', 'e']].flatMap
    (fun w => [['<'] ++ w ++ ['>'], ['<', '/'] ++ w ++ ['>']])

/-- A tag, as typographic replacement sees it; `word` says what a word character is. -/
def Tag (word : Char → Bool) (g : Text) : Prop :=
  ∃ x b, g = '<' :: x :: (b ++ ['>']) ∧ (word x = true ∨ x ∈ ['/', '!', '?']) ∧ '>' ∉ b ∧ '\n' ∉ b

/-- The text is cut into pieces, each followed by a tag, and the rest.  The tags are the
first ones: none starts in the pieces, and none is in the rest. -/
structure Cut (word : Char → Bool) (t : Text) (ps : List (Text × Text)) (rest : Text) : Prop where
  text : t = ps.flatMap (fun p => p.1 ++ p.2) ++ rest
  tags : ∀ p ∈ ps, Tag word p.2
  first : ∀ p ∈ ps, ∀ a g b, p.1 ++ p.2 = a ++ (g ++ b) → Tag word g → p.1.length ≤ a.length
  rest : ∀ a g b, rest = a ++ (g ++ b) → ¬ Tag word g

/-! ## Line breaks -/

def lower (c : Char) : Char := if 65 ≤ c.toNat && c.toNat ≤ 90 then Char.ofNat (c.toNat + 32) else c

/-- No break is inserted after one of these, whatever the case of its letters. -/
def noBreakAfter : List Text :=
  [['<', '/', 'd', 'd', '>'], ['<', '/', 'd', 't', '>'], ['<', '/', 'l', 'i', '>'], ['<', 'b', 'r', '/', '>'],
   ['<', 'b', 'r', '>'], ['<', 'b', 'r', ' ', '/', '>']]

/-- Does a newline between these texts get a break? -/
def BreakHere (before after : Text) : Prop :=
  (∀ c, after.head? = some c → isSpace c = false ∧ c ≠ '|') ∧ ∀ w ∈ noBreakAfter, ¬ w <:+ before.map lower

instance (o : Option Char) (p : Char → Prop) [DecidablePred p] : Decidable (∀ c, o = some c → p c) :=
  match o with
  | none => isTrue (by simp)
  | some c => if h : p c then isTrue (by simpa using h) else isFalse (by simpa using h)

instance (a b : Text) : Decidable (BreakHere a b) := inferInstanceAs (Decidable (_ ∧ _))

/-- The text with breaks inserted before its newlines; `before` is what comes before it. -/
def withBreaks (br : Text) (before : Text) : Text → Text
  | [] => []
  | c :: t => (if c = '\n' ∧ BreakHere before t then br else []) ++ c :: withBreaks br (before ++ [c]) t

/-! ## Inline markup -/

/-- The inline markers and their elements. -/
def inlineElements : List (Text × Text) :=
  [(['*'], ['s', 't', 'r', 'o', 'n', 'g']), (['*', '*'], ['b']), (['_'], ['e', 'm']), (['_', '_'], ['i']),
   (['?', '?'], ['c', 'i', 't', 'e']), (['-'], ['d', 'e', 'l']), (['+'], ['i', 'n', 's']), (['^'], ['s', 'u', 'p']),
   (['~'], ['s', 'u', 'b']), (['%'], ['s', 'p', 'a', 'n'])]

/-- The element of a marker. -/
def inlineElement (m : Text) : Text := ((inlineElements.find? (fun e => e.1 = m)).map (·.2)).getD []

/-- Inline elements: a text between two copies of a marker; code; verbatim text; a link
with its text and the address written down, the address it leads to and the relation. -/
inductive Inline where
  | marked (marker text : Text)
  | code (text : Text)
  | verbatim (text : Text)
  | link (text url href : Text) (rel : Option Text)

def Inline.source : Inline → Text
  | .marked m t => m ++ t ++ m
  | .code t => ['@'] ++ t ++ ['@']
  | .verbatim t => ['=', '='] ++ t ++ ['=', '=']
  | .link t url _ _ => ['"'] ++ t ++ ['"', ':'] ++ url

/-- An attribute. -/
def htmlAttr (name value : Text) : Text := [' '] ++ name ++ ['=', '"'] ++ value ++ ['"']

/-- The opening tag of a link. -/
def linkTag (href : Text) (rel : Option Text) : Text :=
  ['<', 'a'] ++ htmlAttr ['h', 'r', 'e', 'f'] (escape true href) ++
    (match rel with | some r => htmlAttr ['r', 'e', 'l'] r | none => []) ++ ['>']

def Inline.html : Inline → Text
  | .marked m t => element (inlineElement m) t
  | .code t => element ['c', 'o', 'd', 'e'] (escape false t)
  | .verbatim t => t
  | .link t _ href rel => linkTag href rel ++ t ++ ['<', '/', 'a', '>']

/-- What becomes of it when the source is escaped. -/
def Inline.escaped : Inline → Inline
  | .marked m t => .marked m t
  | .code t => .code (escape false t)
  | .verbatim t => .verbatim (escape false t)
  | .link t url href rel => .link t url href rel

/-- Links lead where `R` says, and have this relation. -/
def Inline.Resolved (R : Text → Text → Prop) (rel : Option Text) : Inline → Prop
  | .link _ url href r => R url href ∧ r = rel
  | _ => True

/-- The address of a link: what the URL parser makes of it if its scheme is allowed, or a
relative address without query and fragment as it is.  `parse` and `relative` are the URL
parser: the scheme and the normalised address; the address in relation to a base. -/
def Resolves (parse : Text → Option (Text × Text)) (relative : Text → Option Text) (restricted : Bool) (url href : Text) : Prop :=
  (∃ scheme, parse url = some (scheme, href) ∧ scheme ∈ allowedSchemes restricted) ∨
  (parse url = none ∧ (relative url).isSome ∧ '?' ∉ url ∧ '#' ∉ url ∧ href = url)

/-- An inline element, and the text after it. -/
structure Part where
  inl : Inline
  after : Text

/-- Text with inline elements. -/
structure Marked where
  lead : Text
  parts : List Part

def Marked.Resolved (R : Text → Text → Prop) (rel : Option Text) (t : Marked) : Prop := ∀ p ∈ t.parts, p.inl.Resolved R rel

def Marked.source (t : Marked) : Text := t.lead ++ t.parts.flatMap (fun p => p.inl.source ++ p.after)

def Marked.escaped (t : Marked) : Marked := { t with parts := t.parts.map (fun p => { p with inl := p.inl.escaped }) }

/-- A break tag before each newline. -/
def breakLines (br t : Text) : Text := t.flatMap (fun c => if c = '\n' then br ++ ['\n'] else [c])

def Marked.html (br : Text) (t : Marked) : Text :=
  breakLines br t.lead ++
    t.parts.flatMap (fun p => p.inl.html ++ breakLines br p.after)

/-- Ordinary text that may extend over several lines, none of them indented or empty
(except that the first and the last may be empty). -/
structure Prose (upper : Char → Bool) (t : Text) : Prop where
  chars : ∀ c ∈ t, ordinaryChar c = true ∨ c = '\n'
  caps : ∀ a x y z b, t = a ++ x :: y :: z :: b → ¬ (upper x = true ∧ upper y = true ∧ upper z = true)
  dots : ∀ a b, t ≠ a ++ '.' :: '.' :: '.' :: b
  dims : ∀ a d x b, isDecimal d = true → x = 'x' ∨ x = 'X' →
    t ≠ a ++ d :: x :: b ∧ t ≠ a ++ d :: ' ' :: x :: b
  lines : ∀ a c b, t = a ++ '\n' :: c :: b → c ≠ ' ' ∧ c ≠ '\n'

/-- The last character is a space or a newline. -/
def EndsInSpace (t : Text) : Prop := ∃ u c, t = u ++ [c] ∧ (c = ' ' ∨ c = '\n')

/-- What can follow a marked part: nothing, white space, or a full stop or comma with a
character after it that is neither another of them nor a digit.  At the end of the text
the full stop or comma can also be the last character, but not in lite mode. -/
def CanFollow (lite : Bool) : Text → Prop
  | [] => True
  | [c] => c = ' ' ∨ c = '\n' ∨ ((c = '.' ∨ c = ',') ∧ lite = false)
  | c :: d :: _ => c = ' ' ∨ c = '\n' ∨ ((c = '.' ∨ c = ',') ∧ d ≠ '.' ∧ d ≠ ',' ∧ isDecimal d = false)

/-- The characters of which the parser's placeholders consist. -/
def tokenChar (c : Char) : Bool :=
  decide (65 ≤ c.toNat ∧ c.toNat ≤ 90) || decide (97 ≤ c.toNat ∧ c.toNat ≤ 122) || decide (48 ≤ c.toNat ∧ c.toNat ≤ 57) || decide (c = ':')

/-- A text that can be between delimiters. -/
structure Quoted (t : Text) : Prop where
  nonl : '\n' ∉ t
  nocr : '\r' ∉ t
  noeq : ¬ ['=', '='] <:+: t
  notag : ¬ ['<', 'n', 'o', 't', 'e', 'x', 't', 'i', 'l', 'e', '>'] <:+: t

/-- Letters, digits and some of the other characters that can be in an address. -/
def urlChar (c : Char) : Bool :=
  (65 ≤ c.toNat && c.toNat ≤ 90) || (97 ≤ c.toNat && c.toNat ≤ 122) || (48 ≤ c.toNat && c.toNat ≤ 57) ||
    ['/', '.', ':', '-', '_', '?', '=', '#', '%', '+', '~', ','].contains c

/-- What can follow a link: nothing, white space, or one full stop or comma and then
nothing or white space. -/
def LinkEnd : Text → Prop
  | [] => True
  | [c] => c = ' ' ∨ c = '\n' ∨ c = '.' ∨ c = ','
  | c :: d :: _ => c = ' ' ∨ c = '\n' ∨ ((c = '.' ∨ c = ',') ∧ (d = ' ' ∨ d = '\n'))

/-- A link: its text does not begin or end with a space, and neither is its second
character one; the address ends in a letter, a digit or a slash. -/
structure LinkOk (upper : Char → Bool) (t url href : Text) (rel : Option Text) (after : Text) : Prop where
  words : Words upper t
  first : ∃ c u, t = c :: u ∧ c ≠ ' ' ∧ u.head? ≠ some ' '
  last : ∀ u, t ≠ u ++ [' ']
  dollar : t ≠ ['$']
  chars : ∀ c ∈ url, urlChar c = true
  noeq : ¬ ['=', '='] <:+: url
  urlEnd : ∃ u c, url = u ++ [c] ∧ ((65 ≤ c.toNat ∧ c.toNat ≤ 90) ∨ (97 ≤ c.toNat ∧ c.toNat ≤ 122) ∨ (48 ≤ c.toNat ∧ c.toNat ≤ 57) ∨ c = '/')
  href : ∀ c ∈ href, c ≠ '\n' ∧ c ≠ '\r' ∧ c ≠ '\t'
  rel : ∀ r, rel = some r → ∀ c ∈ r, (97 ≤ c.toNat ∧ c.toNat ≤ 122) ∨ c = ' ' ∨ c = '-'
  follow : LinkEnd after

/-- An inline element with this text after it.  In lite mode there is neither code nor
verbatim text. -/
def Inline.Ok (upper : Char → Bool) (lite : Bool) (after : Text) : Inline → Prop
  | .marked m t => m ∈ inlineElements.map (·.1) ∧ Words upper t ∧
      (∃ c u, t = c :: u ∧ c ≠ ' ' ∧ (c = '.' → m.head? ≠ some '*')) ∧ (∃ u c, t = u ++ [c] ∧ c ≠ ' ') ∧ CanFollow lite after
  | .code t => lite = false ∧ Quoted t ∧ '@' ∉ t ∧ ¬ ['<', 'c', 'o', 'd', 'e', '>'] <:+: t
  | .verbatim t => lite = false ∧ Quoted t ∧ (∀ u, t ≠ u ++ ['=']) ∧
      (¬ ['<', 'b', 'r'] <:+: t ∧ ∀ u, t ≠ u ++ ['<'] ∧ t ≠ u ++ ['<', 'b']) ∧
      (':' ∈ t → (∃ c u, t = c :: u ∧ tokenChar c = false) ∧ ∃ u c, t = u ++ [c] ∧ tokenChar c = false)
  | .link t url href rel => LinkOk upper t url href rel after

structure Part.Ok (upper : Char → Bool) (lite : Bool) (p : Part) : Prop where
  inl : p.inl.Ok upper lite p.after
  after : Prose upper p.after

/-- White space or the beginning of the text before each element. -/
structure Marked.Ok (upper : Char → Bool) (lite : Bool) (t : Marked) : Prop where
  lead : Prose upper t.lead
  parts : ∀ p ∈ t.parts, p.Ok upper lite
  before : t.parts ≠ [] → t.lead = [] ∨ EndsInSpace t.lead
  between : ∀ p ∈ t.parts.dropLast, EndsInSpace p.after
  first : ∃ c u, t.source = c :: u ∧ c ≠ ' ' ∧ c ≠ '\n'
  last : ∀ u, t.source ≠ u ++ ['\n']

/-- Paragraphs, headings and quotations with inline markup. -/
inductive Rich where
  | para (t : Marked)
  | tagged (tag : Text) (t : Marked)
  | quote (t : Marked)

def Rich.body : Rich → Marked
  | .para t => t
  | .tagged _ t => t
  | .quote t => t

def Rich.source : Rich → Text
  | .para t => t.source
  | .tagged tag t => tag ++ (['.', ' '] ++ t.source)
  | .quote t => ['b', 'q'] ++ (['.', ' '] ++ t.source)

def Rich.escaped : Rich → Rich
  | .para t => .para t.escaped
  | .tagged tag t => .tagged tag t.escaped
  | .quote t => .quote t.escaped

def Rich.html (br : Text) : Rich → Text
  | .para t => element ['p'] (t.html br)
  | .tagged tag t => element tag (t.html br)
  | .quote t => element ['b', 'l', 'o', 'c', 'k', 'q', 'u', 'o', 't', 'e']
      (['\n', '\t'] ++ element ['p'] (t.html br) ++ ['\n'])

def Rich.Ok (upper digit : Char → Bool) (lite : Bool) (b : Rich) : Prop :=
  b.body.Ok upper lite ∧ match b with
    | .para t => NoBlockWord digit lite t.source ∧ ¬ notelistWord <+: t.source
    | .tagged tag t =>
        tag ∈ ['p'] :: (if lite then [] else [['h', '1'], ['h', '2'], ['h', '3'], ['h', '4'], ['h', '5'], ['h', '6']]) ∧
        (tag = ['p'] → ¬ notelistWord <+: t.source)
    | .quote t => ¬ notelistWord <+: t.source

/-- The text of a document of such blocks, each with the number of newlines after it
(two more than given). -/
def richSource (ds : List (Rich × Nat)) : Text := glue (ds.map (fun d => (d.1.source, d.2)))

def richHtml (br : Text) (ds : List (Rich × Nat)) : Text := glue (ds.map (fun d => (d.1.html br, d.2)))

/-- What restricted mode sees: the source is escaped first. -/
def richSeen (restricted : Bool) (ds : List (Rich × Nat)) : List (Rich × Nat) :=
  if restricted then ds.map (fun d => (d.1.escaped, d.2)) else ds

/-- The number of inline elements. -/
def richCount (ds : List (Rich × Nat)) : Nat := (ds.map (fun d => d.1.body.parts.length)).sum

/-! ## Percent-encoding (RFC 3986) and UTF-8 (RFC 3629) -/

/-- Value of an upper case hexadecimal digit. -/
def hexValue (c : Char) : Nat := if c.toNat ≤ 57 then c.toNat - 48 else c.toNat - 55

/-- The bytes named by a percent-encoded text. -/
def percentBytes : Text → List Nat
  | '%' :: a :: b :: t => (16 * hexValue a + hexValue b) :: percentBytes t
  | c :: t => c.toNat :: percentBytes t
  | [] => []

/-- The code points of a sequence of UTF-8 bytes: `need` bytes of the current one, with
value `acc` so far, are still to come. -/
def utf8Codes (need acc : Nat) : List Nat → List Nat
  | [] => []
  | b :: t =>
    match need with
    | 0 =>
      if b < 0x80 then b :: utf8Codes 0 0 t
      else if b < 0xE0 then utf8Codes 1 (b - 0xC0) t
      else if b < 0xF0 then utf8Codes 2 (b - 0xE0) t
      else utf8Codes 3 (b - 0xF0) t
    | 1 => (64 * acc + (b - 0x80)) :: utf8Codes 0 0 t
    | n + 2 => utf8Codes (n + 1) (64 * acc + (b - 0x80)) t

/-- The code points a percent-encoded text stands for. -/
def percentDecode (t : Text) : List Nat := utf8Codes 0 0 (percentBytes t)

/-- Letters and digits of ASCII, and the percent sign. -/
def isUrlSafe (c : Char) : Bool :=
  c.toNat == 37 || (48 ≤ c.toNat && c.toNat ≤ 57) || (65 ≤ c.toNat && c.toNat ≤ 90) ||
    (97 ≤ c.toNat && c.toNat ≤ 122)

end Spec
