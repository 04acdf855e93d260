import Verif.HtmlTools

/-!
# /repo/src/block.rs, attributes
-/

namespace Rustextile

/-- block.rs:14 `BlockHtmlAttributes`: a vector kept sorted by name. -/
abbrev HtmlAttrs := List (Str × Str)

/-- block.rs:17-26 `insert`.  On a vector sorted by name, binary search followed
by an update or an insertion is insertion into a sorted association list. -/
def HtmlAttrs.insert (k : Str) (v : Str) (a : HtmlAttrs) : HtmlAttrs := btInsert k v a

/-- block.rs:28-53 `insert_css_class`; the returned flag is dropped (no caller
uses it). -/
def HtmlAttrs.insertCssClass (U : Uni) (name : Str) (a : HtmlAttrs) : HtmlAttrs :=
  let n := trim name
  if CSS_CLASS_NAME_RE.isMatch U n then
    match alLookup t!"class" a with
    | some old => btInsert t!"class" (old ++ t!" " ++ n) a
    | none => btInsert t!"class" n a
  else a

/-- block.rs:56-62 `AddAssign<(&str, Option<String>)>`. -/
def HtmlAttrs.addOpt (k : Str) (v : Option Str) (a : HtmlAttrs) : HtmlAttrs :=
  match v with
  | some x => HtmlAttrs.insert k x a
  | none => a

/-- block.rs:74-85 `BlockHtmlAttributes::to_string`. -/
def HtmlAttrs.toStr (a : HtmlAttrs) : Str := a.flatMap attrText

/-- block.rs:88-98 `BlockAttributes`. -/
structure BAttrs where
  colspan : Option Str := none
  style : Option Str := none
  cls : Option Str := none
  id : Option Str := none
  rowspan : Option Str := none
  lang : Option Str := none
  span : Option Str := none
  width : Option Str := none
  deriving DecidableEq, Repr

/-- block.rs:140-145, 225-230: the alignment words, with their `unreachable!` arm. -/
def valignWord (m : Str) : R Str :=
  if m = t!"^" then .ok t!"top"
  else if m = t!"-" then .ok t!"middle"
  else if m = t!"~" then .ok t!"bottom"
  else .error (.panic t!"Unsupported table vertical alignment")

/-- block.rs:223-230. -/
def halignWord (m : Str) : R Str :=
  if m = t!"<" then .ok t!"left"
  else if m = t!"=" then .ok t!"center"
  else if m = t!">" then .ok t!"right"
  else if m = t!"<>" then .ok t!"justify"
  else .error (.panic t!"Unexpected block horizontal alignment")

/-- block.rs:171-200: classes and id from the text between parentheses. -/
def classAndId (U : Uni) (mix : Str) : Option Str × Option Str :=
  match splitOnce '#' mix with
  | none => (if CSS_CLASSES_RE.isMatch U mix then some mix else none, none)
  | some (left, right) =>
    (if !left.isEmpty then (if CSS_CLASSES_RE.isMatch U left then some left else none) else none,
     if CSS_ID_RE.isMatch U right then some right else none)

/-- block.rs:138-148: vertical alignment of table cells and rows. -/
def valignStyle (U : Uni) (matched : Str) (element : Option Str) : R (List Str) :=
  if element = some t!"td" ∨ element = some t!"tr" then
    match ATTR_VALIGN_RE.captures U matched with
    | some m =>
      match valignWord m.whole with
      | .ok a => .ok [t!"vertical-align:" ++ a]
      | .error e => .error e
    | none => .ok []
  else .ok []

/-- block.rs:150-158: explicit styles (unrestricted mode only); also the text
without them. -/
def explicitStyle (U : Uni) (matched : Str) (restricted : Bool) : List Str × Str :=
  if restricted then ([], matched)
  else match ATTR_STYLE_RE.captures U matched with
    | some m =>
      ((splitChar ';' (trimEndP (· == ';') (m.grp 1))).map trim, replaceStr m.whole [] matched)
    | none => ([], matched)

/-- block.rs:160-167: language; also the text without it. -/
def langAttr (U : Uni) (matched : Str) : Option Str × Str :=
  match ATTR_LANG_RE.captures U matched with
  | some m => (some (m.grp 1), replaceStr m.whole [] matched)
  | none => (none, matched)

/-- block.rs:169-206: classes and id; also the text without them. -/
def aclassAttr (U : Uni) (matched : Str) (restricted : Bool) : (Option Str × Option Str) × Str :=
  match ATTR_ACLASS_RE.captures U matched with
  | some m =>
    (if restricted then (none, none) else classAndId U (m.grp 1), replaceStr m.whole [] matched)
  | none => ((none, none), matched)

/-- block.rs:208-216: padding; `re` is the left or right pattern. -/
def paddingStyle (U : Uni) (re : Re) (side : Str) (matched : Str) : List Str × Str :=
  match re.captures U matched with
  | some m =>
    ([side ++ natStr (m.grp 1).length ++ t!"em"], replaceStr m.whole [] matched)
  | none => ([], matched)

/-- block.rs:222-232: horizontal alignment. -/
def halignStyle (U : Uni) (matched : Str) : R (List Str) :=
  match ATTR_HALIGN_RE.captures U matched with
  | some m =>
    match halignWord (m.grp 1) with
    | .ok a => .ok [t!"text-align:" ++ a]
    | .error e => .error e
  | none => .ok []

/-- block.rs:101-256 `BlockAttributes::parse`.  `include_id` is `true` at every
call. -/
def BAttrs.parse (U : Uni) (attrs : Str) (element : Option Str) (restricted : Bool) : R BAttrs :=
  if attrs.isEmpty then .ok {}
  else
    let colspan := if element = some t!"td" then (COLSPAN_RE.captures U attrs).map (·.grp 1) else none
    let rowspan := if element = some t!"td" then (ROWSPAN_RE.captures U attrs).map (·.grp 1) else none
    match valignStyle U attrs element with
    | .error e => .error e
    | .ok style1 =>
      let s2 := explicitStyle U attrs restricted
      let lang := langAttr U s2.2
      let ac := aclassAttr U lang.2 restricted
      let pl := paddingStyle U ATTR_PADDING_LEFT_RE t!"padding-left:" ac.2
      let pr := paddingStyle U ATTR_PADDING_RIGHT_RE t!"padding-right:" pl.2
      match halignStyle U pr.2 with
      | .error e => .error e
      | .ok style3 =>
        let style := style1 ++ s2.1 ++ pl.1 ++ pr.1 ++ style3
        let col := if element = some t!"col" then ATTR_COL_RE.captures U pr.2 else none
        .ok {
          colspan := colspan
          rowspan := rowspan
          lang := lang.1
          span := col.bind (·.get? 1)
          width := col.bind (·.get? 2)
          id := ac.1.2
          style := if style.isEmpty then none else some (joinWith t!"; " style ++ t!";")
          cls := ac.1.1 }

/-- block.rs:258-269 `html_attrs`. -/
def BAttrs.html (a : BAttrs) : HtmlAttrs :=
  HtmlAttrs.addOpt t!"width" a.width <|
  HtmlAttrs.addOpt t!"style" a.style <|
  HtmlAttrs.addOpt t!"span" a.span <|
  HtmlAttrs.addOpt t!"rowspan" a.rowspan <|
  HtmlAttrs.addOpt t!"lang" a.lang <|
  HtmlAttrs.addOpt t!"id" a.id <|
  HtmlAttrs.addOpt t!"colspan" a.colspan <|
  HtmlAttrs.addOpt t!"class" a.cls []

/-- block.rs:273-277 `From<BlockAttributes> for String`. -/
def BAttrs.toStr (a : BAttrs) : Str := HtmlAttrs.toStr a.html

end Rustextile
