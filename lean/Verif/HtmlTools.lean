import Verif.Patterns

/-!
# /repo/src/htmltools.rs
-/

namespace Rustextile

/-- `Except Err` computations model Rust code that can panic. -/
abbrev R := Except Err

/-- Text obtained by replacing each match with the value of `f`, in order. -/
def mapSegs {m : Type → Type} [Monad m] (f : Mat → m Str) : List Mat → m Str
  | [] => pure []
  | x :: t => do
    let a ← f x
    let b ← mapSegs f t
    pure (x.gap ++ a ++ b)

/-- `Regex::replace_all` with an effectful replacer. -/
def Re.replaceAllM {m : Type → Type} [Monad m] (U : Uni) (r : Re) (f : Mat → m Str) (text : Str) : m Str := do
  let t := r.matches U text
  let a ← mapSegs f t.1
  pure (a ++ t.2)

/-- The replacement table of `encode_html` (htmltools.rs:29-39), guarded by the
pattern selected in lines 14-24. -/
def encChar (quotes spacers : Bool) (c : Char) : Str :=
  if c == '&' then t!"&amp;"
  else if c == '<' then t!"&lt;"
  else if c == '>' then t!"&gt;"
  else if quotes && c == '"' then t!"&quot;"
  else if quotes && c == '\'' then t!"&#39;"
  else if spacers && c == '\n' then t!"&#13;"
  else if spacers && c == '\r' then t!"&#10;"
  else if spacers && c == '\t' then t!"&#9;"
  else [c]

/-- htmltools.rs:12-45 `encode_html`: the loop copies the text up to the next
special character, then its replacement. -/
def encodeHtml (text : Str) (quotes spacers : Bool) : Str := text.flatMap (encChar quotes spacers)

/-- The `match` of htmltools.rs:54-63. `&amp;` is matched by the regular
expression but has no arm, so it reaches `unreachable!`. -/
def revEntity (entity : Str) : R Str :=
  if entity = t!"&lt;" then .ok t!"<"
  else if entity = t!"&gt;" then .ok t!">"
  else if entity = t!"&quot;" then .ok t!"\""
  else if entity = t!"&#39;" then .ok t!"'"
  else if entity = t!"&#13;" then .ok t!"\n"
  else if entity = t!"&#10;" then .ok t!"\r"
  else if entity = t!"&#9;" then .ok t!"\t"
  else .error (.panic t!"Entity must be part of the regular expression")

/-- htmltools.rs:47-65 `reverse_encode_html`. -/
def reverseEncodeHtml (U : Uni) (text : Str) : R Str :=
  ENTITY_RE.replaceAllM U (fun m => revEntity (m.grp 1)) text

/-- htmltools.rs:69-80 `quoteattr`. -/
def quoteattr (data : Str) : Str :=
  let d := encodeHtml data false true
  if d.contains '"' then
    if d.contains '\'' then
      t!"\"" ++ replaceStr t!"\"" t!"&quot;" d ++ t!"\""
    else t!"'" ++ d ++ t!"'"
  else t!"\"" ++ d ++ t!"\""

/-- htmltools.rs:83-92 `is_valid_attribute_char`. -/
def isValidAttrChar (c : Char) : Bool :=
  !(isControl c || isWs c || (0xFDD0 ≤ c.toNat && c.toNat ≤ 0xFDEF) ||
    c == '=' || c == '/' || c == '>' || c == '"' || c == '\'')

/-- One written attribute: ` name="value"`. -/
def attrText (a : Str × Str) : Str := t!" " ++ a.1 ++ t!"=" ++ quoteattr a.2

/-- htmltools.rs:95-103 `join_html_attributes`: the text appended to `result`. -/
def joinAttrs (attrs : List (Str × Str)) : Str :=
  (attrs.filter (fun a => a.1.all isValidAttrChar)).flatMap attrText

/-- htmltools.rs:131-162 `generate_tag` with a tag given as a string. -/
def generateTag (U : Uni) (tag : Str) (content : Option Str) (attrs : List (Str × Str)) : Str :=
  if tag.isEmpty then content.getD []
  else if !tag.all U.isAlnum then encodeHtml (content.getD []) true false
  else
    t!"<" ++ tag ++ joinAttrs attrs ++
    match content with
    | some text => t!">" ++ text ++ t!"</" ++ tag ++ t!">"
    | none => t!" />"

/-- htmltools.rs:165-200 `INVALID_CHARREFS`. -/
def invalidCharref (n : Nat) : Option Nat :=
  if n == 0 then some 0xFFFD
  else if n == 0x0D then some 0x0D
  else if 0x80 ≤ n && n ≤ 0x9F then
    [0x20AC, 0x81, 0x201A, 0x0192, 0x201E, 0x2026, 0x2020, 0x2021,
     0x02C6, 0x2030, 0x0160, 0x2039, 0x0152, 0x8D, 0x017D, 0x8F,
     0x90, 0x2018, 0x2019, 0x201C, 0x201D, 0x2022, 0x2013, 0x2014,
     0x02DC, 0x2122, 0x0161, 0x203A, 0x0153, 0x9D, 0x017E, 0x0178][n - 0x80]?
  else none

/-- htmltools.rs:204-213 `is_invalid_codepoint`. -/
def isInvalidCodepoint (n : Nat) : Bool :=
  (1 ≤ n && n ≤ 8) || (0xE ≤ n && n ≤ 0x1F) || (0x7F ≤ n && n ≤ 0x9F) ||
  (0xFDD0 ≤ n && n ≤ 0xFDEF) || n == 0xB || (n % 0x10000 == 0xFFFE && n ≤ 0x10FFFF) ||
  (n % 0x10000 == 0xFFFF && n ≤ 0x10FFFF)

/-- htmltools.rs:216-233: the numeric branch of `replace_charref`, i.e. the value
of `unescape("&#{n};")`.  It is the only use the crate makes of `unescape`
(parser.rs:267-270), so the named references and the table of html.rs are not
modelled. -/
def unescapeCharref (n : Nat) : Str :=
  match invalidCharref n with
  | some v => [Char.ofNat v]
  | none =>
    if (0xD800 ≤ n && n ≤ 0xDFFF) || n > 0x10FFFF then [Char.ofNat 0xFFFD]
    else if isInvalidCodepoint n then []
    else [Char.ofNat n]

/-- htmltools.rs:272-298 `has_raw_text`. -/
def hasRawText (U : Uni) (text : Str) : Bool :=
  if UNWRAPPABLE_RE.isMatch U text || DIVIDER_RE.isMatch U text then false
  else match WRAPPED_RE.captures U text with
    | some m => PHRASING_RE.isMatch U (m.grp 1)
    | none => true

end Rustextile
