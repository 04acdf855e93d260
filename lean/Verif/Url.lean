import Verif.HtmlTools

/-!
# /repo/src/urlutils.rs
-/

namespace Rustextile

/-- The outside world, as seen by the crate. -/
structure Env where
  U : Uni
  /-- `url::Url::parse`: scheme and serialisation, or failure. -/
  urlParse : Str → Option (Str × Str)
  /-- `Url::parse("http://example.com").join(url)`: serialisation, or failure. -/
  urlJoin : Str → Option Str
  /-- `get_image_size` (parser.rs:58-80): width and height found behind a URL. -/
  imageSize : Str → Option (Int × Int)

/-- urlutils.rs:25-31 `UrlBits`. -/
inductive UrlBits where
  | abs (scheme text : Str)
  | rel (url source : Str)
  deriving DecidableEq, Repr

/-- UTF-8 encoding of a character. -/
def utf8Bytes (c : Char) : List Nat :=
  let n := c.toNat
  if n < 0x80 then [n]
  else if n < 0x800 then [0xC0 + n / 64, 0x80 + n % 64]
  else if n < 0x10000 then [0xE0 + n / 4096, 0x80 + n / 64 % 64, 0x80 + n % 64]
  else [0xF0 + n / 262144, 0x80 + n / 4096 % 64, 0x80 + n / 64 % 64, 0x80 + n % 64]

def hexDigit (n : Nat) : Char := if n < 10 then Char.ofNat (48 + n) else Char.ofNat (55 + n)

/-- `utf8_percent_encode(_, NON_ALPHANUMERIC)` on one character. -/
def pctChar (c : Char) : Str :=
  let n := c.toNat
  if (48 ≤ n && n ≤ 57) || (65 ≤ n && n ≤ 90) || (97 ≤ n && n ≤ 122) then [c]
  else (utf8Bytes c).flatMap (fun b => ['%', hexDigit (b / 16), hexDigit (b % 16)])

/-- `utf8_percent_encode(_, NON_ALPHANUMERIC)`. -/
def pctEncode (s : Str) : Str := s.flatMap pctChar

/-- urlutils.rs:42-63 `make_relative_url`, `UrlBits::parse`. -/
def UrlBits.parse (E : Env) (url : Str) : UrlBits :=
  match E.urlParse url with
  | some (scheme, text) => .abs scheme text
  | none =>
    match E.urlJoin url with
    | some j => .rel j url
    | none =>
      let safed := pctEncode url
      match E.urlJoin safed with
      | some j => .rel j safed
      | none => .rel t!"http://example.com/" []

/-- urlutils.rs:65-70. -/
def UrlBits.scheme : UrlBits → Str
  | .abs s _ => s
  | .rel _ _ => []

/-- urlutils.rs:72-77. -/
def UrlBits.isRelative : UrlBits → Bool
  | .abs _ _ => false
  | .rel _ _ => true

/-- urlutils.rs:81-112 `UrlBits::to_string`. -/
def UrlBits.toStr : UrlBits → Str
  | .abs _ t => t
  | .rel url source =>
    match splitOnce '?' url, splitOnce '?' source with
    | some (_, uq), some (sp, _) => sp ++ ['?'] ++ uq
    | _, _ =>
      match rfindChar '#' url, rfindChar '#' source with
      | some (_, uf), some (sp, _) => sp ++ ['#'] ++ uf
      | none, some (sp, _) => sp
      | _, none => source

/-- urlutils.rs:118-121 `UrlString`. -/
inductive UrlString where
  | normalized (t : Str)
  | raw (t : Str)
  deriving DecidableEq, Repr

/-- urlutils.rs:135-148 `UrlString::to_string`. -/
def UrlString.toStr (E : Env) : UrlString → Str
  | .normalized t => t
  | .raw t => if t.isEmpty then [] else (UrlBits.parse E t).toStr

/-- urlutils.rs:151-156 `UrlString::source`. -/
def UrlString.source : UrlString → Str
  | .normalized t => t
  | .raw t => t

/-- urlutils.rs:158-160 `UrlString::to_html_string`. -/
def UrlString.toHtml (E : Env) (u : UrlString) : Str := encodeHtml (u.toStr E) true true

end Rustextile
