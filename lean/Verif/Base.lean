import Lean

/-!
# Base: strings, panics and the standard-library string functions

Rust strings are modelled as lists of Unicode scalar values (`List Char`).
The functions below model the parts of Rust's `str` API used by the crate.
Byte offsets matter in exactly one function of the crate
(`insert_brs`, /repo/src/parser.rs:1020-1056); it is modelled with the
byte-level slicing functions at the end of this file.
-/

namespace Rustextile

/-- A Rust `String`/`&str`, as its sequence of `char`s. -/
abbrev Str := List Char

/-- `t!"abc"` is the list `['a', 'b', 'c']` (expanded at elaboration time, so the
kernel never has to decode a string literal). -/
syntax:max "t!" str : term

macro_rules
  | `(t! $s:str) => do
    let elems := s.getString.toList.toArray.map (fun c => Lean.Syntax.mkCharLit c)
    `(([$elems,*] : List Char))

/-- How a call into the crate can fail to return a value.
* `panic msg`: the Rust code panics (`unreachable!`, `expect`, slicing off a
  UTF-8 boundary, ...).
* `diverge`: a loop of the Rust code did not finish within the fuel given to the
  model; see `Ctx.fuel`. -/
inductive Err where
  | panic (msg : Str)
  | diverge
  deriving DecidableEq, Repr

/-! ## Rust `str` methods -/

/-- `char::is_whitespace` and the regex class `\s`: the Unicode `White_Space`
property (a fixed, closed list). -/
def isWs (c : Char) : Bool :=
  let n := c.toNat
  (9 ≤ n && n ≤ 13) || n == 32 || n == 0x85 || n == 0xA0 || n == 0x1680 ||
  (0x2000 ≤ n && n ≤ 0x200A) || n == 0x2028 || n == 0x2029 || n == 0x202F ||
  n == 0x205F || n == 0x3000

/-- `char::is_control`: general category Cc. -/
def isControl (c : Char) : Bool :=
  let n := c.toNat
  n ≤ 0x1F || (0x7F ≤ n && n ≤ 0x9F)

/-- `str::trim_start_matches(p)`. -/
def trimStartP (p : Char → Bool) (s : Str) : Str := s.dropWhile p

/-- `str::trim_end_matches(p)`. -/
def trimEndP (p : Char → Bool) (s : Str) : Str := (s.reverse.dropWhile p).reverse

/-- `str::trim_matches(p)`. -/
def trimP (p : Char → Bool) (s : Str) : Str := trimEndP p (trimStartP p s)

/-- `str::trim_start`. -/
def trimStart (s : Str) : Str := trimStartP isWs s
/-- `str::trim_end`. -/
def trimEnd (s : Str) : Str := trimEndP isWs s
/-- `str::trim`. -/
def trim (s : Str) : Str := trimP isWs s

/-- `str::starts_with(&str)`. -/
def startsWith (s p : Str) : Bool := p.isPrefixOf s

/-- `str::ends_with(char)`. -/
def endsWithChar (s : Str) (c : Char) : Bool := s.getLast? == some c

/-- `str::contains(&str)`. -/
def containsStr (needle : Str) : Str → Bool
  | [] => needle.isEmpty
  | c :: t => needle.isPrefixOf (c :: t) || containsStr needle t

/-- `str::matches(char).count()`. -/
def countChar (c : Char) (s : Str) : Nat := s.count c

/-- Worker of `replaceStr`: `skip` characters of the current match are still to
be dropped. -/
def replaceAux (needle rep : Str) : Nat → Str → Str
  | _, [] => []
  | k + 1, _ :: t => replaceAux needle rep k t
  | 0, c :: t =>
    if needle.isPrefixOf (c :: t) then rep ++ replaceAux needle rep (needle.length - 1) t
    else c :: replaceAux needle rep 0 t

/-- `str::replace(needle, rep)`: left-to-right, non-overlapping.
Simplification: the crate never calls it with an empty needle, for which this
definition is not meant to agree with Rust. -/
def replaceStr (needle rep s : Str) : Str := replaceAux needle rep 0 s

/-- `str::split(char)`. -/
def splitChar (d : Char) : Str → List Str
  | [] => [[]]
  | c :: t =>
    if c == d then [] :: splitChar d t
    else match splitChar d t with
      | [] => [[c]]
      | h :: r => (c :: h) :: r

/-- `str::split_once(char)`. -/
def splitOnce (d : Char) : Str → Option (Str × Str)
  | [] => none
  | c :: t =>
    if c == d then some ([], t)
    else (splitOnce d t).map (fun p => (c :: p.1, p.2))

/-- `str::find(&str)`, returning the text before and from the match. -/
def findStr (needle : Str) : Str → Option (Str × Str)
  | [] => if needle.isEmpty then some ([], []) else none
  | c :: t =>
    if needle.isPrefixOf (c :: t) then some ([], c :: t)
    else (findStr needle t).map (fun p => (c :: p.1, p.2))

/-- `str::rfind(char)`, returning the text before the match and after the
matched character. -/
def rfindChar (d : Char) (s : Str) : Option (Str × Str) :=
  (splitOnce d s.reverse).map (fun p => (p.2.reverse, p.1.reverse))

/-- `slice.join(sep)`. -/
def joinWith (sep : Str) : List Str → Str
  | [] => []
  | [x] => x
  | x :: y :: r => x ++ sep ++ joinWith sep (y :: r)

/-- `slice.concat()` / `join("")`. -/
def concat (l : List Str) : Str := l.flatten

/-- Decimal digits of a number, most significant first (fuel-bounded worker). -/
def natDigitsAux : Nat → Nat → Str → Str
  | 0, _, acc => acc
  | f + 1, n, acc =>
    let acc' := Char.ofNat (48 + n % 10) :: acc
    if n / 10 = 0 then acc' else natDigitsAux f (n / 10) acc'

/-- `format!("{}", n)` / `n.to_string()` for an unsigned integer. -/
def natStr (n : Nat) : Str := natDigitsAux (n + 1) n []

/-- Value of a string of ASCII digits; `none` if it is empty or some character
is not an ASCII digit. -/
def parseDigits (s : Str) : Option Nat :=
  if s.isEmpty then none
  else s.foldl (fun acc c =>
    match acc with
    | none => none
    | some a => if 48 ≤ c.toNat && c.toNat ≤ 57 then some (a * 10 + (c.toNat - 48)) else none)
    (some 0)

/-- `str::parse::<u32>()` on strings without a sign. -/
def parseU32 (s : Str) : Option Nat :=
  match parseDigits s with
  | some n => if n < 2 ^ 32 then some n else none
  | none => none

/-- `str::parse::<usize>()` on strings without a sign (64-bit target). -/
def parseUsize (s : Str) : Option Nat :=
  match parseDigits s with
  | some n => if n < 2 ^ 64 then some n else none
  | none => none

/-- Lexicographic order on strings. Rust compares `String`s bytewise; on UTF-8
this coincides with comparing code points. -/
def strLt : Str → Str → Bool
  | _, [] => false
  | [], _ :: _ => true
  | a :: as, b :: bs => if a.toNat < b.toNat then true else if b.toNat < a.toNat then false else strLt as bs

/-! ## Byte-level slicing -/

/-- Number of UTF-8 bytes of a string: `str::len`. -/
def byteLen (s : Str) : Nat := s.foldr (fun c n => c.utf8Size + n) 0

/-- `&s[n..]`; `none` when `n` is not on a character boundary or past the end
(where Rust panics). -/
def dropBytes : Nat → Str → Option Str
  | 0, s => some s
  | _ + 1, [] => none
  | n + 1, c :: t => if c.utf8Size ≤ n + 1 then dropBytes (n + 1 - c.utf8Size) t else none

/-- `&s[..n]`; `none` when Rust panics. -/
def takeBytes : Nat → Str → Option Str
  | 0, _ => some []
  | _ + 1, [] => none
  | n + 1, c :: t =>
    if c.utf8Size ≤ n + 1 then (takeBytes (n + 1 - c.utf8Size) t).map (c :: ·) else none

/-- `&s[a..b]`; `none` when Rust panics. -/
def sliceBytes (s : Str) (a b : Nat) : Option Str :=
  if a ≤ b then
    match dropBytes a s with
    | some t => takeBytes (b - a) t
    | none => none
  else none

/-- Byte offset of the first `'\n'`: `str::find('\n')`. -/
def findNlBytes : Str → Option Nat
  | [] => none
  | c :: t => if c == '\n' then some 0 else (findNlBytes t).map (c.utf8Size + ·)

/-! ## Association lists: `IndexMap` and `BTreeMap` -/

/-- Lookup in an association list. -/
def alLookup {α β} [DecidableEq α] (k : α) : List (α × β) → Option β
  | [] => none
  | (a, b) :: t => if a = k then some b else alLookup k t

/-- `IndexMap::insert`: replaces in place, or appends. -/
def imInsert {α β} [DecidableEq α] (k : α) (v : β) : List (α × β) → List (α × β)
  | [] => [(k, v)]
  | (a, b) :: t => if a = k then (a, v) :: t else (a, b) :: imInsert k v t

/-- `IndexMap::shift_remove`. -/
def imRemove {α β} [DecidableEq α] (k : α) : List (α × β) → List (α × β)
  | [] => []
  | (a, b) :: t => if a = k then t else (a, b) :: imRemove k t

/-- `BTreeMap<String, _>::insert` on a list sorted by key. Also the effect of
the binary-search insertion of `BlockHtmlAttributes::insert` on a sorted vector. -/
def btInsert {β} (k : Str) (v : β) : List (Str × β) → List (Str × β)
  | [] => [(k, v)]
  | (a, b) :: t =>
    if a = k then (a, v) :: t
    else if strLt k a then (k, v) :: (a, b) :: t
    else (a, b) :: btInsert k v t

end Rustextile
