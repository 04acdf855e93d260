import Verif.Base

/-!
# A backtracking regular-expression engine

The crate delegates all pattern matching to `fancy_regex` 0.10, an external
dependency.  This file models its documented semantics: leftmost match, ordered
(Perl-style) alternation, greedy and lazy quantifiers, capture groups,
back-references, look-ahead, constant-size look-behind, `^ $ \b`.

Not modelled: `fancy_regex`'s backtrack limit (a run that would exceed it is an
`Err` there, and panics inside `replace_all`).
-/

namespace Rustextile

/-- The Unicode data used by the crate (through the regex library and through
`char` methods).  These tables are external to the repository: the model is
parametric in them. -/
structure Uni where
  /-- `\w` -/
  isWord : Char → Bool
  /-- `\p{L}` -/
  isL : Char → Bool
  /-- `\p{Lu}` -/
  isLu : Char → Bool
  /-- `\p{Ll}` -/
  isLl : Char → Bool
  /-- `\p{M}` -/
  isM : Char → Bool
  /-- `\p{N}` -/
  isN : Char → Bool
  /-- `\d` and `\p{Nd}` -/
  isNd : Char → Bool
  /-- `\p{Pc}` -/
  isPc : Char → Bool
  /-- `\p{Currency_Symbol}` -/
  isSc : Char → Bool
  /-- `char::is_alphanumeric` -/
  isAlnum : Char → Bool
  /-- `str::to_lowercase` -/
  toLower : Str → Str

/-- Named character classes. -/
inductive UC where
  | space | digit | word | L | Lu | Ll | M | N | Pc | Sc
  deriving DecidableEq, Repr, Lean.ToExpr

def UC.eval (U : Uni) : UC → Char → Bool
  | .space, c => isWs c
  | .digit, c => U.isNd c
  | .word, c => U.isWord c
  | .L, c => U.isL c
  | .Lu, c => U.isLu c
  | .Ll, c => U.isLl c
  | .M, c => U.isM c
  | .N, c => U.isN c
  | .Pc, c => U.isPc c
  | .Sc, c => U.isSc c

/-- A member of a character class `[...]`. -/
inductive Item where
  | chr (c : Char)
  | range (lo hi : Char)
  | cls (k : UC)
  /-- `\S` and the like -/
  | ncls (k : UC)
  deriving DecidableEq, Repr, Lean.ToExpr

def Item.eval (U : Uni) : Item → Char → Bool
  | .chr d, c => c.toNat == d.toNat
  | .range lo hi, c => lo.toNat ≤ c.toNat && c.toNat ≤ hi.toNat
  | .cls k, c => k.eval U c
  | .ncls k, c => !k.eval U c

/-- `[items]` (`neg = false`) or `[^items]` (`neg = true`). -/
def evalSet (U : Uni) (neg : Bool) (items : List Item) (c : Char) : Bool :=
  (items.any (fun i => i.eval U c)) != neg

/-- Regular expressions. -/
inductive Re where
  | eps
  | set (neg : Bool) (items : List Item)
  | seq (a b : Re)
  | alt (a b : Re)
  /-- `r*` (greedy) / `r*?` (lazy) -/
  | star (greedy : Bool) (r : Re)
  | grp (n : Nat) (r : Re)
  | bref (n : Nat)
  /-- `(?=r)` / `(?!r)` -/
  | look (neg : Bool) (r : Re)
  /-- `(?<=r)` / `(?<!r)` with `r` matching exactly `n` characters -/
  | behind (neg : Bool) (n : Nat) (r : Re)
  /-- `^` without `m` -/
  | bot
  /-- `$` without `m` -/
  | eot
  /-- `^` with `m` -/
  | bol
  /-- `$` with `m` -/
  | eol
  /-- `\b` -/
  | wordb
  deriving DecidableEq, Repr, Lean.ToExpr

/-- A position in the subject: the text before it (reversed) and after it. -/
structure Cur where
  pre : Str
  rest : Str
  deriving DecidableEq, Repr

/-- Captured groups, most recent first. -/
abbrev Caps := List (Nat × Str)

/-- The text between two positions of the same subject. -/
def between (a b : Cur) : Str := a.rest.take (a.rest.length - b.rest.length)

/-- Move `n` characters back. -/
def Cur.back : Nat → Cur → Option Cur
  | 0, c => some c
  | _ + 1, ⟨[], _⟩ => none
  | n + 1, ⟨x :: p, r⟩ => Cur.back n ⟨p, x :: r⟩

/-- Move forward over a word known to be a prefix of the rest. -/
def Cur.adv (c : Cur) (w : Str) : Cur := ⟨w.reverse ++ c.pre, c.rest.drop w.length⟩

/-- `\b`. -/
def atWordB (U : Uni) (c : Cur) : Bool :=
  let l := match c.pre with | [] => false | x :: _ => U.isWord x
  let r := match c.rest with | [] => false | x :: _ => U.isWord x
  l != r

/-- Continuation of a match. -/
abbrev K := Cur → Caps → Option (Cur × Caps)

/-- Repetition of `body`.  `fuel` (a list as long as the remaining text) bounds
the number of iterations; no pattern of the crate repeats an expression that
matches the empty string (`Verif/PatternsCheck.lean`, `patterns_star_nonnull`), so
every iteration consumes at least one character and the bound is never active. -/
def starLoop (body : Cur → Caps → K → Option (Cur × Caps)) (greedy : Bool) (k : K) :
    Str → Cur → Caps → Option (Cur × Caps)
  | [], c, s => k c s
  | _ :: f, c, s =>
    if greedy then
      match body c s (fun c' s' => starLoop body greedy k f c' s') with
      | some r => some r
      | none => k c s
    else
      match k c s with
      | some r => some r
      | none => body c s (fun c' s' => starLoop body greedy k f c' s')

/-- Backtracking matcher in continuation-passing style. -/
def Re.run (U : Uni) : Re → Cur → Caps → K → Option (Cur × Caps)
  | .eps, c, s, k => k c s
  | .set neg items, c, s, k =>
    match c.rest with
    | [] => none
    | x :: xs => if evalSet U neg items x then k ⟨x :: c.pre, xs⟩ s else none
  | .seq a b, c, s, k => a.run U c s (fun c' s' => b.run U c' s' k)
  | .alt a b, c, s, k =>
    match a.run U c s k with
    | some r => some r
    | none => b.run U c s k
  | .star g r, c, s, k => starLoop (fun c s k => r.run U c s k) g k c.rest c s
  | .grp n r, c, s, k => r.run U c s (fun c' s' => k c' ((n, between c c') :: s'))
  | .bref n, c, s, k =>
    match alLookup n s with
    | none => none
    | some w => if w.isPrefixOf c.rest then k (c.adv w) s else none
  | .look neg r, c, s, k =>
    match r.run U c s (fun c' s' => some (c', s')) with
    | some (_, s') => if neg then none else k c s'
    | none => if neg then k c s else none
  | .behind neg n r, c, s, k =>
    match c.back n with
    | none => if neg then k c s else none
    | some b =>
      match r.run U b s (fun c' s' => some (c', s')) with
      | some (_, s') => if neg then none else k c s'
      | none => if neg then k c s else none
  | .bot, c, s, k => if c.pre.isEmpty then k c s else none
  | .eot, c, s, k => if c.rest.isEmpty then k c s else none
  | .bol, c, s, k =>
    match c.pre with
    | [] => k c s
    | x :: _ => if x == '\n' then k c s else none
  | .eol, c, s, k =>
    match c.rest with
    | [] => k c s
    | x :: _ => if x == '\n' then k c s else none
  | .wordb, c, s, k => if atWordB U c then k c s else none

/-- Match attempt anchored at a position. -/
def Re.matchAt (U : Uni) (r : Re) (c : Cur) : Option (Cur × Caps) :=
  r.run U c [] (fun c' s' => some (c', s'))

/-- Leftmost match at or after a position: `(start, end, groups)`. -/
def Re.search (U : Uni) (r : Re) : Str → Str → Option (Cur × Cur × Caps)
  | pre, [] =>
    match r.matchAt U ⟨pre, []⟩ with
    | some (e, s) => some (⟨pre, []⟩, e, s)
    | none => none
  | pre, x :: xs =>
    match r.matchAt U ⟨pre, x :: xs⟩ with
    | some (e, s) => some (⟨pre, x :: xs⟩, e, s)
    | none => r.search U (x :: pre) xs

/-- One match as delivered by `captures_iter`: the unmatched text since the
previous match, the matched text, and the groups. -/
structure Mat where
  gap : Str
  whole : Str
  caps : Caps
  deriving DecidableEq, Repr

/-- `cap.get(n)` -/
def Mat.get? (m : Mat) (n : Nat) : Option Str := if n = 0 then some m.whole else alLookup n m.caps

/-- `unwrap_or_empty(cap.get(n))` (/repo/src/regextra.rs:146-148), and also
`&cap[n]` for groups that take part in every match of the pattern at hand. -/
def Mat.grp (m : Mat) (n : Nat) : Str := (m.get? n).getD []

/-- `Regex::captures(text)`. -/
def Re.captures (U : Uni) (r : Re) (text : Str) : Option Mat :=
  match r.search U [] text with
  | some (b, e, s) => some ⟨text.take (text.length - b.rest.length), between b e, s⟩
  | none => none

/-- `Regex::is_match(text)`. -/
def Re.isMatch (U : Uni) (r : Re) (text : Str) : Bool := (r.search U [] text).isSome

/-- The sequence of matches produced by `captures_iter`, with the text between
them, and the text after the last one.
* `gs` is the end of the previous match (`last_match` in `replacen`),
* `cur` the position where the next search starts (`last_end`),
* `prev` whether there was a previous match.
An empty match advances the next search by one character, and is dropped when it
touches the previous match, as in `fancy_regex::CaptureMatches::next`. -/
def segs (U : Uni) (r : Re) : (fuel : Str) → (prev : Bool) → (gs cur : Cur) → List Mat × Str
  | [], _, gs, _ => ([], gs.rest)
  | _ :: f, prev, gs, cur =>
    match r.search U cur.pre cur.rest with
    | none => ([], gs.rest)
    | some (ms, me, caps) =>
      let gap := between gs ms
      let whole := between ms me
      if whole.isEmpty then
        if prev && gap.isEmpty then
          match me.rest with
          | [] => ([], gs.rest)
          | x :: xs => segs U r f prev gs ⟨x :: me.pre, xs⟩
        else
          match me.rest with
          | [] => ([⟨gap, whole, caps⟩], me.rest)
          | x :: xs =>
            let t := segs U r f true me ⟨x :: me.pre, xs⟩
            (⟨gap, whole, caps⟩ :: t.1, t.2)
      else
        let t := segs U r f true me me
        (⟨gap, whole, caps⟩ :: t.1, t.2)

/-- All matches of `r` in `text`. -/
def Re.matches (U : Uni) (r : Re) (text : Str) : List Mat × Str :=
  segs U r (' ' :: text) false ⟨[], text⟩ ⟨[], text⟩

/-- `Regex::replace_all` with a pure replacer. -/
def Re.replaceAll (U : Uni) (r : Re) (f : Mat → Str) (text : Str) : Str :=
  let t := r.matches U text
  (t.1.map (fun m => m.gap ++ f m)).flatten ++ t.2

/-- A step of a replacement template. -/
inductive Piece where
  | lit (c : Char)
  | ref (n : Nat)
  deriving DecidableEq, Repr

/-- Is `c` one of `[0-9A-Za-z_]`? -/
def isIdChar (c : Char) : Bool :=
  let n := c.toNat
  (48 ≤ n && n ≤ 57) || (65 ≤ n && n ≤ 90) || (97 ≤ n && n ≤ 122) || n == 95

/-- Worker of `expandTemplate`: `some id` while reading the name after `$`. -/
def templAux : Option Str → Str → List Piece
  | none, [] => []
  | some id, [] => flush id
  | none, c :: t => if c == '$' then templAux (some []) t else .lit c :: templAux none t
  | some id, c :: t =>
    if isIdChar c then templAux (some (id ++ [c])) t
    else if id.isEmpty && c == '$' then .lit '$' :: templAux none t
    else if c == '$' then flush id ++ templAux (some []) t
    else flush id ++ .lit c :: templAux none t
where
  /-- A complete `$name`. -/
  flush (id : Str) : List Piece :=
    if id.isEmpty then [.lit '$']
    else match parseDigits id with
      | some n => [.ref n]
      | none => []

/-- `fancy_regex::Expander::default()` on a replacement string: `$n` refers to
group `n` (the name is the longest run of `[0-9A-Za-z_]`), `$$` is a dollar
sign.  No template of the crate uses `${...}`. -/
def expandTemplate (t : Str) : List Piece := templAux none t

def Piece.eval (m : Mat) : Piece → Str
  | .lit c => [c]
  | .ref n => m.grp n

def expand (t : List Piece) (m : Mat) : Str := t.flatMap (·.eval m)

/-- `Regex::replace_all(text, template)`. -/
def Re.replaceTempl (U : Uni) (r : Re) (templ : Str) (text : Str) : Str :=
  r.replaceAll U (expand (expandTemplate templ)) text

/-- The items yielded by `split_with_capture` (/repo/src/regextra.rs:19-101):
for every match the preceding gap, then its groups `1..ngroups`, and finally the
text after the last match.  The patterns the crate passes to it have groups that
take part in every match, so the `unreachable!()` of line 65 is not modelled. -/
def Re.split (U : Uni) (r : Re) (ngroups : Nat) (text : Str) : List Str :=
  let t := r.matches U text
  (t.1.flatMap (fun m => m.gap :: (List.range ngroups).map (fun i => m.grp (i + 1)))) ++ [t.2]

end Rustextile
