import Verif.Regex

/-!
# Regular-expression syntax

A parser for the subset of the `fancy_regex` syntax used by the crate, so that
`Verif/Patterns.lean` can quote the crate's patterns verbatim.
-/

namespace Rustextile

structure Flags where
  i : Bool := false
  s : Bool := false
  m : Bool := false

def Re.seqs : List Re → Re
  | [] => .eps
  | [a] => a
  | a :: b :: t => .seq a (Re.seqs (b :: t))

def Re.lit (s : Str) : Re := Re.seqs (s.map (fun c => .set false [.chr c]))

def Re.opt (greedy : Bool) (r : Re) : Re := if greedy then .alt r .eps else .alt .eps r

/-- Simple case folding of the ASCII letters (Unicode adds the Kelvin sign to
`k` and the long s to `s`). -/
def foldChr (f : Flags) (c : Char) : List Item :=
  if f.i then
    let n := c.toNat
    let lower := if 65 ≤ n && n ≤ 90 then some (Char.ofNat (n + 32))
                 else if 97 ≤ n && n ≤ 122 then some c else none
    match lower with
    | none => [.chr c]
    | some l =>
      [.chr l, .chr (Char.ofNat (l.toNat - 32))] ++
      (if l == 'k' then [.chr (Char.ofNat 0x212A)] else []) ++
      (if l == 's' then [.chr (Char.ofNat 0x17F)] else [])
  else [.chr c]

/-- Case folding of a class range (only `a-z`, `a-f`, `A-Z` and digit ranges occur). -/
def foldRange (f : Flags) (a b : Char) : List Item :=
  if f.i && 97 ≤ a.toNat && b.toNat ≤ 122 then
    [.range a b, .range (Char.ofNat (a.toNat - 32)) (Char.ofNat (b.toNat - 32))] ++
    (if a.toNat ≤ 107 && 107 ≤ b.toNat then [.chr (Char.ofNat 0x212A)] else []) ++
    (if a.toNat ≤ 115 && 115 ≤ b.toNat then [.chr (Char.ofNat 0x17F)] else [])
  else [.range a b]

/-- `\p{...}` names. -/
def propName (s : Str) : Option UC :=
  if s = t!"L" then some .L else if s = t!"Lu" then some .Lu else if s = t!"Ll" then some .Ll
  else if s = t!"M" then some .M else if s = t!"N" then some .N else if s = t!"Nd" then some .digit
  else if s = t!"Pc" then some .Pc else if s = t!"Currency_Symbol" then some .Sc else none

/-- Split at the first `d`, dropping it. -/
def upTo (d : Char) (s : Str) : Option (Str × Str) := splitOnce d s

/-- The item(s) denoted by the escape whose text after `\` is given. -/
def escItem (f : Flags) : Str → Option (List Item × Str)
  | 's' :: t => some ([.cls .space], t)
  | 'S' :: t => some ([.ncls .space], t)
  | 'd' :: t => some ([.cls .digit], t)
  | 'w' :: t => some ([.cls .word], t)
  | 'n' :: t => some ([.chr '\n'], t)
  | 't' :: t => some ([.chr '\t'], t)
  | 'r' :: t => some ([.chr '\r'], t)
  | 'f' :: t => some ([.chr (Char.ofNat 12)], t)
  | 'p' :: '{' :: t =>
    match upTo '}' t with
    | some (name, rest) => (propName name).map (fun k => ([.cls k], rest))
    | none => none
  | c :: t => if isIdChar c then none else some (foldChr f c, t)
  | [] => none

/-- Items of a character class up to the closing bracket. -/
def clsItems (f : Flags) : Nat → Str → Option (List Item × Str)
  | 0, _ => none
  | _ + 1, ']' :: t => some ([], t)
  | n + 1, '\\' :: t =>
    match escItem f t with
    | some (i, t') => (clsItems f n t').map (fun p => (i ++ p.1, p.2))
    | none => none
  | n + 1, a :: '-' :: b :: t =>
    if b == ']' || b == '\\' then
      (clsItems f n ('-' :: b :: t)).map (fun p => (foldChr f a ++ p.1, p.2))
    else (clsItems f n t).map (fun p => (foldRange f a b ++ p.1, p.2))
  | n + 1, a :: t => (clsItems f n t).map (fun p => (foldChr f a ++ p.1, p.2))
  | _ + 1, [] => none

/-- Number of characters matched by a look-behind body. -/
def Re.width : Re → Nat
  | .set _ _ => 1
  | .seq a b => a.width + b.width
  | .alt a _ => a.width
  | .grp _ r => r.width
  | _ => 0

/-- Alternatives of a look-behind body may have different sizes. -/
def mkBehind (neg : Bool) : Re → Re
  | .alt a b => if neg then .seq (mkBehind neg a) (mkBehind neg b)
                else .alt (mkBehind neg a) (mkBehind neg b)
  | r => .behind neg r.width r

def Re.repeatN (r : Re) : Nat → Re
  | 0 => .eps
  | 1 => r
  | n + 2 => .seq r (Re.repeatN r (n + 1))

def Re.optN (r : Re) : Nat → Re
  | 0 => .eps
  | n + 1 => .alt (.seq r (Re.optN r n)) .eps

/-- Apply a following quantifier, if any. -/
def quant (r : Re) (s : Str) : Re × Str :=
  match s with
  | '*' :: '?' :: t => (.star false r, t)
  | '*' :: t => (.star true r, t)
  | '+' :: '?' :: t => (.seq r (.star false r), t)
  | '+' :: t => (.seq r (.star true r), t)
  | '?' :: '?' :: t => (Re.opt false r, t)
  | '?' :: t => (Re.opt true r, t)
  | '{' :: t =>
    match upTo '}' t with
    | some (body, rest) =>
      match splitChar ',' body with
      | [a] =>
        match parseDigits a with
        | some n => (Re.repeatN r n, rest)
        | none => (r, s)
      | [a, b] =>
        match parseDigits a with
        | some n =>
          if b.isEmpty then (.seq (Re.repeatN r n) (.star true r), rest)
          else match parseDigits b with
            | some m => (.seq (Re.repeatN r n) (Re.optN r (m - n)), rest)
            | none => (r, s)
        | none => (r, s)
      | _ => (r, s)
    | none => (r, s)
  | _ => (r, s)

/-- State of the pattern parser: next group number and group names. -/
structure PS where
  next : Nat
  names : List (Str × Nat)

/-- The body of a group has been read: its closing parenthesis must follow. -/
def closeGroup (k : Re → Re) : Option (Re × PS × Str) → Option (Re × PS × Str)
  | some (r, p, ')' :: t) => some (k r, p, t)
  | _ => none

mutual
/-- `a|b|...`, stopping at `)` or the end. -/
def parseAlt (f : Flags) : Nat → PS → Str → Option (Re × PS × Str)
  | 0, _, _ => none
  | n + 1, p, s =>
    match parseSeq f n p s [] with
    | some (a, p1, '|' :: t) =>
      match parseAlt f n p1 t with
      | some (b, p2, t') => some (.alt a b, p2, t')
      | none => none
    | some (a, p1, t) => some (a, p1, t)
    | none => none

/-- A concatenation; `acc` holds the factors read so far, reversed. -/
def parseSeq (f : Flags) : Nat → PS → Str → List Re → Option (Re × PS × Str)
  | 0, _, _, _ => none
  | n + 1, p, s, acc =>
    match s with
    | [] => some (Re.seqs acc.reverse, p, [])
    | '|' :: _ => some (Re.seqs acc.reverse, p, s)
    | ')' :: _ => some (Re.seqs acc.reverse, p, s)
    | _ =>
      match parseAtom f n p s with
      | some (a, p1, t) =>
        let q := quant a t
        parseSeq f n p1 q.2 (q.1 :: acc)
      | none => none

/-- A single atom. -/
def parseAtom (f : Flags) : Nat → PS → Str → Option (Re × PS × Str)
  | 0, _, _ => none
  | n + 1, p, s =>
    match s with
    | '^' :: t => some (if f.m then .bol else .bot, p, t)
    | '$' :: t => some (if f.m then .eol else .eot, p, t)
    | '.' :: t => some (.set true (if f.s then [] else [.chr '\n']), p, t)
    | '[' :: '^' :: t => (clsItems f n t).map (fun q => (.set true q.1, p, q.2))
    | '[' :: t => (clsItems f n t).map (fun q => (.set false q.1, p, q.2))
    | '\\' :: 'b' :: t => some (.wordb, p, t)
    | '\\' :: '1' :: t => some (.bref 1, p, t)
    | '\\' :: t => (escItem f t).map (fun q => (.set false q.1, p, q.2))
    | '(' :: '?' :: ':' :: t => closeGroup id (parseAlt f n p t)
    | '(' :: '?' :: '=' :: t => closeGroup (.look false) (parseAlt f n p t)
    | '(' :: '?' :: '!' :: t => closeGroup (.look true) (parseAlt f n p t)
    | '(' :: '?' :: '<' :: '=' :: t => closeGroup (mkBehind false) (parseAlt f n p t)
    | '(' :: '?' :: '<' :: '!' :: t => closeGroup (mkBehind true) (parseAlt f n p t)
    | '(' :: '?' :: 'P' :: '<' :: t =>
      match upTo '>' t with
      | some (name, t') =>
        closeGroup (.grp p.next) (parseAlt f n ⟨p.next + 1, p.names ++ [(name, p.next)]⟩ t')
      | none => none
    | '(' :: t => closeGroup (.grp p.next) (parseAlt f n ⟨p.next + 1, p.names⟩ t)
    | c :: t => some (.set false (foldChr f c), p, t)
    | [] => none
end

/-- Leading `(?flags)`. -/
def readFlags : Str → Flags × Str
  | '(' :: '?' :: 'i' :: ')' :: t => ({ i := true }, t)
  | '(' :: '?' :: 's' :: ')' :: t => ({ s := true }, t)
  | '(' :: '?' :: 'm' :: ')' :: t => ({ m := true }, t)
  | '(' :: '?' :: 'm' :: 's' :: ')' :: t => ({ m := true, s := true }, t)
  | '(' :: '?' :: 's' :: 'i' :: ')' :: t => ({ s := true, i := true }, t)
  | t => ({}, t)

/-- A compiled pattern: expression, number of groups, group names. -/
structure Pat where
  re : Re
  ngroups : Nat
  names : List (Str × Nat)
  deriving DecidableEq, Repr, Lean.ToExpr

/-- `Regex::new`, numbering the groups from `start`. -/
def parseReAt (start : Nat) (s : Str) : Option Pat :=
  let (f, t) := readFlags s
  match parseAlt f (3 * s.length + 10) ⟨start, []⟩ t with
  | some (r, p, []) => some ⟨r, p.next - start, p.names⟩
  | _ => none

/-- `Regex::new`. -/
def parseRe (s : Str) : Option Pat := parseReAt 1 s

open Lean Elab Term Meta in
/-- `re% n e` runs `parseReAt n e` at elaboration time and inserts the resulting
expression (a literal `Re`).  `Verif/PatternsCheck.lean` re-checks every such
result in the kernel. -/
elab "re%" n:num t:term:max : term => do
  let ty := mkApp (mkConst ``List [Level.zero]) (mkConst ``Char)
  let e ← elabTermEnsuringType t ty
  synthesizeSyntheticMVarsNoPostponing
  let e ← instantiateMVars e
  let s ← unsafe evalExpr Str ty e
  match parseReAt n.getNat s with
  | some p => return toExpr p.re
  | none => throwError "invalid regular expression: {String.ofList s}"

/-- `pattern NAME := src` defines `NAME_src`, the source text of a pattern, and
`NAME`, its expression. -/
macro doc:docComment "pattern " n:ident " := " e:term : command => do
  let src := Lean.mkIdentFrom n (n.getId.appendAfter "_src")
  `($doc:docComment def $src : Str := $e
    $doc:docComment def $n : Re := re% 1 $src)

end Rustextile
