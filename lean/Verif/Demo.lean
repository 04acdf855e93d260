import Verif.Api

/-!
# A concrete environment

Used for examples and counterexamples only.  Character classes are right on
ASCII; URL parsing recognises `scheme:rest` and leaves URLs as they are, except
that `<`, `>` and `"` are percent-encoded, which is what the `url` crate does for
the URLs used in this development.
-/

namespace Rustextile

def isUp (c : Char) : Bool := 65 ≤ c.toNat && c.toNat ≤ 90
def isLow (c : Char) : Bool := 97 ≤ c.toNat && c.toNat ≤ 122
def isDig (c : Char) : Bool := 48 ≤ c.toNat && c.toNat ≤ 57

/-- Character classes, right on ASCII. -/
def demoUni : Uni where
  isWord c := isUp c || isLow c || isDig c || c == '_'
  isL c := isUp c || isLow c
  isLu := isUp
  isLl := isLow
  isM _ := false
  isN := isDig
  isNd := isDig
  isPc c := c == '_'
  isSc c := c == '$'
  isAlnum c := isUp c || isLow c || isDig c
  toLower s := s.map (fun c => if isUp c then Char.ofNat (c.toNat + 32) else c)

def demoScheme (s : Str) : Option Str :=
  match splitOnce ':' s with
  | some (sch, _) => if !sch.isEmpty && sch.all (fun c => isLow c) then some sch else none
  | none => none

/-- Percent-encoding of the characters `<`, `>`, `"`. -/
def demoPercent (s : Str) : Str := s.flatMap (fun c =>
  if c == '<' then t!"%3C" else if c == '>' then t!"%3E" else if c == '"' then t!"%22" else [c])

def demoEnv : Env where
  U := demoUni
  urlParse s := (demoScheme s).map (fun sch => (sch, demoPercent s))
  urlJoin s := some (t!"http://example.com/" ++ s)
  imageSize _ := none

/-- The settings of `Textile::default().set_uid("abc")`. -/
def demoCfg : Cfg := Cfg.default t!"abc"

/-! Needed to compare results in examples. -/
deriving instance DecidableEq for Except

end Rustextile
