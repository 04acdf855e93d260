import Verif.Api
open Rustextile

/-- Test-only approximation of the `url` crate (WHATWG URL parsing). -/
def isSpecial (s : String) : Bool := ["http", "https", "ftp", "ws", "wss", "file"].contains s

def hexU (n : Nat) : String := String.ofList [hexDigit (n / 16), hexDigit (n % 16)]

def pct (bad : Char → Bool) (s : List Char) : String :=
  s.foldl (fun acc c =>
    if c.toNat > 126 || c.toNat < 33 || bad c then
      acc ++ String.join ((utf8Bytes c).map (fun b => "%" ++ hexU b))
    else acc.push c) ""

def badFrag (c : Char) : Bool := " \"<>`".toList.contains c
def badQuery (special : Bool) (c : Char) : Bool := " \"#<>".toList.contains c || (special && c == '\'')
def badPath (c : Char) : Bool := " \"#<>?`{}".toList.contains c

def cutAt (p : Char → Bool) (s : List Char) : List Char × Option (List Char) :=
  match s.span (fun c => !p c) with
  | (a, []) => (a, none)
  | (a, _ :: b) => (a, some b)

def normSegs (segs : List String) : List String := Id.run do
  let mut out : List String := []
  let n := segs.length
  let mut i := 0
  for s in segs do
    i := i + 1
    if s == ".." || s == "%2e%2e" then
      out := out.drop 1
      if i == n then out := "" :: out
    else if s == "." then
      if i == n then out := "" :: out
    else out := s :: out
  return out.reverse

def tail (special : Bool) (q f : Option (List Char)) : String :=
  (match q with | some q => "?" ++ pct (badQuery special) q | none => "") ++
  (match f with | some f => "#" ++ pct badFrag f | none => "")

def normPath (p : List Char) : String :=
  -- p starts with '/' or is empty
  let segs := (String.ofList (p.drop 1)).splitOn "/"
  "/" ++ String.intercalate "/" (normSegs (segs.map (fun s => pct badPath s.toList)))

def strip (s : List Char) : List Char :=
  let s := (s.dropWhile (·.toNat ≤ 32)).reverse.dropWhile (·.toNat ≤ 32) |>.reverse
  s.filter (fun c => c != '\n' && c != '\t' && c != '\r')

def hostOk (h : List Char) : Bool :=
  !h.isEmpty && h.all (fun c => !(" #<>?@[\\]^|%/:".toList.contains c))

def parseAuth (a : List Char) (needHost : Bool) : Option String := do
  let (ui, hp) := match (String.ofList a).splitOn "@" with
    | [h] => ("", h)
    | parts => (String.intercalate "%40" parts.dropLast ++ "@", parts.getLast!)
  if hp.startsWith "[" then return ui ++ hp
  let (h, p) := cutAt (· == ':') hp.toList
  let host := (String.ofList h).map Char.toLower
  if needHost && !hostOk h then none
  match p with
  | none => return ui ++ host
  | some p =>
    if p.isEmpty then return ui ++ host
    if !p.all Char.isDigit then none
    return ui ++ host ++ (if String.ofList p == "80" then "" else ":" ++ String.ofList p)

def urlParse (s0 : List Char) : Option (String × String) := do
  let s := strip s0
  let (sch, rest) := cutAt (· == ':') s
  let rest ← rest
  match sch with
  | [] => none
  | c :: _ => if !c.isAlpha || !sch.all (fun c => c.isAlphanum || c == '+' || c == '-' || c == '.') then none
  let scheme := (String.ofList sch).map Char.toLower
  let (body, frag) := cutAt (· == '#') rest
  let (body, query) := cutAt (· == '?') body
  if isSpecial scheme then
    let body := body.map (fun c => if c == '\\' then '/' else c)
    let after := if scheme == "file" then body.drop 2 else body.dropWhile (· == '/')
    let (auth, _) := cutAt (· == '/') after
    let path := after.drop auth.length
    let a ← if scheme == "file" then some (String.ofList auth) else parseAuth auth true
    return (scheme, scheme ++ "://" ++ a ++ normPath path ++ tail true query frag)
  else if body.take 2 == ['/', '/'] then
    let after := body.drop 2
    let (auth, _) := cutAt (· == '/') after
    let path := after.drop auth.length
    let a ← parseAuth auth false
    return (scheme, scheme ++ "://" ++ a ++ (if path.isEmpty then "" else normPath path) ++ tail false query frag)
  else if body.take 1 == ['/'] then
    return (scheme, scheme ++ ":" ++ normPath body ++ tail false query frag)
  else
    return (scheme, scheme ++ ":" ++ pct (fun _ => false) body ++ tail false query frag)

/-- join with http://example.com -/
def urlJoin (s0 : List Char) : Option String := do
  match urlParse s0 with
  | some (_, t) => return t
  | none => pure ()
  let s := strip s0
  -- a scheme that failed to parse
  let (sch, rest) := cutAt (· == ':') s
  if rest.isSome then
    match sch with
    | c :: _ => if c.isAlpha && sch.all (fun c => c.isAlphanum || c == '+' || c == '-' || c == '.') then none
    | [] => pure ()
  let (body, frag) := cutAt (· == '#') s
  let (body, query) := cutAt (· == '?') body
  if body.take 2 == ['/', '/'] then
    let after := body.drop 2
    let (auth, _) := cutAt (· == '/') after
    let a ← parseAuth auth true
    return "http://" ++ a ++ normPath (after.drop auth.length) ++ tail true query frag
  let p := if body.take 1 == ['/'] then body else '/' :: body
  return "http://example.com" ++ normPath p ++ tail true query frag

structure Tab where
  cat : Nat → String
  low : Nat → List Char

def mkUni (t : Tab) : Uni :=
  let c (ch : Char) := t.cat ch.toNat
  let pre (p : String) (ch : Char) := (c ch).startsWith p
  { isWord := fun ch => pre "L" ch || pre "M" ch || pre "N" ch && c ch != "No" || c ch == "Pc"
    isL := pre "L", isLu := fun ch => c ch == "Lu", isLl := fun ch => c ch == "Ll"
    isM := pre "M", isN := pre "N", isNd := fun ch => c ch == "Nd", isPc := fun ch => c ch == "Pc"
    isSc := fun ch => c ch == "Sc"
    isAlnum := fun ch => pre "L" ch || pre "N" ch
    toLower := fun s => s.flatMap (fun ch => t.low ch.toNat) }

def unhex (s : String) : String :=
  let ds := s.toList
  let val (c : Char) : Nat := if c.isDigit then c.toNat - 48 else c.toNat - 87
  let rec go : List Char → List Char
    | a :: b :: c :: d :: e :: f :: t =>
      Char.ofNat (((((val a * 16 + val b) * 16 + val c) * 16 + val d) * 16 + val e) * 16 + val f) :: go t
    | _ => []
  String.ofList (go ds)

def hexOut (s : List Char) : String :=
  s.foldl (fun acc c =>
    let n := c.toNat
    acc ++ hexU (n / 65536) ++ hexU (n / 256 % 256) ++ hexU (n % 256)) ""

def applyOpt (c : Cfg) (o : String) : Cfg :=
  match o.splitOn "=" with
  | ["setRestricted", v] => (Setter.restricted (v == "true")).apply c
  | ["setLite", v] => (Setter.lite (v == "true")).apply c
  | ["setImages", v] => (Setter.images (v == "true")).apply c
  | ["setLinkRelationShip", v] => (Setter.rel (some v.toList)).apply c
  | ["setUid", v] => (Setter.uid v.toList).apply c
  | ["setHtmlType", v] => (Setter.htmlKind (v.map Char.toLower == "html5")).apply c
  | ["setBlockTags", v] => (Setter.blockTags (v == "true")).apply c
  | ["setGettingImageSize", v] => (Setter.gettingImageSize (v == "true")).apply c
  | _ => c

def main (args : List String) : IO Unit := do
  let tabf := args[0]!
  let casef := args[1]!
  let mut m : Std.HashMap Nat (String × List Char) := {}
  for l in (← IO.FS.lines tabf) do
    match l.splitOn " " with
    | [cp, cat, low] => m := m.insert cp.toNat! (cat, (unhex low).toList)
    | _ => pure ()
  let tab : Tab := { cat := fun n => (m.getD n ("Cn", [])).1
                     low := fun n => match m[n]? with | some (_, l) => l | none => [Char.ofNat n] }
  let E : Env := { U := mkUni tab
                   urlParse := fun s => (urlParse s).map (fun (a, b) => (a.toList, b.toList))
                   urlJoin := fun s => (urlJoin s).map String.toList
                   imageSize := fun u => if String.ofList u == "https://en.wikipedia.org/favicon.ico" then some (48, 48) else none }
  for l in (← IO.FS.lines casef) do
    match l.splitOn " " with
    | [opts, inp] =>
      let cfg := (opts.splitOn ",").foldl applyOpt (Cfg.default "abc".toList)
      match parseFresh E 200 cfg (unhex inp).toList with
      | .ok s => IO.println s!"ok {hexOut s}"
      | .error .diverge => IO.println "diverge"
      | .error (.panic msg) => IO.println s!"panic {hexOut msg}"
      (← IO.getStdout).flush
    | _ => IO.println "bad"
