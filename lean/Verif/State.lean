import Verif.Url
import Verif.Attrs

/-!
# Parser state and effects

`ParserState` (/repo/src/parser.rs:182-196), the configuration `Textile`
(/repo/src/parser.rs:1836-1852) and the effects the parser performs.

A method taking `&mut self` is modelled by a *program* (`Prog`): a tree whose
nodes are the elementary effects of the crate (store a text on the shelf,
allocate a link number, ...).  `run` executes a program.  Facts that depend only
on the elementary effects (uniqueness of placeholders, independence of the
regex cache, ...) are then proved once, by induction on programs.
-/

namespace Rustextile

/-- parser.rs:150-158 `NoteInfo`. -/
structure NoteInfo where
  id : Str
  content : Option Str
  link : Option Str
  attrs : Option Str
  seq : Option Str
  refids : List Str
  deriving DecidableEq, Repr

/-- The part of `ParserState` (parser.rs:182-196) that is read and written
freely: `notes`, `urlrefs`, `note_index`, `ol_starts`, `unreferenced_notes`,
`notelist_cache`. -/
structure Aux where
  /-- `BTreeMap`: sorted by label -/
  notes : List (Str × NoteInfo) := []
  urlrefs : List (Str × UrlString) := []
  noteIndex : Nat := 1
  olStarts : List (Str × Nat) := []
  unrefNotes : List (Str × NoteInfo) := []
  notelistCache : List (Str × Str) := []
  deriving DecidableEq, Repr

/-- parser.rs:182-216 `ParserState` and its initial value.  The `u32` counters
are natural numbers (2^32 placeholders are out of reach). -/
structure PState where
  footnotes : List (Str × Str) := []
  shelf : List (Str × Str) := []
  linkIndex : Nat := 0
  refIndex : Nat := 0
  spanDepth : Nat := 0
  refCache : List (Nat × Str) := []
  aux : Aux := {}
  deriving DecidableEq, Repr

/-- parser.rs:1836-1852 `Textile`, without the regex cache (see `World`).
`uid`, `linkPrefix` and `capsTempl` are the three values computed by `set_uid`
(parser.rs:2120-2131).  The sanitizer (the external ammonia library with its
configuration) is an arbitrary function. -/
structure Cfg where
  uid : Str
  linkPrefix : Str
  restricted : Bool := false
  rawBlocks : Bool := false
  alignClass : Option Bool := none
  blockTags : Bool := true
  lite : Bool := false
  noimage : Bool := false
  getSizes : Bool := false
  maxSpanDepth : Nat := 5
  html5 : Bool := true
  rel : Option Str := none
  capsTempl : Str
  sanitizer : Option (Str → Str) := none

/-- parser.rs:2133-2138 `proper_br_tag`. -/
def Cfg.brTag (c : Cfg) : Str := if c.html5 then t!"<br>" else t!"<br />"

/-- Everything that is constant during one call of `parse`.  `fuel` bounds the
loops of the code that are not bounded by construction. -/
structure Ctx where
  E : Env
  cfg : Cfg
  fuel : Nat

abbrev Ctx.U (C : Ctx) : Uni := C.E.U

/-- The places of parser.rs that keep a compiled pattern in `regex_cache`:
lines 411-417, 1263-1284, 1606-1612, 1617-1623 and (per tag) 1058-1066. -/
inductive Site where
  | urls | links | ospan | cspan
  | tagBr (tag : Str)
  deriving DecidableEq, Repr

/-- The pattern compiled at a site.  The token is inserted into the pattern
verbatim by the code; here it is matched literally, which is the same as long as
it contains no regex metacharacters (the default token is hexadecimal). -/
def mkPat (uid : Str) : Site → Re
  | .urls => .seq (Re.lit uid) URL_TOKEN_TAIL
  | .ospan => .seq (Re.lit uid) OSPAN_TOKEN_TAIL
  | .cspan => .seq (Re.lit (' ' :: uid)) CSPAN_TOKEN_TAIL
  | .links => .seq LINK_PRE_RE (.seq (Re.lit (uid ++ t!"linkStartMarker:")) LINK_TAIL)
  | .tagBr tag =>
    if tag = t!"li" then TAG_LI_RE
    else if tag = t!"dt" then TAG_DT_RE
    else if tag = t!"dd" then TAG_DD_RE
    else if tag = t!"td" then TAG_TD_RE
    else TAG_TH_RE

abbrev Cache := List (Site × Re)

/-- The mutable state a call of `parse` works on: its own `ParserState` and the
regex cache of the `Textile` value. -/
structure World where
  st : PState := {}
  cache : Cache := []

/-- What a text set aside on the shelf is.  Only an annotation: execution does not
look at it; theorems use it to speak about the tags a run generates. -/
inductive ShelfKind where
  | text
  /-- the value is an image tag, possibly inside a link (parser.rs:615) -/
  | image
  /-- the value is a link (parser.rs:1483) -/
  | link
  deriving DecidableEq, Repr

/-- What an entry of `ref_cache` is; an annotation, as `ShelfKind`. -/
inductive RefKind where
  | url
  | tag
  deriving DecidableEq, Repr

/-- Programs: trees of elementary effects. -/
inductive Prog (α : Type) : Type where
  | ret (a : α)
  /-- panic, or out of fuel -/
  | fail (e : Err)
  /-- parser.rs:382-387 `shelve`: store a text, get its placeholder -/
  | shelve (kind : ShelfKind) (v : Str) (k : Str → Prog α)
  /-- parser.rs:391-392, 1589-1590, 1593-1594: store in `ref_cache`, get the number -/
  | cacheRef (kind : RefKind) (v : Str) (k : Nat → Prog α)
  /-- parser.rs:218-221 `increment_link_index` -/
  | incLink (k : Nat → Prog α)
  /-- parser.rs:1113: `self.footnotes.insert(..)` -/
  | setFootnote (label id : Str) (k : Prog α)
  /-- writes to the rest of the state -/
  | setAux (f : Aux → Aux) (k : Prog α)
  /-- parser.rs:1543: `self.span_depth += 1`, returning the new value -/
  | spanEnter (k : Nat → Prog α)
  /-- parser.rs:1584: `self.span_depth -= 1` -/
  | spanLeave (k : Prog α)
  /-- read the state -/
  | getSt (k : PState → Prog α)
  /-- fetch a pattern from the regex cache, compiling it at the first use -/
  | getPat (s : Site) (k : Re → Prog α)
  /-- parser.rs:587 `get_image_size(url)` -/
  | probe (url : Str) (k : Option (Int × Int) → Prog α)

def Prog.bind {α β : Type} : Prog α → (α → Prog β) → Prog β
  | .ret a, f => f a
  | .fail e, _ => .fail e
  | .shelve kd v k, f => .shelve kd v (fun r => (k r).bind f)
  | .cacheRef kd v k, f => .cacheRef kd v (fun r => (k r).bind f)
  | .incLink k, f => .incLink (fun r => (k r).bind f)
  | .setFootnote a b k, f => .setFootnote a b (k.bind f)
  | .setAux g k, f => .setAux g (k.bind f)
  | .spanEnter k, f => .spanEnter (fun r => (k r).bind f)
  | .spanLeave k, f => .spanLeave (k.bind f)
  | .getSt k, f => .getSt (fun r => (k r).bind f)
  | .getPat s k, f => .getPat s (fun r => (k r).bind f)
  | .probe u k, f => .probe u (fun r => (k r).bind f)

instance : Monad Prog where
  pure := Prog.ret
  bind := Prog.bind

namespace Prog
def shelveP (v : Str) (kind : ShelfKind := .text) : Prog Str := .shelve kind v .ret
def cacheRefP (kind : RefKind) (v : Str) : Prog Nat := .cacheRef kind v .ret
def incLinkP : Prog Nat := .incLink .ret
def setFootnoteP (l i : Str) : Prog Unit := .setFootnote l i (.ret ())
def setAuxP (f : Aux → Aux) : Prog Unit := .setAux f (.ret ())
def spanEnterP : Prog Nat := .spanEnter .ret
def spanLeaveP : Prog Unit := .spanLeave (.ret ())
def getStP : Prog PState := .getSt .ret
def getPatP (s : Site) : Prog Re := .getPat s .ret
def probeP (u : Str) : Prog (Option (Int × Int)) := .probe u .ret
/-- A computation that may panic. -/
def ofR {α} : R α → Prog α
  | .ok a => .ret a
  | .error e => .fail e
end Prog

/-- parser.rs:382-387: the placeholder of shelf entry number `n`. -/
def shelfKey (uid : Str) (n : Nat) : Str := uid ++ natStr n ++ t!":shelve"

/-- parser.rs:382-387: a new shelf entry; result: its placeholder. -/
def World.shelve (uid : Str) (v : Str) (w : World) : Str × World :=
  let n := w.st.refIndex + 1
  let key := shelfKey uid n
  (key, { w with st := { w.st with refIndex := n, shelf := imInsert key v w.st.shelf } })

/-- parser.rs:391-392: a new entry of `ref_cache`; result: its number. -/
def World.cacheRef (v : Str) (w : World) : Nat × World :=
  let n := w.st.refIndex + 1
  (n, { w with st := { w.st with refIndex := n, refCache := imInsert n v w.st.refCache } })

/-- parser.rs:218-221. -/
def World.incLink (w : World) : Nat × World :=
  let n := w.st.linkIndex + 1
  (n, { w with st := { w.st with linkIndex := n } })

/-- parser.rs:1113. -/
def World.setFootnote (l i : Str) (w : World) : World :=
  { w with st := { w.st with footnotes := imInsert l i w.st.footnotes } }

def World.setAux (f : Aux → Aux) (w : World) : World :=
  { w with st := { w.st with aux := f w.st.aux } }

/-- parser.rs:1543. -/
def World.spanEnter (w : World) : Nat × World :=
  let n := w.st.spanDepth + 1
  (n, { w with st := { w.st with spanDepth := n } })

/-- parser.rs:1584. -/
def World.spanLeave (w : World) : World :=
  { w with st := { w.st with spanDepth := w.st.spanDepth - 1 } }

/-- A pattern from the regex cache, compiled and stored if it is not there. -/
def World.getPat (uid : Str) (s : Site) (w : World) : Re × World :=
  match alLookup s w.cache with
  | some re => (re, w)
  | none => (mkPat uid s, { w with cache := (s, mkPat uid s) :: w.cache })

/-- Execution of a program. -/
def run (C : Ctx) {α : Type} : Prog α → World → R (α × World)
  | .ret a, w => .ok (a, w)
  | .fail e, _ => .error e
  | .shelve _ v k, w => run C (k (w.shelve C.cfg.uid v).1) (w.shelve C.cfg.uid v).2
  | .cacheRef _ v k, w => run C (k (w.cacheRef v).1) (w.cacheRef v).2
  | .incLink k, w => run C (k w.incLink.1) w.incLink.2
  | .setFootnote l i k, w => run C k (w.setFootnote l i)
  | .setAux f k, w => run C k (w.setAux f)
  | .spanEnter k, w => run C (k w.spanEnter.1) w.spanEnter.2
  | .spanLeave k, w => run C k w.spanLeave
  | .getSt k, w => run C (k w.st) w
  | .getPat s k, w => run C (k (w.getPat C.cfg.uid s).1) (w.getPat C.cfg.uid s).2
  | .probe u k, w => run C (k (C.E.imageSize u)) w

/-- What can be observed of a run from inside. -/
inductive Event where
  /-- a text was put on the shelf -/
  | stored (kind : ShelfKind) (key value : Str)
  /-- an entry of `ref_cache` was made, at this depth of inline markup -/
  | cached (kind : RefKind) (depth n : Nat) (value : Str)
  /-- a link number was allocated -/
  | number (n : Nat)
  /-- the size of the image at this address was asked for -/
  | probe (url : Str)
  deriving DecidableEq, Repr

/-- The events of a run, in order, whether or not it fails. -/
def trace (C : Ctx) {α : Type} : Prog α → World → List Event
  | .ret _, _ => []
  | .fail _, _ => []
  | .shelve kd v k, w =>
    .stored kd (w.shelve C.cfg.uid v).1 v :: trace C (k (w.shelve C.cfg.uid v).1) (w.shelve C.cfg.uid v).2
  | .cacheRef kd v k, w =>
    .cached kd w.st.spanDepth (w.cacheRef v).1 v :: trace C (k (w.cacheRef v).1) (w.cacheRef v).2
  | .incLink k, w => .number w.incLink.1 :: trace C (k w.incLink.1) w.incLink.2
  | .setFootnote l i k, w => trace C k (w.setFootnote l i)
  | .setAux f k, w => trace C k (w.setAux f)
  | .spanEnter k, w => trace C (k w.spanEnter.1) w.spanEnter.2
  | .spanLeave k, w => trace C k w.spanLeave
  | .getSt k, w => trace C (k w.st) w
  | .getPat s k, w => trace C (k (w.getPat C.cfg.uid s).1) (w.getPat C.cfg.uid s).2
  | .probe u k, w => .probe u :: trace C (k (C.E.imageSize u)) w

end Rustextile
