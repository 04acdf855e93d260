import Verif.Parser

/-!
# The public interface: `Textile`, its setters, `parse`, and sequences of calls
-/

namespace Rustextile

/-- parser.rs:1836-1852 `Textile`: settings and regex cache. -/
structure Textile where
  cfg : Cfg
  cache : Cache := []

/-- parser.rs:2120-2131 `set_uid`.  The cache is left alone. -/
def Cfg.withUid (c : Cfg) (base : Str) : Cfg :=
  let uid := t!"textileRef:" ++ base ++ t!":"
  { c with
    uid := uid
    linkPrefix := base ++ t!"-"
    capsTempl := t!"$1<span class=\"caps\">" ++ uid ++ t!":glyph:$2</span>$3" }

/-- parser.rs:1886-1911 `Textile::default()`; `base` is the value of
`time_based_uid()`. -/
def Cfg.default (base : Str) : Cfg :=
  Cfg.withUid { uid := [], linkPrefix := [], capsTempl := [] } base

/-- The setters (parser.rs:1985-2131) that return a `Textile` value.
`set_align_class` (parser.rs:2058-2060) consumes the value and returns nothing,
so no `Textile` value with an `align_class_enabled` other than `None` can be
built through the interface. `set_sanitize(true)` is `adjust_sanitizer` with the
default configuration, `sanitize f` here. -/
inductive Setter where
  | gettingImageSize (v : Bool)
  | blockTags (v : Bool)
  | htmlKind (html5 : Bool)
  | restricted (v : Bool)
  | lite (v : Bool)
  | images (v : Bool)
  | rel (v : Option Str)
  | rawBlocks (v : Bool)
  | sanitize (f : Option (Str → Str))
  | uid (base : Str)

/-- parser.rs:1985-2131. -/
def Setter.apply : Setter → Cfg → Cfg
  | .gettingImageSize v, c => { c with getSizes := v }
  | .blockTags v, c => { c with blockTags := v }
  | .htmlKind v, c => { c with html5 := v }
  | .restricted v, c => { c with restricted := v }
  | .lite v, c => { c with lite := v }
  | .images v, c => { c with noimage := !v }
  | .rel v, c => { c with rel := v }
  | .rawBlocks v, c => { c with rawBlocks := v }
  | .sanitize f, c => { c with sanitizer := f }
  | .uid b, c => c.withUid b

/-- A `Textile` value as it can be built through the interface. -/
def built (base : Str) (ss : List Setter) : Cfg := ss.foldl (fun c s => s.apply c) (Cfg.default base)

/-- parser.rs:1918-1983 `parse`: a fresh `ParserState`, the cache of the value. -/
def Textile.parse (E : Env) (fuel : Nat) (t : Textile) (text : Str) : R (Str × Textile) :=
  match run ⟨E, t.cfg, fuel⟩ (parseP ⟨E, t.cfg, fuel⟩ text) { cache := t.cache } with
  | .ok (s, w) => .ok (s, { t with cache := w.cache })
  | .error e => .error e

/-- The result of `parse` on a freshly built value. -/
def parseFresh (E : Env) (fuel : Nat) (c : Cfg) (text : Str) : R Str :=
  match Textile.parse E fuel { cfg := c } text with
  | .ok (s, _) => .ok s
  | .error e => .error e

/-- A call on a `Textile` value. -/
inductive Call where
  | parse (text : Str)
  | set (s : Setter)

/-- A sequence of calls: outputs of the `parse` calls and the value afterwards. -/
def session (E : Env) (fuel : Nat) : Textile → List Call → R (List Str × Textile)
  | t, [] => .ok ([], t)
  | t, .set s :: rest => session E fuel { t with cfg := s.apply t.cfg } rest
  | t, .parse text :: rest =>
    match t.parse E fuel text with
    | .error e => .error e
    | .ok (o, t1) =>
      match session E fuel t1 rest with
      | .error e => .error e
      | .ok (os, t2) => .ok (o :: os, t2)

/-! ## The image size probe (parser.rs:58-80) -/

/-- parser.rs:59 -/
def MAX_IMAGE_CHUNK : Nat := 1024

/-- What the server does at one `read` call: an error, or an amount of data it
would be ready to hand over. -/
inductive ReadEvent where
  | err
  | data (bytes : List UInt8)

/-- What happened during a probe. -/
structure ProbeResult where
  size : Option (Int × Int)
  /-- all bytes read -/
  read : List UInt8
  /-- number of `read` calls -/
  calls : Nat

/-- parser.rs:63-77: the loop.  A `read` into a buffer of `n` bytes delivers at
most `n` bytes; `Ok(0)` means end of body, or a full buffer.  `info` is
`ImageInfo::from_raw_data`.  A server that has run out of events has closed the
connection. -/
def probeLoop (info : List UInt8 → Option (Int × Int)) : List ReadEvent → List UInt8 → Nat → ProbeResult
  | [], buf, n => ⟨none, buf, n + 1⟩
  | .err :: _, buf, n => ⟨none, buf, n + 1⟩
  | .data d :: rest, buf, n =>
    let got := d.take (MAX_IMAGE_CHUNK - buf.length)
    if got.isEmpty then ⟨none, buf, n + 1⟩
    else
      match info (buf ++ got) with
      | some s => ⟨some s, buf ++ got, n + 1⟩
      | none => probeLoop info rest (buf ++ got) (n + 1)

/-- parser.rs:58-80 `get_image_size`; `conn = none` when the request fails. -/
def getImageSize (info : List UInt8 → Option (Int × Int)) (conn : Option (List ReadEvent)) : ProbeResult :=
  match conn with
  | none => ⟨none, [], 0⟩
  | some es => probeLoop info es [] 0

end Rustextile
