import Verif.State
import Verif.CharCounter

/-!
# /repo/src/parser.rs and /repo/src/table.rs, function by function
-/

namespace Rustextile

open Prog

/-- `Regex::replace_all` with a program as replacer. -/
def replaceP (C : Ctx) (r : Re) (f : Mat → Prog Str) (text : Str) : Prog Str :=
  r.replaceAllM C.U f text

/-- `BlockAttributes::parse(attrs, element, true, self.textile.restricted)`. -/
def parseAttrs (C : Ctx) (attrs : Str) (element : Option Str) : Prog BAttrs :=
  ofR (BAttrs.parse C.U attrs element C.cfg.restricted)

/-- `format!("{}", x)` for an `i64`. -/
def intStr : Int → Str
  | .ofNat n => natStr n
  | .negSucc n => '-' :: natStr (n + 1)

/-! ## Glyphs -/

/-- parser.rs:82-147 `make_glyph_replacers`. -/
def glyphReplacers (html5 : Bool) : List (Re × Str) :=
  [ (GL_DIM_RE, t!"$1&#215;$2"),
    (GL_APOS_RE, t!"$1&#8217;$2"),
    (GL_88_RE, t!"$1&#8217;$2"),
    (GL_SOPENB_RE, t!"$1&#8216;"),
    (GL_SCLOSE_RE, t!"$1&#8217;"),
    (GL_SOPEN_RE, t!"&#8216;"),
    (GL_DOPENB_RE, t!"$1&#8220;"),
    (GL_DCLOSE_RE, t!"$1&#8221;"),
    (GL_DOPEN_RE, t!"&#8220;"),
    (GL_ELLIPSIS_RE, t!"$1&#8230;"),
    (GL_AMP_RE, t!"$1&amp;$2"),
    (GL_EMDASH_RE, t!"$1&#8212;$2"),
    (GL_ENDASH_RE, t!" &#8211; "),
    (GL_TM_RE, t!"$1&#8482;"),
    (GL_R_RE, t!"$1&#174;"),
    (GL_C_RE, t!"$1&#169;"),
    (GL_12_RE, t!"&#189;"),
    (GL_14_RE, t!"&#188;"),
    (GL_34_RE, t!"&#190;"),
    (GL_DEG_RE, t!"&#176;"),
    (GL_PM_RE, t!"&#177;"),
    (GL_ACR_RE, if html5 then t!"<abbr title=\"$2\">$1</abbr>"
                else t!"<acronym title=\"$2\">$1</acronym>") ]

/-- regextra.rs:106-120 `multi_replace`. -/
def multiReplace (U : Uni) : List (Re × Str) → Str → Str
  | [], text => text
  | (r, t) :: rest, text => multiReplace U rest (r.replaceTempl U t text)

/-- parser.rs:1236-1252: the text between tags. -/
def glyphText (C : Ctx) (raw : Str) : Str :=
  let raw1 :=
    if C.cfg.restricted then raw
    else replaceStr t!">" t!"&gt;" (replaceStr t!"<" t!"&lt;" (LONE_AMP_RE.replaceTempl C.U t!"&amp;" raw))
  multiReplace C.U (glyphReplacers C.cfg.html5 ++ [(DYN_3PLUS_RE, C.cfg.capsTempl)]) raw1

/-- parser.rs:1234-1256: even-numbered pieces are text, odd-numbered ones tags. -/
def glyphPieces (C : Ctx) : Bool → List Str → List Str
  | _, [] => []
  | true, x :: t => glyphText C x :: glyphPieces C false t
  | false, x :: t => x :: glyphPieces C true t

/-- parser.rs:1219-1258 `glyphs`. -/
def glyphs (C : Ctx) (text : Str) : Str :=
  concat (glyphPieces C true (GLYPH_SPLIT_RE.split C.U 1 (trimEndP (· == '\n') text)))

/-! ## Notes -/

/-- parser.rs:266-306 `make_back_ref_link`. -/
def backRefLinks (allowInc : Bool) : Nat → List Str → List Str
  | _, [] => []
  | i, r :: t =>
    (t!"<sup><a href=\"#noteref" ++ r ++ t!"\">" ++ unescapeCharref i ++ t!"</a></sup>") ::
      backRefLinks allowInc (if allowInc then i + 1 else i) t

/-- parser.rs:266-306 `make_back_ref_link`. -/
def makeBackRefLink (info : NoteInfo) (gLinks : Str) (i : Char) : Str :=
  let kind := info.link.getD gLinks
  let allowInc := !SYMS.contains i
  if kind = t!"!" then []
  else if kind = t!"^" then
    match info.refids with
    | [] => []
    | r :: _ => t!"<sup><a href=\"#noteref" ++ r ++ t!"\">" ++ unescapeCharref i.toNat ++ t!"</a></sup>"
  else joinWith t!" " (backRefLinks allowInc i.toNat info.refids)

/-- parser.rs:310-322: referenced notes are re-keyed by sequence number, the
others are moved to `unreferenced_notes`. -/
def splitNotes (a : Aux) : Aux :=
  if a.notes.isEmpty then a
  else
    let r := a.notes.foldl (fun (o : List (Str × NoteInfo) × List (Str × NoteInfo)) (p : Str × NoteInfo) =>
      match p.2.seq with
      | some i => (btInsert i { p.2 with seq := some p.1 } o.1, o.2)
      | none => (o.1, btInsert p.1 p.2 o.2)) ([], a.unrefNotes)
    { a with notes := r.1, unrefNotes := r.2 }

/-- parser.rs:343-358: one item of a note list. -/
def noteItem (gLinks : Str) (startChar : Char) (info : NoteInfo) : Str :=
  let links := makeBackRefLink info gLinks startChar
  match info.attrs, info.content with
  | some atts, some content =>
    t!"\t\t<li" ++ atts ++ t!">" ++ links ++ t!"<span id=\"note" ++ info.id ++ t!"\"> </span>" ++ content ++ t!"</li>"
  | _, _ => t!"\t\t<li>" ++ links ++ t!" Undefined Note [#" ++ info.seq.getD [] ++ t!"].</li>"

/-- parser.rs:360-366: one unreferenced note. -/
def unrefItem (info : NoteInfo) : Str :=
  t!"\t\t<li" ++ info.attrs.getD [] ++ t!">" ++ info.content.getD [] ++ t!"</li>"

/-- parser.rs:330-378: the replacer of a `notelist`. -/
def fNoteList (C : Ctx) (m : Mat) : Prog Str := do
  let att := m.grp 1
  let gLinks := m.grp 3
  let extras := m.grp 4
  let startChar := match m.get? 2 with
    | some (c :: _) => c
    | _ => 'a'
  let index := gLinks ++ extras ++ [startChar]
  let st ← getStP
  let result ← (
    if (alLookup index st.aux.notelistCache).isSome then pure []
    else do
      let o1 := st.aux.notes.map (fun p => noteItem gLinks startChar p.2)
      let o2 := if extras = t!"+" then st.aux.unrefNotes.map (fun p => unrefItem p.2) else []
      let result := joinWith t!"\n" (o1 ++ o2)
      setAuxP (fun a => { a with notelistCache := imInsert index result a.notelistCache })
      pure result : Prog Str)
  if result.isEmpty then pure []
  else do
    let atts ← parseAttrs C att none
    pure (t!"<ol" ++ atts.toStr ++ t!">\n" ++ result ++ t!"\n\t</ol>")

/-- parser.rs:309-380 `place_note_lists`. -/
def placeNoteLists (C : Ctx) (text : Str) : Prog Str := do
  setAuxP splitNotes
  replaceP C NOTELIST_RE (fNoteList C) text

/-! ## Shelves -/

/-- parser.rs:389-394 `shelve_url`. -/
def shelveUrl (C : Ctx) (u : UrlString) : Prog Str := do
  let n ← cacheRefP .url (u.toHtml C.E)
  pure (C.cfg.uid ++ natStr n ++ t!":url")

/-- One round of parser.rs:400-402. -/
def retrieveRound (shelf : List (Str × Str)) (text : Str) : Str :=
  shelf.foldl (fun t p => replaceStr p.1 p.2 t) text

/-- parser.rs:396-408 `retrieve`. -/
def retrieve (shelf : List (Str × Str)) : Nat → Str → R Str
  | 0, _ => .error .diverge
  | f + 1, text =>
    let t := retrieveRound shelf text
    if t = text then .ok t else retrieve shelf f t

/-- parser.rs:419-436: the replacer of URL placeholders. -/
def fRetrieveUrl (C : Ctx) (st : PState) (m : Mat) : Str :=
  match parseU32 (m.grp 1) with
  | some key =>
    let url := (alLookup key st.refCache).getD []
    if url.isEmpty then url
    else match alLookup url st.aux.urlrefs with
      | some rurl => rurl.toHtml C.E
      | none => url
  | none => []

/-- parser.rs:410-438 `retrieve_urls`. -/
def retrieveUrls (C : Ctx) (text : Str) : Prog Str := do
  let re ← getPatP .urls
  let st ← getStP
  pure (re.replaceAll C.U (fRetrieveUrl C st) text)

/-- parser.rs:1600-1603: the replacer of tag placeholders. -/
def fRetrieveTag (st : PState) (m : Mat) : R Str :=
  match parseU32 (m.grp 1) with
  | some n => .ok ((alLookup n st.refCache).getD [])
  | none => .error (.panic t!"must be an integer")

/-- parser.rs:1599-1627 `retrieve_tags`. -/
def retrieveTags (C : Ctx) (text : Str) : Prog Str := do
  let st ← getStP
  let re1 ← getPatP .ospan
  let t1 ← ofR (re1.replaceAllM C.U (fRetrieveTag st) text)
  let re2 ← getPatP .cspan
  ofR (re2.replaceAllM C.U (fRetrieveTag st) t1)

/-- parser.rs:1588-1597 `store_tags`. -/
def storeTags (C : Ctx) (openTag closeTag : Str) : Prog (Str × Str) := do
  let n ← cacheRefP .tag openTag
  let m ← cacheRefP .tag closeTag
  pure (C.cfg.uid ++ natStr n ++ t!":ospan ", t!" " ++ C.cfg.uid ++ natStr m ++ t!":cspan")

/-! ## Verbatim text, code, comments -/

/-- parser.rs:161-171 `get_special_options`. -/
def specialOptions (pre tail : Str) : Str × Str :=
  if pre = t!"[" ∧ tail = t!"]" then ([], []) else (pre, tail)

/-- parser.rs:440-445 `f_textile`. -/
def fTextile (m : Mat) : Prog Str := do
  let o := specialOptions (m.grp 1) (m.grp 3)
  let tok ← shelveP (m.grp 2)
  pure (o.1 ++ tok ++ o.2)

/-- parser.rs:447-451 `no_textile`. -/
def noTextile (C : Ctx) (text : Str) : Prog Str := do
  let t ← replaceP C SP_NOTEXTILE_RE fTextile text
  replaceP C SP_EQ_RE fTextile t

/-- parser.rs:454-460 `f_code`. -/
def fCode (m : Mat) : Prog Str := do
  let o := specialOptions (m.grp 1) (m.grp 3)
  let tok ← shelveP (t!"<code>" ++ encodeHtml (m.grp 2) false false ++ t!"</code>")
  pure (o.1 ++ tok ++ o.2)

/-- parser.rs:462-469 `f_pre`. -/
def fPre (m : Mat) : Prog Str := do
  let o := specialOptions (m.grp 1) (m.grp 3)
  let tok ← shelveP (encodeHtml (m.grp 2) true false)
  pure (o.1 ++ t!"<pre>" ++ tok ++ t!"</pre>" ++ o.2)

/-- parser.rs:453-474 `code`. -/
def code (C : Ctx) (text : Str) : Prog Str := do
  let t1 ← replaceP C SP_CODE_RE fCode text
  let t2 ← replaceP C SP_AT_RE fCode t1
  replaceP C SP_PRE_RE fPre t2

/-- parser.rs:476-489 `get_html_comments`. -/
def getHtmlComments (C : Ctx) (text : Str) : Prog Str :=
  replaceP C SP_COMMENT_RE (fun m => do
    let tok ← shelveP (m.grp 2)
    pure (m.grp 1 ++ t!"<!--" ++ tok ++ t!"-->")) text

/-! ## Links and images -/

/-- parser.rs:26 -/
def restrictedSchemes : List Str := [t!"http", t!"https", t!"ftp", t!"mailto"]
/-- parser.rs:27 -/
def unrestrictedSchemes : List Str :=
  [t!"http", t!"https", t!"ftp", t!"mailto", t!"file", t!"tel", t!"callto", t!"sftp", t!"data"]

def Cfg.schemes (c : Cfg) : List Str := if c.restricted then restrictedSchemes else unrestrictedSchemes

/-- parser.rs:495-501 `unrestrict_url`. -/
def unrestrictUrl (C : Ctx) (url : Str) : Prog Str :=
  if C.cfg.restricted then ofR (reverseEncodeHtml C.U url) else pure url

/-- parser.rs:504-528 `get_refs`. -/
def getRefs (C : Ctx) (text : Str) : Prog Str :=
  replaceP C (if C.cfg.restricted then RESTRICTED_URLREF_RE else UNRESTRICTED_URLREF_RE) (fun m => do
    let url ← unrestrictUrl C (m.grp 2)
    setAuxP (fun a => { a with urlrefs := imInsert (m.grp 1) (.raw url) a.urlrefs })
    pure []) text

/-- parser.rs:1501-1513 `is_valid_url`. -/
def isValidUrl (C : Ctx) (url : Str) : Bool :=
  let s := (UrlBits.parse C.E url).scheme
  s.isEmpty || C.cfg.schemes.contains s

/-- parser.rs:563-568. -/
def imageAlign (a : Str) : R Str :=
  if a = t!"<" ∨ a = t!"&lt;" then .ok t!"left"
  else if a = t!"=" then .ok t!"center"
  else if a = t!">" ∨ a = t!"&gt;" then .ok t!"right"
  else .error (.panic t!"Not allowed by regex")

/-- parser.rs:569-575. -/
def useAlignClass (c : Cfg) : Bool := c.alignClass.getD c.html5

/-- parser.rs:562-581: attributes of an image with its alignment. -/
def imageAttrs (C : Ctx) (m : Mat) : Prog HtmlAttrs := do
  let a ← parseAttrs C (m.grp 2) none
  match m.get? 1 with
  | some align => do
    let w ← ofR (imageAlign align)
    if useAlignClass C.cfg then pure (HtmlAttrs.insertCssClass C.U (t!"align-" ++ w) a.html)
    else pure (HtmlAttrs.insert t!"align" w a.html)
  | none => pure a.html

/-- parser.rs:586-591: size attributes. -/
def imageSizeAttrs (C : Ctx) (url : Str) (a : HtmlAttrs) : Prog HtmlAttrs :=
  if !(UrlBits.parse C.E url).isRelative && C.cfg.getSizes then do
    match ← probeP url with
    | some (w, h) => pure (HtmlAttrs.insert t!"width" (intStr w) (HtmlAttrs.insert t!"height" (intStr h) a))
    | none => pure a
  else pure a

/-- parser.rs:550-616 `f_image`. -/
def fImage (C : Ctx) (m : Mat) : Prog Str := do
  let url := m.grp 3
  if !isValidUrl C url then pure m.whole
  else do
    let a0 ← imageAttrs C m
    let title := m.get? 4
    let a1 := HtmlAttrs.insert t!"alt" (title.getD []) a0
    let a2 ← imageSizeAttrs C url a1
    let u ← unrestrictUrl C url
    let urlId ← shelveUrl C (.raw u)
    let a3 := HtmlAttrs.insert t!"src" urlId a2
    let a4 := match title with
      | some t => HtmlAttrs.insert t!"title" t a3
      | none => a3
    let img := generateTag C.U t!"img" none a4
    let out ← (match m.get? 5 with
      | some href => do
        let h ← unrestrictUrl C href
        let hrefId ← shelveUrl C (.raw h)
        if hrefId.isEmpty then pure img
        else pure (generateTag C.U t!"a" (some img) [(t!"href", hrefId)])
      | none => pure img : Prog Str)
    shelveP out .image

/-- parser.rs:531-618 `image`. -/
def image (C : Ctx) (text : Str) : Prog Str := replaceP C IMAGE_RE (fImage C) text

/-- parser.rs:675-720: the loop looking for the start of a link.  `parts` are the
link parts (in final order), `psq` the remaining parts (last one first). -/
def markLoop (C : Ctx) : Nat → (poss : Str) → (psq : List Str) → (balanced : Int) →
    (parts : List Str) → (i : Nat) → R (List Str × List Str)
  | 0, _, _, _, _, _ => .error .diverge
  | f + 1, poss, psq, balanced, parts, i =>
    if balanced ≠ 0 ∨ i = 0 then
      let parts1 := poss :: parts
      if !poss.isEmpty then
        let b1 := if START_NOSPACE_RE.isMatch C.U poss then balanced - 1 else balanced
        let b2 := if END_NOSPACE_RE.isMatch C.U poss then b1 + 1 else b1
        match psq with
        | p :: rest =>
          if b2 ≤ 0 then .ok (parts1, p :: rest)
          else markLoop C f p rest b2 parts1 i
        | [] =>
          if b2 ≤ 0 then .ok (parts1, [poss])
          else markLoop C f poss [] b2 parts1 i
      else
        let b1 := if i = 0 then balanced + 1 else balanced - 1
        match psq with
        | [] => .ok (parts, [])
        | p :: rest =>
          let b2 := if p.isEmpty || endsWithChar p ' ' then 0 else b1
          if b2 ≤ 0 then .ok (parts1, p :: rest)
          else markLoop C f p rest b2 parts1 (i + 1)
    else .ok (parts, psq)

/-- parser.rs:650-735: one slice. -/
def markSlice (C : Ctx) (s : Str) : R Str :=
  if !s.contains '"' then .ok s
  else
    match (splitChar '"' s).reverse with
    | [] => .ok s
    | poss :: psq =>
      match markLoop C C.fuel poss psq 0 [] 0 with
      | .error e => .error e
      | .ok (parts, rest) =>
        .ok (joinWith t!"\"" rest.reverse ++ C.cfg.uid ++ t!"linkStartMarker:\"" ++ joinWith t!"\"" parts)

/-- parser.rs:650-739: all slices; the last one is kept as it is. -/
def markSlices (C : Ctx) : List Str → R (List Str)
  | [] => .ok []
  | [last] => .ok [last]
  | s :: t => do
    let a ← markSlice C s
    let b ← markSlices C t
    pure (a :: b)

/-- parser.rs:632-742 `mark_start_of_links`. -/
def markStartOfLinks (C : Ctx) (text : Str) : R Str :=
  match SLICE_RE.split C.U 0 text with
  | [] => .ok text
  | [_] => .ok text
  | slices => do
    let out ← markSlices C slices
    pure (joinWith t!"\":" out)

/-- parser.rs:173-180 `make_url_readable`. -/
def makeUrlReadable (url : Str) : Str :=
  match findStr t!"://" url with
  | some (_, rest) => rest.drop 3
  | none =>
    match findStr t!":" url with
    | some (_, rest) => rest.drop 1
    | none => url

/-- State of the loop of parser.rs:1363-1430: the characters of the URL (last one
first), the text popped off, the counters, the opening bracket. -/
structure PopSt where
  chars : Str
  pop : Str
  counts : CharCounter
  pre : Str

/-- parser.rs:1363-1430.  `fuel` is a list as long as the URL plus one; every
round but the last one removes a character from `chars`. -/
def popLoop (U : Uni) (url : Str) : Str → Bool → PopSt → R PopSt
  | [], _, s => .ok s
  | _ :: f, first, s =>
    match s.chars with
    | [] => .ok s
    | c :: cs =>
      if c == '!' || c == '?' || c == ':' || c == ';' || c == '.' || c == ',' then
        popLoop U url f false { s with chars := cs, pop := c :: s.pop }
      else if c == '>' then
        match URL_TAG_RE.captures U cs.reverse with
        | some m => popLoop U url f false { s with chars := (m.grp 1).reverse, pop := m.grp 2 ++ [c] ++ s.pop }
        | none => .ok { s with chars := cs }
      else if c == ']' then do
        let c0 ← CharCounter.get '[' s.counts
        let counts ← if c0.isNone then CharCounter.set '[' (some (countChar '[' url)) s.counts else pure s.counts
        let o ← CharCounter.get '[' counts
        let k ← CharCounter.get ']' counts
        if o = k then pure { s with counts := counts }
        else do
          let counts' ← CharCounter.dec ']' counts
          popLoop U url f false { s with chars := cs, counts := counts', pre := if first then [] else s.pre }
      else if c == ')' then do
        let c0 ← CharCounter.get ')' s.counts
        let counts ← if c0.isNone then do
            let x ← CharCounter.set '(' (some (countChar '(' url)) s.counts
            CharCounter.set ')' (some (countChar ')' url)) x
          else pure s.counts
        let o ← CharCounter.get '(' counts
        let k ← CharCounter.get ')' counts
        if o = k then pure { s with counts := counts }
        else do
          let counts' ← CharCounter.dec ')' counts
          popLoop U url f false { s with chars := cs, pop := c :: s.pop, counts := counts' }
      else .ok s

/-- parser.rs:1311-1318: attributes, text and title of a link. -/
def linkParts (C : Ctx) (inner : Str) : Str × Str × Str :=
  match LINK_BLOCK_RE.captures C.U inner with
  | some m => (m.grp 1, if (m.grp 2).isEmpty then inner else m.grp 2, m.grp 4)
  | none => ([], inner, [])

/-- parser.rs:1332-1355: square-bracketed text after the URL; result: URL, tight. -/
def urlTight (C : Ctx) (url : Str) : Str × Str :=
  if countChar ']' url > 0 then
    let p1 := match URL_TIGHT_RE.captures C.U url with
      | some m => (m.grp 1, m.grp 2)
      | none => (url, [])
    match URL_END_RE.captures C.U p1.1 with
    | some m => (m.grp 1, m.grp 2 ++ p1.2)
    | none => p1
  else (url, [])

/-- parser.rs:1319-1432: what remains of the matched URL, the text popped off its
end, the tight text and the (possibly dropped) opening bracket. -/
def trimUrl (C : Ctx) (url pre : Str) : R (Str × Str × Str × Str) := do
  let counts ← CharCounter.set ']' (some (countChar ']' url)) (CharCounter.new ['[', ']', '(', ')'])
  let ut := urlTight C url
  let s ← popLoop C.U ut.1 (' ' :: ut.1) true { chars := ut.1.reverse, pop := [], counts := counts, pre := pre }
  pure (s.chars.reverse, s.pop, ut.2, s.pre)

/-- parser.rs:1447-1457: the text of a link; `$` stands for the URL. -/
def linkText (text url : Str) (schemeInList : Bool) (urlrefs : List (Str × UrlString)) : Str :=
  if text = t!"$" then
    if schemeInList then makeUrlReadable url
    else match alLookup url urlrefs with
      | some r => encodeHtml (makeUrlReadable r.source) true true
      | none => url
  else text

/-- parser.rs:1286-1486 `f_link`; `spanF` is `self.span`. -/
def fLink (C : Ctx) (spanF : Str → Prog Str) (m : Mat) : Prog Str := do
  let pre := m.grp 1
  let inner := replaceStr t!"\n" C.cfg.brTag (m.grp 2)
  let url := m.grp 3
  if inner.isEmpty then pure (pre ++ t!"\"" ++ inner ++ t!"\":" ++ url)
  else do
    let (atts, text, title) := linkParts C inner
    let (url1, pop, tight, pre1) ← ofR (trimUrl C url pre)
    let url2 ← unrestrictUrl C url1
    let bits := UrlBits.parse C.E url2
    let inList := C.cfg.schemes.contains bits.scheme
    if !(bits.scheme.isEmpty || inList) then
      pure (replaceStr (C.cfg.uid ++ t!"linkStartMarker:") [] m.whole)
    else do
      let st ← getStP
      let text1 := trim (linkText text url2 inList st.aux.urlrefs)
      let title1 := encodeHtml title false false
      let text2 ← if C.cfg.noimage then pure text1 else image C text1
      let text3 ← spanF text2
      let text4 := glyphs C text3
      let urlId ← shelveUrl C (.normalized bits.toStr)
      let ba ← parseAttrs C atts none
      let a1 := HtmlAttrs.insert t!"href" urlId ba.html
      let a2 ← (if title1.isEmpty then pure a1 else do
        let tid ← shelveP title1
        pure (HtmlAttrs.insert t!"title" tid a1) : Prog HtmlAttrs)
      let a3 := match C.cfg.rel with
        | some rel => HtmlAttrs.insert t!"rel" rel a2
        | none => a2
      let tok ← shelveP (generateTag C.U t!"a" (some text4) a3) .link
      pure (pre1 ++ tok ++ pop ++ tight)

/-- parser.rs:1489-1498: repeat until no marker is left or nothing changes. -/
def linkLoop (C : Ctx) (spanF : Str → Prog Str) (pat : Re) (needle : Str) : Nat → Str → Prog Str
  | 0, _ => .fail .diverge
  | f + 1, text =>
    if containsStr needle text then do
      let t ← replaceP C pat (fLink C spanF) text
      if t = text then pure t else linkLoop C spanF pat needle f t
    else pure text

/-- parser.rs:1260-1499 `replace_links`. -/
def replaceLinks (C : Ctx) (spanF : Str → Prog Str) (text : Str) : Prog Str := do
  let pat ← getPatP .links
  linkLoop C spanF pat (C.cfg.uid ++ t!"linkStartMarker:") C.fuel text

/-- parser.rs:621-625 `links`. -/
def links (C : Ctx) (spanF : Str → Prog Str) (text : Str) : Prog Str := do
  let t ← ofR (markStartOfLinks C text)
  replaceLinks C spanF t

/-! ## Inline markup -/

/-- parser.rs:1537-1541. -/
def spanPatterns : List Re :=
  [SPAN_B_RE, SPAN_STRONG_RE, SPAN_CITE_RE, SPAN_DEL_RE, SPAN_I_RE, SPAN_EM_RE, SPAN_SPAN_RE,
   SPAN_INS_RE, SPAN_SUB_RE, SPAN_SUP_RE]

/-- parser.rs:1548-1560. -/
def spanTag (m : Str) : R Str :=
  if m = t!"*" then .ok t!"strong"
  else if m = t!"**" then .ok t!"b"
  else if m = t!"??" then .ok t!"cite"
  else if m = t!"_" then .ok t!"em"
  else if m = t!"__" then .ok t!"i"
  else if m = t!"-" then .ok t!"del"
  else if m = t!"%" then .ok t!"span"
  else if m = t!"+" then .ok t!"ins"
  else if m = t!"~" then .ok t!"sub"
  else if m = t!"^" then .ok t!"sup"
  else .error (.panic t!"Not allowed by the regex")

/-- parser.rs:1546-1578 `f_span`; `rec` is the recursive call of `span`. -/
def fSpan (C : Ctx) (rec : Str → Prog Str) (m : Mat) : Prog Str := do
  let tag ← ofR (spanTag (m.grp 2))
  let ba ← parseAttrs C (m.grp 3) none
  let a := match m.get? 4 with
    | some cite => HtmlAttrs.insert t!"cite" (trim cite) ba.html
    | none => ba.html
  let content ← rec (m.grp 5)
  let o := specialOptions (m.grp 1) (m.grp 7)
  let ids ← storeTags C (t!"<" ++ tag ++ joinAttrs a ++ t!">") (t!"</" ++ tag ++ t!">")
  pure (o.1 ++ ids.1 ++ content ++ m.grp 6 ++ ids.2 ++ o.2)

/-- regextra.rs:126-141 `multi_replace_with_one`. -/
def multiReplaceWithOne (C : Ctx) (f : Mat → Prog Str) : List Re → Str → Prog Str
  | [], text => pure text
  | r :: rest, text => do
    let t ← replaceP C r f text
    multiReplaceWithOne C f rest t

/-- parser.rs:1535-1586 `span`.  The recursion stops by itself when the depth
exceeds `max_span_depth`, so fuel `max_span_depth + 2` always suffices. -/
def spanN (C : Ctx) : Nat → Str → Prog Str
  | 0, _ => .fail .diverge
  | n + 1, text => do
    let d ← spanEnterP
    let t ← if d ≤ C.cfg.maxSpanDepth then multiReplaceWithOne C (fSpan C (spanN C n)) spanPatterns text
            else pure text
    spanLeaveP
    pure t

/-- parser.rs:1535-1586 `span`. -/
def span (C : Ctx) (text : Str) : Prog Str := spanN C (C.cfg.maxSpanDepth + 2) text

/-! ## Line breaks -/

/-- parser.rs:1026 `STOP_PREFIXES`. -/
def stopPrefixes : List Str := [t!"</dd>", t!"</dt>", t!"</li>", t!"<br/>", t!"<br>", t!"<br />"]

def asciiLower (c : Char) : Char := if 65 ≤ c.toNat && c.toNat ≤ 90 then Char.ofNat (c.toNat + 32) else c

/-- parser.rs:1006-1012 `eq_ignore_ascii_case`. -/
def eqIgnoreAsciiCase (a b : Str) : Bool :=
  byteLen a == byteLen b && (a.zip b).all (fun p => asciiLower p.1 == asciiLower p.2)

def sliceErr : Err := .panic t!"byte index is not a char boundary"

/-- parser.rs:1038-1042: does one of the prefixes end right before byte `pos`? -/
def anyStop (lc : Str) (pos : Nat) : List Str → R Bool
  | [] => .ok false
  | p :: rest =>
    match sliceBytes lc (pos - min (byteLen p) pos) pos with
    | none => .error sliceErr
    | some pre => if eqIgnoreAsciiCase pre p then .ok true else anyStop lc pos rest

/-- parser.rs:1030-1049: the loop over the newlines of the lower-cased text;
`fuel` is the lower-cased text. -/
def brLoop (text lc br : Str) : (fuel : Str) → (start : Nat) → (out : Str) → R (Nat × Str)
  | [], start, out => .ok (start, out)
  | _ :: f, start, out =>
    match dropBytes start lc with
    | none => .error sliceErr
    | some lcRest =>
      match findNlBytes lcRest with
      | none => .ok (start, out)
      | some rel =>
        let pos := start + rel
        match sliceBytes text start pos, dropBytes (pos + 1) lc with
        | some chunk, some after =>
          let nextGood := match after with
            | [] => true
            | c :: _ => !(isWs c || c == '|')
          if nextGood then
            match anyStop lc pos stopPrefixes with
            | .error e => .error e
            | .ok stop =>
              brLoop text lc br f (pos + 1) (out ++ chunk ++ (if stop then [] else br) ++ ['\n'])
          else brLoop text lc br f (pos + 1) (out ++ chunk ++ ['\n'])
        | _, _ => .error sliceErr

/-- parser.rs:1020-1056 `insert_brs`. -/
def insertBrs (U : Uni) (text br : Str) : R Str :=
  if !text.contains '\n' then .ok text
  else
    let lc := U.toLower text
    match brLoop text lc br (' ' :: lc) 0 [] with
    | .error e => .error e
    | .ok (start, out) =>
      if out.isEmpty then .ok text
      else match dropBytes start text with
        | some rest => .ok (out ++ rest)
        | none => .error sliceErr

/-- parser.rs:1004-1073 `do_tag_br`. -/
def doTagBr (C : Ctx) (tag : Str) (input : Str) : Prog Str := do
  let pat ← getPatP (.tagBr tag)
  replaceP C pat (fun m => do
    let content ← ofR (insertBrs C.U (m.grp 2) C.cfg.brTag)
    pure (t!"<" ++ tag ++ m.grp 1 ++ t!">" ++ content ++ t!"</" ++ tag ++ t!">")) input

/-- parser.rs:1075-1092 `do_p_br`. -/
def doPBr (C : Ctx) (input : Str) : Str :=
  TAG_P_RE.replaceAll C.U (fun m =>
    let text := BR_NL_RE.replaceTempl C.U t!"\n" (m.grp 3)
    let text := NEWLINE_RE.replaceTempl C.U C.cfg.brTag text
    t!"<" ++ m.grp 1 ++ m.grp 2 ++ t!">" ++ text ++ m.grp 4) input

/-! ## Lists -/

/-- State of the loop of parser.rs:787-835, and its body.  `out` is reversed. -/
def rcLine (C : Ctx) (graf : Str → Prog Str) (out : List Str) (line : Str) : Prog (List Str) :=
  match ATTR_CONTENT_RE.captures C.U line with
  | none => pure out
  | some m => do
    let content := trim (m.grp 2)
    let ba ← parseAttrs C (m.grp 1) none
    let atts := ba.toStr
    let (term, definition) := match XM_RE.captures C.U content with
      | some xm => (trim (xm.grp 1), trimP (· == ' ') (xm.grp 2))
      | none => (content, [])
    let out1 := if out.isEmpty then
        [if definition.isEmpty then t!"<dl" ++ atts ++ t!">" else t!"<dl>"]
      else out
    if term.isEmpty then pure out1
    else do
      let nl := startsWith definition t!"\n"
      let d1 := replaceStr t!"\n" C.cfg.brTag (trim definition)
      let d2 := if nl then t!"<p>" ++ d1 ++ t!"</p>" else d1
      let term1 := replaceStr t!"\n" C.cfg.brTag term
      let term2 ← graf term1
      let d3 ← graf d2
      let out2 := (t!"\t<dt" ++ atts ++ t!">" ++ term2 ++ t!"</dt>") :: out1
      pure (if d3.isEmpty then out2 else (t!"\t<dd>" ++ d3 ++ t!"</dd>") :: out2)

/-- parser.rs:787-835. -/
def rcLines (C : Ctx) (graf : Str → Prog Str) : List Str → List Str → Prog (List Str)
  | out, [] => pure out
  | out, l :: t => do
    let o ← rcLine C graf out l
    rcLines C graf o t

/-- parser.rs:785-840 `f_rc_list`. -/
def fRcList (C : Ctx) (graf : Str → Prog Str) (m : Mat) : Prog Str := do
  let out ← rcLines C graf [] (RCLIST_SPLIT_RE.split C.U 0 m.whole)
  let out1 := if out.isEmpty then out else t!"</dl>" :: out
  pure (joinWith t!"\n" out1.reverse)

/-- parser.rs:769-843 `redcloth_list`. -/
def redclothList (C : Ctx) (graf : Str → Prog Str) (text : Str) : Prog Str :=
  replaceP C RCLIST_RE (fRcList C graf) text

/-- parser.rs:860-866 `ListItem` (`level` is the length of `tl`). -/
structure ListItem where
  tl : Str
  st : Str
  atts : Str
  content : Str
  deriving DecidableEq, Repr

def ListItem.level (i : ListItem) : Nat := i.tl.length

/-- parser.rs:868-876 `list_type`. -/
def listType (U : Uni) (tl : Str) : Str :=
  match LIST_START_RE.captures U tl with
  | some m => if endsWithChar (m.grp 1) '#' then t!"ol" else t!"ul"
  | none => t!"dl"

/-- parser.rs:882-901: the items of a list; `acc` is reversed. -/
def listItems (U : Uni) : List ListItem → List Str → List ListItem
  | acc, [] => acc.reverse
  | acc, line :: t =>
    match LINE_PARSER_RE.captures U line with
    | some m => listItems U ({ tl := m.grp 1, st := m.grp 2, atts := m.grp 3, content := m.grp 4 } :: acc) t
    | none =>
      match acc with
      | last :: more => listItems U ({ last with content := last.content ++ t!"\n" ++ line } :: more) t
      | [] => listItems U [] t

/-- parser.rs:913-919. -/
def itemTag (tl : Str) : Str :=
  if tl.contains ';' then t!"dt" else if tl.contains ':' then t!"dd" else t!"li"

/-- parser.rs:927-946: the start number of an ordered list and the counter after
this item; result: attributes, counter. -/
def olStart (item : ListItem) (isFirst : Bool) (shown : Bool) (old : Nat) (atts : HtmlAttrs) : HtmlAttrs × Nat :=
  let v1 :=
    if isFirst then
      if item.st.isEmpty then 1
      else if item.st ≠ t!"_" then (parseUsize item.st).getD old
      else old
    else old
  let a1 := if isFirst && !item.st.isEmpty then HtmlAttrs.insert t!"start" (natStr v1) atts else atts
  (a1, if shown then v1 + 1 else v1)

/-- parser.rs:980: a list is closed after an item if its marker is longer than the
one of the next item. -/
def leavesList (next : Option ListItem) (k : Str) : Bool :=
  match next with
  | some n => decide (k.length > n.level)
  | none => true

/-- parser.rs:978-991: closing tags after an item; `ls` is the list of open lists,
innermost (last inserted) first. -/
def closeLists (U : Uni) (tabs litem : Str) (next : Option ListItem) : List (Str × Nat) → Str
  | [] => []
  | (k, v) :: t =>
    (if leavesList next k then
      if v ≠ 2 then
        t!"\n" ++ tabs ++ t!"</" ++ listType U k ++ t!">" ++
          (if k.length > 1 then t!"</" ++ litem ++ t!">" else [])
      else []
    else []) ++ closeLists U tabs litem next t

/-- parser.rs:978-991: the lists that stay open. -/
def keepLists (next : Option ListItem) (ls : List (Str × Nat)) : List (Str × Nat) :=
  ls.filter (fun p => !leavesList next p.1)

/-- parser.rs:974: an item is closed unless a deeper one follows. -/
def endsItem (next : Option ListItem) (item : ListItem) : Bool :=
  match next with
  | some n => decide (n.level ≤ item.level)
  | none => true

/-- parser.rs:948-990: the text of one item and the lists open after it. -/
def itemLine (U : Uni) (prev next : Option ListItem) (item : ListItem) (atts : Str) (lists : List (Str × Nat)) :
    Str × List (Str × Nat) :=
  let content := trim item.content
  let shown := !content.isEmpty
  let ltype := listType U item.tl
  let litem := itemTag item.tl
  let lists1 := match prev with
    | some p => if p.tl.contains ';' && item.tl.contains ':' then imInsert item.tl 2 lists else lists
    | none => lists
  let tabs := List.replicate (item.level - 1) '\t'
  let isOpen := (alLookup item.tl lists1).isSome
  let lists2 := if isOpen then lists1 else imInsert item.tl 1 lists1
  let line :=
    if !isOpen then
      tabs ++ t!"<" ++ ltype ++ atts ++ t!">" ++
        (if shown then t!"\n" ++ tabs ++ t!"\t<" ++ litem ++ t!">" ++ content else [])
    else if shown then tabs ++ t!"\t<" ++ litem ++ atts ++ t!">" ++ content
    else []
  let close :=
    if shown && endsItem next item then
      t!"</" ++ litem ++ t!">"
    else []
  (line ++ close ++ closeLists U tabs litem next lists2.reverse, keepLists next lists2)

/-- parser.rs:910-994: the loop over the items. -/
def listLoop (C : Ctx) : (prev : Option ListItem) → (lists : List (Str × Nat)) → List ListItem → Prog (List Str)
  | _, _, [] => pure []
  | prev, lists, item :: rest => do
    let ba ← parseAttrs C item.atts none
    let shown := !(trim item.content).isEmpty
    let a ← (if listType C.U item.tl = t!"ol" then do
        let st ← getStP
        let old := (alLookup item.tl st.aux.olStarts).getD 1
        let isFirst := match prev with | some p => decide (item.level > p.level) | none => true
        let r := olStart item isFirst shown old ba.html
        setAuxP (fun x => { x with olStarts := imInsert item.tl r.2 x.olStarts })
        pure r.1
      else pure ba.html : Prog HtmlAttrs)
    let l := itemLine C.U prev rest.head? item (HtmlAttrs.toStr a) lists
    let t ← listLoop C (some item) l.2 rest
    pure (l.1 :: t)

/-- parser.rs:878-997 `f_textile_list`. -/
def fTextileList (C : Ctx) (m : Mat) : Prog Str := do
  let items := listItems C.U [] (LISTS_SPLIT_RE.split C.U 0 m.whole)
  match items with
  | [] => pure m.whole
  | first :: _ =>
    if first.level > 1 then pure m.whole
    else do
      let out ← listLoop C none [] items
      let litem := match items.getLast? with
        | some i => itemTag i.tl
        | none => []
      doTagBr C litem (joinWith t!"\n" out)

/-- parser.rs:845-1000 `textile_lists`. -/
def textileLists (C : Ctx) (text : Str) : Prog Str := replaceP C LISTS_RE (fTextileList C) text

/-! ## Tables (/repo/src/table.rs) -/

/-- table.rs:25-40 `TableSection`. `rows` is reversed. -/
structure Section where
  tag : Str
  attrs : BAttrs
  rows : List Str

/-- table.rs:36-39 `TableSection::process`. -/
def Section.process (U : Uni) (s : Section) : Str :=
  generateTag U s.tag (some (concat s.rows.reverse ++ t!"\n\t")) s.attrs.html

/-- table.rs:55-60 `Row::process`. -/
def rowText (U : Uni) (cells : List Str) (attrs : HtmlAttrs) : Str :=
  t!"\n\t\t" ++ generateTag U t!"tr" (some (concat cells ++ t!"\n\t\t")) attrs

/-- Variables of `process_table` (table.rs:109-113).  Lists are reversed. -/
structure TableSt where
  caption : Str := []
  colgroup : Str := []
  content : List Str := []
  rgrp : Option Section := none
  groups : List Str := []

/-- table.rs:19-23 `process_caption`. -/
def processCaption (C : Ctx) (capts cap : Str) : Prog Str := do
  let a ← parseAttrs C capts none
  pure (t!"\t" ++ generateTag C.U t!"caption" (some (trim cap)) a.html ++ t!"\n")

/-- table.rs:145-159: the columns of a colgroup. -/
def colgroupCols (C : Ctx) : Bool → List Str → Prog Str
  | _, [] => pure []
  | first, col :: t => do
    let a ← parseAttrs C (trim col) (some t!"col")
    let rest ← colgroupCols C false t
    pure (t!"\t<col" ++
      (if first then t!"group" ++ a.toStr ++ t!">" else a.toStr ++ t!" />") ++ t!"\n" ++ rest)

/-- table.rs:212-244: one cell. -/
def tableCell (C : Ctx) (graf : Str → Prog Str) (cell : Str) : Prog Str := do
  let ctag := if HEADING_RE.isMatch C.U cell then t!"th" else t!"td"
  let (cell1, a) ← (match CMTCH_RE.captures C.U cell with
    | some m => do
      let a ← parseAttrs C (m.grp 1) (some t!"td")
      pure (m.grp 2, a.html)
    | none => pure (cell, []) : Prog (Str × HtmlAttrs))
  let cell2 ← (if C.cfg.lite then pure cell1
    else match CELL_A_PATTERN_RE.captures C.U cell1 with
      | some m => do
        let c1 ← redclothList C graf (m.grp 2)
        let c2 ← textileLists C c1
        pure (m.grp 1 ++ c2)
      | none => pure [] : Prog Str)
  doTagBr C ctag (t!"\n\t\t\t" ++ generateTag C.U ctag (some cell2) a)

/-- table.rs:211-245: the cells of a row. -/
def tableCells (C : Ctx) (graf : Str → Prog Str) : List Str → Prog (List Str)
  | [] => pure []
  | c :: t => do
    let x ← tableCell C graf c
    let y ← tableCells C graf t
    pure (x :: y)

/-- table.rs:121-138: the caption, only looked for in the first row.  `none`
means that the row is consumed. -/
def tableCaption (C : Ctx) (s : TableSt) (i : Nat) (row : Str) : Prog (TableSt × Option Str) :=
  if i = 0 then
    match CAPTION_RE.captures C.U row with
    | some m => do
      let c ← processCaption C (m.grp 1) (m.grp 2)
      let row1 := trimStart (m.grp 3)
      pure ({ s with caption := t!"\n" ++ c }, if row1.isEmpty then none else some row1)
    | none => pure (s, some row)
  else pure (s, some row)

/-- table.rs:139-169: column groups. -/
def tableColgroup (C : Ctx) (s : TableSt) (row : Str) : Prog (TableSt × Option Str) :=
  match COLGROUP_RE.captures C.U row with
  | some m => do
    let cols := replaceStr t!"." [] (m.grp 1)
    let c ← colgroupCols C true (splitChar '|' cols)
    let s1 := { s with colgroup := s.colgroup ++ c ++ t!"\t</colgroup>" }
    match splitOnce '\n' row with
    | some (_, rest) => pure (s1, some (trimStart ('\n' :: rest)))
    | none => pure (s1, none)
  | none => pure (s, some row)

/-- table.rs:180-185. -/
def sectionTag (m : Str) : R Str :=
  if m = t!"^" then .ok t!"thead"
  else if m = t!"~" then .ok t!"tfoot"
  else if m = t!"-" then .ok t!"tbody"
  else .error (.panic t!"internal error: entered unreachable code")

/-- table.rs:170-198: start of a table section. -/
def tableGroup (C : Ctx) (s : TableSt) (row : Str) : Prog (TableSt × Str) :=
  match GRPMATCH_RE.captures C.U (trimStart row) with
  | some m =>
    match m.get? 2, m.get? 3 with
    | some part, some atts => do
      let groups := match s.rgrp with
        | some g => (t!"\n\t" ++ g.process C.U) :: s.groups
        | none => s.groups
      let tag ← ofR (sectionTag part)
      let ba ← parseAttrs C atts none
      pure ({ s with groups := groups, rgrp := some ⟨tag, ba, []⟩ }, m.grp 4)
    | _, _ => pure (s, m.grp 4)
  | none => pure (s, row)

/-- table.rs:200-252: the cells of a row, added to the current section or to the
table. -/
def tableRow (C : Ctx) (graf : Str → Prog Str) (s : TableSt) (row : Str) : Prog TableSt := do
  let (row1, atts) ← (match RMTCH_RE.captures C.U (trimStart row) with
    | some m => do
      let a ← parseAttrs C (m.grp 1) (some t!"tr")
      pure (m.grp 2, a.html)
    | none => pure (row, []) : Prog (Str × HtmlAttrs))
  let cells ← tableCells C graf ((splitChar '|' row1).drop 1)
  let r := rowText C.U cells atts
  pure (match s.rgrp with
    | some g => { s with rgrp := some { g with rows := r :: g.rows } }
    | none => { s with content := r :: s.content })

/-- table.rs:118-253: the loop over the non-empty rows. -/
def tableRows (C : Ctx) (graf : Str → Prog Str) : Nat → TableSt → List Str → Prog TableSt
  | _, s, [] => pure s
  | i, s, row :: t => do
    let (s1, r1) ← tableCaption C s i (trimStart row)
    match r1 with
    | none => tableRows C graf (i + 1) s1 t
    | some row1 => do
      let (s2, r2) ← tableColgroup C s1 row1
      match r2 with
      | none => tableRows C graf (i + 1) s2 t
      | some row2 => do
        let (s3, row3) ← tableGroup C s2 row2
        let s4 ← tableRow C graf s3 row3
        tableRows C graf (i + 1) s4 t

/-- table.rs:64-264 `process_table`. -/
def processTable (C : Ctx) (graf : Str → Prog Str) (tatts rows : Str) (summary : Option Str) : Prog Str := do
  let ba ← parseAttrs C tatts (some t!"table")
  let a := match summary with
    | some s => if s.isEmpty then ba.html else HtmlAttrs.insert t!"summary" (trim s) ba.html
    | none => ba.html
  let s ← tableRows C graf 0 {} ((COMPONENTS_RE.split C.U 0 rows).filter (fun r => !r.isEmpty))
  let groups := match s.rgrp with
    | some g => (t!"\n\t" ++ g.process C.U) :: s.groups
    | none => s.groups
  let content := s.caption ++ s.colgroup ++ concat groups.reverse ++ concat s.content.reverse ++ t!"\n\t"
  pure (t!"\t" ++ generateTag C.U t!"table" (some content) a ++ t!"\n\n")

/-- parser.rs:744-765 `table`. -/
def table (C : Ctx) (graf : Str → Prog Str) (text : Str) : Prog Str :=
  let text1 := text ++ t!"\n\n"
  match TABLE_RE.captures C.U text1 with
  | some m => processTable C graf (m.grp 1) (m.grp 3) (m.get? 2)
  | none => pure text1

/-! ## Footnotes and note references -/

/-- parser.rs:1104-1127 `f_footnote_id`. -/
def fFootnote (C : Ctx) (m : Mat) : Prog Str := do
  let id := m.grp 1
  let st ← getStP
  let (fnId, attrs) ← (match alLookup id st.footnotes with
    | some fnId => pure (fnId, [(t!"class", t!"footnote")])
    | none => do
      let n ← incLinkP
      let fnId := C.cfg.linkPrefix ++ natStr n
      setFootnoteP id fnId
      pure (fnId, [(t!"class", t!"footnote"), (t!"id", t!"fnrev" ++ fnId)]) : Prog (Str × HtmlAttrs))
  let link := generateTag C.U t!"a" (some id) [(t!"href", t!"#fn" ++ fnId)]
  let sup := if m.grp 2 = t!"!" then generateTag C.U t!"sup" (some id) attrs
             else generateTag C.U t!"sup" (some link) attrs
  pure (sup ++ m.grp 3)

/-- parser.rs:1095-1130 `footnote_ref`. -/
def footnoteRef (C : Ctx) (text : Str) : Prog Str := replaceP C FOOTNOTE_RE (fFootnote C) text

/-- parser.rs:1156-1172: the sequence number of a note, assigned at its first
reference. -/
def noteSeq (label : Str) : Prog Str := do
  let st ← getStP
  match (alLookup label st.aux.notes).bind (·.seq) with
  | some num => pure num
  | none => do
    let num := natStr st.aux.noteIndex
    setAuxP (fun a => { a with
      notes := btInsert label ⟨[], none, none, none, some num, []⟩ a.notes
      noteIndex := a.noteIndex + 1 })
    pure num

/-- parser.rs:1190-1195. -/
def addRefId (label refid : Str) (newId : Option Str) (a : Aux) : Aux :=
  match alLookup label a.notes with
  | some n =>
    { a with notes := btInsert label { n with refids := n.refids ++ [refid], id := newId.getD n.id } a.notes }
  | none => a

/-- parser.rs:1151-1198 `f_parse_note_refs`. -/
def fNoteRef (C : Ctx) (m : Mat) : Prog Str := do
  let label := m.grp 2
  let ba ← parseAttrs C (m.grp 1) none
  let num ← noteSeq label
  let n ← incLinkP
  let refid := C.cfg.linkPrefix ++ natStr n
  let st ← getStP
  let isEmptyId := match alLookup label st.aux.notes with
    | some n => n.id.isEmpty
    | none => true
  let newId ← (if isEmptyId then do
      let k ← incLinkP
      pure (C.cfg.linkPrefix ++ natStr k)
    else pure [] : Prog Str)
  let s := t!"<span id=\"noteref" ++ refid ++ t!"\">" ++ num ++ t!"</span>"
  let result := if m.grp 3 ≠ t!"!" then t!"<a href=\"#note" ++ newId ++ t!"\">" ++ s ++ t!"</a>" else s
  setAuxP (addRefId label refid (if isEmptyId then some newId else none))
  pure (generateTag C.U t!"sup" (some result) ba.html)

/-- parser.rs:1133-1200 `note_ref`. -/
def noteRef (C : Ctx) (text : Str) : Prog Str := replaceP C NOTEREF_RE (fNoteRef C) text

/-! ## Quoted quotes -/

/-- parser.rs:1755-1772 `matching_quote`. -/
def matchingQuote (c : Char) : Option Char :=
  if c == '"' then some '"'
  else if c == '\'' then some '\''
  else if c == '(' then some ')'
  else if c == '{' then some '}'
  else if c == '[' then some ']'
  else if c == '«' then some '»'
  else if c == '»' then some '«'
  else if c == '‹' then some '›'
  else if c == '›' then some '‹'
  else if c == '„' then some '“'
  else if c == '‚' then some '‘'
  else if c == '‘' then some '’'
  else if c == '”' then some '“'
  else none

/-- parser.rs:1774-1808 `f_glyph_quoted_quote`. -/
def fQuotedQuote (C : Ctx) (m : Mat) : Prog Str :=
  match m.grp 1, m.grp 3 with
  | pre :: _, post :: _ =>
    if some post ≠ matchingQuote pre then pure m.whole
    else
      let newPre := if pre == '"' then t!"&#8220;" else if pre == '\'' then t!"&#8216;"
        else if pre == ' ' then t!"&nbsp;" else [pre]
      let newPost := if post == '"' then t!"&#8221;" else if post == '\'' then t!"&#8217;"
        else if post == ' ' then t!"&nbsp;" else [post]
      let found := m.grp 2
      let found1 := if byteLen found > 1 then trimEnd (glyphs C found)
        else if found = t!"\"" then t!"&quot;" else found
      shelveP (t!" " ++ newPre ++ found1 ++ newPost ++ t!" ")
  | _, _ => .fail (.panic t!"Should be reached, check regular expression")

/-- parser.rs:1747-1810 `glyph_quoted_quote`. -/
def glyphQuotedQuote (C : Ctx) (text : Str) : Prog Str := replaceP C QUOTED_RE (fQuotedQuote C) text

/-! ## Paragraphs -/

/-- `if !lite { f(text) } else { text }` -/
def unlessB (b : Bool) (f : Str → Prog Str) (t : Str) : Prog Str := if b then pure t else f t

/-- parser.rs:1515-1533 `graf`.  The recursion (definition lists and tables parse
their parts with `graf`) is bounded by `fuel`. -/
def graf (C : Ctx) : Nat → Str → Prog Str
  | 0, _ => .fail .diverge
  | n + 1, text => do
    let lite := C.cfg.lite
    let t ← unlessB lite (noTextile C) text
    let t ← unlessB lite (code C) t
    let t ← getHtmlComments C t
    let t ← getRefs C t
    let t ← glyphQuotedQuote C t
    let t ← links C (span C) t
    let t ← unlessB C.cfg.noimage (image C) t
    let t ← unlessB lite (table C (graf C n)) t
    let t ← unlessB lite (redclothList C (graf C n)) t
    let t ← unlessB lite (textileLists C) t
    let t ← span C t
    let t ← footnoteRef C t
    let t ← noteRef C t
    pure (trimEndP (· == '\n') (glyphs C t))

/-! ## Blocks (/repo/src/block.rs and parser.rs) -/

/-- block.rs:280-287 `Block`. -/
structure Blk where
  outerOpening : Str := []
  outerClosing : Str := []
  innerOpening : Str := []
  innerClosing : Str := []
  content : Str := []
  eat : Bool := false
  deriving DecidableEq, Repr

/-- parser.rs:231-247: make sure a note exists. -/
def ensureNote (C : Ctx) (label : Str) : Prog Unit := do
  let st ← getStP
  match alLookup label st.aux.notes with
  | some _ => pure ()
  | none => do
    let n ← incLinkP
    setAuxP (fun a => { a with
      notes := btInsert label ⟨C.cfg.linkPrefix ++ natStr n, none, none, none, none, []⟩ a.notes })

/-- parser.rs:248-263: fill in a note. -/
def storeNote (C : Ctx) (label link att content : Str) : Prog Str := do
  let st ← getStP
  match alLookup label st.aux.notes with
  | some note =>
    if note.link.isNone then do
      let ba ← parseAttrs C att none
      setAuxP (fun a => { a with
        notes := btInsert label { note with
          link := if link.isEmpty then none else some link
          attrs := some ba.toStr
          content := some content } a.notes })
      pure []
    else pure []
  | none => pure []

/-- parser.rs:224-264 `parse_note_defs`. -/
def parseNoteDefs (C : Ctx) (grafF : Str → Prog Str) (m : Mat) : Prog Str := do
  ensureNote C (m.grp 1)
  let content ← grafF (m.grp 4)
  storeNote C (m.grp 1) (m.grp 2) (m.grp 3) content

/-- block.rs:344-383: footnote blocks become paragraphs; result: tag, attributes,
content. -/
def footnoteBlock (C : Ctx) (tag attrs : Str) (a : BAttrs) (content : Str) : Prog (Str × BAttrs × Str) :=
  match FNID_RE.captures C.U tag with
  | none => pure (tag, a, content)
  | some m => do
    let label := m.grp 1
    let st ← getStP
    let fnid ← (match alLookup label st.footnotes with
      | some i => pure i
      | none => do
        let n ← incLinkP
        pure (C.cfg.linkPrefix ++ natStr n) : Prog Str)
    let a1 := if a.cls.isNone then { a with cls := some t!"footnote" } else a
    let (a2, supAttrs) := match a.id with
      | none => ({ a1 with id := some (t!"fn" ++ fnid) }, ([] : HtmlAttrs))
      | some _ => (a1, HtmlAttrs.insert t!"id" (t!"fn" ++ fnid) [])
    let sup := if !attrs.contains '^' then generateTag C.U t!"sup" (some label) supAttrs
      else generateTag C.U t!"sup"
        (some (generateTag C.U t!"a" (some label) [(t!"href", t!"#fnrev" ++ fnid)])) supAttrs
    pure (t!"p", a2, sup ++ t!" " ++ content)

/-- block.rs:385-430: opening and closing tags of a block and its content before
`graf`; `orig` are the attributes as parsed. -/
def blockTagsOf (C : Ctx) (tag : Str) (orig a : BAttrs) (cite : Option Str) (content : Str) : Prog Blk :=
  if tag = t!"bq" then do
    let h ← (match cite with
      | some c => do
        let u ← unrestrictUrl C c
        let id ← shelveUrl C (.raw u)
        pure (HtmlAttrs.insert t!"cite" id a.html)
      | none => pure a.html : Prog HtmlAttrs)
    pure { outerOpening := t!"<blockquote" ++ HtmlAttrs.toStr h ++ t!">\n"
           innerOpening := t!"\t<p" ++ orig.toStr ++ t!">"
           innerClosing := t!"</p>"
           outerClosing := t!"\n</blockquote>"
           content := content }
  else if tag = t!"bc" then do
    let tok ← shelveP (encodeHtml content true false)
    let inner := match a.lang with
      | some lang => if CODE_LANG_RE.isMatch C.U lang then ({ cls := some lang } : BAttrs).html else []
      | none => []
    let outer := ({ a with lang := none } : BAttrs).html
    pure { outerOpening := t!"<pre" ++ HtmlAttrs.toStr outer ++ t!"><code" ++ HtmlAttrs.toStr inner ++ t!">"
           outerClosing := t!"</code></pre>"
           content := tok }
  else if tag = t!"pre" then do
    let tok ← shelveP (encodeHtml content true false)
    pure { outerOpening := t!"<pre" ++ a.toStr ++ t!">"
           outerClosing := t!"</pre>"
           content := tok }
  else if tag = t!"notextile" then do
    let tok ← shelveP content
    pure { content := tok }
  else if tag = t!"###" then pure { eat := true, content := content }
  else
    pure { innerOpening := t!"<" ++ tag ++ a.toStr ++ t!">"
           innerClosing := t!"</" ++ tag ++ t!">"
           content := content }

/-- block.rs:290-444 `Block::new`; `grafF` is `ps.graf`. -/
def blockNew (C : Ctx) (grafF : Str → Prog Str) (tag attrs : Str) (cite : Option Str) (content : Str) : Prog Blk := do
  let a ← parseAttrs C attrs none
  let notedef ← (if tag = t!"p" then replaceP C NOTEDEF_RE (parseNoteDefs C grafF) content
    else pure t!"-" : Prog Str)
  if tag = t!"p" ∧ notedef.isEmpty then pure { eat := true }
  else do
    let (tag1, a1, content1) ← footnoteBlock C tag attrs a content
    let b ← blockTagsOf C tag1 a a1 cite content1
    if b.eat then pure { b with content := [] }
    else do
      let c ← grafF b.content
      pure { b with content := c }

/-- Variables of `block` (parser.rs:1645-1658). `out` is reversed. -/
structure BlkSt where
  out : List Str := []
  whitespace : Str := []
  eatWs : Bool := false
  ext : Str := []
  tag : Str := []
  atts : Str := []
  cite : Option Str := none
  lastClosing : Str := []
  eat : Bool := false
  deriving DecidableEq, Repr

/-- `if let Some(last) = out.last_mut() { last.push_str(s) }` -/
def appendLast (s : Str) : List Str → List Str
  | [] => []
  | x :: t => (x ++ s) :: t

/-- parser.rs:1677-1718: the output of one text block. -/
def blockBody (C : Ctx) (grafF : Str → Prog Str) (s : BlkSt) (block : Str) : Prog (BlkSt × Bool × Str) :=
  match (if C.cfg.lite then TEXTILE_LIGHT_TAG_RE else TEXTILE_TAG_RE).captures C.U block with
  | some m => do
    let out := if s.ext.isEmpty then s.out else appendLast s.lastClosing s.out
    let tag := m.grp 1
    let atts := m.grp 2
    let ext := m.grp 3
    let cite := m.get? 4
    let b ← blockNew C grafF tag atts cite (m.grp 5)
    pure ({ s with out := out, tag := tag, atts := atts, ext := ext, cite := cite, eat := b.eat,
                   lastClosing := b.outerClosing }, false,
      b.outerOpening ++ b.innerOpening ++ b.content ++ b.innerClosing ++
        (if ext.isEmpty then b.outerClosing else []))
  | none => do
    let raw := DIVIDER_RE.isMatch C.U block
    if !s.ext.isEmpty || (!startsWith block t!" " && !raw) then do
      let b ← blockNew C grafF s.tag s.atts s.cite block
      pure ({ s with eat := b.eat, lastClosing := b.outerClosing }, true,
        if b.content.isEmpty || (s.tag = t!"p" && !hasRawText C.U b.content) then b.content
        else b.innerOpening ++ b.content ++ b.innerClosing)
    else if raw && C.cfg.restricted then do
      let tok ← shelveP (encodeHtml block C.cfg.restricted false)
      pure (s, true, tok)
    else if raw then do
      let tok ← shelveP block
      pure (s, true, tok)
    else do
      let t ← grafF block
      pure (s, true, t)

/-- parser.rs:1660-1738: one round of the loop over the text blocks. -/
def blockStep (C : Ctx) (grafF : Str → Prog Str) (s : BlkSt) (block : Str) : Prog BlkSt :=
  if (trim block).isEmpty then
    pure (if s.eatWs then s else { s with whitespace := s.whitespace ++ block })
  else do
    let s1 := if s.ext.isEmpty then { s with tag := t!"p", atts := [], cite := none, eat := false } else s
    let s2 := { s1 with eatWs := false }
    let (s3, anonymous, output) ← blockBody C grafF s2 block
    let output := s3.whitespace ++ BR_TAG_RE.replaceTempl C.U C.cfg.brTag (doPBr C output)
    let s4 :=
      if !s3.ext.isEmpty && anonymous then { s3 with out := appendLast output s3.out }
      else if !s3.eat then { s3 with out := output :: s3.out }
      else s3
    pure (if s4.eat then { s4 with eatWs := true } else { s4 with whitespace := [] })

/-- parser.rs:1660-1738: the loop over the text blocks. -/
def blockLoop (C : Ctx) (grafF : Str → Prog Str) : BlkSt → List Str → Prog BlkSt
  | s, [] => pure s
  | s, b :: t => do
    let s1 ← blockStep C grafF s b
    blockLoop C grafF s1 t

/-- parser.rs:1629-1745 `block`. -/
def block (C : Ctx) (text : Str) : Prog Str := do
  let s ← blockLoop C (graf C C.fuel) {} (MULTI_ENDLINE_RE.split C.U 1 text)
  let out := if s.ext.isEmpty then s.out else appendLast s.lastClosing s.out
  pure (concat out.reverse)

/-! ## The whole conversion -/

/-- parser.rs:1854-1864 `normalize_newlines`. -/
def normalizeNewlines (U : Uni) (text : Str) : Str :=
  trimP (· == '\n') (multiReplace U [(CR_RE, t!"\n"), (BLANK_LINE_RE, t!"\n")] text)

/-- parser.rs:1924-1932: the text the block parser sees. -/
def prepare (C : Ctx) (text : Str) : Str :=
  let t := if C.cfg.restricted then encodeHtml text false false else text
  replaceStr C.cfg.uid [] (normalizeNewlines C.U t)

/-- parser.rs:1934-1954: everything before the sanitizer. -/
def parseBody (C : Ctx) (text : Str) : Prog Str := do
  let t ← (if C.cfg.blockTags then do
      let t ← block C text
      placeNoteLists C t
    else do
      let t ← glyphQuotedQuote C (text ++ t!"\n\n")
      let t ← span C t
      pure (glyphs C t) : Prog Str)
  let st ← getStP
  let t ← ofR (retrieve st.shelf C.fuel t)
  let t := replaceStr (C.cfg.uid ++ t!":glyph:") [] t
  let t ← retrieveTags C t
  retrieveUrls C t

/-- parser.rs:1956-1982: sanitizer, break tags, trailing newlines. -/
def finish (C : Ctx) (text : Str) : Str :=
  let t := match C.cfg.sanitizer with
    | some f => f text
    | none => text
  trimEndP (· == '\n') (BR_PATTERN.replaceTempl C.U (C.cfg.brTag ++ t!"\n") t)

/-- parser.rs:1918-1983 `Textile::parse`, as a program. -/
def parseP (C : Ctx) (text : Str) : Prog Str :=
  if (trim text).isEmpty then pure text
  else do
    let t ← parseBody C (prepare C text)
    pure (finish C t)

end Rustextile
