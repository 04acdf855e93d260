import Verif.Phases
import Verif.Instances

/-!
# Documents of simple blocks: C09, C10, C11, C13, C14, C15, C51
-/

namespace Rustextile

open Prog

/-- **C51.** A document: paragraphs, headings and quotations with ordinary text, code
blocks, preformatted blocks, verbatim blocks and comments with arbitrary text, in any
number and order, separated by two or more newlines.  Every block becomes its element,
comments vanish, arbitrary text is shown as it is written, and nothing else is added.  In
restricted mode arbitrary text is escaped first.  The only texts excluded are those that
contain the token of the parser. -/
theorem C51_documents (E : Env) (hU : UniOk E.U) (fuel : Nat) (hf : 3 ≤ fuel) (cfg : Cfg) (base : Str)
    (hb : Spec.PlainBase base) (huid : cfg.uid = t!"textileRef:" ++ base ++ t!":")
    (hbt : cfg.blockTags = true) (hsan : cfg.sanitizer = none) (ds : List (Spec.Block × Nat)) (hne : ds ≠ [])
    (hok : ∀ d ∈ ds, d.1.Ok E.U.isLu E.U.isNd cfg.lite) (htok : ¬ cfg.uid <:+: Spec.source ds) :
    parseFresh E fuel cfg (Spec.source ds) = .ok (Spec.html (if cfg.html5 then t!"<br>" else t!"<br />")
      (if cfg.restricted then ds.map (fun d => (d.1.escaped, d.2)) else ds)) := by
  have D : DocCtx ⟨E, cfg, fuel⟩ base := ⟨hU, hf, hb, huid⟩
  refine parse_doc D hbt hsan hne hok ?_
  rw [← show cfg.uid = uidOf base from huid]
  cases h : containsStr cfg.uid (Spec.source ds) with
  | false => rfl
  | true => obtain ⟨a, b, e⟩ := containsStr_iff.1 h; exact absurd ⟨a, b, by rw [e]; simp⟩ htok

/-- A document with a heading, a paragraph with two lines, a comment with markup, a code
block with two lines of markup and a quotation. -/
def demoDoc : List (Spec.Block × Nat) :=
  [(.tagged t!"h2" [t!"Fish, and chips"], 0), (.para [t!"Once upon a time", t!"there was 1 fish."], 1),
   (.comment [t!"<b>*x*", t!" \"a\":b"], 0), (.verbatim t!"bc" [t!"if a < b {", t!"  *p = 'x';"], 0),
   (.quote [t!"So be it"], 0)]

theorem demoDoc_ok : ∀ d ∈ demoDoc, d.1.Ok demoEnv.U.isLu demoEnv.U.isNd demoCfg.lite := by
  intro d hd
  simp only [demoDoc, List.mem_cons, List.not_mem_nil, or_false] at hd
  rcases hd with rfl | rfl | rfl | rfl | rfl
  · exact ⟨⟨by simp, by simpa using line_of_B (by decide) rfl⟩, by decide, by decide⟩
  · refine ⟨⟨by simp, ?_⟩, noBlock_head (by decide), by decide⟩
    intro l hl
    simp only [List.mem_cons, List.not_mem_nil, or_false] at hl
    rcases hl with rfl | rfl <;> exact line_of_B (by decide) rfl
  · refine ⟨⟨by decide, ?_⟩, rfl⟩
    simp [Spec.RawLine, Spec.BlankLine]
  · refine ⟨⟨by decide, ?_⟩, by decide, by decide⟩
    simp [Spec.RawLine, Spec.BlankLine]
  · exact ⟨⟨by simp, by simpa using line_of_B (by decide) rfl⟩, by decide⟩

example : parseFresh demoEnv 3 demoCfg
    t!"h2. Fish, and chips\n\nOnce upon a time\nthere was 1 fish.\n\n\n###. <b>*x*\n \"a\":b\n\nbc. if a < b {\n  *p = 'x';\n\nbq. So be it" =
    .ok t!"<h2>Fish, and chips</h2>\n\n<p>Once upon a time<br>\nthere was 1 fish.</p>\n\n\n<pre><code>if a &lt; b {\n  *p = &#39;x&#39;;</code></pre>\n\n<blockquote>\n\t<p>So be it</p>\n</blockquote>" := by
  have h := C51_documents demoEnv UniOk.demo 3 (by decide) demoCfg t!"abc" plainBase_demo rfl rfl rfl demoDoc (by decide)
    demoDoc_ok (by decide +kernel)
  rw [show Spec.source demoDoc = t!"h2. Fish, and chips\n\nOnce upon a time\nthere was 1 fish.\n\n\n###. <b>*x*\n \"a\":b\n\nbc. if a < b {\n  *p = 'x';\n\nbq. So be it" by decide +kernel] at h
  exact h.trans (by decide +kernel)

/-- A document of one block. -/
theorem one_block (E : Env) (hU : UniOk E.U) (fuel : Nat) (hf : 3 ≤ fuel) (cfg : Cfg) (base : Str)
    (hb : Spec.PlainBase base) (huid : cfg.uid = t!"textileRef:" ++ base ++ t!":")
    (hbt : cfg.blockTags = true) (hsan : cfg.sanitizer = none) (b : Spec.Block)
    (hok : b.Ok E.U.isLu E.U.isNd cfg.lite) (htok : ¬ cfg.uid <:+: b.source) :
    parseFresh E fuel cfg b.source = .ok (Spec.html (if cfg.html5 then t!"<br>" else t!"<br />")
      (if cfg.restricted then [(b.escaped, 0)] else [(b, 0)])) := by
  have := C51_documents E hU fuel hf cfg base hb huid hbt hsan [(b, 0)] (by simp) (by simpa using hok) htok
  simpa [Spec.source, Spec.glue] using this

theorem html_single {br : Str} {b : Spec.Block} (h : b.isComment = false) (hl : (b.html br).getLast? ≠ some '\n') :
    Spec.html br [(b, 0)] = b.html br := by
  simp only [Spec.html, List.filter, h, Bool.not_false, List.map_cons, List.map_nil, Spec.glue]
  rw [← dropFinalNewlines_eq]
  apply trimEndP_of_last
  intro c hc
  rw [hc] at hl
  simpa using hl

theorem element_last (tag t : Str) : (Spec.element tag t).getLast? ≠ some '\n' := by
  have : Spec.element tag t = '<' :: (tag ++ t!">" ++ t ++ t!"</" ++ tag) ++ ['>'] := by simp [Spec.element]
  rw [this, List.getLast?_append]
  simp

theorem nocolon_lines {up : Char → Bool} {ls : List Str} (h : ∀ l ∈ ls, Spec.Line up l) : ':' ∉ Spec.join t!"\n" ls :=
  join_nochar (by decide) (fun l hl => line_nochar (h l hl).toWords (by decide))

/-- **C09.** Ordinary text becomes one paragraph, unchanged; `ls` are its lines.  Between
lines there is a break. -/
theorem C09_paragraph (E : Env) (hU : UniOk E.U) (fuel : Nat) (hf : 3 ≤ fuel) (cfg : Cfg) (base : Str)
    (hb : Spec.PlainBase base) (huid : cfg.uid = t!"textileRef:" ++ base ++ t!":")
    (hbt : cfg.blockTags = true) (hsan : cfg.sanitizer = none) (ls : List Str) (hp : Spec.Paragraph E.U.isLu ls)
    (hw : Spec.NoBlockWord E.U.isNd cfg.lite (Spec.join t!"\n" ls)) (hn : ¬ t!"notelist" <+: Spec.join t!"\n" ls) :
    parseFresh E fuel cfg (Spec.join t!"\n" ls) =
      .ok (t!"<p>" ++ Spec.join (if cfg.html5 then t!"<br>\n" else t!"<br />\n") ls ++ t!"</p>") := by
  have := one_block E hU fuel hf cfg base hb huid hbt hsan (.para ls) ⟨hp, hw, hn⟩ (no_token huid (nocolon_lines hp.lines))
  rw [show (Spec.Block.para ls).source = Spec.join t!"\n" ls from rfl] at this
  rw [this]
  simp only [Spec.Block.escaped, ite_self]
  rw [html_single (b := .para ls) rfl (element_last _ _)]
  cases cfg.html5 <;> simp [Spec.Block.html, Spec.element]

/-- **C09** for a single line of words without full stop: it is returned as it is. -/
theorem C09_plain_words (E : Env) (hU : UniOk E.U) (fuel : Nat) (hf : 3 ≤ fuel) (cfg : Cfg) (base : Str)
    (hb : Spec.PlainBase base) (huid : cfg.uid = t!"textileRef:" ++ base ++ t!":")
    (hbt : cfg.blockTags = true) (hsan : cfg.sanitizer = none) (t : Str) (hp : Spec.Line E.U.isLu t)
    (hw : '.' ∉ t) (hn : ¬ t!"notelist" <+: t) :
    parseFresh E fuel cfg t = .ok (t!"<p>" ++ t ++ t!"</p>") := by
  have := C09_paragraph E hU fuel hf cfg base hb huid hbt hsan [t] ⟨by simp, by simpa using hp⟩
    (by rintro w u rfl; simp at hw) hn
  simpa [Spec.join] using this

example : parseFresh demoEnv 3 demoCfg t!"Hello, this is text" = .ok t!"<p>Hello, this is text</p>" :=
  C09_plain_words demoEnv UniOk.demo 3 (by decide) demoCfg t!"abc" plainBase_demo rfl rfl rfl t!"Hello, this is text"
    (line_of_B (by decide) rfl) (by decide) (by decide)

/-- **C11.** Headings. -/
theorem C11_headings (E : Env) (hU : UniOk E.U) (fuel : Nat) (hf : 3 ≤ fuel) (cfg : Cfg) (base : Str)
    (hb : Spec.PlainBase base) (huid : cfg.uid = t!"textileRef:" ++ base ++ t!":")
    (hbt : cfg.blockTags = true) (hsan : cfg.sanitizer = none) (hlite : cfg.lite = false)
    (d : Char) (hd : d ∈ t!"123456") (t : Str) (hp : Spec.Line E.U.isLu t) :
    parseFresh E fuel cfg (['h', d] ++ t!". " ++ t) = .ok (['<', 'h', d, '>'] ++ t ++ ['<', '/', 'h', d, '>']) := by
  have hs : (Spec.Block.tagged ['h', d] [t]).source = ['h', d] ++ t!". " ++ t := by simp [Spec.Block.source, Spec.join]
  have hnc : ':' ∉ (Spec.Block.tagged ['h', d] [t]).source := by
    rw [hs]
    have := line_nochar hp.toWords (c := ':') (by decide)
    have h2 : ':' ≠ d := by rintro rfl; revert hd; decide
    simp [this, h2]
  have := one_block E hU fuel hf cfg base hb huid hbt hsan (.tagged ['h', d] [t])
    ⟨⟨by simp, by simpa using hp⟩, by rw [hlite]; simp at hd ⊢; grind, by simp⟩ (no_token huid hnc)
  rw [hs] at this
  rw [this]
  simp only [Spec.Block.escaped, ite_self]
  rw [html_single (b := .tagged ['h', d] [t]) rfl (element_last _ _)]
  simp [Spec.Block.html, Spec.element, Spec.join]

example : parseFresh demoEnv 3 demoCfg t!"h3. A title" = .ok t!"<h3>A title</h3>" :=
  C11_headings demoEnv UniOk.demo 3 (by decide) demoCfg t!"abc" plainBase_demo rfl rfl rfl rfl '3' (by decide) t!"A title"
    (line_of_B (by decide) rfl)

/-- **C13.** Code blocks show what was typed: whatever is written after `bc. `, the output
is an element with a text that reads as exactly that, and that contains no markup.
(`t` is one line; several lines are covered by **C51**.) -/
theorem C13_code_block (E : Env) (hU : UniOk E.U) (fuel : Nat) (hf : 3 ≤ fuel) (cfg : Cfg) (base : Str)
    (hb : Spec.PlainBase base) (huid : cfg.uid = t!"textileRef:" ++ base ++ t!":")
    (hbt : cfg.blockTags = true) (hsan : cfg.sanitizer = none) (hr : cfg.restricted = false)
    (t : Str) (hnl : '\n' ∉ t ∧ '\r' ∉ t) (htok : ¬ cfg.uid <:+: t!"bc. " ++ t) :
    ∃ body, parseFresh E fuel cfg (t!"bc. " ++ t) = .ok (t!"<pre><code>" ++ body ++ t!"</code></pre>") ∧
      Spec.decode body = t ∧ ∀ c ∈ t!"<>\"'", c ∉ body := by
  have hs : (Spec.Block.verbatim t!"bc" [t]).source = t!"bc. " ++ t := by simp [Spec.Block.source, Spec.join]
  have := one_block E hU fuel hf cfg base hb huid hbt hsan (.verbatim t!"bc" [t])
    ⟨⟨hnl, by simp⟩, by simp, fun h => absurd h (by decide)⟩ (by rw [hs]; exact htok)
  rw [hs, hr] at this
  refine ⟨encodeHtml t true false, ?_, ?_, ?_⟩
  · rw [this, if_neg (c := false = true) (by simp), html_single (b := .verbatim t!"bc" [t]) rfl (element_last _ _)]
    simp [Spec.Block.html, Spec.element, Spec.join, escape_eq]
  · rw [decode_encodeHtml, map_encDec_false]
  · intro c hc hm
    obtain ⟨d, -, hd⟩ := List.mem_flatMap.1 hm
    have := mem_encChar hd
    simp at hc
    rcases hc with rfl | rfl | rfl | rfl <;> simp at this

example : ∃ body, parseFresh demoEnv 3 demoCfg t!"bc. <script>\"*a*\":b &amp; 'c'" =
    .ok (t!"<pre><code>" ++ body ++ t!"</code></pre>") ∧
      Spec.decode body = t!"<script>\"*a*\":b &amp; 'c'" ∧ ∀ c ∈ t!"<>\"'", c ∉ body :=
  C13_code_block demoEnv UniOk.demo 3 (by decide) demoCfg t!"abc" plainBase_demo rfl rfl rfl rfl _ (by decide) (by decide)

/-- **C14.** Verbatim blocks are copied. -/
theorem C14_notextile_block (E : Env) (hU : UniOk E.U) (fuel : Nat) (hf : 3 ≤ fuel) (cfg : Cfg) (base : Str)
    (hb : Spec.PlainBase base) (huid : cfg.uid = t!"textileRef:" ++ base ++ t!":")
    (hbt : cfg.blockTags = true) (hsan : cfg.sanitizer = none) (hr : cfg.restricted = false) (hlite : cfg.lite = false)
    (t : Str) (hnl : '\n' ∉ t ∧ '\r' ∉ t) (hbr : ¬ t!"<br>" <:+: t ∧ ¬ t!"<br />" <:+: t)
    (htok : ¬ cfg.uid <:+: t!"notextile. " ++ t) :
    parseFresh E fuel cfg (t!"notextile. " ++ t) = .ok t := by
  have hs : (Spec.Block.verbatim t!"notextile" [t]).source = t!"notextile. " ++ t := by simp [Spec.Block.source, Spec.join]
  have := one_block E hU fuel hf cfg base hb huid hbt hsan (.verbatim t!"notextile" [t])
    ⟨⟨hnl, by simp⟩, by rw [hlite]; simp, by simpa using hbr⟩ (by rw [hs]; exact htok)
  rw [hs, hr] at this
  rw [this, if_neg (c := false = true) (by simp), html_single (b := .verbatim t!"notextile" [t]) rfl]
  · simp [Spec.Block.html, Spec.join]
  · intro h
    exact hnl.1 (List.mem_of_getLast? (by simpa [Spec.Block.html, Spec.join] using h))

example : parseFresh demoEnv 3 demoCfg t!"notextile. <b>*x*</b> (c)" = .ok t!"<b>*x*</b> (c)" :=
  C14_notextile_block demoEnv UniOk.demo 3 (by decide) demoCfg t!"abc" plainBase_demo rfl rfl rfl rfl rfl _ (by decide)
    (by decide) (by decide)

/-- **C15.** Comments vanish; `ls` are the lines of the comment. -/
theorem C15_comment (E : Env) (hU : UniOk E.U) (fuel : Nat) (hf : 3 ≤ fuel) (cfg : Cfg) (base : Str)
    (hb : Spec.PlainBase base) (huid : cfg.uid = t!"textileRef:" ++ base ++ t!":")
    (hbt : cfg.blockTags = true) (hsan : cfg.sanitizer = none) (hlite : cfg.lite = false)
    (ls : List Str) (h : Spec.RawLines ls) (htok : ¬ cfg.uid <:+: t!"###. " ++ Spec.join t!"\n" ls) :
    parseFresh E fuel cfg (t!"###. " ++ Spec.join t!"\n" ls) = .ok [] := by
  have hs : (Spec.Block.comment ls).source = t!"###. " ++ Spec.join t!"\n" ls := by simp [Spec.Block.source]
  have := one_block E hU fuel hf cfg base hb huid hbt hsan (.comment ls) ⟨h, hlite⟩ (by rw [hs]; exact htok)
  rw [hs] at this
  rw [this]
  cases cfg.restricted <;> rfl

example : parseFresh demoEnv 3 demoCfg t!"###. <b>*x*\nh1. foo" = .ok [] :=
  C15_comment demoEnv UniOk.demo 3 (by decide) demoCfg t!"abc" plainBase_demo rfl rfl rfl rfl [t!"<b>*x*", t!"h1. foo"]
    ⟨by decide, by simp [Spec.RawLine, Spec.BlankLine]⟩ (by decide)

/-- **C10.** With block tags turned off ordinary text is returned as it is. -/
theorem C10_inline_mode (E : Env) (hU : UniOk E.U) (fuel : Nat) (hf : 1 ≤ fuel) (cfg : Cfg) (base : Str)
    (hb : Spec.PlainBase base) (huid : cfg.uid = t!"textileRef:" ++ base ++ t!":")
    (hbt : cfg.blockTags = false) (hsan : cfg.sanitizer = none) (ls : List Str) (hp : Spec.Paragraph E.U.isLu ls) :
    parseFresh E fuel cfg (Spec.join t!"\n" ls) = .ok (Spec.join t!"\n" ls) := by
  let C : Ctx := ⟨E, cfg, fuel⟩
  obtain ⟨c1, c2, c3, c4, c5, c6, c7, c8⟩ := uid_chars hb
  have hch := chunk_lines hp.ne (fun l hl => raw_of_line (hp.lines l hl))
  have hnt : containsStr C.cfg.uid (Spec.join t!"\n" ls) = false := by
    rw [show C.cfg.uid = uidOf base from huid]
    exact containsStr_false_of_mem c7 (nocolon_lines hp.lines)
  have hprep : prepare C (Spec.join t!"\n" ls) = Spec.join t!"\n" ls := by
    have hn : normalizeNewlines C.U (Spec.join t!"\n" ls) = Spec.join t!"\n" ls := by
      have h1 := clear_lines (z := []) (.inl rfl) hp.ne (fun l hl => raw_of_line (hp.lines l hl))
      rw [List.append_nil, show Spec.clearBlankLines [] = [] from rfl, List.append_nil] at h1
      rw [normalize_eq, unixNewlines_id (join_nochar (by decide) (fun l hl => line_nochar (hp.lines l hl).toWords (by decide))), h1]
      unfold trimP trimStartP
      rw [dropWhile_of_head]
      · apply trimEndP_of_last
        intro c hc
        have := hch.last
        rw [hc] at this
        simpa using this
      · intro c hc
        have := hch.head
        rw [hc] at this
        simpa using this
    unfold prepare
    simp only [enc_join, escape_lines hp.lines, ite_self]
    rw [hn, replaceStr_none hnt]
  have hq := quiet_lines hU hp.lines hp.ne
  have hA := lines_over hp.lines
  have hA2 : linesA.Over (Spec.join t!"\n" ls ++ t!"\n\n") := by
    intro c hc
    rcases List.mem_append.1 hc with h | h
    · exact hA c h
    · simp at h; subst h; exact linesA_nl
  have hlt : '<' ∉ Spec.join t!"\n" ls := join_nochar (by decide) (fun l hl => line_nochar (hp.lines l hl).toWords (by decide))
  have hgt : '>' ∉ Spec.join t!"\n" ls := join_nochar (by decide) (fun l hl => line_nochar (hp.lines l hl).toWords (by decide))
  have hearly : ∀ r ∈ earlyPatterns, r.search C.U [] (Spec.join t!"\n" ls ++ t!"\n\n") = none := fun r hr =>
    Re.need_search hU linesA_wf (List.all_eq_true.1 early_need r hr) hA2 []
  have hlate : ∀ r ∈ latePatterns, r.search C.U [] (Spec.join t!"\n" ls ++ t!"\n\n") = none := fun r hr =>
    Re.need_search hU linesA_wf (List.all_eq_true.1 late_need r hr) hA2 []
  have hbody : Runs C (parseBody C (Spec.join t!"\n" ls)) (Spec.join t!"\n" ls) {} {} := by
    unfold parseBody
    rw [if_neg (by rw [show C.cfg.blockTags = false from hbt]; simp)]
    refine Runs.bind (a := Spec.join t!"\n" ls) (σ' := {}) ?_ ?_
    · unfold glyphQuotedQuote
      rw [replaceP_none (hearly QUOTED_RE (by simp [earlyPatterns])), pure_bind]
      refine ((Leaves.span (fun r hr => hlate r (by simp only [latePatterns, List.mem_append]; exact .inr hr))).runs {}).bind ?_
      rw [glyphs_none hq.glyph hlt hgt (fun c hc => by
        rintro rfl
        exact hch.last hc) (by simp)]
      exact Runs.pure _ _
    · refine runs_rest ?_ hnt
      obtain ⟨f, hf'⟩ : ∃ f, C.fuel = f + 1 := ⟨fuel - 1, by change fuel = _; omega⟩
      rw [hf']
      simp [retrieve, retrieveRound]
  obtain ⟨w', e, -, -⟩ := hbody { cache := [] } (Cache.valid_nil _) rfl
  have hnb : ¬ Spec.Blank (Spec.join t!"\n" ls) := by
    obtain ⟨c, u, e, hc, -⟩ := para_head hp
    intro h
    have := (isWs_iff c).2 (h c (by rw [e]; simp))
    rw [hc] at this; cases this
  unfold parseFresh
  rw [parse_nonblank hnb]
  simp only
  rw [show (⟨E, cfg, fuel⟩ : Ctx) = C from rfl, hprep, e]
  simp only
  rw [finish_eq, show C.cfg.sanitizer = none from hsan]
  simp only
  have ht : Spec.tidyBreaks C.cfg.brTag (Spec.join t!"\n" ls) = Spec.join t!"\n" ls := by
    have := tidyBreaks_free (br := C.cfg.brTag) (w := Spec.join t!"\n" ls) (t := []) (Free.of_head rfl hlt)
    simpa [show Spec.tidyBreaks C.cfg.brTag [] = [] from rfl] using this
  rw [ht, ← dropFinalNewlines_eq, trimEndP_of_last]
  intro c hc
  have := hch.last
  rw [hc] at this
  simpa using this

example : parseFresh demoEnv 3 { demoCfg with blockTags := false } t!"h1. Hello,\nbc. this is text" =
    .ok t!"h1. Hello,\nbc. this is text" :=
  C10_inline_mode demoEnv UniOk.demo 3 (by decide) _ t!"abc" plainBase_demo rfl rfl rfl [t!"h1. Hello,", t!"bc. this is text"]
    ⟨by simp, by
      intro l hl
      simp only [List.mem_cons, List.not_mem_nil, or_false] at hl
      rcases hl with rfl | rfl <;> exact line_of_B (by decide) rfl⟩

end Rustextile
