import Verif.ExtDoc
import Verif.Props.Images

/-!
# Extended blocks: C67, C68
-/

namespace Rustextile

open Prog

/-- **C67.** A document of extended blocks (`bc..`, `pre..`, `notextile..`, `p..`, `h1..` to `h6..`, `bq..`) and of the
blocks of `C63_images`: what follows an extended block, up to the next block with a tag, belongs to it. -/
theorem C67_extended (E : Env) (hU : UniOk E.U) (fuel : Nat) (hf : 3 ≤ fuel) (cfg : Cfg) (base : Str)
    (hb : Spec.PlainBase base) (huid : cfg.uid = t!"textileRef:" ++ base ++ t!":") (hp : cfg.linkPrefix = base ++ t!"-")
    (hz : cfg.getSizes = false) (hno : cfg.noimage = false)
    (hbt : cfg.blockTags = true) (hsan : cfg.sanitizer = none) (hdep : 1 ≤ cfg.maxSpanDepth)
    (ok : Char → Prop) (hL : Lowers E.U ok) (ha : ∀ c, c.toNat < 128 → ok c)
    (ds : List (Spec.ExItem × Nat)) (hne : ds ≠ []) (hok : ∀ d ∈ ds, d.1.Ok E.U.isLu E.U.isNd cfg.lite cfg.restricted)
    (hend : Spec.Ended cfg.lite cfg.restricted ds) (hc : ∀ d ∈ ds, ∀ c ∈ d.1.chars, ok c)
    (hres : ∀ d ∈ ds, d.1.Resolved (Spec.Resolves E.urlParse E.urlJoin cfg.restricted) (Spec.Reads E.urlParse E.urlJoin) cfg.rel)
    (htok : ¬ cfg.uid <:+: Spec.exSource ds)
    (hn : Spec.exMarks ds < 2 ^ 31) :
    parseFresh E fuel cfg (Spec.exSource ds) =
      .ok (Spec.exDocHtml (if cfg.html5 then t!"<br>" else t!"<br />") cfg.restricted (cfg.alignClass.getD cfg.html5) base ds) :=
  parse_extended (⟨hU, hf, hb, huid⟩ : DocCtx ⟨E, cfg, fuel⟩ base) hp hz hno hbt hsan hdep ha hL hne hok hend hc hres htok (by omega)

/-! ## Code -/

theorem exHtml_mem (br base : Str) (restricted k : Bool) {b : Spec.ExItem} {n : Nat} : ∀ {ds : List (Spec.ExItem × Nat)} {N : Spec.Numbers} {M : Spec.Notes},
    (b, n) ∈ ds → ∃ N' M', (b.html br restricted k base N' M', n) ∈ Spec.exHtml br restricted k base N M ds
  | [], _, _, h => by cases h
  | d :: ds, N, M, h => by
    rcases List.mem_cons.1 h with rfl | h
    · exact ⟨N, M, by simp [Spec.exHtml]⟩
    · obtain ⟨N', M', h'⟩ := exHtml_mem br base restricted k (ds := ds) (N := d.1.numbers N restricted) (M := d.1.notes M restricted) h
      exact ⟨N', M', by simp [Spec.exHtml, h']⟩

theorem glue_left {as bs : List (Str × Nat)} : Spec.glue as <+: Spec.glue (as ++ bs) := by
  induction as with
  | nil => exact List.nil_prefix
  | cons p as ih =>
    cases as with
    | nil =>
      cases bs with
      | nil => exact List.prefix_rfl
      | cons q bs => exact List.prefix_append _ _
    | cons q as =>
      obtain ⟨s, e⟩ := ih
      exact ⟨s, by simp only [List.cons_append, Spec.glue] at e ⊢; rw [← e]; simp⟩

theorem glue_right {as bs : List (Str × Nat)} : Spec.glue bs <:+ Spec.glue (as ++ bs) := by
  induction as with
  | nil => exact List.suffix_rfl
  | cons p as ih =>
    refine ih.trans ?_
    rw [List.cons_append]
    cases h : as ++ bs with
    | nil => exact List.nil_suffix
    | cons q ps => exact ⟨p.1 ++ nls (p.2 + 2), by simp [Spec.glue, nls]⟩

theorem glue_flat {α} {f : α → List (Str × Nat)} {d : α} {ds : List α} (h : d ∈ ds) : Spec.glue (f d) <:+: Spec.glue (ds.flatMap f) := by
  obtain ⟨x, y, rfl⟩ := List.append_of_mem h
  rw [List.flatMap_append, List.flatMap_cons]
  exact glue_left.isInfix.trans glue_right.isInfix

/-- **C68 (partial).** If the mode is not restricted, an extended code block in such a document is one `pre` element with one `code` element,
whose text is exactly the text of the source after the tag, up to the next block with a tag: all lines,
with the blank lines between them. -/
theorem C68_code_partial (E : Env) (hU : UniOk E.U) (fuel : Nat) (hf : 3 ≤ fuel) (cfg : Cfg) (base : Str)
    (hb : Spec.PlainBase base) (huid : cfg.uid = t!"textileRef:" ++ base ++ t!":") (hp : cfg.linkPrefix = base ++ t!"-")
    (hz : cfg.getSizes = false) (hno : cfg.noimage = false)
    (hbt : cfg.blockTags = true) (hsan : cfg.sanitizer = none) (hdep : 1 ≤ cfg.maxSpanDepth)
    (ok : Char → Prop) (hL : Lowers E.U ok) (ha : ∀ c, c.toNat < 128 → ok c)
    (ds : List (Spec.ExItem × Nat)) (hok : ∀ d ∈ ds, d.1.Ok E.U.isLu E.U.isNd cfg.lite cfg.restricted)
    (hend : Spec.Ended cfg.lite cfg.restricted ds) (hc : ∀ d ∈ ds, ∀ c ∈ d.1.chars, ok c)
    (hres : ∀ d ∈ ds, d.1.Resolved (Spec.Resolves E.urlParse E.urlJoin cfg.restricted) (Spec.Reads E.urlParse E.urlJoin) cfg.rel)
    (htok : ¬ cfg.uid <:+: Spec.exSource ds)
    (hn : Spec.exMarks ds < 2 ^ 31) (hr : cfg.restricted = false)
    (a : Spec.Atts) (ls : List Str) (more : List (Nat × List Str)) (n : Nat) (hd : (.verbatim t!"bc" a ls more, n) ∈ ds) :
    ∃ out x y v, parseFresh E fuel cfg (Spec.exSource ds) = .ok out ∧
      t!"<pre" ++ (x ++ (t!"><code" ++ (y ++ (t!">" ++ (v ++ t!"</code></pre>"))))) <:+: out ∧ '<' ∉ v ∧
      t!"bc" ++ (a.source ++ (t!".. " ++ Spec.decode v)) <:+: Spec.exSource ds ∧
      Spec.decode v = Spec.glue (Spec.chain (Spec.join t!"\n" ls) (more.map (fun p => (p.1, Spec.join t!"\n" p.2))) 0) := by
  obtain ⟨N, M, h⟩ := exHtml_mem (if cfg.html5 then t!"<br>" else t!"<br />") base cfg.restricted (cfg.alignClass.getD cfg.html5) (N := fun _ => 1) (M := ⟨[], 0⟩) hd
  refine ⟨_, a.noLang.html cfg.restricted, Spec.attr t!"class" a.language, Spec.escape true (Spec.verbatimText ls more),
    C67_extended E hU fuel hf cfg base hb huid hp hz hno hbt hsan hdep ok hL ha ds (List.ne_nil_of_mem hd) hok hend hc hres htok hn,
    (?_ : _ <:+: _).trans (glue_infix h), escape_notag _ _, ?_, by rw [decode_escape]; rfl⟩
  · refine ⟨[], [], ?_⟩
    simp [Spec.ExItem.html, Spec.elementWith, Spec.escapedLines, Spec.escapedMore, hr]
  · rw [decode_escape]
    refine List.IsInfix.trans ?_ (glue_flat (f := fun d : Spec.ExItem × Nat => d.1.pieces d.2) hd)
    refine ⟨[], [], ?_⟩
    simp [Spec.verbatimText, Spec.ExItem.pieces, glue_chain]

/-- **C68 is false in general**: in restricted mode code is escaped twice. -/
theorem C68_code_fails : ∃ out, parseFresh demoEnv 3 { demoCfg with restricted := true } t!"bc.. a < b\n\nc & d" = .ok out ∧
    out = t!"<pre><code>a &amp;lt; b\n\nc &amp;amp; d</code></pre>" ∧ Spec.decode t!"a &amp;lt; b\n\nc &amp;amp; d" ≠ t!"a < b\n\nc & d" :=
  ⟨_, by kernel_rfl, rfl, by decide⟩

/-! ## Examples -/

def demoExDoc : List (Spec.ExItem × Nat) := [
  (.one (.para demoIm), 0),
  (.verbatim t!"bc" exShort [t!"if a < b", t!"  x = \"*y*\""] [(0, [t!"  - one"]), (1, [t!"end &", t!"p . q"])], 0),
  (.styled t!"p" exShort ⟨t!"One", []⟩ [(0, ⟨t!"and two", []⟩)], 1),
  (.quoted exCenter ⟨t!"words", []⟩ [(0, ⟨t!"more words", []⟩), (0, ⟨t!"last", []⟩)], 0),
  (.verbatim t!"notextile" exCenter [t!"<i>z</i>"] [(0, [t!"*z*"])], 0),
  (.verbatim t!"pre" exCenter [t!"x"] [(2, [t!"y"])], 0),
  (.one (.quoted { align := some .center } ⟨[], [({ align := some .left, url := t!"x.png", src := t!"x.png" }, [])]⟩), 0),
  (.one (.para demoIm), 0)]

theorem rawLine_of_B {l : Str} (h : (!l.contains '\n' && !l.contains '\r' && l.any (fun c => !Spec.isSpace c)) = true) : Spec.RawLine l := by
  simp only [Bool.and_eq_true, Bool.not_eq_true', List.any_eq_true] at h
  obtain ⟨⟨h1, h2⟩, c, hc, h3⟩ := h
  refine ⟨by simpa using h1, by simpa using h2, fun hb => ?_⟩
  rcases hb c hc with rfl | rfl <;> exact absurd h3 (by decide)

theorem continues_of_B {ls : List Str} {c : Char} {u : Str} (h1 : ls.all (fun l => !l.contains '\n' && !l.contains '\r' && l.any (fun c => !Spec.isSpace c)) = true)
    (h2 : Spec.join t!"\n" ls = c :: u) (h3 : c ∉ t!"bnp#hf") : Spec.Continues demoUni.isNd false ls := by
  have hne : ls ≠ [] := by rintro rfl; cases h2
  rw [List.all_eq_true] at h1
  refine ⟨hne, fun l hl => rawLine_of_B (h1 l hl), ?_, by rw [h2]; exact noBlockStart_head h3⟩
  obtain ⟨l, ls, rfl⟩ := List.exists_cons_of_ne_nil hne
  have := h1 l (by simp)
  simp only [Bool.and_eq_true, List.any_eq_true] at this
  obtain ⟨-, c, hc, h⟩ := this
  exact ⟨l, by simp, c, hc, by simpa using h⟩

theorem demoEx_ok : ∀ d ∈ demoExDoc, d.1.Ok demoUni.isLu demoUni.isNd false false := by
  intro d hd
  have w1 : exShort.Written false := fun _ => trivial
  have w2 : exCenter.Written false := fun _ => trivial
  simp only [demoExDoc, List.mem_cons, List.not_mem_nil, or_false] at hd
  rcases hd with rfl | rfl | rfl | rfl | rfl | rfl | rfl | rfl
  · exact demoIm_ok false rfl (.para demoIm, 0) (by simp [demoImDoc])
  · refine ⟨⟨⟨by decide, ?_⟩, exShort_ok, w1, .inl rfl, by decide, fun e => absurd e (by decide)⟩, ?_⟩
    · intro l hl
      simp only [List.mem_cons, List.not_mem_nil, or_false] at hl
      subst hl
      exact rawLine_of_B (by decide)
    · intro p hp
      simp only [List.mem_cons, List.not_mem_nil, or_false] at hp
      rcases hp with rfl | rfl
      · exact ⟨continues_of_B (by decide) rfl (by decide), fun e => absurd e (by decide)⟩
      · exact ⟨continues_of_B (by decide) rfl (by decide), fun e => absurd e (by decide)⟩
  · refine ⟨⟨plain_ok (by decide) rfl (by decide) (by decide), exShort_ok, w1, .inl rfl, by decide, fun _ => by decide⟩, ?_⟩
    intro p hp
    simp only [List.mem_cons, List.not_mem_nil, or_false] at hp
    subst hp
    exact ⟨plain_ok (by decide) rfl (by decide) (by decide), noBlockStart_head (by decide), fun _ => by decide⟩
  · refine ⟨⟨plain_ok (by decide) rfl (by decide) (by decide), exCenter_ok, w2, .inr (.inr (by decide)), by decide⟩, ?_⟩
    intro p hp
    simp only [List.mem_cons, List.not_mem_nil, or_false] at hp
    rcases hp with rfl | rfl <;> exact ⟨plain_ok (by decide) rfl (by decide) (by decide), noBlockStart_head (by decide), by decide⟩
  · refine ⟨⟨⟨by decide, by simp⟩, exCenter_ok, w2, .inr (.inr (by decide)), by decide, fun _ => ⟨?_, by decide, fun h => absurd h (by decide)⟩⟩, ?_⟩
    · intro l hl
      simp only [List.mem_cons, List.not_mem_nil, or_false] at hl
      subst hl
      exact ⟨by decide +kernel, by decide +kernel⟩
    · intro p hp
      simp only [List.mem_cons, List.not_mem_nil, or_false] at hp
      subst hp
      refine ⟨continues_of_B (by decide) rfl (by decide), fun _ => ⟨?_, by decide, fun h => absurd h (by decide)⟩⟩
      intro l hl
      simp only [List.mem_cons, List.not_mem_nil, or_false] at hl
      subst hl
      exact ⟨by decide +kernel, by decide +kernel⟩
  · refine ⟨⟨⟨by decide, by simp⟩, exCenter_ok, w2, .inr (.inr (by decide)), by decide, fun e => absurd e (by decide)⟩, ?_⟩
    intro p hp
    simp only [List.mem_cons, List.not_mem_nil, or_false] at hp
    subst hp
    exact ⟨continues_of_B (by decide) rfl (by decide), fun e => absurd e (by decide)⟩
  · exact demoIm_ok false rfl (.quoted _ _, 1) (by simp only [demoImDoc, List.mem_cons, true_or, or_true])
  · exact demoIm_ok false rfl (.para demoIm, 0) (by simp [demoImDoc])

theorem demoEx_ended : Spec.Ended false false demoExDoc := by
  refine ⟨fun h => absurd h (by decide), fun _ => trivial, fun _ => trivial, fun _ => trivial, fun _ => trivial, fun _ => ?_, fun h => absurd h (by decide), trivial⟩
  exact ⟨t!"bq", { align := some .center }, t!"!<x.png!", by decide, ⟨by simp, by simp⟩, fun _ => trivial, .inl rfl, by decide⟩

theorem demoEx_res : ∀ d ∈ demoExDoc, d.1.Resolved (Spec.Resolves demoEnv.urlParse demoEnv.urlJoin false) (Spec.Reads demoEnv.urlParse demoEnv.urlJoin) none := by
  intro d hd
  simp only [demoExDoc, List.mem_cons, List.not_mem_nil, or_false] at hd
  rcases hd with rfl | rfl | rfl | rfl | rfl | rfl | rfl | rfl
  · exact demoIm_res (.para demoIm, 0) (by simp [demoImDoc])
  · trivial
  · simp [Spec.ExItem.Resolved, Spec.Marked.Resolved]
  · simp [Spec.ExItem.Resolved, Spec.Marked.Resolved]
  · trivial
  · trivial
  · exact demoIm_res (.quoted { align := some .center } _, 1) (by simp only [demoImDoc, List.mem_cons, true_or, or_true])
  · exact demoIm_res (.para demoIm, 0) (by simp [demoImDoc])

/-- Extended blocks of five kinds; the one before the last is ended by a quotation. -/
theorem C67_extended_ex : parseFresh demoEnv 3 demoCfg
    t!"See !>(photo){border:none}/cat.png(R&D's cat)!:http://a.org/cats\nand !http://a.org/b.png!.\n\nbc(x#y)[en].. if a < b\n  x = \"*y*\"\n\n  - one\n\n\nend &\np . q\n\np(x#y)[en].. One\n\nand two\n\n\nbq=(.. words\n\nmore words\n\nlast\n\nnotextile=(.. <i>z</i>\n\n*z*\n\npre=(.. x\n\n\n\ny\n\nbq=. !<x.png!\n\nSee !>(photo){border:none}/cat.png(R&D's cat)!:http://a.org/cats\nand !http://a.org/b.png!." =
    .ok t!"<p>See <a href=\"http://a.org/cats\"><img alt=\"R&amp;D's cat\" class=\"photo align-right\" src=\"/cat.png\" style=\"border:none;\" title=\"R&amp;D's cat\" /></a><br>\nand <img alt=\"\" src=\"http://a.org/b.png\" />.</p>\n\n<pre class=\"x\" id=\"y\"><code class=\"en\">if a &lt; b\n  x = &quot;*y*&quot;\n\n  - one\n\n\nend &amp;\np . q</code></pre>\n\n<p class=\"x\" id=\"y\" lang=\"en\">One</p>\n\n<p class=\"x\" id=\"y\" lang=\"en\">and two</p>\n\n\n<blockquote style=\"padding-left:1em; text-align:center;\">\n\t<p style=\"padding-left:1em; text-align:center;\">words</p>\n\n\t<p style=\"padding-left:1em; text-align:center;\">more words</p>\n\n\t<p style=\"padding-left:1em; text-align:center;\">last</p>\n</blockquote>\n\n<i>z</i>\n\n*z*\n\n<pre style=\"padding-left:1em; text-align:center;\">x\n\n\n\ny</pre>\n\n<blockquote style=\"text-align:center;\">\n\t<p style=\"text-align:center;\"><img alt=\"\" class=\"align-left\" src=\"x.png\" /></p>\n</blockquote>\n\n<p>See <a href=\"http://a.org/cats\"><img alt=\"R&amp;D's cat\" class=\"photo align-right\" src=\"/cat.png\" style=\"border:none;\" title=\"R&amp;D's cat\" /></a><br>\nand <img alt=\"\" src=\"http://a.org/b.png\" />.</p>" := by
  have := C67_extended demoEnv UniOk.demo 3 (by decide) demoCfg t!"abc" plainBase_demo rfl rfl rfl rfl rfl rfl (by decide)
    _ demo_lowers (fun _ h => h) demoExDoc (by decide) demoEx_ok demoEx_ended (by decide +kernel) demoEx_res (by decide +kernel) (by decide)
  refine Eq.trans (Eq.trans ?_ this) ?_ <;> exact congrArg _ (by decide +kernel)

/-- The code block there, with blank lines. -/
theorem C68_code_ex : ∃ out x y v, parseFresh demoEnv 3 demoCfg (Spec.exSource demoExDoc) = .ok out ∧
    t!"<pre" ++ (x ++ (t!"><code" ++ (y ++ (t!">" ++ (v ++ t!"</code></pre>"))))) <:+: out ∧ '<' ∉ v ∧
    t!"bc(x#y)[en].. " ++ Spec.decode v <:+: Spec.exSource demoExDoc ∧
    Spec.decode v = t!"if a < b\n  x = \"*y*\"\n\n  - one\n\n\nend &\np . q" := by
  obtain ⟨out, x, y, v, h1, h2, h3, h4, h5⟩ := C68_code_partial demoEnv UniOk.demo 3 (by decide) demoCfg t!"abc" plainBase_demo rfl rfl rfl rfl rfl rfl (by decide)
    _ demo_lowers (fun _ h => h) demoExDoc demoEx_ok demoEx_ended (by decide +kernel) demoEx_res (by decide +kernel) (by decide) rfl
    exShort [t!"if a < b", t!"  x = \"*y*\""] [(0, [t!"  - one"]), (1, [t!"end &", t!"p . q"])] 0 (by simp [demoExDoc])
  refine ⟨out, x, y, v, h1, h2, h3, ?_, h5.trans (by decide +kernel)⟩
  have e : exShort.source = t!"(x#y)[en]" := by decide
  rw [e] at h4
  simpa using h4

end Rustextile
