import Verif.NodeDoc
import Verif.Props.BlockAtts
import Verif.Props.LinkDocs

/-!
# Blocks with attributes in documents: C55
-/

namespace Rustextile

open Prog

/-- **C55.** A document of any number of paragraphs, headings, quotations, code blocks,
preformatted blocks and verbatim blocks with attributes, and of the blocks of
`C40_documents_partial` (inline markup, links, lists), in any order: each block
becomes its element with exactly the attributes written down (`Spec.Atts.html`), the
language of a code block going to the `code` element as its class. -/
theorem C55_documents (E : Env) (hU : UniOk E.U) (fuel : Nat) (hf : 3 ≤ fuel) (cfg : Cfg) (base : Str)
    (hb : Spec.PlainBase base) (huid : cfg.uid = t!"textileRef:" ++ base ++ t!":")
    (hbt : cfg.blockTags = true) (hsan : cfg.sanitizer = none) (hdep : 1 ≤ cfg.maxSpanDepth)
    (ok : Char → Prop) (hL : Lowers E.U ok) (ha : ∀ c, c.toNat < 128 → ok c)
    (ds : List (Spec.Node × Nat)) (hne : ds ≠ []) (hok : ∀ d ∈ ds, d.1.Ok E.U.isLu E.U.isNd cfg.lite cfg.restricted)
    (hc : ∀ d ∈ ds, ∀ c ∈ d.1.itemChars, ok c)
    (hres : ∀ d ∈ ds, d.1.Resolved (Spec.Resolves E.urlParse E.urlJoin cfg.restricted) cfg.rel)
    (htok : ¬ cfg.uid <:+: Spec.nodesSource ds)
    (hn : Spec.nodesMarks ds < 2 ^ 31) :
    parseFresh E fuel cfg (Spec.nodesSource ds) =
      .ok (Spec.nodesHtml (if cfg.html5 then t!"<br>" else t!"<br />") cfg.restricted ds) :=
  parse_nodes (⟨hU, hf, hb, huid⟩ : DocCtx ⟨E, cfg, fuel⟩ base) hbt hsan hdep ha (fun _ _ _ _ _ => hL) hne hok hc hres htok (by omega)

/-! ## Example -/

/-- `(x#y)[en]` -/
def exShort : Spec.Atts where
  groups := [.classes t!"x" (some t!"y"), .lang t!"en"]

theorem exShort_ok : exShort.Ok := by
  refine ⟨?_, by simp [exShort, Spec.Group.kind]⟩
  intro g hg
  simp only [exShort, List.mem_cons, List.not_mem_nil, or_false] at hg
  rcases hg with rfl | rfl
  · refine ⟨by unfold Spec.NameChar; decide, by decide, ?_⟩
    intro j hj
    injection hj with hj
    subst hj
    exact ⟨by decide, by unfold Spec.NameChar; decide⟩
  · exact ⟨by decide, by unfold Spec.NameChar; decide⟩

/-- `=` -/
def exCenter : Spec.Atts where
  align := some .center
  left := 1
  groups := []

theorem exCenter_ok : exCenter.Ok := ⟨by simp [exCenter], by simp [exCenter]⟩

def demoNodes : List (Spec.Node × Nat) := [
  (.styled t!"h2" exShort ⟨t!"A title", []⟩, 0),
  (.styled t!"p" exCenter ⟨t!"Some ", [⟨.marked t!"*" t!"bold", t!" text"⟩]⟩, 1),
  (.piece (.list .bullets (.item t!"dot" .bullets .done .done)), 0),
  (.quoted exShort ⟨t!"words", []⟩, 0),
  (.verbatim t!"bc" exShort [t!"if a < b", t!"  x = \"*y*\""], 0),
  (.verbatim t!"pre" exCenter [t!"*x*"], 0),
  (.verbatim t!"notextile" exCenter [t!"<i>z</i>"], 0)]

theorem plain_ok {t : Str} {c : Char} {u : Str} (h1 : proseB demoUni.isLu t = true) (h2 : t = c :: u) (h3 : c ≠ ' ' ∧ c ≠ '\n')
    (h4 : t.getLast? ≠ some '\n') : (⟨t, []⟩ : Spec.Marked).Ok demoUni.isLu false where
  lead := prose_of_B h1
  parts := by simp
  before := by simp
  between := by simp
  first := ⟨c, u, by simp [Spec.Marked.source, h2], h3⟩
  last := by
    intro u e
    apply h4
    simp only [Spec.Marked.source, List.flatMap_nil, List.append_nil] at e
    rw [e, List.getLast?_concat]

theorem demoNodes_ok : ∀ r : Bool, ∀ d ∈ demoNodes, d.1.Ok demoUni.isLu demoUni.isNd false r := by
  intro r d hd
  have w1 : exShort.Written r := fun _ => trivial
  have w2 : exCenter.Written r := fun _ => trivial
  simp only [demoNodes, List.mem_cons, List.not_mem_nil, or_false] at hd
  rcases hd with rfl | rfl | rfl | rfl | rfl | rfl | rfl
  · exact ⟨plain_ok (by decide) rfl (by decide) (by decide), exShort_ok, w1, .inl rfl, by decide, by decide⟩
  · refine ⟨⟨prose_of_B (by decide), ?_, fun _ => .inr ⟨t!"Some", ' ', rfl, .inl rfl⟩, by simp, ⟨'S', _, rfl, by decide, by decide⟩, ?_⟩,
      exCenter_ok, w2, .inr (.inr (by decide)), by decide, by decide⟩
    · intro p hp
      simp only [List.mem_cons, List.not_mem_nil, or_false] at hp
      subst hp
      exact ⟨⟨by decide, words_of_B (by decide), ⟨'b', _, rfl, by decide, by decide⟩, ⟨t!"bol", 'd', rfl, by decide⟩, .inl rfl⟩,
          prose_of_B (by decide)⟩
    · intro u e
      have := congrArg List.getLast? e
      simp at this
      revert this; decide +kernel
  · refine ⟨rfl, trivial, by simp, itemText_of_B (by decide +kernel) (by decide +kernel) (by decide +kernel), trivial, trivial, trivial⟩
  · exact ⟨plain_ok (by decide) rfl (by decide) (by decide), exShort_ok, w1, .inl rfl, by decide⟩
  · refine ⟨⟨by decide, ?_⟩, exShort_ok, w1, .inl rfl, by decide, fun e => absurd e (by decide)⟩
    intro l hl
    simp only [List.mem_cons, List.not_mem_nil, or_false] at hl
    subst hl
    refine ⟨by decide, by decide, ?_⟩
    intro h
    have := h 'x' (by decide)
    revert this; decide
  · exact ⟨⟨by decide, by simp⟩, exCenter_ok, w2, .inr (.inr (by decide)), by decide, fun e => absurd e (by decide)⟩
  · refine ⟨⟨by decide, by simp⟩, exCenter_ok, w2, .inr (.inr (by decide)), by decide, fun _ => ⟨?_, by decide, fun h => absurd h (by decide)⟩⟩
    intro l hl
    simp only [List.mem_cons, List.not_mem_nil, or_false] at hl
    subst hl
    exact ⟨by decide +kernel, by decide +kernel⟩

theorem demoNodes_resolved (R : Str → Str → Prop) : ∀ d ∈ demoNodes, d.1.Resolved R none := by
  simp [demoNodes, Spec.Node.Resolved, Spec.Piece.Resolved, Spec.Marked.Resolved, Spec.Inline.Resolved]

example : parseFresh demoEnv 3 demoCfg
    t!"h2(x#y)[en]. A title\n\np=(. Some *bold* text\n\n\n* dot\n\nbq(x#y)[en]. words\n\nbc(x#y)[en]. if a < b\n  x = \"*y*\"\n\npre=(. *x*\n\nnotextile=(. <i>z</i>" =
    .ok t!"<h2 class=\"x\" id=\"y\" lang=\"en\">A title</h2>\n\n<p style=\"padding-left:1em; text-align:center;\">Some <strong>bold</strong> text</p>\n\n\n<ul>\n\t<li>dot</li>\n</ul>\n\n<blockquote class=\"x\" id=\"y\" lang=\"en\">\n\t<p class=\"x\" id=\"y\" lang=\"en\">words</p>\n</blockquote>\n\n<pre class=\"x\" id=\"y\"><code class=\"en\">if a &lt; b\n  x = &quot;*y*&quot;</code></pre>\n\n<pre style=\"padding-left:1em; text-align:center;\">*x*</pre>\n\n<i>z</i>" := by
  have := C55_documents demoEnv UniOk.demo 3 (by decide) demoCfg t!"abc" plainBase_demo rfl rfl rfl (by decide)
    _ demo_lowers (fun _ h => h) demoNodes (by decide) (demoNodes_ok _) (by decide +kernel) (demoNodes_resolved _) (by decide +kernel) (by decide)
  refine Eq.trans (Eq.trans ?_ this) ?_ <;> exact congrArg _ (by decide +kernel)

/-- The same in restricted mode: no classes and identifiers, and the source escaped. -/
example : parseFresh demoEnv 3 { demoCfg with restricted := true }
    t!"h2(x#y)[en]. A title\n\np=(. Some *bold* text\n\n\n* dot\n\nbq(x#y)[en]. words\n\nbc(x#y)[en]. if a < b\n  x = \"*y*\"\n\npre=(. *x*\n\nnotextile=(. <i>z</i>" =
    .ok t!"<h2 lang=\"en\">A title</h2>\n\n<p style=\"padding-left:1em; text-align:center;\">Some <strong>bold</strong> text</p>\n\n\n<ul>\n\t<li>dot</li>\n</ul>\n\n<blockquote lang=\"en\">\n\t<p lang=\"en\">words</p>\n</blockquote>\n\n<pre><code class=\"en\">if a &amp;lt; b\n  x = &quot;*y*&quot;</code></pre>\n\n<pre style=\"padding-left:1em; text-align:center;\">*x*</pre>\n\n&lt;i&gt;z&lt;/i&gt;" := by
  have := C55_documents demoEnv UniOk.demo 3 (by decide) { demoCfg with restricted := true } t!"abc" plainBase_demo rfl rfl rfl (by decide)
    _ demo_lowers (fun _ h => h) demoNodes (by decide) (demoNodes_ok _) (by decide +kernel) (demoNodes_resolved _) (by decide +kernel) (by decide)
  refine Eq.trans (Eq.trans ?_ this) ?_ <;> exact congrArg _ (by decide +kernel)

end Rustextile
