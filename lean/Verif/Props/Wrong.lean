import Verif.Demo
import Verif.Spec

/-!
# Negations of C12, C16, C34, C37–C40, C49

Each theorem exhibits a text for which the property does not hold.  The parts of the
properties that do hold are in the other files of this directory.
-/

namespace Rustextile

/-- **C12, negation.** In lite mode code blocks are still recognised. -/
theorem C12_negation :
    parseFresh demoEnv 100 (built t!"abc" [.lite true]) t!"bc. x" = .ok t!"<pre><code>x</code></pre>" := by
  decide +kernel

/-- **C16, negation.** Verbatim markup and code elements are looked for before inline code,
so they are recognised inside it: signs disappear, and tags appear in the code element. -/
theorem C16_negation :
    parseFresh demoEnv 100 demoCfg t!"@x == y == z@" = .ok t!"<p><code>x  y  z</code></p>" ∧
    parseFresh demoEnv 100 demoCfg t!"@a <code>b</code>@" = .ok t!"<p><code>a <code>b</code></code></p>" := by
  decide +kernel

/-- **C34, negation.** Removing the token from a text with nested occurrences leaves the
token, and what the user wrote around it is taken for a placeholder: here the placeholder
of the verbatim text, which then appears twice. -/
theorem C34_negation :
    prepare ⟨demoEnv, demoCfg, 100⟩ t!"textileRef:textileRef:abc:abc:1:shelve" = t!"textileRef:abc:1:shelve" ∧
    parseFresh demoEnv 100 demoCfg t!"==x== textileRef:textileRef:abc:abc:1:shelve" = .ok t!"<p>x x</p>" := by
  decide +kernel

/-- **C37, negation.** If the definition of a footnote comes before the reference, the
reference links to an id nothing has. -/
theorem C37_negation :
    parseFresh demoEnv 100 demoCfg t!"fn1. foo\n\nbar[1]" =
      .ok (t!"<p class=\"footnote\" id=\"fnabc-1\"><sup>1</sup> foo</p>\n\n" ++
           t!"<p>bar<sup class=\"footnote\" id=\"fnrevabc-2\"><a href=\"#fnabc-2\">1</a></sup></p>") := by
  decide +kernel

/-- **C38, negation.** If the definition of a note comes before the reference it is lost; and
a second reference to a note links to `#note`, an id nothing has. -/
theorem C38_negation :
    parseFresh demoEnv 100 demoCfg t!"note#a. foo\n\nbar[#a]\n\nnotelist." =
      .ok (t!"<p>bar<sup><a href=\"#noteabc-3\"><span id=\"noterefabc-2\">1</span></a></sup></p>\n\n" ++
           t!"<ol>\n\t\t<li><sup><a href=\"#noterefabc-2\">a</a></sup> Undefined Note [#a].</li>\n\t</ol>") ∧
    parseFresh demoEnv 100 demoCfg t!"b[#a] c[#a]\n\nnote#a. foo\n\nnotelist." =
      .ok (t!"<p>b<sup><a href=\"#noteabc-2\"><span id=\"noterefabc-1\">1</span></a></sup> " ++
           t!"c<sup><a href=\"#note\"><span id=\"noterefabc-3\">1</span></a></sup></p>\n\n" ++
           t!"<ol>\n\t\t<li><sup><a href=\"#noterefabc-1\">a</a></sup> <sup><a href=\"#noterefabc-3\">b</a></sup>" ++
           t!"<span id=\"noteabc-2\"> </span>foo</li>\n\t</ol>") := by
  decide +kernel

/-- **C39, negation.** A note list starting with `9` for a note with four references
contains `<` as the text of a back link. -/
theorem C39_negation : makeBackRefLink ⟨t!"n", none, none, none, none, [t!"1", t!"2", t!"3", t!"4"]⟩ [] '9' =
    t!"<sup><a href=\"#noteref1\">9</a></sup> <sup><a href=\"#noteref2\">:</a></sup> " ++
    t!"<sup><a href=\"#noteref3\">;</a></sup> <sup><a href=\"#noteref4\"><</a></sup>" := by decide +kernel

/-- **C39, negation**, for whole texts. -/
theorem C39_negation_parse : ∃ pre post,
    parseFresh demoEnv 100 demoCfg t!"b[#a][#a][#a][#a]\n\nnote#a. foo\n\nnotelist:9." =
      .ok (pre ++ t!"<a href=\"#noterefabc-5\"><</a>" ++ post) := by
  refine ⟨t!"<p>b<sup><a href=\"#noteabc-2\"><span id=\"noterefabc-1\">1</span></a></sup><sup><a href=\"#note\"><span id=\"noterefabc-3\">1</span></a></sup><sup><a href=\"#note\"><span id=\"noterefabc-4\">1</span></a></sup><sup><a href=\"#note\"><span id=\"noterefabc-5\">1</span></a></sup></p>\n\n<ol>\n\t\t<li><sup><a href=\"#noterefabc-1\">9</a></sup> <sup><a href=\"#noterefabc-3\">:</a></sup> <sup><a href=\"#noterefabc-4\">;</a></sup> <sup>",
    t!"</sup><span id=\"noteabc-2\"> </span>foo</li>\n\t</ol>", ?_⟩
  decide +kernel

/-- **C40, negation.** Lists whose depth jumps, or that change their kind at some depth,
give unbalanced tags. -/
theorem C40_negation :
    (∃ out, parseFresh demoEnv 100 demoCfg t!"* a\n*** b\n** c" = .ok out ∧ Spec.balanced out = false) ∧
    (∃ out, parseFresh demoEnv 100 demoCfg t!"* a\n## b\n** c" = .ok out ∧ Spec.balanced out = false) := by
  refine ⟨⟨t!"<ul>\n\t<li>a\n\t\t<ul>\n\t\t\t<li>b</li>\n\t\t</ul></li>\n\t<ul>\n\t\t<li>c</li>\n\t</ul></li>\n\t</ul>", ?_, ?_⟩,
    ⟨t!"<ul>\n\t<li>a\n\t<ol>\n\t\t<li>b</li>\n\t<ul>\n\t\t<li>c</li>\n\t</ul></li>\n\t</ol></li>\n\t</ul>", ?_, ?_⟩⟩ <;>
    decide +kernel

/-- **C49, negation.** A `>` at the end of a URL disappears. -/
theorem C49_negation :
    trimUrl ⟨demoEnv, demoCfg, 100⟩ t!"http://x.org/a>" [] = .ok (t!"http://x.org/a", [], [], []) ∧
    parseFresh demoEnv 100 demoCfg t!"\"a\":http://x.org/a>" = .ok t!"<p><a href=\"http://x.org/a\">a</a></p>" := by
  decide +kernel

end Rustextile
