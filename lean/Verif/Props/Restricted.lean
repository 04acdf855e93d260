import Verif.Demo
import Verif.Spec

/-!
# Restricted mode: C25, C26, C50, negations
-/

namespace Rustextile

def restrictedCfg : Cfg := built t!"abc" [.restricted true]

/-- **C25, negation.** In restricted mode a script element written by the user reaches the
output: the text of a link written as `$` is the URL after its escaping has been undone
(parser.rs:1447-1457). -/
theorem C25_negation :
    parseFresh demoEnv 100 restrictedCfg t!"\"$\":http://x/<script>alert(1)</script>/a" =
      .ok t!"<p><a href=\"http://x/%3Cscript%3Ealert(1)%3C/script%3E/a\">x/<script>alert(1)</script>/a</a></p>" := by
  decide +kernel

/-- **C26, negation.** In restricted mode the user can add an event handler to an element:
inline code is put aside before acronyms are recognised (parser.rs:1517-1531), so that the
expansion of an acronym can hold a code element, and that contains the quotes the user
wrote.  The start tag in the output has the attribute `onmouseover`. -/
theorem C26_negation :
    ∃ out, parseFresh demoEnv 100 restrictedCfg t!"ABC(@\" onmouseover=\"alert(1)\" x=\"@)" = .ok (t!"<p>" ++ out) ∧
      Spec.readTag out = some (t!"abbr", [(t!"title", t!"<code>"), (t!"onmouseover", t!"alert(1)"), (t!"x", t!"</code>")],
        false, t!"<span class=\"caps\">ABC</span></abbr></p>") := by
  refine ⟨t!"<abbr title=\"<code>\" onmouseover=\"alert(1)\" x=\"</code>\"><span class=\"caps\">ABC</span></abbr></p>", ?_, ?_⟩
  · decide +kernel
  · decide +kernel

/-- **C50, negation.** In restricted mode the content of a code block is escaped twice:
what is displayed for `a<b` is `a&lt;b`. -/
theorem C50_negation :
    parseFresh demoEnv 100 restrictedCfg t!"bc. a<b" = .ok (t!"<pre><code>" ++ t!"a&amp;lt;b" ++ t!"</code></pre>") ∧
    Spec.decode t!"a&amp;lt;b" ≠ t!"a<b" := by decide +kernel

/-- **C16, negation in restricted mode.** The same happens to inline code. -/
theorem C16_negation_restricted :
    parseFresh demoEnv 100 restrictedCfg t!"@a<b@" = .ok (t!"<p><code>" ++ t!"a&amp;lt;b" ++ t!"</code></p>") ∧
    Spec.decode t!"a&amp;lt;b" ≠ t!"a<b" := by decide +kernel

end Rustextile
