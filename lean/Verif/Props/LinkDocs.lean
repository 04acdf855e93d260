import Verif.Props.Inline
import Verif.Props.Lists

/-!
# Links in documents: C53
-/

namespace Rustextile

open Prog

/-- **C53, part.** A paragraph that is one link: it becomes an `a` element with the text in it,
and `href` the address that the URL parser makes of the one written down (if its scheme is
allowed), escaped, or a relative address as it is; and with `rel` if that is set.

`Spec.LinkOk` says which texts and addresses.  Missing: texts with markup or other
characters than words in them, titles, classes, aliases; addresses with `&`, `@`, brackets and
characters that are not ASCII; relative addresses with a query or fragment; links in brackets
and next to characters other than white space, full stop and comma. -/
theorem C53_link_partial (E : Env) (hU : UniOk E.U) (fuel : Nat) (hf : 3 ≤ fuel) (cfg : Cfg) (base : Str)
    (hb : Spec.PlainBase base) (huid : cfg.uid = t!"textileRef:" ++ base ++ t!":")
    (hbt : cfg.blockTags = true) (hsan : cfg.sanitizer = none) (hdep : 1 ≤ cfg.maxSpanDepth)
    (t url href : Str) (hok : Spec.LinkOk E.U.isLu t url href cfg.rel [])
    (hres : Spec.Resolves E.urlParse E.urlJoin cfg.restricted url href)
    (htok : ¬ cfg.uid <:+: t!"\"" ++ t ++ t!"\":" ++ url) :
    parseFresh E fuel cfg (t!"\"" ++ t ++ t!"\":" ++ url) =
      .ok (t!"<p><a href=\"" ++ Spec.escape true href ++ t!"\"" ++
        (match cfg.rel with | some r => t!" rel=\"" ++ r ++ t!"\"" | none => []) ++ t!">" ++ t ++ t!"</a></p>") := by
  have e : (Spec.Inline.link t url href cfg.rel).source = t!"\"" ++ t ++ t!"\":" ++ url := rfl
  have h := one_inline E hU fuel hf cfg base hb huid hbt hsan hdep (.link t url href cfg.rel) hok '"' (t ++ t!"\":" ++ url)
    (by rw [e]; simp) (by decide) (by
      intro u hu
      obtain ⟨v, c, hv, hc⟩ := hok.urlEnd
      rw [e, hv, ← List.append_assoc] at hu
      have := congrArg List.getLast? hu
      rw [List.getLast?_concat, List.getLast?_concat] at this
      simp only [Option.some.injEq] at this
      subst this
      revert hc; decide) ⟨hres, rfl⟩ (by rw [e]; exact htok)
  rw [e] at h
  rw [h]
  cases cfg.restricted <;> cases cfg.rel <;> simp [Spec.Inline.html, Spec.Inline.escaped, Spec.linkTag, Spec.htmlAttr]

/-! ## Examples -/

theorem linkOk_of_B {t url href : Str} {rel : Option Str} {after : Str} (h1 : wordsB demoUni.isLu t = true)
    (h2 : (match t with | [] => false | c :: u => c != ' ' && u.head? != some ' ') = true) (h3 : t.getLast? ≠ some ' ') (h4 : t ≠ t!"$")
    (h5 : url.all Spec.urlChar = true) (h6 : ¬ t!"==" <:+: url)
    (h7 : url.getLast?.any (fun c => isUp c || isLow c || isDig c || c == '/') = true)
    (h8 : ∀ c ∈ href, c ≠ '\n' ∧ c ≠ '\r' ∧ c ≠ '\t') (h9 : ∀ r, rel = some r → ∀ c ∈ r, (97 ≤ c.toNat ∧ c.toNat ≤ 122) ∨ c = ' ' ∨ c = '-')
    (h10 : Spec.LinkEnd after) : Spec.LinkOk demoUni.isLu t url href rel after where
  words := words_of_B h1
  first := by
    cases t with
    | nil => simp at h2
    | cons c u => exact ⟨c, u, rfl, by simpa using h2⟩
  last := by
    rintro u rfl
    exact h3 (by rw [List.getLast?_concat])
  dollar := h4
  chars := by simpa using h5
  noeq := h6
  urlEnd := by
    rcases List.eq_nil_or_concat url with rfl | ⟨u, c, rfl⟩
    · simp at h7
    · refine ⟨u, c, by simp, ?_⟩
      rw [List.concat_eq_append, List.getLast?_concat] at h7
      simpa [isUp, isLow, isDig, or_assoc] using h7
  href := h8
  rel := h9
  follow := h10

example : parseFresh demoEnv 3 { demoCfg with rel := some t!"nofollow", restricted := true } t!"\"see here\":https://a.org/x-y?q=1#top" =
    .ok t!"<p><a href=\"https://a.org/x-y?q=1#top\" rel=\"nofollow\">see here</a></p>" :=
  C53_link_partial demoEnv UniOk.demo 3 (by decide) { demoCfg with rel := some t!"nofollow", restricted := true } t!"abc" plainBase_demo rfl
    rfl rfl (by decide) t!"see here" t!"https://a.org/x-y?q=1#top" t!"https://a.org/x-y?q=1#top"
    (linkOk_of_B (by decide) (by decide) (by decide) (by decide) (by decide) (by decide) (by decide) (by decide)
      (by simp) trivial)
    (.inl ⟨t!"https", by decide, by decide⟩) (by decide +kernel)

/-- A document with links among other elements, and a list after it. -/
def demoLinks : List (Spec.Piece × Nat) := [
  (.rich (.para ⟨t!"See ", [⟨.link t!"this page" t!"http://a.org/b" t!"http://a.org/b" none, t!", or "⟩,
    ⟨.marked t!"*" t!"perhaps", t!" "⟩, ⟨.link t!"that" t!"/local/page.html" t!"/local/page.html" none, t!".\nNot "⟩,
    ⟨.code t!"\"x\":y", []⟩]⟩), 0),
  (.rich (.tagged t!"h2" ⟨[], [⟨.link t!"Mail" t!"mailto:me" t!"mailto:me" none, []⟩]⟩), 0),
  (.list .bullets (.item t!"dot" .bullets .done .done), 0)]

theorem demoLinks_ok : ∀ d ∈ demoLinks, d.1.Ok demoUni.isLu demoUni.isNd false := by
  intro d hd
  simp only [demoLinks, List.mem_cons, List.not_mem_nil, or_false] at hd
  rcases hd with rfl | rfl | rfl
  · refine ⟨⟨prose_of_B (by decide), ?_, fun _ => .inr ⟨t!"See", ' ', rfl, .inl rfl⟩, ?_, ⟨'S', _, rfl, by decide, by decide⟩, ?_⟩,
      noBlock_head (by decide), by decide +kernel⟩
    · intro p hp
      simp only [Spec.Rich.body, List.mem_cons, List.not_mem_nil, or_false] at hp
      rcases hp with rfl | rfl | rfl | rfl
      · exact ⟨linkOk_of_B (by decide) (by decide) (by decide) (by decide) (by decide) (by decide) (by decide) (by decide) (by simp)
          (.inr (.inr ⟨.inr rfl, .inl rfl⟩)), prose_of_B (by decide)⟩
      · exact ⟨⟨by decide, words_of_B (by decide), ⟨'p', _, rfl, by decide, by decide⟩, ⟨t!"perhap", 's', rfl, by decide⟩, .inl rfl⟩,
          prose_of_B (by decide)⟩
      · exact ⟨linkOk_of_B (by decide) (by decide) (by decide) (by decide) (by decide) (by decide) (by decide) (by decide) (by simp)
          (.inr (.inr ⟨.inl rfl, .inr rfl⟩)), prose_of_B (by decide)⟩
      · exact ⟨⟨rfl, ⟨by decide +kernel, by decide +kernel, by decide +kernel, by decide +kernel⟩, by decide +kernel, by decide +kernel⟩,
          prose_of_B (by decide)⟩
    · intro p hp
      simp only [Spec.Rich.body, List.dropLast, List.mem_cons, List.not_mem_nil, or_false] at hp
      rcases hp with rfl | rfl | rfl
      · exact ⟨t!", or", ' ', rfl, .inl rfl⟩
      · exact ⟨[], ' ', rfl, .inl rfl⟩
      · exact ⟨t!".\nNot", ' ', rfl, .inl rfl⟩
    · intro u e
      have := congrArg List.getLast? e
      simp at this
      revert this; decide +kernel
  · refine ⟨⟨prose_of_B (by decide), ?_, fun _ => .inl rfl, by simp [Spec.Rich.body], ⟨'"', _, rfl, by decide, by decide⟩, ?_⟩, by decide +kernel⟩
    · intro p hp
      simp only [Spec.Rich.body, List.mem_cons, List.not_mem_nil, or_false] at hp
      subst hp
      exact ⟨linkOk_of_B (by decide) (by decide) (by decide) (by decide) (by decide) (by decide) (by decide) (by decide) (by simp)
        trivial, prose_of_B (by decide)⟩
    · intro u e
      have := congrArg List.getLast? e
      simp at this
      revert this; decide +kernel
  · refine ⟨rfl, trivial, by simp, itemText_of_B (by decide +kernel) (by decide +kernel) (by decide +kernel), trivial, trivial, trivial⟩

theorem demoLinks_resolved : ∀ d ∈ demoLinks, d.1.Resolved (Spec.Resolves demoEnv.urlParse demoEnv.urlJoin false) none := by
  have h1 : Spec.Resolves demoEnv.urlParse demoEnv.urlJoin false t!"http://a.org/b" t!"http://a.org/b" :=
    .inl ⟨t!"http", by decide, by decide⟩
  have h2 : Spec.Resolves demoEnv.urlParse demoEnv.urlJoin false t!"/local/page.html" t!"/local/page.html" :=
    .inr ⟨by decide, by decide, by decide, by decide, rfl⟩
  have h3 : Spec.Resolves demoEnv.urlParse demoEnv.urlJoin false t!"mailto:me" t!"mailto:me" :=
    .inl ⟨t!"mailto", by decide, by decide⟩
  simp only [demoLinks, List.mem_cons, List.not_mem_nil, or_false, forall_eq_or_imp, forall_eq, Spec.Piece.Resolved,
    Spec.Rich.body, Spec.Marked.Resolved, Spec.Inline.Resolved, and_true, true_and]
  exact ⟨⟨h1, h2⟩, h3⟩

example : parseFresh demoEnv 3 demoCfg
    t!"See \"this page\":http://a.org/b, or *perhaps* \"that\":/local/page.html.\nNot @\"x\":y@\n\nh2. \"Mail\":mailto:me\n\n* dot" =
    .ok (t!"<p>See <a href=\"http://a.org/b\">this page</a>, or <strong>perhaps</strong> <a href=\"/local/page.html\">that</a>.<br>\n" ++
      t!"Not <code>\"x\":y</code></p>\n\n<h2><a href=\"mailto:me\">Mail</a></h2>\n\n<ul>\n\t<li>dot</li>\n</ul>") := by
  have h := C40_documents_partial demoEnv UniOk.demo 3 (by decide) demoCfg t!"abc" plainBase_demo rfl rfl rfl (by decide)
    _ demo_lowers (fun _ h => h) demoLinks (by decide) demoLinks_ok (by decide +kernel) demoLinks_resolved (by decide +kernel) (by decide +kernel)
  rw [show Spec.docSource demoLinks =
    t!"See \"this page\":http://a.org/b, or *perhaps* \"that\":/local/page.html.\nNot @\"x\":y@\n\nh2. \"Mail\":mailto:me\n\n* dot" by decide +kernel] at h
  exact h.trans (by decide +kernel)

end Rustextile
