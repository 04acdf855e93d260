import Verif.ListDoc
import Verif.Instances

/-!
# Inline markup: C16, C36, C52, C53
-/

namespace Rustextile

open Prog

/-- **C16, part; C36; C52, part; C53, part.** Documents of paragraphs, headings and quotations
with inline elements in any number and order: marked text, code between `@`, verbatim text
between `==` and links.  Every marked part becomes the element of its marker with the same text
in it; code becomes a `code` element with the escaped text in it; verbatim text is returned as
it is; a link becomes an `a` element with its text in it that leads where the URL parser says
(`Spec.Resolves`) and has the relation of the settings; and nothing else changes (newlines
become line breaks).  In restricted mode the same holds of the escaped source (`Spec.richSeen`),
so that code is escaped twice and verbatim text once.

The document must not contain the parser's secret token.

Missing from C16 and C52 (see `Spec.Inline.Ok`): text over several lines, text with `==` or
`<notextile>` in it, code with `<code>` in it, verbatim text with break tags or with a colon
and letters at its ends, elements next to other characters than white space; for links see
`C53_link_partial`. -/
theorem C16_documents_partial (E : Env) (hU : UniOk E.U) (fuel : Nat) (hf : 3 ≤ fuel) (cfg : Cfg) (base : Str)
    (hb : Spec.PlainBase base) (huid : cfg.uid = t!"textileRef:" ++ base ++ t!":")
    (hbt : cfg.blockTags = true) (hsan : cfg.sanitizer = none) (hdep : 1 ≤ cfg.maxSpanDepth)
    (ds : List (Spec.Rich × Nat)) (hne : ds ≠ []) (hok : ∀ d ∈ ds, d.1.Ok E.U.isLu E.U.isNd cfg.lite)
    (hres : ∀ d ∈ ds, d.1.body.Resolved (Spec.Resolves E.urlParse E.urlJoin cfg.restricted) cfg.rel)
    (htok : ¬ cfg.uid <:+: Spec.richSource ds) (hn : Spec.richCount ds < 2 ^ 31) :
    parseFresh E fuel cfg (Spec.richSource ds) =
      .ok (Spec.richHtml (if cfg.html5 then t!"<br>" else t!"<br />") (Spec.richSeen cfg.restricted ds)) :=
  parse_rich (⟨hU, hf, hb, huid⟩ : DocCtx ⟨E, cfg, fuel⟩ base) hbt hsan hdep hne hok hres htok (by omega)

theorem marker_nocolon : ∀ m ∈ Spec.inlineElements.map (·.1), ':' ∉ m := by decide

theorem words_nocolon {up : Char → Bool} {t : Str} (h : Spec.Words up t) : ':' ∉ t :=
  fun hc => Alpha.not_mem (by decide) (by decide) ((words_prose h).1 _ hc)

theorem marked_nocolon {up digit : Char → Bool} {lite : Bool} {b : Spec.Rich} (h : b.Ok up digit lite)
    (hm : ∀ p ∈ b.body.parts, ∃ m t, p.inl = .marked m t) : ':' ∉ b.source := by
  have key : ∀ t : Spec.Marked, t.Ok up lite → (∀ p ∈ t.parts, ∃ m x, p.inl = .marked m x) → ':' ∉ t.source := by
    intro t ht hm hc
    rw [source_elems] at hc
    rcases List.mem_append.1 hc with hc | hc
    · exact prose_nochar ht.lead (by decide) (by decide) hc
    · obtain ⟨p, hp, hc⟩ := List.mem_flatMap.1 hc
      rcases List.mem_append.1 hc with hc | hc
      · obtain ⟨m, x, e⟩ := hm p hp
        have := (ht.parts p hp).inl
        rw [e] at hc this
        simp [Spec.Inline.source, marker_nocolon m this.1, words_nocolon this.2.1] at hc
      · exact prose_nochar (ht.parts p hp).after (by decide) (by decide) hc
  obtain ⟨ht, hb⟩ := h
  cases b with
  | para t => exact key t ht hm
  | tagged tag t =>
    have h1 : ∀ lite : Bool, ∀ tag ∈ ['p'] :: (if lite then [] else [['h', '1'], ['h', '2'], ['h', '3'], ['h', '4'], ['h', '5'], ['h', '6']]),
        ':' ∉ tag := by decide
    have h2 : ':' ∉ t.source := key t ht hm
    simp [Spec.Rich.source, h1 lite tag hb.1, h2]
  | quote t =>
    have h2 : ':' ∉ t.source := key t ht hm
    simp [Spec.Rich.source, h2]

theorem marked_escaped {b : Spec.Rich} (hm : ∀ p ∈ b.body.parts, ∃ m t, p.inl = .marked m t) : b.escaped = b := by
  have key : ∀ t : Spec.Marked, (∀ p ∈ t.parts, ∃ m x, p.inl = .marked m x) → t.escaped = t := by
    intro t hm
    have : t.parts.map (fun p => { p with inl := p.inl.escaped }) = t.parts.map id := by
      apply List.map_congr_left
      intro p hp
      obtain ⟨m, x, e⟩ := hm p hp
      obtain ⟨i, a⟩ := p
      simp only at e
      subst e
      rfl
    rw [Spec.Marked.escaped, this, List.map_id]
  cases b with
  | para t => rw [Spec.Rich.escaped, key t hm]
  | tagged tag t => rw [Spec.Rich.escaped, key t hm]
  | quote t => rw [Spec.Rich.escaped, key t hm]

theorem marked_resolved {b : Spec.Rich} (hm : ∀ p ∈ b.body.parts, ∃ m t, p.inl = .marked m t) {R : Str → Str → Prop} {rel : Option Str} :
    b.body.Resolved R rel := by
  intro p hp
  obtain ⟨m, x, e⟩ := hm p hp
  rw [e]; trivial

/-- **C36.** Documents of paragraphs, headings and quotations in which parts of the text
are marked, in any number and order: every marked part becomes the element of its marker,
with the same text in it, and nothing else changes (newlines become line breaks).  This
holds in every mode. -/
theorem C36_documents (E : Env) (hU : UniOk E.U) (fuel : Nat) (hf : 3 ≤ fuel) (cfg : Cfg) (base : Str)
    (hb : Spec.PlainBase base) (huid : cfg.uid = t!"textileRef:" ++ base ++ t!":")
    (hbt : cfg.blockTags = true) (hsan : cfg.sanitizer = none) (hdep : 1 ≤ cfg.maxSpanDepth)
    (ds : List (Spec.Rich × Nat)) (hne : ds ≠ []) (hok : ∀ d ∈ ds, d.1.Ok E.U.isLu E.U.isNd cfg.lite)
    (hm : ∀ d ∈ ds, ∀ p ∈ d.1.body.parts, ∃ m t, p.inl = .marked m t) (hn : Spec.richCount ds < 2 ^ 31) :
    parseFresh E fuel cfg (Spec.richSource ds) =
      .ok (Spec.richHtml (if cfg.html5 then t!"<br>" else t!"<br />") ds) := by
  have hseen : Spec.richSeen cfg.restricted ds = ds := by
    unfold Spec.richSeen
    split
    · have : ds.map (fun d => (d.1.escaped, d.2)) = ds.map id :=
        List.map_congr_left (fun d hd => by rw [marked_escaped (hm d hd)]; rfl)
      rw [this, List.map_id]
    · rfl
  have := C16_documents_partial E hU fuel hf cfg base hb huid hbt hsan hdep ds hne hok (fun d hd => marked_resolved (hm d hd)) (no_token huid (by
    refine glue_nochar (by decide) ?_
    intro p hp
    obtain ⟨d, hd, rfl⟩ := List.mem_map.1 hp
    exact marked_nocolon (hok d hd) (hm d hd))) hn
  rw [hseen] at this
  exact this

/-- **C36** for a paragraph with one marked part and nothing else.  The text has no space
at its ends; after `*` and `**` it does not begin with a full stop. -/
theorem C36_markers (E : Env) (hU : UniOk E.U) (fuel : Nat) (hf : 3 ≤ fuel) (cfg : Cfg) (base : Str)
    (hb : Spec.PlainBase base) (huid : cfg.uid = t!"textileRef:" ++ base ++ t!":")
    (hbt : cfg.blockTags = true) (hsan : cfg.sanitizer = none) (hdep : 1 ≤ cfg.maxSpanDepth)
    (m e : Str) (hm : (m, e) ∈ [(t!"*", t!"strong"), (t!"**", t!"b"), (t!"_", t!"em"), (t!"__", t!"i"), (t!"??", t!"cite"),
      (t!"-", t!"del"), (t!"+", t!"ins"), (t!"^", t!"sup"), (t!"~", t!"sub"), (t!"%", t!"span")])
    (t : Str) (ht : Spec.Words E.U.isLu t) (hs : ∃ c u, t = c :: u ∧ c ≠ ' ' ∧ (c = '.' → m.head? ≠ some '*'))
    (hl : ∃ u c, t = u ++ [c] ∧ c ≠ ' ') :
    parseFresh E fuel cfg (m ++ t ++ m) = .ok (t!"<p><" ++ e ++ t!">" ++ t ++ t!"</" ++ e ++ t!"></p>") := by
  have hnil : Spec.Prose E.U.isLu [] := ⟨by simp, by simp, by simp, by simp, by simp⟩
  have hme : m ∈ Spec.inlineElements.map (·.1) ∧ Spec.inlineElement m = e ∧ ∃ x v, m = x :: v ∧ x ∉ t!"bnp#hf \n" := by
    simp only [List.mem_cons, List.not_mem_nil, or_false, Prod.mk.injEq] at hm
    rcases hm with ⟨rfl, rfl⟩ | ⟨rfl, rfl⟩ | ⟨rfl, rfl⟩ | ⟨rfl, rfl⟩ | ⟨rfl, rfl⟩ | ⟨rfl, rfl⟩ | ⟨rfl, rfl⟩ | ⟨rfl, rfl⟩ |
      ⟨rfl, rfl⟩ | ⟨rfl, rfl⟩ <;> exact ⟨by decide, by decide, _, _, rfl, by decide⟩
  obtain ⟨h1, h2, x, v, h3, h4⟩ := hme
  have hsrc : Spec.Marked.source ⟨[], [⟨.marked m t, []⟩]⟩ = m ++ t ++ m := by simp [Spec.Marked.source, Spec.Inline.source]
  have hx : m ++ t ++ m = x :: (v ++ t ++ m) := by rw [h3]; simp
  have := C36_documents E hU fuel hf cfg base hb huid hbt hsan hdep [(.para ⟨[], [⟨.marked m t, []⟩]⟩, 0)] (by simp) (by
    intro d hd
    simp only [List.mem_cons, List.not_mem_nil, or_false] at hd
    subst hd
    refine ⟨⟨hnil, ?_, fun _ => .inl rfl, by simp [Spec.Rich.body], ?_, ?_⟩, ?_, ?_⟩
    · intro p hp
      simp only [Spec.Rich.body, List.mem_cons, List.not_mem_nil, or_false] at hp
      subst hp
      exact ⟨⟨h1, ht, hs, hl, trivial⟩, hnil⟩
    · refine ⟨x, v ++ t ++ m, hsrc.trans hx, ?_⟩
      simp at h4
      exact ⟨h4.2.2.2.2.2.2.1, h4.2.2.2.2.2.2.2⟩
    · intro u hu
      have hu' : m ++ t ++ m = u ++ ['\n'] := hsrc.symm.trans hu
      have hc : ∀ m ∈ Spec.inlineElements.map (·.1), m.getLast? ≠ some '\n' ∧ m ≠ [] := by decide
      have h5 := congrArg List.getLast? hu'
      rw [getLast_append_ne (hc m h1).2] at h5
      simp at h5
      exact (hc m h1).1 h5
    · rw [hsrc, hx]
      exact noBlock_head (by simp at h4 ⊢; grind)
    · rw [hsrc, hx]
      intro hp
      simp only [Spec.notelistWord, List.cons_prefix_cons] at hp
      simp at h4
      exact h4.2.1 hp.1.symm) (by
    intro d hd p hp
    simp only [List.mem_cons, List.not_mem_nil, or_false] at hd
    subst hd
    simp only [Spec.Rich.body, List.mem_cons, List.not_mem_nil, or_false] at hp
    subst hp
    exact ⟨m, t, rfl⟩) (by simp [Spec.richCount, Spec.Rich.body])
  rw [show Spec.richSource [(.para ⟨[], [⟨.marked m t, []⟩]⟩, 0)] = m ++ t ++ m from hsrc] at this
  rw [this]
  simp [Spec.richHtml, Spec.glue, Spec.Rich.html, Spec.Marked.html, Spec.Inline.html, Spec.breakLines, Spec.element, h2]

example : parseFresh demoEnv 3 demoCfg t!"??War and Peace, vol. 1??" = .ok t!"<p><cite>War and Peace, vol. 1</cite></p>" :=
  C36_markers demoEnv UniOk.demo 3 (by decide) demoCfg t!"abc" plainBase_demo rfl rfl rfl (by decide) t!"??" t!"cite" (by simp)
    t!"War and Peace, vol. 1" (words_of_B (by decide)) ⟨'W', _, rfl, by decide, by decide⟩
    ⟨t!"War and Peace, vol. ", '1', by decide, by decide⟩

/-- `*` and a full stop begin a list, not a marked part. -/
example : parseFresh demoEnv 3 demoCfg t!"*.foo*" ≠ .ok t!"<p><strong>.foo</strong></p>" := by decide +kernel

/-! ## A document -/

/-- The conditions of `Spec.Prose` on the first characters of a text. -/
def proseAt (up : Char → Bool) : Str → Bool
  | c :: x :: y :: _ => !(up c && up x && up y) && !(c == '.' && x == '.' && y == '.') &&
      !(Spec.isDecimal c && (x == 'x' || x == 'X')) && !(Spec.isDecimal c && x == ' ' && (y == 'x' || y == 'X')) &&
      !(c == '\n' && (x == ' ' || x == '\n'))
  | [c, x] => !(Spec.isDecimal c && (x == 'x' || x == 'X')) && !(c == '\n' && (x == ' ' || x == '\n'))
  | _ => true

/-- What `Spec.Prose` asks for, as a program. -/
def proseB (up : Char → Bool) : Str → Bool
  | [] => true
  | c :: t => (Spec.ordinaryChar c || c == '\n') && proseAt up (c :: t) && proseB up t

theorem proseB_suffix {up : Char → Bool} {b : Str} : ∀ {a : Str}, proseB up (a ++ b) = true → proseB up b = true
  | [], h => h
  | c :: a, h => by
    rw [List.cons_append, proseB, Bool.and_eq_true] at h
    exact proseB_suffix h.2

theorem proseB_at {up : Char → Bool} {a b : Str} {c : Char} (h : proseB up (a ++ c :: b) = true) :
    (Spec.ordinaryChar c = true ∨ c = '\n') ∧ proseAt up (c :: b) = true := by
  have := proseB_suffix h
  rw [proseB, Bool.and_eq_true, Bool.and_eq_true, Bool.or_eq_true, beq_iff_eq] at this
  exact this.1

theorem prose_of_B {up : Char → Bool} {t : Str} (h : proseB up t = true) : Spec.Prose up t := by
  refine ⟨?_, ?_, ?_, ?_, ?_⟩
  · intro c hc
    obtain ⟨a, b, rfl⟩ := List.append_of_mem hc
    exact (proseB_at h).1
  · rintro a x y z b rfl ⟨h1, h2, h3⟩
    have := (proseB_at h).2
    simp [proseAt, h1, h2, h3] at this
  · rintro a b rfl
    have := (proseB_at h).2
    simp [proseAt] at this
  · intro a d x b hd hx
    refine ⟨?_, ?_⟩
    · rintro rfl
      have := (proseB_at h).2
      cases b with
      | nil => rcases hx with rfl | rfl <;> simp [proseAt, hd] at this
      | cons y b => rcases hx with rfl | rfl <;> simp [proseAt, hd] at this
    · rintro rfl
      have := (proseB_at h).2
      rcases hx with rfl | rfl <;> simp [proseAt, hd] at this
  · rintro a c b rfl
    have := (proseB_at h).2
    refine ⟨?_, ?_⟩
    · rintro rfl; cases b <;> simp [proseAt] at this
    · rintro rfl; cases b <;> simp [proseAt] at this

/-- A heading and a paragraph of three lines with four marked parts, at the beginning of
a line, in the middle of a line, before a comma and at the end. -/
def demoRich : List (Spec.Rich × Nat) :=
  [(.tagged t!"h2" ⟨t!"Fish ", [⟨.marked t!"_" t!"and", t!" chips"⟩]⟩, 1),
   (.para ⟨t!"Once upon a time\n", [⟨.marked t!"**" t!"there", t!", "⟩, ⟨.marked t!"??" t!"1 fish.", t!" was\nnot "⟩,
     ⟨.marked t!"-" t!"alone", t!"."⟩]⟩, 0)]

theorem demoRich_ok : ∀ d ∈ demoRich, d.1.Ok demoEnv.U.isLu demoEnv.U.isNd demoCfg.lite := by
  intro d hd
  simp only [demoRich, List.mem_cons, List.not_mem_nil, or_false] at hd
  rcases hd with rfl | rfl
  · refine ⟨⟨prose_of_B (by decide), ?_, fun _ => .inr ⟨t!"Fish", ' ', rfl, .inl rfl⟩, by simp [Spec.Rich.body], ⟨'F', _, rfl, by decide, by decide⟩, ?_⟩, by decide, by decide⟩
    · intro p hp
      simp only [Spec.Rich.body, List.mem_cons, List.not_mem_nil, or_false] at hp
      subst hp
      exact ⟨⟨by decide, words_of_B (by decide), ⟨'a', _, rfl, by decide, by decide⟩, ⟨t!"an", 'd', rfl, by decide⟩, .inl rfl⟩, prose_of_B (by decide)⟩
    · intro u e
      have := congrArg List.getLast? e
      simp at this
      revert this; decide
  · refine ⟨⟨prose_of_B (by decide), ?_, fun _ => .inr ⟨t!"Once upon a time", '\n', rfl, .inr rfl⟩, ?_, ⟨'O', _, rfl, by decide, by decide⟩, ?_⟩,
      noBlock_head (by decide), by decide⟩
    · intro p hp
      simp only [Spec.Rich.body, List.mem_cons, List.not_mem_nil, or_false] at hp
      rcases hp with rfl | rfl | rfl
      · exact ⟨⟨by decide, words_of_B (by decide), ⟨'t', _, rfl, by decide, by decide⟩, ⟨t!"ther", 'e', rfl, by decide⟩, .inr (.inr ⟨.inr rfl, by decide, by decide, by decide⟩)⟩, prose_of_B (by decide)⟩
      · exact ⟨⟨by decide, words_of_B (by decide), ⟨'1', _, rfl, by decide, by decide⟩, ⟨t!"1 fish", '.', rfl, by decide⟩, .inl rfl⟩, prose_of_B (by decide)⟩
      · exact ⟨⟨by decide, words_of_B (by decide), ⟨'a', _, rfl, by decide, by decide⟩, ⟨t!"alon", 'e', rfl, by decide⟩, .inr (.inr ⟨.inl rfl, rfl⟩)⟩, prose_of_B (by decide)⟩
    · intro p hp
      simp only [Spec.Rich.body, List.dropLast, List.mem_cons, List.not_mem_nil, or_false] at hp
      rcases hp with rfl | rfl
      · exact ⟨t!",", ' ', rfl, .inl rfl⟩
      · exact ⟨t!" was\nnot", ' ', rfl, .inl rfl⟩
    · intro u e
      have := congrArg List.getLast? e
      simp at this
      revert this; decide

example : parseFresh demoEnv 3 demoCfg
    t!"h2. Fish _and_ chips\n\n\nOnce upon a time\n**there**, ??1 fish.?? was\nnot -alone-." =
    .ok t!"<h2>Fish <em>and</em> chips</h2>\n\n\n<p>Once upon a time<br>\n<b>there</b>, <cite>1 fish.</cite> was<br>\nnot <del>alone</del>.</p>" := by
  have h := C36_documents demoEnv UniOk.demo 3 (by decide) demoCfg t!"abc" plainBase_demo rfl rfl rfl (by decide) demoRich (by decide)
    demoRich_ok (by
      intro d hd p hp
      simp only [demoRich, List.mem_cons, List.not_mem_nil, or_false] at hd
      rcases hd with rfl | rfl
      · simp only [Spec.Rich.body, List.mem_cons, List.not_mem_nil, or_false] at hp
        subst hp; exact ⟨_, _, rfl⟩
      · simp only [Spec.Rich.body, List.mem_cons, List.not_mem_nil, or_false] at hp
        rcases hp with rfl | rfl | rfl <;> exact ⟨_, _, rfl⟩) (by decide)
  rw [show Spec.richSource demoRich = t!"h2. Fish _and_ chips\n\n\nOnce upon a time\n**there**, ??1 fish.?? was\nnot -alone-." by decide +kernel] at h
  exact h.trans (by decide +kernel)

/-! ## Code and verbatim text -/

/-- A paragraph with code and verbatim text, and a quotation that begins with code. -/
def demoCode : List (Spec.Rich × Nat) :=
  [(.para ⟨t!"Use ", [⟨.code t!"a*b* & *c* \"x\":y", t!", or "⟩, ⟨.marked t!"_" t!"rarely", t!" "⟩, ⟨.verbatim t!"<i>*raw*</i>", t!".\nNot "⟩,
    ⟨.code t!"", []⟩]⟩, 0),
   (.quote ⟨[], [⟨.code t!"if (a<b) {c}", t!" is code"⟩]⟩, 0)]

theorem demoCode_ok : ∀ d ∈ demoCode, d.1.Ok demoEnv.U.isLu demoEnv.U.isNd demoCfg.lite := by
  intro d hd
  have hq : ∀ t : Str, ('\n' ∉ t ∧ '\r' ∉ t ∧ ¬ t!"==" <:+: t ∧ ¬ t!"<notextile>" <:+: t) → Spec.Quoted t :=
    fun t h => ⟨h.1, h.2.1, h.2.2.1, h.2.2.2⟩
  simp only [demoCode, List.mem_cons, List.not_mem_nil, or_false] at hd
  rcases hd with rfl | rfl
  · refine ⟨⟨prose_of_B (by decide), ?_, fun _ => .inr ⟨t!"Use", ' ', rfl, .inl rfl⟩, ?_, ⟨'U', _, rfl, by decide, by decide⟩, ?_⟩,
      noBlock_head (by decide), by decide +kernel⟩
    · intro p hp
      simp only [Spec.Rich.body, List.mem_cons, List.not_mem_nil, or_false] at hp
      rcases hp with rfl | rfl | rfl | rfl
      · exact ⟨⟨rfl, hq _ (by decide +kernel), by decide +kernel, by decide +kernel⟩, prose_of_B (by decide)⟩
      · exact ⟨⟨by decide, words_of_B (by decide), ⟨'r', _, rfl, by decide, by decide⟩, ⟨t!"rarel", 'y', rfl, by decide⟩, .inl rfl⟩,
          prose_of_B (by decide)⟩
      · refine ⟨⟨rfl, hq _ (by decide +kernel), ?_, ⟨by decide +kernel, ?_⟩, fun h => absurd h (by decide)⟩, prose_of_B (by decide)⟩
        · intro u e
          have := congrArg List.getLast? e
          simp at this
        · intro u
          refine ⟨fun e => ?_, fun e => ?_⟩
          · have := congrArg List.getLast? e
            simp at this
          · have := congrArg List.getLast? e
            rw [show u ++ ['<', 'b'] = (u ++ ['<']) ++ ['b'] by simp, List.getLast?_concat] at this
            revert this; decide
      · exact ⟨⟨rfl, hq _ (by decide +kernel), by decide, by decide⟩, prose_of_B (by decide)⟩
    · intro p hp
      simp only [Spec.Rich.body, List.dropLast, List.mem_cons, List.not_mem_nil, or_false] at hp
      rcases hp with rfl | rfl | rfl
      · exact ⟨t!", or", ' ', rfl, .inl rfl⟩
      · exact ⟨[], ' ', rfl, .inl rfl⟩
      · exact ⟨t!".\nNot", ' ', rfl, .inl rfl⟩
    · intro u e
      have := congrArg List.getLast? e
      simp at this
      revert this; decide +kernel
  · refine ⟨⟨prose_of_B (by decide), ?_, fun _ => .inl rfl, by simp [Spec.Rich.body], ⟨'@', _, rfl, by decide, by decide⟩, ?_⟩, by decide +kernel⟩
    · intro p hp
      simp only [Spec.Rich.body, List.mem_cons, List.not_mem_nil, or_false] at hp
      subst hp
      exact ⟨⟨rfl, hq _ (by decide +kernel), by decide +kernel, by decide +kernel⟩, prose_of_B (by decide)⟩
    · intro u e
      have := congrArg List.getLast? e
      simp at this
      revert this; decide +kernel

theorem demoCode_resolved {R : Str → Str → Prop} {rel : Option Str} : ∀ d ∈ demoCode, d.1.body.Resolved R rel := by
  simp [demoCode, Spec.Rich.body, Spec.Marked.Resolved, Spec.Inline.Resolved]

example : parseFresh demoEnv 3 demoCfg
    t!"Use @a*b* & *c* \"x\":y@, or _rarely_ ==<i>*raw*</i>==.\nNot @@\n\nbq. @if (a<b) {c}@ is code" =
    .ok (t!"<p>Use <code>a*b* &amp; *c* \"x\":y</code>, or <em>rarely</em> <i>*raw*</i>.<br>\nNot <code></code></p>\n\n" ++
      t!"<blockquote>\n\t<p><code>if (a&lt;b) {c}</code> is code</p>\n</blockquote>") := by
  have h := C16_documents_partial demoEnv UniOk.demo 3 (by decide) demoCfg t!"abc" plainBase_demo rfl rfl rfl (by decide) demoCode (by decide)
    demoCode_ok demoCode_resolved (by decide +kernel) (by decide)
  rw [show Spec.richSource demoCode =
    t!"Use @a*b* & *c* \"x\":y@, or _rarely_ ==<i>*raw*</i>==.\nNot @@\n\nbq. @if (a<b) {c}@ is code" by decide +kernel] at h
  exact h.trans (by decide +kernel)

/-- The source of a paragraph that is one inline element. -/
theorem one_inline (E : Env) (hU : UniOk E.U) (fuel : Nat) (hf : 3 ≤ fuel) (cfg : Cfg) (base : Str)
    (hb : Spec.PlainBase base) (huid : cfg.uid = t!"textileRef:" ++ base ++ t!":")
    (hbt : cfg.blockTags = true) (hsan : cfg.sanitizer = none) (hdep : 1 ≤ cfg.maxSpanDepth)
    (i : Spec.Inline) (hi : i.Ok E.U.isLu cfg.lite []) (x : Char) (v : Str) (hx : i.source = x :: v) (hx' : x ∉ t!"bnp#hf \n")
    (hl : ∀ u, i.source ≠ u ++ ['\n'])
    (hres : i.Resolved (Spec.Resolves E.urlParse E.urlJoin cfg.restricted) cfg.rel) (htok : ¬ cfg.uid <:+: i.source) :
    parseFresh E fuel cfg i.source = .ok (t!"<p>" ++ (if cfg.restricted then i.escaped.html else i.html) ++ t!"</p>") := by
  have hnil : Spec.Prose E.U.isLu [] := ⟨by simp, by simp, by simp, by simp, by simp⟩
  have hsrc : Spec.Marked.source ⟨[], [⟨i, []⟩]⟩ = i.source := by simp [Spec.Marked.source]
  have h := C16_documents_partial E hU fuel hf cfg base hb huid hbt hsan hdep [(.para ⟨[], [⟨i, []⟩]⟩, 0)] (by simp) (by
    intro d hd
    simp only [List.mem_cons, List.not_mem_nil, or_false] at hd
    subst hd
    refine ⟨⟨hnil, ?_, fun _ => .inl rfl, by simp [Spec.Rich.body], ?_, ?_⟩, ?_, ?_⟩
    · intro p hp
      simp only [Spec.Rich.body, List.mem_cons, List.not_mem_nil, or_false] at hp
      subst hp
      exact ⟨hi, hnil⟩
    · refine ⟨x, v, hsrc.trans hx, ?_⟩
      simp at hx'
      exact ⟨hx'.2.2.2.2.2.2.1, hx'.2.2.2.2.2.2.2⟩
    · intro u hu; exact hl u (hsrc.symm.trans hu)
    · rw [hsrc, hx]
      exact noBlock_head (by simp at hx' ⊢; grind)
    · rw [hsrc, hx]
      intro hp
      simp only [Spec.notelistWord, List.cons_prefix_cons] at hp
      simp at hx'
      exact hx'.2.1 hp.1.symm) (by
    intro d hd
    simp only [List.mem_cons, List.not_mem_nil, or_false] at hd
    subst hd
    intro p hp
    simp only [Spec.Rich.body, List.mem_cons, List.not_mem_nil, or_false] at hp
    subst hp
    exact hres) (by rw [show Spec.richSource [(.para ⟨[], [⟨i, []⟩]⟩, 0)] = i.source from hsrc]; exact htok)
    (by simp [Spec.richCount, Spec.Rich.body])
  rw [show Spec.richSource [(.para ⟨[], [⟨i, []⟩]⟩, 0)] = i.source from hsrc] at h
  rw [h]
  unfold Spec.richSeen
  cases cfg.restricted <;>
    simp [Spec.richHtml, Spec.glue, Spec.Rich.html, Spec.Rich.escaped, Spec.Marked.escaped, Spec.Marked.html, Spec.breakLines, Spec.element]

/-- **C16, part**, for a paragraph that is code and nothing else: any text on one line
without `@`, `==`, `<code>` and `<notextile>` (and without the secret token).  Outside
restricted mode the text is shown as typed; there it is escaped twice. -/
theorem C16_code_partial (E : Env) (hU : UniOk E.U) (fuel : Nat) (hf : 3 ≤ fuel) (cfg : Cfg) (base : Str)
    (hb : Spec.PlainBase base) (huid : cfg.uid = t!"textileRef:" ++ base ++ t!":")
    (hbt : cfg.blockTags = true) (hsan : cfg.sanitizer = none) (hdep : 1 ≤ cfg.maxSpanDepth) (hlite : cfg.lite = false)
    (t : Str) (h1 : '\n' ∉ t) (h2 : '\r' ∉ t) (h3 : '@' ∉ t) (h4 : ¬ t!"==" <:+: t) (h5 : ¬ t!"<code>" <:+: t)
    (h6 : ¬ t!"<notextile>" <:+: t) (htok : ¬ cfg.uid <:+: t!"@" ++ t ++ t!"@") :
    parseFresh E fuel cfg (t!"@" ++ t ++ t!"@") =
      .ok (t!"<p><code>" ++ (if cfg.restricted then Spec.escape false (Spec.escape false t) else Spec.escape false t) ++ t!"</code></p>") := by
  have h := one_inline E hU fuel hf cfg base hb huid hbt hsan hdep (.code t) ⟨hlite, ⟨h1, h2, h4, h6⟩, h3, h5⟩ '@' (t ++ t!"@")
    (by simp [Spec.Inline.source]) (by decide) (by
      intro u e
      have := congrArg List.getLast? e
      rw [show (Spec.Inline.code t).source = t!"@" ++ t ++ ['@'] by simp [Spec.Inline.source], List.getLast?_concat, List.getLast?_concat] at this
      revert this; decide) trivial (by
      rw [show (Spec.Inline.code t).source = t!"@" ++ t ++ t!"@" by simp [Spec.Inline.source]]; exact htok)
  rw [show (Spec.Inline.code t).source = t!"@" ++ t ++ t!"@" by simp [Spec.Inline.source]] at h
  rw [h]
  cases cfg.restricted <;> simp [Spec.Inline.html, Spec.Inline.escaped, Spec.element]

example : parseFresh demoEnv 3 { demoCfg with restricted := true } t!"@a < b@" = .ok t!"<p><code>a &amp;lt; b</code></p>" :=
  C16_code_partial demoEnv UniOk.demo 3 (by decide) { demoCfg with restricted := true } t!"abc" plainBase_demo rfl rfl rfl (by decide) rfl t!"a < b"
    (by decide) (by decide) (by decide) (by decide) (by decide) (by decide) (by decide)

/-- **C52, part**, for a paragraph that is verbatim text and nothing else: any text on one
line without `==`, `<notextile>` and break tags that does not end in `=` or in the beginning
of a break tag, and that, if it contains a colon, has characters at its ends that do not
occur in the parser's placeholders.  It is returned as it is; restricted mode escapes it. -/
theorem C52_verbatim_partial (E : Env) (hU : UniOk E.U) (fuel : Nat) (hf : 3 ≤ fuel) (cfg : Cfg) (base : Str)
    (hb : Spec.PlainBase base) (huid : cfg.uid = t!"textileRef:" ++ base ++ t!":")
    (hbt : cfg.blockTags = true) (hsan : cfg.sanitizer = none) (hdep : 1 ≤ cfg.maxSpanDepth) (hlite : cfg.lite = false)
    (t : Str) (h1 : '\n' ∉ t) (h2 : '\r' ∉ t) (h3 : ¬ t!"==" <:+: t) (h4 : ¬ t!"<notextile>" <:+: t) (h5 : ¬ t!"=" <:+ t)
    (h6 : ¬ t!"<br" <:+: t) (h7 : ¬ t!"<" <:+ t) (h8 : ¬ t!"<b" <:+ t)
    (h9 : ':' ∈ t → (∃ c u, t = c :: u ∧ Spec.tokenChar c = false) ∧ ∃ u c, t = u ++ [c] ∧ Spec.tokenChar c = false)
    (htok : ¬ cfg.uid <:+: t!"==" ++ t ++ t!"==") :
    parseFresh E fuel cfg (t!"==" ++ t ++ t!"==") =
      .ok (t!"<p>" ++ (if cfg.restricted then Spec.escape false t else t) ++ t!"</p>") := by
  have h := one_inline E hU fuel hf cfg base hb huid hbt hsan hdep (.verbatim t)
    ⟨hlite, ⟨h1, h2, h3, h4⟩, fun u e => h5 ⟨u, e.symm⟩, ⟨h6, fun u => ⟨fun e => h7 ⟨u, e.symm⟩, fun e => h8 ⟨u, e.symm⟩⟩⟩, h9⟩ '=' ('=' :: t ++ t!"==")
    (by simp [Spec.Inline.source]) (by decide) (by
      intro u e
      have := congrArg List.getLast? e
      rw [show (Spec.Inline.verbatim t).source = t!"==" ++ t ++ t!"=" ++ ['='] by simp [Spec.Inline.source], List.getLast?_concat,
        List.getLast?_concat] at this
      revert this; decide) trivial (by
      rw [show (Spec.Inline.verbatim t).source = t!"==" ++ t ++ t!"==" by simp [Spec.Inline.source]]; exact htok)
  rw [show (Spec.Inline.verbatim t).source = t!"==" ++ t ++ t!"==" by simp [Spec.Inline.source]] at h
  rw [h]
  cases cfg.restricted <;> simp [Spec.Inline.html, Spec.Inline.escaped]

example : parseFresh demoEnv 3 demoCfg t!"==\"*a*\":http://b <u>==" = .ok t!"<p>\"*a*\":http://b <u></p>" :=
  C52_verbatim_partial demoEnv UniOk.demo 3 (by decide) demoCfg t!"abc" plainBase_demo rfl rfl rfl (by decide) rfl t!"\"*a*\":http://b <u>"
    (by decide) (by decide) (by decide) (by decide) (by decide) (by decide) (by decide) (by decide)
    (fun _ => ⟨⟨'"', _, rfl, by decide⟩, t!"\"*a*\":http://b <u", '>', rfl, by decide⟩) (by decide)

/-- **C52, negation.** Verbatim text is changed where it contains break tags. -/
theorem C52_negation : parseFresh demoEnv 3 demoCfg t!"==a<br>b==" = .ok t!"<p>a<br>\nb</p>" := by kernel_rfl

end Rustextile
